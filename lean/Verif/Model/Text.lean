import Verif.Model.Storage

/-!
Model of the text protocol: token scanning (/repo/src/lib/util.h:157-194), the conversion
of an entry from and to a line of text (/repo/src/lib/storage.cc:87-225), the lines a node
builds to forward a write (`_run_client` of the write operations) and the lines' way
through the receiving node (/repo/src/lib/op_parser_text.cc:53-87,
`_parse_text_server_parameters`).

Simplifications, valid for the whole file:
* A `const char*` that is being scanned is the list of the bytes from the pointer on; the
  end of the list stands for the terminating NUL.  An embedded NUL is a byte of the list.
* The destination buffer of a scan is a list of bytes of the buffer's size.  A write outside
  of it is the outcome `ub`.
* Lines are shorter than 4 GB, so that the `unsigned int` results do not wrap around.
* `boost::lexical_cast` from a C string to an integer accepts an optional sign and at least
  one digit and nothing else, and fails if the magnitude does not fit; a negative number cast
  to an unsigned type wraps around (documented behaviour of the library).
* The connection is a byte stream here; buffering and chunking are in `Model/Connection.lean`.
* On failure the half-filled entry is dropped.
-/
namespace Flare

/-- How a step can go wrong: `err` is an error return, `ub` is undefined behaviour. -/
inductive Fault where
  | err | ub
  deriving DecidableEq, Repr

/-- The storage characters used below. -/
abbrev chSpace : UInt8 := 32
abbrev chNl : UInt8 := 10
abbrev chCr : UInt8 := 13
abbrev chMinus : UInt8 := 45
abbrev chPlus : UInt8 := 43
abbrev chComma : UInt8 := 44
abbrev chLt : UInt8 := 60
abbrev chGt : UInt8 := 62

/-- `*(dst+i) = c`. -/
def put (dst : Bytes) (i : Nat) (c : UInt8) : Option Bytes :=
  if i < dst.length then some (dst.set i c) else none

/-- The C string that starts at a buffer. -/
def cstr (b : Bytes) : Bytes := b.takeWhile (· ≠ 0)

/-- The copy loop of `next_word` and the final NUL, /repo/src/lib/util.h:165-168.  `i` is
`q-dst`; the result is the number of copied bytes and the buffer. -/
def wordCopy (dstLen : Nat) : Bytes → Nat → Bytes → Option (Nat × Bytes)
  | [], i, dst => (put dst i 0).map (fun d => (i, d))
  | c :: src, i, dst =>
    if c ≠ 0 ∧ c ≠ chSpace ∧ c ≠ chNl ∧ i + 1 < dstLen then
      match put dst i c with
      | none => none
      | some d => wordCopy dstLen src (i + 1) d
    else (put dst i 0).map (fun d => (i, d))

/-- Number of blanks at the front, /repo/src/lib/util.h:162-164 and :178-180. -/
def blanks : Bytes → Nat
  | [] => 0
  | c :: src => if c = chSpace then blanks src + 1 else 0

/-- `util::next_word`, /repo/src/lib/util.h:157-171, called with `sizeof(dst)`. -/
def nextWord (src dst : Bytes) : Option (Nat × Bytes) :=
  (wordCopy dst.length (src.drop (blanks src)) 0 dst).map (fun r => (blanks src + r.1, r.2))

/-- The copy loop of `next_digit` and the final NUL, /repo/src/lib/util.h:181-184.  `p` is
`p-src`, which bounds the loop; `i` is `q-dst`, which is where it writes. -/
def digitCopy (dstLen : Nat) : Bytes → Nat → Nat → Bytes → Option (Nat × Bytes)
  | [], p, i, dst => (put dst i 0).map (fun d => (p, d))
  | c :: src, p, i, dst =>
    if c ≠ 0 ∧ (isDigit c = true ∨ c = chMinus) ∧ c ≠ chNl ∧ p < dstLen then
      match put dst i c with
      | none => none
      | some d => digitCopy dstLen src (p + 1) (i + 1) d
    else (put dst i 0).map (fun d => (p, d))

/-- `util::next_digit`, /repo/src/lib/util.h:173-187, called with `sizeof(dst)`. -/
def nextDigit (src dst : Bytes) : Option (Nat × Bytes) :=
  digitCopy dst.length (src.drop (blanks src)) (blanks src) 0 dst

/-- `util::is_unsigned_integer_string`, /repo/src/lib/util.h:189-194. -/
def isUnsignedString (s : Bytes) : Bool := !s.isEmpty && s.all isDigit

/-- Sign and magnitude of a string that is accepted by `lexical_cast` to an integer. -/
def lexNumber (s : Bytes) : Option (Bool × Nat) :=
  match s with
  | [] => none
  | c :: d =>
    if c = chMinus then (if isUnsignedString d then some (true, decValue d) else none)
    else if c = chPlus then (if isUnsignedString d then some (false, decValue d) else none)
    else if isUnsignedString s then some (false, decValue s) else none

/-- `boost::lexical_cast<uint32_t>` (`bits = 32`) and `boost::lexical_cast<uint64_t>`
(`bits = 64`). -/
def lexUnsigned (bits : Nat) (s : Bytes) : Option Nat :=
  match lexNumber s with
  | none => none
  | some (neg, m) =>
    if m < 2 ^ bits then some (if neg then (2 ^ bits - m) % 2 ^ bits else m) else none

/-- `boost::lexical_cast<time_t>`. -/
def lexTime (s : Bytes) : Option Int64 :=
  match lexNumber s with
  | none => none
  | some (neg, m) =>
    if neg then (if m ≤ 2 ^ 63 then some (Int64.ofInt (-(m : Int))) else none)
    else if m < 2 ^ 63 then some (Int64.ofNat m) else none

/-- `util::max_realtime_delta`, /repo/src/lib/util.h:138. -/
def maxRealtimeDelta : Int64 := 2592000

/-- `util::realtime`, /repo/src/lib/util.cc:169-177.  `now` is
`stats_object->get_timestamp()`. -/
def realtime (now t : Int64) : Int64 :=
  if t = 0 then 0 else if t ≤ maxRealtimeDelta then t + now else t

/-- `storage::parse_type`, /repo/src/lib/storage.h:112-118. -/
inductive ParseType where
  | set | cas | get | delete | touch
  deriving DecidableEq, Repr

/-- The option bits, /repo/src/lib/storage.h:53-58. -/
def optNoreply : UInt32 := 1
def optSync : UInt32 := 2
def optAsync : UInt32 := 4

def strNoreply : Bytes := [110, 111, 114, 101, 112, 108, 121]
def strSync : Bytes := [115, 121, 110, 99]
def strAsync : Bytes := [97, 115, 121, 110, 99]

/-- `storage::option_cast`, /repo/src/lib/storage.h:235-249. -/
def optionCast (s : Bytes) : Option UInt32 :=
  if s = [] then some 0
  else if s = strNoreply then some optNoreply
  else if s = strSync then some optSync
  else if s = strAsync then some optAsync
  else none

/-- `n += util::next_word(p+n, q, sizeof(q))` with the rest of the line for `p+n`. -/
def scanWord (p q : Bytes) : Except Fault (Bytes × Bytes) :=
  match nextWord p q with
  | none => .error .ub
  | some (n, q') => .ok (p.drop n, q')

/-- `n += util::next_digit(p+n, q, sizeof(q))`. -/
def scanDigit (p q : Bytes) : Except Fault (Bytes × Bytes) :=
  match nextDigit p q with
  | none => .error .ub
  | some (n, q') => .ok (p.drop n, q')

/-- `storage::entry::max_data_size`, /repo/src/lib/storage.h:142. -/
def maxDataSize : Nat := 2147483647

/-- What `entry::parse` carries along: rest of the line, buffer, entry. -/
abbrev Cursor := Bytes × Bytes × Entry

/-- Key, /repo/src/lib/storage.cc:91-97. -/
def parseKey : Cursor → Except Fault Cursor
  | (p, q, e) =>
    match scanWord p q with
    | .error f => .error f
    | .ok (p, q) =>
      if cstr q = [] then .error .err else .ok (p, q, { e with key := cstr q })

/-- Flag, /repo/src/lib/storage.cc:99-112. -/
def parseFlag (t : ParseType) : Cursor → Except Fault Cursor
  | (p, q, e) =>
    if t ≠ .delete ∧ t ≠ .touch then
      match scanDigit p q with
      | .error f => .error f
      | .ok (p, q) =>
        if cstr q = [] then .error .err
        else if !isUnsignedString (cstr q) then .error .err
        else match lexUnsigned 32 (cstr q) with
          | none => .error .err
          | some f => .ok (p, q, { e with flag := UInt32.ofNat f })
    else .ok (p, q, e)

/-- Expiry of a write, /repo/src/lib/storage.cc:114-131. -/
def parseExpire (now : Int64) (t : ParseType) : Cursor → Except Fault Cursor
  | (p, q, e) =>
    if t ≠ .get then
      match scanDigit p q with
      | .error f => .error f
      | .ok (p, q) =>
        if cstr q = [] then
          if t = .set ∨ t = .touch then .error .err else .ok (p, q, e)
        else if !isUnsignedString (cstr q) then .error .err
        else match lexTime (cstr q) with
          | none => .error .err
          | some x => .ok (p, q, { e with expire := realtime now x })
    else .ok (p, q, e)

/-- Size, /repo/src/lib/storage.cc:133-150. -/
def parseSize (t : ParseType) : Cursor → Except Fault Cursor
  | (p, q, e) =>
    if t ≠ .delete ∧ t ≠ .touch then
      match scanDigit p q with
      | .error f => .error f
      | .ok (p, q) =>
        if cstr q = [] then .error .err
        else if !isUnsignedString (cstr q) then .error .err
        else match lexUnsigned 64 (cstr q) with
          | none => .error .err
          | some n =>
            if n > maxDataSize then .error .err
            else .ok (p, q, { e with size := UInt64.ofNat n })
    else .ok (p, q, e)

/-- Version, /repo/src/lib/storage.cc:152-164. -/
def parseVersion (t : ParseType) : Cursor → Except Fault Cursor
  | (p, q, e) =>
    match scanDigit p q with
    | .error f => .error f
    | .ok (p, q) =>
      if cstr q ≠ [] then
        if !isUnsignedString (cstr q) then .error .err
        else match lexUnsigned 64 (cstr q) with
          | none => .error .err
          | some n => .ok (p, q, { e with version := UInt64.ofNat n })
      else if t = .cas then .error .err
      else .ok (p, q, e)

/-- Expiry in an answer, /repo/src/lib/storage.cc:166-173. -/
def parseExpireGet (now : Int64) (t : ParseType) : Cursor → Except Fault Cursor
  | (p, q, e) =>
    if t = .get then
      match scanDigit p q with
      | .error f => .error f
      | .ok (p, q) =>
        if cstr q ≠ [] then
          match lexTime (cstr q) with
          | none => .error .err
          | some x => .ok (p, q, { e with expire := realtime now x })
        else .ok (p, q, e)
    else .ok (p, q, e)

/-- The option loop, /repo/src/lib/storage.cc:177-188.  Every round consumes at least one
byte, so that the length of the line bounds the number of rounds (`fuel`). -/
def parseOptions : Nat → Cursor → Except Fault Cursor
  | 0, c => .ok c
  | fuel + 1, (p, q, e) =>
    match scanWord p q with
    | .error f => .error f
    | .ok (p, q) =>
      if cstr q = [] then .ok (p, q, e)
      else match optionCast (cstr q) with
        | none => .error .err
        | some r => parseOptions fuel (p, q, { e with option := e.option ||| r })

/-- `storage::entry::parse` of a line, /repo/src/lib/storage.cc:87-196.  `q` is the
contents of the uninitialised buffer `char q[BUFSIZ]`. -/
def entryParse (now : Int64) (t : ParseType) (p q : Bytes) (e : Entry) :
    Except Fault Entry := do
  let c ← parseKey (p, q, e)
  let c ← parseFlag t c
  let c ← parseExpire now t c
  let c ← parseSize t c
  let c ← parseVersion t c
  let c ← parseExpireGet now t c
  let c ← if t ≠ .get then parseOptions (p.length + 1) c else pure c
  return c.2.2

/-! ### Lines that are sent -/

/-- `line_delimiter`, /repo/src/lib/app.h. -/
def crlf : Bytes := [chCr, chNl]

/-- `snprintf("%ld")` -/
def decimalInt (i : Int) : Bytes :=
  if i < 0 then chMinus :: decimal i.natAbs else decimal i.natAbs

/-- `storage::response_type`, /repo/src/lib/storage.h:120-124. -/
inductive ResponseType where
  | get | gets | dump
  deriving DecidableEq, Repr

def strValue : Bytes := [86, 65, 76, 85, 69]

/-- First line of an answer with a value, /repo/src/lib/storage.cc:211-218. -/
def responseLine (t : ResponseType) (e : Entry) : Bytes :=
  strValue ++ chSpace :: cstr e.key ++ chSpace :: decimal e.flag.toNat ++
    chSpace :: decimal e.size.toNat ++
    (if t = .gets ∨ t = .dump then chSpace :: decimal e.version.toNat else []) ++
    (if t = .dump then chSpace :: decimalInt e.expire.toInt else []) ++ crlf

/-- `storage::entry::response` for the text protocol, /repo/src/lib/storage.cc:208-225.
`none` is undefined behaviour: the length of the buffer does not fit an `int`, or the entry
has less data than its size says.  The buffer has `BUFSIZ` (8192) bytes for everything but
key and value, so that `snprintf` does not cut anything (`C34_response_fits`). -/
def response (t : ResponseType) (e : Entry) : Option Bytes :=
  if e.size.toNat + e.key.length + 8192 ≤ intMax ∧ e.size.toNat ≤ e.data.length then
    some (responseLine t e ++ e.data.take e.size.toNat ++ crlf)
  else none

/-- The write operations that are forwarded or replicated,
/repo/src/lib/queue_proxy_write.cc:132-195. -/
inductive WriteCmd where
  | set | add | replace | cas | append | prepend | incr | decr | delete | touch | gat
  deriving DecidableEq, Repr

/-- `get_ident()`: the first word of the request (constructors of the operations, e.g.
/repo/src/lib/op_set.cc:41). -/
def WriteCmd.ident : WriteCmd → Bytes
  | .set => [115, 101, 116]
  | .add => [97, 100, 100]
  | .replace => [114, 101, 112, 108, 97, 99, 101]
  | .cas => [99, 97, 115]
  | .append => [97, 112, 112, 101, 110, 100]
  | .prepend => [112, 114, 101, 112, 101, 110, 100]
  | .incr => [105, 110, 99, 114]
  | .decr => [100, 101, 99, 114]
  | .delete => [100, 101, 108, 101, 116, 101]
  | .touch => [116, 111, 117, 99, 104]
  | .gat => [103, 97, 116]

/-- The class of an operation: which `_run_client` and which
`_parse_text_server_parameters` it inherits. -/
inductive WriteKind where
  | store | count | delete | touch
  deriving DecidableEq, Repr

def WriteCmd.kind : WriteCmd → WriteKind
  | .set | .add | .replace | .cas | .append | .prepend => .store
  | .incr | .decr => .count
  | .delete => .delete
  | .touch | .gat => .touch

/-- A write request: operation, nodes it came through, entry, amount for incr and decr. -/
structure WriteReq where
  cmd : WriteCmd
  path : List Bytes := []
  entry : Entry
  value : UInt64 := 0
  deriving DecidableEq, Repr

/-- `util::vector_join<string>` with ",", /repo/src/lib/util.h:196-207: the separator goes
before an element if anything has been written already. -/
def joinComma (l : List Bytes) : Bytes :=
  l.foldl (fun s x => if s = [] then x else s ++ chComma :: x) []

/-- `op::_get_proxy_ident`, /repo/src/lib/op.cc:257-266. -/
def proxyIdent (path : List Bytes) : Bytes :=
  if path = [] then [] else chLt :: joinComma path ++ [chGt]

/-- The options of a request, e.g. /repo/src/lib/op_set.cc:191-199. -/
def optionWords (o : UInt32) : Bytes :=
  (if o &&& optNoreply ≠ 0 then chSpace :: strNoreply else []) ++
  (if o &&& optSync ≠ 0 then chSpace :: strSync else []) ++
  (if o &&& optAsync ≠ 0 then chSpace :: strAsync else [])

/-- `op_set::_run_client` up to the value, /repo/src/lib/op_set.cc:187-200. -/
def storeLine (r : WriteReq) : Bytes :=
  proxyIdent r.path ++ r.cmd.ident ++ chSpace :: cstr r.entry.key ++
    chSpace :: decimal r.entry.flag.toNat ++ chSpace :: decimalInt r.entry.expire.toInt ++
    chSpace :: decimal r.entry.size.toNat ++
    (if r.entry.version > 0 ∨ r.cmd = .cas
      then chSpace :: decimal r.entry.version.toNat else []) ++
    optionWords r.entry.option ++ crlf

/-- `op_incr::_run_client`, /repo/src/lib/op_incr.cc:178-201. -/
def countLine (r : WriteReq) : Bytes :=
  proxyIdent r.path ++ r.cmd.ident ++ chSpace :: cstr r.entry.key ++
    chSpace :: decimal r.value.toNat ++ optionWords r.entry.option ++ crlf

/-- `op_delete::_run_client`, /repo/src/lib/op_delete.cc:136-162. -/
def deleteLine (r : WriteReq) : Bytes :=
  proxyIdent r.path ++ WriteCmd.delete.ident ++ chSpace :: cstr r.entry.key ++
    chSpace :: decimalInt r.entry.expire.toInt ++
    (if r.entry.version > 0 then chSpace :: decimal r.entry.version.toNat else []) ++
    optionWords r.entry.option ++ crlf

/-- `op_touch::_run_client`, /repo/src/lib/op_touch.cc:97-113. -/
def touchLine (r : WriteReq) : Bytes :=
  proxyIdent r.path ++ r.cmd.ident ++ chSpace :: cstr r.entry.key ++
    chSpace :: decimalInt r.entry.expire.toInt ++
    (if r.entry.option &&& optNoreply ≠ 0 then chSpace :: strNoreply else []) ++ crlf

/-- The bytes a node writes to forward a request.  `none` is undefined behaviour as in
`response` (`request_len` is an `int`; /repo/src/lib/op_set.cc:185,201). -/
def encodeWrite (r : WriteReq) : Option Bytes :=
  match r.cmd.kind with
  | .store =>
    if (proxyIdent r.path).length + r.entry.key.length + r.entry.size.toNat + 8192 ≤ intMax ∧
        r.entry.size.toNat ≤ r.entry.data.length then
      some (storeLine r ++ r.entry.data.take r.entry.size.toNat ++ crlf)
    else none
  | .count =>
    if (proxyIdent r.path).length + r.entry.key.length + 8192 ≤ intMax then
      some (countLine r) else none
  | .delete =>
    if (proxyIdent r.path).length + r.entry.key.length + r.entry.size.toNat + 8192 ≤ intMax
    then some (deleteLine r) else none
  | .touch =>
    if (proxyIdent r.path).length + r.entry.key.length + 8192 ≤ intMax then
      some (touchLine r) else none

/-! ### The receiving side -/

/-- `connection::readline` on a byte stream: the bytes up to and with the first newline,
"\r\n" made "\n" (/repo/src/lib/connection_tcp.cc:335-341), and what follows.  `none`: the
stream ends first. -/
def readLine (s : Bytes) : Option (Bytes × Bytes) :=
  let l := s.takeWhile (· ≠ chNl)
  match s.drop l.length with
  | [] => none
  | _ :: rest => some ((if l.getLast? = some chCr then l.dropLast else l) ++ [chNl], rest)

/-- `connection::readsize` on a byte stream, /repo/src/lib/connection_tcp.cc:421-465.  The
length is an `int`: a length above `INT_MAX` arrives as a negative number, the function
returns at once without a buffer and the caller's `memcpy` reads from NULL (`ub`). -/
def readSize (n : Nat) (s : Bytes) : Except Fault (Bytes × Bytes) :=
  if n > intMax then .error .ub
  else if s.length < n then .error .err
  else .ok (s.take n, s.drop n)

/-- The tokens of a list of bytes cut at commas; `acc` is the token being read. -/
def splitCommaAux : Bytes → Bytes → List Bytes
  | [], acc => if acc = [] then [] else [acc]
  | c :: s, acc =>
    if c = chComma then
      if acc = [] then splitCommaAux s [] else acc :: splitCommaAux s []
    else splitCommaAux s (acc ++ [c])

/-- `util::vector_split<string>` with ",", /repo/src/lib/util.h:209-221:
`boost::char_separator` drops empty tokens. -/
def splitComma (s : Bytes) : List Bytes := splitCommaAux s []

/-- `op_parser_text::parse_server`, /repo/src/lib/op_parser_text.cc:53-87: the forwarding
path, the first word and the rest of the line.  `first` is the buffer `char first[1024]`. -/
def parseServer (buf first : Bytes) : Except Fault (Option (List Bytes) × Bytes × Bytes) :=
  let cut : Option (List Bytes) × Bytes :=
    match buf with
    | c :: b =>
      -- `strchr` stops at a NUL
      if c = chLt ∧ chGt ∈ cstr b then
        (some (splitComma (b.takeWhile (· ≠ chGt))), (b.dropWhile (· ≠ chGt)).drop 1)
      else (none, buf)
    | [] => (none, [])
  match scanWord cut.2 first with
  | .error f => .error f
  | .ok (rest, first) => .ok (cut.1, cstr first, rest)

/-- `_determine_op` for the write operations,
/repo/src/flared/op_parser_text_node.cc:62-90. -/
def writeCmdOf (first : Bytes) : Option WriteCmd :=
  [WriteCmd.set, .add, .replace, .cas, .append, .prepend, .incr, .decr, .delete, .touch,
    .gat].find? (fun c => c.ident = first)

/-- `op_incr::_parse_text_server_parameters`, /repo/src/lib/op_incr.cc:75-124. -/
def parseCount (p q : Bytes) (e : Entry) : Except Fault (Entry × UInt64) :=
  match parseKey (p, q, e) with
  | .error f => .error f
  | .ok (p, q, e) =>
    match scanDigit p q with
    | .error f => .error f
    | .ok (p, q) =>
      if cstr q = [] then .error .err
      else match lexUnsigned 64 (cstr q) with
        | none => .error .err
        | some v =>
          match parseOptions (p.length + 1) (p, q, e) with
          | .error f => .error f
          | .ok c => .ok (c.2.2, UInt64.ofNat v)

/-- The parameters of a write, by class of operation:
/repo/src/lib/op_set.cc:72-95, /repo/src/lib/op_delete.cc:72-85,
/repo/src/lib/op_touch.cc:65-85, /repo/src/lib/op_incr.cc:75-124.  `q` is the buffer of the
scan, `line` the rest of the request line, `s` the stream behind it. -/
def parseParams (now : Int64) (cmd : WriteCmd) (path : List Bytes) (line q s : Bytes) :
    Except Fault (WriteReq × Bytes) :=
  match cmd.kind with
  | .store =>
    match entryParse now (if cmd = .cas then .cas else .set) line q { key := [] } with
    | .error f => .error f
    | .ok e =>
      match readSize (e.size.toNat + 2) s with
      | .error f => .error f
      | .ok (d, s) =>
        .ok ({ cmd := cmd, path := path, entry := { e with data := d.take e.size.toNat } }, s)
  | .count =>
    match parseCount line q { key := [] } with
    | .error f => .error f
    | .ok (e, v) => .ok ({ cmd := cmd, path := path, entry := e, value := v }, s)
  | .delete =>
    match entryParse now .delete line q { key := [] } with
    | .error f => .error f
    | .ok e => .ok ({ cmd := cmd, path := path, entry := e }, s)
  | .touch =>
    match entryParse now .touch line q { key := [] } with
    | .error f => .error f
    | .ok e =>
      if e.option = 0 ∨ e.option = optNoreply then
        .ok ({ cmd := cmd, path := path, entry := e }, s)
      else .error .err

/-- One write request taken from a connection: line, first word, parameters.  `first` and
`q` are the contents of the uninitialised buffers `char first[1024]` and
`char q[BUFSIZ]`. -/
def decodeWrite (now : Int64) (first q : Bytes) (s : Bytes) :
    Except Fault (WriteReq × Bytes) :=
  match readLine s with
  | none => .error .err
  | some (line, s) =>
    match parseServer line first with
    | .error f => .error f
    | .ok (path, w, rest) =>
      match writeCmdOf w with
      | none => .error .err
      | some cmd => parseParams now cmd (path.getD []) rest q s

/-- A connection carries one request after the other. -/
def decodeWrites (now : Int64) (first q : Bytes) : Nat → Bytes →
    Except Fault (List WriteReq × Bytes)
  | 0, s => .ok ([], s)
  | n + 1, s =>
    match decodeWrite now first q s with
    | .error f => .error f
    | .ok (r, s) =>
      match decodeWrites now first q n s with
      | .error f => .error f
      | .ok (rs, s) => .ok (r :: rs, s)

/-! ### Reading answers with values -/

def strEnd : Bytes := [69, 78, 68]

/-- One step of the loop that reads answers: the end or an entry, and the rest. -/
inductive Answer where
  | fin (rest : Bytes)
  | value (e : Entry) (rest : Bytes)
  deriving DecidableEq, Repr

/-- One round of the loop that reads answers with values,
/repo/src/lib/op_dump.cc:259-289 (also /repo/src/lib/op_get.cc:215-256, where the key is
compared with the one asked for).  Everything that is not `END` or `VALUE` is an error.  `w`
and `q` are the buffers of the two scans. -/
def readAnswer (now : Int64) (w q : Bytes) (s : Bytes) : Except Fault Answer :=
  match readLine s with
  | none => .error .err
  | some (line, s) =>
    if line = strEnd ++ [chNl] then .ok (.fin s)
    else match scanWord line w with
      | .error f => .error f
      | .ok (p, w) =>
        if cstr w ≠ strValue then .error .err
        else match entryParse now .get p q { key := [] } with
          | .error f => .error f
          | .ok e =>
            match readSize (e.size.toNat + 2) s with
            | .error f => .error f
            | .ok (d, s) => .ok (.value { e with data := d.take e.size.toNat } s)

/-- The loop: entries up to `END`.  Every round consumes at least one byte, so that the
length of the stream bounds the number of rounds (`fuel`). -/
def readAnswers (now : Int64) (w q : Bytes) : Nat → Bytes → Except Fault (List Entry × Bytes)
  | 0, _ => .error .err
  | fuel + 1, s =>
    match readAnswer now w q s with
    | .error f => .error f
    | .ok (.fin rest) => .ok ([], rest)
    | .ok (.value e rest) =>
      match readAnswers now w q fuel rest with
      | .error f => .error f
      | .ok (es, rest) => .ok (e :: es, rest)

end Flare
