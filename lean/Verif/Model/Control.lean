import Verif.Model.Cast
import Verif.Model.KeyResolver

/-! Model of the messages between index server and nodes: node lines, `node sync`, `node add`,
`node role`, `node state` and `meta`.

Simplifications.
* The connection is a byte stream (what a stream of packets makes of it: C40).
* `lexical_cast<int>` behaves like `lexical_cast<time_t>` with 32 bits.
* `log_*` calls are left out. -/
namespace Flare

/-- `snprintf(buf, sizeof(buf), …)` with `BUFSIZ` (8192) bytes: at most 8191 bytes are kept. -/
def snprintfBuf (b : Bytes) : Bytes := b.take 8191

/-- `boost::lexical_cast<int>`. -/
def lexInt (s : Bytes) : Option Int32 :=
  match lexNumber s with
  | none => none
  | some (neg, m) =>
    if neg then (if m ≤ 2 ^ 31 then some (Int32.ofInt (-(m : Int))) else none)
    else if m < 2 ^ 31 then some (Int32.ofNat m) else none

/-- `%d`. -/
def printInt (i : Int32) : Bytes := decimalInt i.toInt

/-- `n += util::next_digit(p+n, q, sizeof(q)); if (q[0] == '\0') …; lexical_cast<int>(q)`. -/
def scanInt (p q : Bytes) : Except Fault (Int32 × Bytes × Bytes) :=
  match scanDigit p q with
  | .error f => .error f
  | .ok (p, q) =>
    if cstr q = [] then .error .err
    else match lexInt (cstr q) with
      | none => .error .err
      | some i => .ok (i, p, q)

/-! ### Node lines -/

/-- `cluster::node`, /repo/src/lib/cluster.h:112-134.  Role and state are the numbers that are
sent. -/
structure NodeLine where
  name : Bytes
  port : Int32
  role : Int32
  state : Int32
  partition : Int32
  balance : Int32
  threadType : Int32
  deriving DecidableEq, Repr

/-- The numbers of `cluster::role`, /repo/src/lib/cluster.h:87-91. -/
def Role.number : Role → Int32
  | .master => 0
  | .slave => 1
  | .proxy => 2

/-- The numbers of `cluster::state`, /repo/src/lib/cluster.h:93-98. -/
def NState.number : NState → Int32
  | .active => 0
  | .prepare => 1
  | .down => 2
  | .ready => 3

/-- A line of `op_node_sync::_run_client`, /repo/src/lib/op_node_sync.cc:135-136, and of
`op_node_add::_run_server`, /repo/src/lib/op_node_add.cc:132-133. -/
def nodeLine (n : NodeLine) : Bytes :=
  snprintfBuf (ascii "NODE " ++ cstr n.name ++ [chSpace] ++ printInt n.port ++ [chSpace] ++
    printInt n.role ++ [chSpace] ++ printInt n.state ++ [chSpace] ++ printInt n.partition ++
    [chSpace] ++ printInt n.balance ++ [chSpace] ++ printInt n.threadType) ++ crlf

/-- `cluster::node::parse`, /repo/src/lib/cluster.cc:123-193.  `q` is `char q[BUFSIZ]`. -/
def parseNodeLine (p q : Bytes) : Except Fault NodeLine :=
  match scanWord p q with
  | .error f => .error f
  | .ok (p, q) =>
    if cstr q ≠ ascii "NODE" then .error .err
    else match scanWord p q with
    | .error f => .error f
    | .ok (p, q) =>
      if cstr q = [] then .error .err
      else
        let name := cstr q
        match scanInt p q with
        | .error f => .error f
        | .ok (port, p, q) =>
          match scanInt p q with
          | .error f => .error f
          | .ok (role, p, q) =>
            match scanInt p q with
            | .error f => .error f
            | .ok (state, p, q) =>
              match scanInt p q with
              | .error f => .error f
              | .ok (partition, p, q) =>
                match scanInt p q with
                | .error f => .error f
                | .ok (balance, p, q) =>
                  match scanInt p q with
                  | .error f => .error f
                  | .ok (threadType, _, _) =>
                    .ok ⟨name, port, role, state, partition, balance, threadType⟩

/-- Node lines up to END: the loops of `op_node_sync::_run_server`,
/repo/src/lib/op_node_sync.cc:92-116, and of `op_node_add::_parse_text_client_parameters`,
/repo/src/lib/op_node_add.cc:151-174.  The first argument bounds the number of lines. -/
def readNodes (q : Bytes) : Nat → Bytes → Except Fault (List NodeLine × Bytes)
  | 0, _ => .error .err
  | n + 1, s =>
    match readLine s with
    | none => .error .err
    | some (line, s) =>
      if cstr line = strEnd ++ [chNl] then .ok ([], s)
      else match parseNodeLine line q with
        | .error f => .error f
        | .ok x =>
          match readNodes q n s with
          | .error f => .error f
          | .ok (xs, s) => .ok (x :: xs, s)

/-- The node lines and the END of both messages. -/
def nodeLines (ns : List NodeLine) : Bytes := (ns.map nodeLine).flatten ++ resultLine .end_ []

/-! ### Requests -/

/-- `op_parser_text::parse_server` and the second word of a `node` command,
/repo/src/lib/op_parser_text.cc:53-87, /repo/src/flared/op_parser_text_node.cc:95-104,
/repo/src/flarei/op_parser_text_index.cc:66-82: second word, rest of the line and of the stream.
The second word is read into a buffer of its own. -/
def readNodeCommand (first second s : Bytes) : Except Fault (Bytes × Bytes × Bytes) :=
  match readLine s with
  | none => .error .err
  | some (line, s) =>
    match parseServer line first with
    | .error f => .error f
    | .ok (_, w, p) =>
      if w ≠ ascii "node" then .error .err
      else match scanWord p second with
        | .error f => .error f
        | .ok (p, w) => .ok (cstr w, p, s)

/-- `op_node_sync::_run_client`, /repo/src/lib/op_node_sync.cc:126-143. -/
def syncRequest (version : UInt64) (ns : List NodeLine) : Bytes :=
  ascii "node sync " ++ decimal version.toNat ++ crlf ++ nodeLines ns

/-- The node's side of `node sync`: `_parse_text_server_parameters` and the reading part of
`_run_server`, /repo/src/lib/op_node_sync.cc:66-116.  `q` is the buffer of the first line
(1024 bytes), `q'` the one of `node::parse`. -/
def readSync (first second q q' : Bytes) (s : Bytes) :
    Except Fault ((UInt64 × List NodeLine) × Bytes) :=
  match readNodeCommand first second s with
  | .error f => .error f
  | .ok (w, p, s) =>
    if w ≠ ascii "sync" then .error .err
    else match scanDigit p q with
    | .error f => .error f
    | .ok (p, q) =>
      let version : Option UInt64 :=
        if cstr q = [] then some 0 else (lexUnsigned 64 (cstr q)).map UInt64.ofNat
      match version with
      | none => .error .err
      | some version =>
        match scanWord p q with
        | .error f => .error f
        | .ok (_, q) =>
          if cstr q ≠ [] then .error .err
          else match readNodes q' (s.length + 1) s with
            | .error f => .error f
            | .ok (ns, s) => .ok ((version, ns), s)

/-- What `node role` asks for. -/
structure RoleReq where
  name : Bytes
  port : Int32
  role : Role
  balance : Int32
  partition : Int32
  deriving DecidableEq, Repr

/-- `op_node_role::_run_client`, /repo/src/lib/op_node_role.cc:165-170. -/
def roleRequest (r : RoleReq) : Bytes :=
  snprintfBuf (ascii "node role " ++ cstr r.name ++ [chSpace] ++ printInt r.port ++ [chSpace] ++
    r.role.name ++ [chSpace] ++ printInt r.balance ++ [chSpace] ++ printInt r.partition) ++ crlf

/-- An optional number, /repo/src/lib/op_node_role.cc:122-131 and 133-143: what was there before
stays if there is none. -/
def scanIntOr (old : Int32) (p q : Bytes) : Except Fault (Int32 × Bytes × Bytes) :=
  match scanDigit p q with
  | .error f => .error f
  | .ok (p, q) =>
    if cstr q = [] then .ok (old, p, q)
    else match lexInt (cstr q) with
      | none => .error .err
      | some i => .ok (i, p, q)

/-- Node name and port at the front of a command, e.g. /repo/src/lib/op_node_role.cc:85-107. -/
def scanNode (p q : Bytes) : Except Fault (Bytes × Int32 × Bytes × Bytes) :=
  match scanWord p q with
  | .error f => .error f
  | .ok (p, q) =>
    if cstr q = [] then .error .err
    else
      let name := cstr q
      match scanInt p q with
      | .error f => .error f
      | .ok (port, p, q) => .ok (name, port, p, q)

/-- The index server's side: `op_node_role::_parse_text_server_parameters`,
/repo/src/lib/op_node_role.cc:78-153.  Balance and partition are -1 in a new operation
(/repo/src/lib/op_node_role.cc:38-46). -/
def readRole (first second q s : Bytes) : Except Fault (RoleReq × Bytes) :=
  match readNodeCommand first second s with
  | .error f => .error f
  | .ok (w, p, s) =>
    if w ≠ ascii "role" then .error .err
    else match scanNode p q with
    | .error f => .error f
    | .ok (name, port, p, q) =>
      match scanWord p q with
      | .error f => .error f
      | .ok (p, q) =>
        match roleCast (cstr q) with
        | none => .error .err
        | some role =>
          match scanIntOr (-1) p q with
          | .error f => .error f
          | .ok (balance, p, q) =>
            match scanIntOr (-1) p q with
            | .error f => .error f
            | .ok (partition, _, _) => .ok (⟨name, port, role, balance, partition⟩, s)

/-- What `node state` asks for. -/
structure StateReq where
  name : Bytes
  port : Int32
  state : NState
  deriving DecidableEq, Repr

/-- `op_node_state::_run_client`, /repo/src/lib/op_node_state.cc:146-151. -/
def stateRequest (r : StateReq) : Bytes :=
  snprintfBuf (ascii "node state " ++ cstr r.name ++ [chSpace] ++ printInt r.port ++ [chSpace] ++
    r.state.name) ++ crlf

/-- `op_node_state::_parse_text_server_parameters`, /repo/src/lib/op_node_state.cc:77-135. -/
def readState (first second q s : Bytes) : Except Fault (StateReq × Bytes) :=
  match readNodeCommand first second s with
  | .error f => .error f
  | .ok (w, p, s) =>
    if w ≠ ascii "state" then .error .err
    else match scanNode p q with
    | .error f => .error f
    | .ok (name, port, p, q) =>
      match scanWord p q with
      | .error f => .error f
      | .ok (p, q) =>
        match stateCast (cstr q) with
        | none => .error .err
        | some state =>
          match scanWord p q with
          | .error f => .error f
          | .ok (_, q) =>
            if cstr q ≠ [] then .error .err else .ok (⟨name, port, state⟩, s)

/-! ### meta -/

/-- What decides about the partition of a key. -/
structure Meta where
  partitionSize : Int32
  hash : HashAlgorithm
  type : ResolverType
  hint : Int32
  virtual_ : Int32
  deriving DecidableEq, Repr

/-- `op_meta::_run_server`, /repo/src/lib/op_meta.cc:94-130. -/
def metaAnswer (m : Meta) : Bytes :=
  snprintfBuf (ascii "META partition-size " ++ printInt m.partitionSize) ++ crlf ++
  (snprintfBuf (ascii "META key-hash-algorithm " ++ m.hash.name) ++ crlf ++
  (snprintfBuf (ascii "META partition-type " ++ m.type.name) ++ crlf ++
  (snprintfBuf (ascii "META partition-modular-hint " ++ printInt m.hint) ++ crlf ++
  (snprintfBuf (ascii "META partition-modular-virtual " ++ printInt m.virtual_) ++ crlf ++
  resultLine .end_ []))))

/-- What the client of `meta` fills in: `none` for the variable that `startup_node` leaves
uninitialised, /repo/src/lib/cluster.cc:286. -/
structure MetaVars where
  partitionSize : Int32
  hash : HashAlgorithm
  type : Option ResolverType
  hint : Int32
  virtual_ : Int32
  deriving DecidableEq, Repr

/-- The values before `op_meta::run_client`, /repo/src/lib/cluster.cc:286-290 with
/repo/src/lib/cluster.h:167-168. -/
def MetaVars.init : MetaVars := ⟨1024, .simple, none, 0, 4096⟩

/-- A number in a meta line: /repo/src/lib/op_meta.cc:163-169, 189-195, 197-203.  `some none`: a
number that `int` cannot hold, the line is ignored (:214-215). -/
def metaInt (p q : Bytes) : Except Fault (Option Int32) :=
  match scanDigit p q with
  | .error f => .error f
  | .ok (_, q) => if cstr q = [] then .error .err else .ok (lexInt (cstr q))

/-- One meta line, /repo/src/lib/op_meta.cc:149-222. -/
def metaLine (p q : Bytes) (v : MetaVars) : Except Fault MetaVars :=
  match scanWord p q with
  | .error f => .error f
  | .ok (p, q) =>
    if cstr q ≠ ascii "META" then .error .err
    else match scanWord p q with
    | .error f => .error f
    | .ok (p, q) =>
      if cstr q = [] then .error .err
      else if cstr q = ascii "partition-size" then
        (metaInt p q).map fun i => { v with partitionSize := i.getD v.partitionSize }
      else if cstr q = ascii "key-hash-algorithm" then
        match scanWord p q with
        | .error f => .error f
        | .ok (_, q) =>
          match hashAlgorithmCast (cstr q) with
          | none => .error .err
          | some h => .ok { v with hash := h }
      else if cstr q = ascii "partition-type" then
        match scanWord p q with
        | .error f => .error f
        | .ok (_, q) =>
          match resolverTypeCast (cstr q) with
          | none => .error .err
          | some t => .ok { v with type := some t }
      else if cstr q = ascii "partition-modular-hint" then
        (metaInt p q).map fun i => { v with hint := i.getD v.hint }
      else if cstr q = ascii "partition-modular-virtual" then
        (metaInt p q).map fun i => { v with virtual_ := i.getD v.virtual_ }
      else .ok v

/-- `op_meta::_parse_text_client_parameters`, /repo/src/lib/op_meta.cc:137-227. -/
def readMeta (q : Bytes) : Nat → Bytes → MetaVars → Except Fault (MetaVars × Bytes)
  | 0, _, _ => .error .err
  | n + 1, s, v =>
    match readLine s with
    | none => .error .err
    | some (line, s) =>
      if cstr line = strEnd ++ [chNl] then .ok (v, s)
      else match metaLine line q v with
        | .error f => .error f
        | .ok v => readMeta q n s v

/-- The key resolver that `startup_index` and `startup_node` set up from these numbers,
/repo/src/lib/cluster.cc:208-217 and :308-319, as far as its table is concerned. -/
def Meta.resolver (m : Meta) : Resolver :=
  ⟨m.partitionSize.toInt.toNat, m.hint.toInt.toNat, m.virtual_.toInt.toNat⟩

/-! ### Node keys -/

abbrev chColon : UInt8 := 58

/-- `cluster::to_node_key`, /repo/src/lib/cluster.h:298-301. -/
def toNodeKey (name : Bytes) (port : Int32) : Bytes := name ++ [chColon] ++ printInt port

/-- `cluster::from_node_key`, /repo/src/lib/cluster.h:303-315: the return value is 0 if there is a
port.  The name is set if there is a colon, the port only if it is a number; callers start with an
empty name and port 0 and ignore the return value (/repo/src/lib/cluster.cc:2243-2246). -/
def fromNodeKey (k : Bytes) : Bytes × Int32 × Bool :=
  let name := k.takeWhile (· ≠ chColon)
  match k.drop name.length with
  | [] => ([], 0, false)
  | _ :: rest =>
    match lexInt rest with
    | none => (name, 0, false)
    | some port => (name, port, true)

end Flare
