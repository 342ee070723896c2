import Verif.Model.Bytes

/-!
Model of the Tokyo Cabinet hash storage: /repo/src/lib/storage_tch.cc together with the
shared parts of /repo/src/lib/storage.h and /repo/src/lib/storage.cc.

General simplifications, valid for the whole file:
* The database file is a finite map from keys to raw values (`db`).  `tchdbputasync`
  (used for `noreply`) and `tchdbput` are the same here: Tokyo Cabinet flushes the
  asynchronous records before every read.
* `stats_object->get_timestamp()` is read several times during one call; the model uses
  one value `env.now` per locked section.  `get` and `incr` have two locked sections and
  take two values.
* Locks are modelled separately in `Model/Lock.lean`; here a function is one atomic step
  (or two, for the delayed removal of expired records).
* Integers have their C++ width (`uint32_t`, `uint64_t`, 64-bit `time_t`).
* A failing Tokyo Cabinet call is an input (`Env.putOk`, `Env.outOk`, ...).
-/
namespace Flare

/-- `storage::result`, /repo/src/lib/storage.h:86-95. -/
inductive Result where
  | none_ | stored | notStored | exists_ | notFound | deleted | found | touched
  deriving DecidableEq, Repr

/-- Return code of a storage call.  `ok` is 0 and `err` is -1.  `ub` is not a return code:
the call ran into undefined behaviour (a `memcpy` beyond the caller's buffer or a length
that does not fit the `int` of the Tokyo Cabinet interface). -/
inductive Rc where
  | ok | err | ub
  deriving DecidableEq, Repr

/-- `storage::behavior`, /repo/src/lib/storage.h:69-84.  The bit set `int b` is one Bool
per bit.  `behavior_skip_lock` has no effect on the data and belongs to the lock model. -/
structure Beh where
  skipTimestamp : Bool := false
  skipVersion : Bool := false
  versionEqual : Bool := false
  add : Bool := false
  replace : Bool := false
  cas : Bool := false
  append : Bool := false
  prepend : Bool := false
  dump : Bool := false
  touch : Bool := false
  deriving DecidableEq, Repr

/-- `storage::entry`, /repo/src/lib/storage.h:132-144.  `data` is the buffer behind the
shared pointer; a NULL pointer is the empty buffer (a simplification: `set` copies
`size` bytes out of it, see `copyOut`). -/
structure Entry where
  key : Bytes
  flag : UInt32 := 0
  expire : Int64 := 0
  size : UInt64 := 0
  version : UInt64 := 0
  option : UInt32 := 0
  data : Bytes := []
  deriving DecidableEq, Repr

/-- `entry::header_size`, /repo/src/lib/storage.h:141: 4 + 8 + 8 + 8. -/
def headerSize : Nat := 28

/-- `INT_MAX`: lengths handed to Tokyo Cabinet are `int`. -/
def intMax : Nat := 2147483647

/-- What a call to the outside may answer: the clock and the success of the database
calls. -/
structure Env where
  now : Int64
  putOk : Bool := true
  outOk : Bool := true
  vanishOk : Bool := true
  deriving DecidableEq, Repr

/-- One slot of the header cache (deletion cache): expire and version,
/repo/src/lib/storage.cc:320-327. -/
structure Tomb where
  expire : Int64
  version : UInt64
  deriving DecidableEq, Repr

/-- The storage object: database, header cache (oldest first) and its bound
(/repo/src/lib/storage.h:198-215), iteration flag (`_iter_lock`). -/
structure Store where
  db : List (Bytes × Bytes) := []
  cache : List (Bytes × Tomb) := []
  cacheSize : Nat
  iterLock : Bool := false
  deriving DecidableEq, Repr

/-! ### The database as a map -/

/-- `tchdbget` -/
def dbGet (db : List (Bytes × Bytes)) (k : Bytes) : Option Bytes :=
  match db with
  | [] => none
  | (k', v) :: rest => if k' = k then some v else dbGet rest k

/-- `tchdbout` -/
def dbOut (db : List (Bytes × Bytes)) (k : Bytes) : List (Bytes × Bytes) :=
  db.filter (fun p => p.1 ≠ k)

/-- `tchdbput` -/
def dbPut (db : List (Bytes × Bytes)) (k v : Bytes) : List (Bytes × Bytes) :=
  (k, v) :: dbOut db k

/-! ### Header cache -/

/-- `tcmapget` on the header cache. -/
def tombGet (c : List (Bytes × Tomb)) (k : Bytes) : Option Tomb :=
  match c with
  | [] => none
  | (k', t) :: rest => if k' = k then some t else tombGet rest k

/-- `tcmapput`: a key that is already present keeps its place, a new key goes last. -/
def tombPut (c : List (Bytes × Tomb)) (k : Bytes) (t : Tomb) : List (Bytes × Tomb) :=
  match c with
  | [] => [(k, t)]
  | (k', t') :: rest => if k' = k then (k, t) :: rest else (k', t') :: tombPut rest k t

/-- `storage::_set_header_cache`, /repo/src/lib/storage.cc:318-341: store (expire or the
current time, version), then cut the oldest slots beyond the configured size. -/
def setHeaderCache (s : Store) (now : Int64) (e : Entry) : Store :=
  let c := tombPut s.cache e.key
    { expire := if e.expire = 0 then now else e.expire, version := e.version }
  { s with cache := c.drop (c.length - s.cacheSize) }

/-- `storage::_get_header_cache`, /repo/src/lib/storage.h:424-443: fills expire and
version if the key is cached, otherwise leaves the entry alone. -/
def getHeaderCache (s : Store) (k : Bytes) (e : Entry) : Entry :=
  match tombGet s.cache k with
  | none => e
  | some t => { e with expire := t.expire, version := t.version }

/-! ### Record header -/

/-- `storage::_serialize_header`, /repo/src/lib/storage.cc:256-276. -/
def serializeHeader (e : Entry) : Bytes :=
  leBytes 4 e.flag.toNat ++ leBytes 8 e.expire.toUInt64.toNat ++
    leBytes 8 e.size.toNat ++ leBytes 8 e.version.toNat

/-- `storage::_unserialize_header`, /repo/src/lib/storage.cc:278-316.  The entry is filled
field by field; `false` is the return value -1 (data too short), in which case the fields
read before are already overwritten. -/
def unserializeHeader (d : Bytes) (e : Entry) : Entry × Bool :=
  if 4 > d.length then (e, false) else
  let e := { e with flag := UInt32.ofNat (leNat (d.take 4)) }
  if 4 + 8 > d.length then (e, false) else
  let e := { e with expire := (UInt64.ofNat (leNat ((d.drop 4).take 8))).toInt64 }
  if 12 + 8 > d.length then (e, false) else
  let e := { e with size := UInt64.ofNat (leNat ((d.drop 12).take 8)) }
  if 20 + 8 > d.length then (e, false) else
  let e := { e with version := UInt64.ofNat (leNat ((d.drop 20).take 8)) }
  (e, true)

/-- `storage_tch::_get_header`, /repo/src/lib/storage_tch.cc:686-706.  `true` is the return
value 0 (exists); an absent key is looked up in the header cache, a corrupted record
leaves the fields read so far. -/
def getHeader (s : Store) (k : Bytes) (e : Entry) : Entry × Bool :=
  match dbGet s.db k with
  | none => (getHeaderCache s k e, false)
  | some raw => unserializeHeader (raw.take headerSize) e

/-! ### Calls -/

/-- Result of a storage call: return code, the value of the reference parameter `r`
(`none`: not assigned) and the entry as left by the call. -/
structure Out where
  rc : Rc
  r : Option Result
  e : Entry
  deriving DecidableEq, Repr

/-- The expiry test used everywhere: `(b & skip_timestamp) == 0 && x > 0 && x <= now`,
/repo/src/lib/storage_tch.cc:165, 346-347, 477-478, 547. -/
def isExpired (skip : Bool) (x now : Int64) : Bool :=
  !skip && decide (x > 0) && decide (x ≤ now)

/-- `storage_tch::remove`, /repo/src/lib/storage_tch.cc:513-579. -/
def remove (s : Store) (env : Env) (e : Entry) (b : Beh) : Store × Out :=
  let (cur, ex) := getHeader s e.key { key := [] }
  -- :529-535
  if !b.skipVersion && e.version != 0 &&
      ((!b.versionEqual && decide (e.version < cur.version)) ||
        (b.versionEqual && e.version != cur.version)) then
    (s, ⟨.ok, some .notFound, e⟩)
  -- :537-544
  else if !ex then
    ((if e.version != 0 then setHeaderCache s env.now e else s), ⟨.ok, some .notFound, e⟩)
  -- :552-560, `tchdbout` failed
  else if !env.outOk then (s, ⟨.err, none, e⟩)
  else
    let expired := isExpired b.skipTimestamp cur.expire env.now
    let r := if expired then Result.notFound else .deleted
    let e' := if e.version = 0 then { e with version := cur.version } else e
    (setHeaderCache { s with db := dbOut s.db e.key } env.now e', ⟨.ok, some r, e'⟩)

/-- First locked section of `storage_tch::get`, /repo/src/lib/storage_tch.cc:455-489.  The
Bool says that the record was found expired, in which case `remove` follows after the lock
has been released (:498-501). -/
def getRead (s : Store) (now : Int64) (e : Entry) (b : Beh) : Out × Bool :=
  match dbGet s.db e.key with
  | none => (⟨.ok, some .notFound, e⟩, false)
  | some raw =>
    match unserializeHeader raw e with
    | (e, false) => (⟨.err, none, e⟩, false)
    | (e, true) =>
      if raw.length - headerSize ≠ e.size.toNat then (⟨.err, none, e⟩, false)
      else if isExpired b.skipTimestamp e.expire now then (⟨.ok, some .notFound, e⟩, true)
      else (⟨.ok, some .none_, { e with data := raw.drop headerSize }⟩, false)

/-- Second locked section of `storage_tch::get` (and of `incr`): the removal of the
expired record, which passes only `behavior_version_equal`,
/repo/src/lib/storage_tch.cc:498-501, 429-432.  Its result is ignored. -/
def removeExpired (s : Store) (env : Env) (e : Entry) : Store × Entry :=
  let (s', o) := remove s env e { versionEqual := true }
  (s', o.e)

/-- `storage_tch::get`, /repo/src/lib/storage_tch.cc:444-511, run without another command
in the window between its two locked sections. -/
def get (s : Store) (env : Env) (e : Entry) (b : Beh) : Store × Out :=
  match getRead s env.now e b with
  | (o, false) => (s, o)
  | (o, true) =>
    let (s', e') := removeExpired s env o.e
    (s', { o with e := e' })

/-- The local enum `st` of `storage_tch::set`, /repo/src/lib/storage_tch.cc:158-162. -/
inductive St where
  | alive | notExpired | gone
  deriving DecidableEq, Repr

/-- /repo/src/lib/storage_tch.cc:141-155: the current entry and whether it exists, and the
store after the inner `get` (which removes an expired record). -/
def setCurrent (s : Store) (env : Env) (e : Entry) (b : Beh) : Store × Entry × Bool :=
  if b.append || b.prepend || b.touch then
    let (s', o) := get s env { key := e.key } {}
    if o.r = some .notFound || o.rc = .err then (s', getHeaderCache s' e.key o.e, false)
    else (s', o.e, true)
  else
    let (cur, ex) := getHeader s e.key { key := [] }
    (s, cur, ex)

/-- /repo/src/lib/storage_tch.cc:163-174. -/
def setState (now : Int64) (b : Beh) (cur : Entry) (ex : Bool) : St :=
  if ex then
    if isExpired b.skipTimestamp cur.expire now then .gone else .alive
  else if !b.skipTimestamp && decide (cur.expire > 0) && decide (cur.expire > now) then .notExpired
  else .gone

/-- /repo/src/lib/storage_tch.cc:176-222: the checks for add, replace, touch and cas and
the version handling.  `Except.error` is a refusal (`throw 0` with `r` assigned), `ok` is
the new `e.version`. -/
def setCheck (st : St) (b : Beh) (ev cv : UInt64) : Except Result UInt64 :=
  if b.add && st ≠ .gone then .error .notStored
  else if b.replace && st ≠ .alive then .error .notStored
  else if b.touch && st ≠ .alive then .error .notFound
  else if b.cas then
    if st = .gone then .error .notFound
    else if ev ≠ cv then .error .exists_
    else .ok (ev + 1)
  else if b.touch then .ok cv
  else if !b.skipVersion && ev != 0 then
    if (st = .alive || b.dump) && ev ≤ cv then .error .notStored
    else .ok ev
  else if ev = 0 then .ok (cv + 1)
  else .ok ev

/-- `memcpy(dst, e.data.get(), n)`: reading more than the buffer holds is undefined. -/
def copyOut (d : Bytes) (n : Nat) : Option Bytes :=
  if n ≤ d.length then some (d.take n) else none

/-- /repo/src/lib/storage_tch.cc:224-261: the entry to be written and its data.  `none` in
the second component is undefined behaviour.  `Except.error ()` is `throw -1` (:226-229). -/
def setPrepare (st : St) (b : Beh) (e cur : Entry) : Except Unit (Option Entry) :=
  if b.append || b.prepend then
    if st ≠ .alive then .error ()
    else .ok <|
      match copyOut e.data e.size.toNat, copyOut cur.data cur.size.toNat with
      | some d, some c =>
        some { e with
          expire := cur.expire
          flag := cur.flag
          size := e.size + cur.size
          data := if b.append then c ++ d else d ++ c }
      | _, _ => none
  else if b.touch then
    .ok <| (copyOut cur.data cur.size.toNat).map fun c =>
      { e with flag := cur.flag, size := cur.size, data := c }
  else
    .ok <| (copyOut e.data e.size.toNat).map fun _ => e

/-- The call `tchdbput(db, key, p, header_size + e.size)` where `p` holds the header of `e`
and `e.size` bytes of data, /repo/src/lib/storage_tch.cc:263-284.  The length is an `int`:
more than `INT_MAX` (or more data than `e.size` says, after a wrap-around of `e.size`) is
undefined.  `none` is undefined behaviour. -/
def putRecord (s : Store) (e : Entry) : Option Store :=
  if headerSize + e.size.toNat ≤ intMax then
    some { s with db := dbPut s.db e.key (serializeHeader e ++ e.data.take e.size.toNat) }
  else none

/-- `storage_tch::set`, /repo/src/lib/storage_tch.cc:125-309.  `e.data` keeps the caller's
buffer except for append/prepend/touch.  After a refusal in `setPrepare` the entry keeps the
new version. -/
def set (s : Store) (env : Env) (e : Entry) (b : Beh) : Store × Out :=
  let (s, cur, ex) := setCurrent s env e b
  let st := setState env.now b cur ex
  match setCheck st b e.version cur.version with
  | .error r => (s, ⟨.ok, some r, e⟩)
  | .ok v =>
    let e := { e with version := v }
    match setPrepare st b e cur with
    | .error () => (s, ⟨.err, none, e⟩)
    | .ok none => (s, ⟨.ub, none, e⟩)
    | .ok (some e) =>
      match putRecord s e with
      | none => (s, ⟨.ub, none, e⟩)
      | some s' =>
        if !env.putOk then (s, ⟨.err, none, e⟩)
        else (s', ⟨.ok, some (if b.touch then .touched else .stored), e⟩)

/-! ### incr / decr -/

/-- `isdigit` in the C locale. -/
def isDigit (c : UInt8) : Bool := decide (48 ≤ c) && decide (c ≤ 57)

/-- Value of a string of decimal digits. -/
def decValue (d : Bytes) : Nat := d.foldl (fun n c => 10 * n + (c.toNat - 48)) 0

/-- /repo/src/lib/storage_tch.cc:355-370: cut at the first byte that is NUL or not a digit,
then `lexical_cast<uint64_t>`; an empty string or a number above 2^64-1 does not convert
and counts as 0.  (`tchdbget` appends a NUL byte, so the loop stays inside the buffer.) -/
def leadingNumber (d : Bytes) : UInt64 :=
  let t := d.takeWhile isDigit
  if t.isEmpty || 2 ^ 64 ≤ decValue t then 0 else UInt64.ofNat (decValue t)

/-- /repo/src/lib/storage_tch.cc:373-378. -/
def incrValue (n value : UInt64) (increment : Bool) : UInt64 :=
  let m := n + (if increment then value else -value)
  if increment && decide (m < n) then 0 - 1
  else if !increment && decide (m > n) then 0
  else m

/-- Decimal digits with a bound on the number of digits. -/
def decimalAux : Nat → Nat → Bytes
  | 0, n => [UInt8.ofNat (48 + n)]
  | f + 1, n =>
    if n < 10 then [UInt8.ofNat (48 + n)]
    else decimalAux f (n / 10) ++ [UInt8.ofNat (48 + n % 10)]

/-- `snprintf("%llu")`: the decimal digits of a number, most significant first. -/
def decimal (n : Nat) : Bytes := decimalAux n n

/-- First locked section of `storage_tch::incr`, /repo/src/lib/storage_tch.cc:324-418 .  The
third component is `e_current` if the record was found expired (:346-353), in which case it
is removed after the lock has been released (:429-432). -/
def incrLocked (s : Store) (env : Env) (e : Entry) (value : UInt64) (increment : Bool)
    (b : Beh) : Store × Out × Option Entry :=
  match dbGet s.db e.key with
  | none => (s, ⟨.ok, some .notFound, e⟩, none)
  | some raw =>
    match unserializeHeader raw { key := [] } with
    | (_, false) => (s, ⟨.err, none, e⟩, none)
    | (cur, true) =>
      let cur := { cur with key := e.key }
      if raw.length - headerSize ≠ cur.size.toNat then (s, ⟨.err, none, e⟩, none)
      else if isExpired b.skipTimestamp cur.expire env.now then
        (s, ⟨.ok, some .notFound, e⟩, some cur)
      else
        let m := incrValue (leadingNumber (raw.drop headerSize)) value increment
        let d := decimal m.toNat
        let e := { e with
          flag := cur.flag
          expire := cur.expire
          size := UInt64.ofNat d.length
          version := cur.version + 1
          data := d }
        match putRecord s e with
        | none => (s, ⟨.ub, none, e⟩, none)
        | some s' =>
          if !env.putOk then (s, ⟨.err, none, e⟩, none)
          else (s', ⟨.ok, some .stored, e⟩, none)

/-- `storage_tch::incr`, /repo/src/lib/storage_tch.cc:311-442, run without another command
in the window before the removal of an expired record. -/
def incr (s : Store) (env : Env) (e : Entry) (value : UInt64) (increment : Bool)
    (b : Beh) : Store × Out :=
  match incrLocked s env e value increment b with
  | (s, o, none) => (s, o)
  | (s, o, some cur) => ((removeExpired s env cur).1, o)

/-- `storage_tch::truncate`, /repo/src/lib/storage_tch.cc:581-604.  The header cache is
cleared even if `tchdbvanish` fails. -/
def truncate (s : Store) (env : Env) : Store × Rc :=
  if env.vanishOk then ({ s with db := [], cache := [] }, .ok)
  else ({ s with cache := [] }, .err)

/-- `storage_tch::iter_begin`, /repo/src/lib/storage_tch.cc:606-622 (`initOk` is the answer
of `tchdbiterinit`). -/
def iterBegin (s : Store) (initOk : Bool) : Store × Rc :=
  if s.iterLock then (s, .err)
  else if !initOk then (s, .err)
  else ({ s with iterLock := true }, .ok)

/-- `storage_tch::iter_end`, /repo/src/lib/storage_tch.cc:658-670. -/
def iterEnd (s : Store) : Store × Rc :=
  if !s.iterLock then (s, .err) else ({ s with iterLock := false }, .ok)

/-- `storage::iteration`, /repo/src/lib/storage.h:125-129. -/
inductive Iteration where
  | continue_ (key : Bytes) | end_ | error
  deriving DecidableEq, Repr

/-- `storage_tch::iter_next`, /repo/src/lib/storage_tch.cc:624-656.  `ans` is the answer of
`tchdbiternext`: a key, the end, or an error.  The key is copied as a C string (`key = p`, :651). -/
def iterNext (s : Store) (ans : Iteration) : Iteration :=
  if !s.iterLock then .error
  else match ans with
    | .continue_ k => .continue_ (k.takeWhile (· ≠ 0))
    | .end_ => .end_
    | .error => .error

/-! ### Commands -/

/-- Behaviour bits of `set`: op_set.cc default. -/
def Beh.ofSet : Beh := {}
/-- op_add.cc:40,48 -/
def Beh.ofAdd : Beh := { add := true }
/-- op_replace.cc:40,48 -/
def Beh.ofReplace : Beh := { replace := true }
/-- op_cas.cc:40 -/
def Beh.ofCas : Beh := { cas := true }
/-- op_append.cc:41,49 -/
def Beh.ofAppend : Beh := { replace := true, append := true }
/-- op_prepend.cc:40,48 -/
def Beh.ofPrepend : Beh := { replace := true, prepend := true }
/-- op_touch.cc:40,48 (also gat) -/
def Beh.ofTouch : Beh := { touch := true }
/-- op_dump.cc:302 -/
def Beh.ofDump : Beh := { dump := true }

/-- A call to the storage made by the operations (op_set.cc:144, op_incr.cc, op_get.cc,
op_delete.cc, op_flush_all.cc, op_dump.cc:302). -/
inductive Cmd where
  | set (e : Entry) (b : Beh)
  | incr (e : Entry) (value : UInt64) (increment : Bool) (b : Beh)
  | get (e : Entry) (b : Beh)
  | remove (e : Entry) (b : Beh)
  | flush
  deriving DecidableEq, Repr

/-- One storage call as a step.  `flush` has no entry; its output carries only the return
code. -/
def step (s : Store) (env : Env) : Cmd → Store × Out
  | .set e b => set s env e b
  | .incr e v i b => incr s env e v i b
  | .get e b => get s env e b
  | .remove e b => remove s env e b
  | .flush => let (s', rc) := truncate s env; (s', ⟨rc, none, { key := [] }⟩)

/-- The store after a list of calls. -/
def run (s : Store) : List (Env × Cmd) → Store
  | [] => s
  | (env, c) :: rest => run (step s env c).1 rest

/-- The outputs of a list of calls, in order. -/
def outs (s : Store) : List (Env × Cmd) → List Out
  | [] => []
  | (env, c) :: rest => (step s env c).2 :: outs (step s env c).1 rest

/-- The key a call is about. -/
def Cmd.key? : Cmd → Option Bytes
  | .set e _ | .incr e _ _ _ | .get e _ | .remove e _ => some e.key
  | .flush => none

end Flare
