import Verif.Spec.Storage
import Verif.Spec.Session
import Verif.Spec.Dump
import Verif.Model.Shared
import Verif.Lemmas.Storage

namespace Flare

/-! What the clients of a node should see: one memory, in which the requests of all of them are carried out
one at a time.  Written after the description of the protocol, without records, caches, locks or threads. -/

/-- What is in the memory for a key. -/
inductive MemSlot where
  | empty
  | full (it : Item)
  /-- deleted: until when it is held back, and the last version -/
  | gone (until_ : Int64) (version : UInt64)
  deriving DecidableEq, Repr

abbrev Memory := Bytes → MemSlot

/-- The value that is there at a time. -/
def MemSlot.live (now : Int64) : MemSlot → Option Item
  | .full it => if 0 < it.expire ∧ it.expire ≤ now then none else some it
  | _ => none

/-- Deleted with a hold that is not over. -/
def MemSlot.held (now : Int64) : MemSlot → Bool
  | .gone u _ => 0 < u ∧ now < u
  | _ => false

def MemSlot.version : MemSlot → UInt64
  | .empty => 0
  | .full it => it.version
  | .gone _ v => v

/-- What a client asks for. -/
inductive MemAsk where
  | write (r : WriteReq)
  | read (k : Bytes)
  | clear
  deriving DecidableEq, Repr

/-- What it is told. -/
inductive MemTold where
  | failed
  | said (r : Result)
  | number (n : Nat)
  | value (it : Item)
  | cleared
  deriving DecidableEq, Repr

/-- The number a value begins with; 0 if there is none, or if it has more than 64 bits. -/
def memNumber (d : Bytes) : Nat :=
  let t := d.takeWhile isDigit
  if decValue t < 2 ^ 64 then decValue t else 0

/-- A write at the slot of its key. -/
def memWrite (now : Int64) (x : MemSlot) (r : WriteReq) : MemSlot × MemTold :=
  let fresh : MemSlot := .full ⟨r.entry.data, r.entry.flag, r.entry.expire, x.version + 1⟩
  match r.cmd with
  | .set => (fresh, .said .stored)
  | .add => if (x.live now).isSome ∨ x.held now then (x, .said .notStored) else (fresh, .said .stored)
  | .replace => if (x.live now).isSome then (fresh, .said .stored) else (x, .said .notStored)
  | .append =>
    match x.live now with
    | none => (x, .said .notStored)
    | some it => (.full { it with data := it.data ++ r.entry.data, version := it.version + 1 }, .said .stored)
  | .prepend =>
    match x.live now with
    | none => (x, .said .notStored)
    | some it => (.full { it with data := r.entry.data ++ it.data, version := it.version + 1 }, .said .stored)
  | .cas =>
    if (x.live now).isSome ∨ x.held now then
      if r.entry.version = x.version then (fresh, .said .stored) else (x, .said .exists_)
    else (x, .said .notFound)
  | .touch =>
    match x.live now with
    | none => (x, .said .notFound)
    | some it => (.full { it with expire := r.entry.expire }, .said .touched)
  | .gat =>
    match x.live now with
    | none => (x, .said .notFound)
    | some it => (.full { it with expire := r.entry.expire }, .value { it with expire := r.entry.expire })
  | .incr =>
    match x.live now with
    | none => (x, .said .notFound)
    | some it =>
      let n := min (memNumber it.data + r.value.toNat) (2 ^ 64 - 1)
      (.full { it with data := decimal n, version := it.version + 1 }, .number n)
  | .decr =>
    match x.live now with
    | none => (x, .said .notFound)
    | some it =>
      let n := memNumber it.data - r.value.toNat
      (.full { it with data := decimal n, version := it.version + 1 }, .number n)
  | .delete =>
    match x with
    | .full it => (.gone (if r.entry.expire = 0 then now else r.entry.expire) it.version,
        .said (if (x.live now).isSome then .deleted else .notFound))
    | _ => (x, .said .notFound)

/-- A request carried out on the memory. -/
def memDo (now : Int64) (m : Memory) : MemAsk → Memory × MemTold
  | .write r =>
    let y := memWrite now (m r.entry.key) r
    (fun k => if k = r.entry.key then y.1 else m k, y.2)
  | .read k =>
    (m, match (m k).live now with
      | some it => .value it
      | none => .said .notFound)
  | .clear => (fun _ => .empty, .cleared)

/-- What a slot may turn into by itself: if nothing is there any more and no hold is running, only the version
may remain, or nothing; a deletion may be forgotten at any time. -/
def SlotFades (now : Int64) (x y : MemSlot) : Prop :=
  y = x ∨
  (x.live now = none ∧ x.held now = false ∧ (y = .empty ∨ ∃ u, u ≤ now ∧ y = .gone u x.version)) ∨
  (y = .empty ∧ ∃ u v, x = .gone u v)

def Fades (now : Int64) (m m' : Memory) : Prop := ∀ k, SlotFades now (m k) (m' k)

/-- One thing that happened: a request of a client carried out, or time passing. -/
inductive MemEv where
  | did (c : Nat) (now : Int64) (a : MemAsk) (t : MemTold)
  | quiet (now : Int64)
  deriving DecidableEq, Repr

/-- A request that is told `t` and leaves the memory `m1`.  One that failed has changed nothing. -/
def MemStep (now : Int64) (m : Memory) (a : MemAsk) (t : MemTold) (m1 : Memory) : Prop :=
  t = .failed ∧ Fades now m m1 ∨ t = (memDo now m a).2 ∧ Fades now (memDo now m a).1 m1

/-- The memory explains what happened. -/
def Explains : Memory → List MemEv → Memory → Prop
  | m, [], m' => m = m'
  | m, .quiet now :: l, m' => ∃ m1, Fades now m m1 ∧ Explains m1 l m'
  | m, .did _ now a t :: l, m' => ∃ m1, MemStep now m a t m1 ∧ Explains m1 l m'

/-! ### Requests and calls -/

/-- The call of the storage for a request. -/
def MemAsk.cmd : MemAsk → Cmd
  | .write r => r.call
  | .read k => .get { key := k } {}
  | .clear => .flush

/-- Requests of clients: no version except for `cas`, a value of the announced size. -/
def MemAsk.Client : MemAsk → Prop
  | .write r => (r.cmd ≠ .cas → r.entry.version = 0) ∧ (r.cmd.kind = .store → r.entry.Ok)
  | _ => True

/-- What the outcome of a call says. -/
def MemAsk.told : MemAsk → Out → MemTold
  | .write r, o =>
    match o.rc, o.r with
    | .ok, some x =>
      if r.cmd.kind = .count ∧ x = .stored then .number (decValue (o.e.data.take o.e.size.toNat))
      else if r.cmd = .gat ∧ x = .touched then
        .value ⟨o.e.data.take o.e.size.toNat, o.e.flag, o.e.expire, o.e.version⟩
      else .said x
    | _, _ => .failed
  | .read _, o =>
    match o.rc, o.r with
    | .ok, some .none_ => .value ⟨o.e.data.take o.e.size.toNat, o.e.flag, o.e.expire, o.e.version⟩
    | .ok, some x => .said x
    | _, _ => .failed
  | .clear, o => if o.rc = .ok then .cleared else .failed

/-- What a storage amounts to. -/
def memoryOf (s : Store) : Memory := fun k =>
  match dbGet s.db k with
  | some raw => .full (itemOf raw)
  | none => match tombGet s.cache k with
    | some t => .gone t.expire t.version
    | none => .empty

/-- What the threads do: requests of clients, and removals of expired records. -/
inductive AskEv where
  | ask (c : Nat) (env : Env) (a : MemAsk)
  | late (c : Nat) (env : Env)
  deriving DecidableEq, Repr

def AskEv.ev : AskEv → ShEv
  | .ask c env a => .call c env a.cmd
  | .late c env => .late c env

/-- What a step looks like to the clients. -/
def AskEv.shows : AskEv → Option ShSeen → List MemEv
  | .ask c _ a, some (.did _ now _ o) => [.did c now a (a.told o)]
  | _, some (.quiet now) => [.quiet now]
  | _, _ => []

/-- All that happened, as the clients know it. -/
def memSeen : Shared → List AskEv → List MemEv
  | _, [] => []
  | s, e :: l => e.shows (shStep s e.ev).2 ++ memSeen (shStep s e.ev).1 l

/-- What all requests and removals leave behind. -/
def memRun (s : Shared) (l : List AskEv) : Shared := shRun s (l.map AskEv.ev)

/-- The removal of a record that was found expired does no harm: it has a version, it had expired, and if that
version is still the last one known, nothing is there and no hold is running. -/
def Harmless (now : Int64) (m : Memory) (e : Entry) : Prop :=
  e.version ≠ 0 ∧ e.expire ≤ now ∧
    ((m e.key).version = e.version → (m e.key).live now = none ∧ (m e.key).held now = false)

def AskEv.harmless (s : Shared) : AskEv → Prop
  | .ask .. => True
  | .late c env => ∀ e, s.due c = some e → Harmless env.now (memoryOf s.store) e

/-- All removals are harmless when they are made. -/
def AllHarmless : Shared → List AskEv → Prop
  | _, [] => True
  | s, e :: l => e.harmless s ∧ AllHarmless (shStep s e.ev).1 l

/-- All requests are those of clients. -/
def AskEv.client : AskEv → Prop
  | .ask _ _ a => a.Client
  | .late .. => True

/-- No call runs into undefined behaviour. -/
def Defined (s : Shared) (l : List AskEv) : Prop :=
  ∀ c now cmd o, .did c now cmd o ∈ shSeen s (l.map AskEv.ev) → o.rc ≠ .ub

def AskEv.now : AskEv → Int64
  | .ask _ env _ => env.now
  | .late _ env => env.now

/-- A request that leaves the versions going up: not `flush_all`, no deletion with a hold, a key out of `K`. -/
def MemAsk.Calm (K : List Bytes) : MemAsk → Prop
  | .write r => r.entry.key ∈ K ∧ (r.cmd = .delete → r.entry.expire = 0)
  | .read k => k ∈ K
  | .clear => False

def AskEv.calm (K : List Bytes) : AskEv → Prop
  | .ask _ _ a => a.Calm K
  | .late .. => True

/-! ### What the clients read -/

/-- The calls of the storage that a request needs. -/
def SReq.asks : SReq → List MemAsk
  | .write r => [.write r]
  | .get _ ks => ks.map .read
  | .flush _ => [.clear]
  | _ => []

def asksOf (rs : List SReq) : List MemAsk := rs.flatMap SReq.asks

/-- What a client should read, from what the memory says. -/
def SReq.told (now : Int64) (r : SReq) (ts : List MemTold) : Reply :=
  if r.silent then .nothing
  else match r, ts with
  | .write x, [.value it] => .values [shown .get now (it.entry x.entry.key)]
  | .write _, [.number n] => .number n
  | .write _, [.said x] => .result x.toOp []
  | .write _, _ => .result .serverError (ascii "i/o error")
  | .get t ks, ts => .values ((ks.zip ts).filterMap fun x =>
      match x.2 with
      | .value it => some (shown t now (it.entry x.1))
      | _ => none)
  | .flush _, [.cleared] => .result .ok []
  | .flush _, _ => .result .serverError (ascii "unknown error")
  | .version, _ => .version
  | .quit, _ => .result .end_ []
  | _, _ => .result .ok []

def repliesOf (now : Int64) : List SReq → List MemTold → List Reply
  | [], _ => []
  | r :: rs, ts => r.told now (ts.take r.asks.length) :: repliesOf now rs (ts.drop r.asks.length)

/-- What a client has asked for, and what it was told. -/
def askedBy (c : Nat) (l : List MemEv) : List MemAsk :=
  l.filterMap fun
    | .did c' _ a _ => if c' = c then some a else none
    | .quiet _ => none

def toldBy (c : Nat) (l : List MemEv) : List MemTold :=
  l.filterMap fun
    | .did c' _ _ t => if c' = c then some t else none
    | .quiet _ => none

/-- The outcomes of the calls of a thread. -/
def outsBy (c : Nat) (s : Shared) (l : List AskEv) : List Out :=
  (shSeen s (l.map AskEv.ev)).filterMap fun
    | .did c' _ _ o => if c' = c then some o else none
    | .quiet _ => none

/-- The rest of the node, for one session: the outcomes of its calls in order. -/
def oracle : Back (List Out) where
  write l r := (l.tail, .own (l.head?.getD ⟨.err, none, r.entry⟩))
  read l k := (l.tail, .here (l.head?.getD ⟨.err, none, { key := k }⟩))
  status l := (l, none)
  flush l := (l.tail, l.head?.map (·.rc) = some .ok)

/-- No call runs into undefined behaviour, and all values can be sent. -/
def AllSendable (s : Shared) (l : List AskEv) : Prop :=
  ∀ c now cmd o, .did c now cmd o ∈ shSeen s (l.map AskEv.ev) → o.rc ≠ .ub ∧ o.e.size.toNat + 16384 ≤ intMax

/-- No write for which no answer is wanted fails. -/
def QuietOk (l : List MemEv) : Prop :=
  ∀ c now r, .did c now (.write r) .failed ∈ l → r.entry.option &&& optNoreply = 0

end Flare
