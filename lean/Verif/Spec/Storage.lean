import Verif.Model.Storage

/-!
Vocabulary for the storage properties.  Everything here is phrased through the calls of the
storage interface (`get`), except `Held`, which speaks about the deletion cache.
-/
namespace Flare

/-- What a client sees of a key. -/
structure Item where
  data : Bytes
  flag : UInt32
  expire : Int64
  version : UInt64
  deriving DecidableEq, Repr

/-- What an ordinary `get` (op_get: no behaviour bits) of key `k` at time `now` answers:
`some` item if the call succeeds with a value. -/
def lookup (s : Store) (now : Int64) (k : Bytes) : Option Item :=
  let o := (get s { now := now } { key := k } {}).2
  if o.rc = .ok ∧ o.r = some .none_ then
    some ⟨o.e.data, o.e.flag, o.e.expire, o.e.version⟩
  else none

/-- The expiry of an item is over at time `now`; 0 means that it never expires. -/
def Item.expiredAt (it : Item) (now : Int64) : Prop := 0 < it.expire ∧ it.expire ≤ now

/-- Key `k` has been deleted with a hold time that is not over at time `now`. -/
def Held (s : Store) (now : Int64) (k : Bytes) : Prop :=
  dbGet s.db k = none ∧ ∃ t, tombGet s.cache k = some t ∧ 0 < t.expire ∧ now < t.expire

/-- The caller's entry is well formed: the buffer holds exactly `size` bytes and the record
fits the `int` lengths of Tokyo Cabinet.  (op_set.cc:85-91 allocates exactly `size` bytes;
entry::parse bounds `size` by 2^31-1, so the last 28 values violate the bound.) -/
def Entry.Ok (e : Entry) : Prop :=
  e.data.length = e.size.toNat ∧ headerSize + e.data.length ≤ intMax

/-- A raw database value that `get` can read: a full header whose size field is the length
of the rest. -/
def RawOk (raw : Bytes) : Prop :=
  headerSize ≤ raw.length ∧ raw.length ≤ intMax ∧
    (unserializeHeader raw { key := [] }).1.size.toNat = raw.length - headerSize

/-- The store holds no damaged record, and the deletion cache is within its bound and has
one slot per key.  Every store reached from the empty one satisfies this
(`run_ok`). -/
def Store.Ok (s : Store) : Prop :=
  (∀ k raw, dbGet s.db k = some raw → RawOk raw) ∧ s.cache.length ≤ s.cacheSize ∧
    (s.cache.map (·.1)).Nodup

/-- The answer reports a change of the key. -/
def Out.changed (o : Out) : Prop :=
  o.r = some .stored ∨ o.r = some .touched ∨ o.r = some .deleted

/-- While the calls `cs` run from `s`, no call reports a change of key `k` and there is no
flush_all.  (Calls about other keys are unrestricted.) -/
def Quiet (k : Bytes) : Store → List (Env × Cmd) → Prop
  | _, [] => True
  | s, (env, c) :: cs =>
    c ≠ .flush ∧ (c.key? = some k → ¬ (step s env c).2.changed) ∧ Quiet k (step s env c).1 cs

/-- The empty store a server starts with on an empty data directory. -/
def Store.empty (cacheSize : Nat) : Store := { cacheSize := cacheSize }

/-! ### Client histories -/

/-- The store holds a record of the key, or the record of its deletion is still cached. -/
def Remembered (s : Store) (k : Bytes) : Prop := dbGet s.db k ≠ none ∨ tombGet s.cache k ≠ none

/-- A command as a client sends it: no explicit version (except for cas), no behaviour bits beyond
those of the command, and no flush_all. -/
def Cmd.client : Cmd → Prop
  | .set e b =>
    b = .ofCas ∨ (e.version = 0 ∧ (b = .ofSet ∨ b = .ofAdd ∨ b = .ofReplace ∨ b = .ofAppend ∨
      b = .ofPrepend ∨ b = .ofTouch))
  | .incr _ _ _ b => b = {}
  | .get _ b => b = {}
  | .remove e b => e.version = 0 ∧ b = {}
  | .flush => False

/-- While the calls run, the store does not forget the key: whenever it knows the key before a call
it still does after the call (its deletion record is not pushed out of the bounded cache). -/
def Keeps (k : Bytes) : Store → List (Env × Cmd) → Prop
  | _, [] => True
  | s, (env, c) :: cs =>
    (Remembered s k → Remembered (step s env c).1 k) ∧ Keeps k (step s env c).1 cs

/-- How many of the calls were answered STORED for key `k`. -/
def storedCount (k : Bytes) : Store → List (Env × Cmd) → Nat
  | _, [] => 0
  | s, (env, c) :: cs =>
    (if c.key? = some k ∧ (step s env c).2.r = some .stored then 1 else 0) +
      storedCount k (step s env c).1 cs

end Flare
