import Verif.Model.Dump
import Verif.Spec.Storage
import Verif.Spec.Text

/-! What a dump has to contain. -/
namespace Flare

/-- A record as an entry that carries its key. -/
def Item.entry (it : Item) (k : Bytes) : Entry :=
  { key := k, flag := it.flag, expire := it.expire, version := it.version,
    size := UInt64.ofNat it.data.length, data := it.data }

/-- The key the loop gets from the iteration in this round: it ends at a NUL byte. -/
def DumpRound.key? (r : DumpRound) : Option Bytes :=
  match r.ans with
  | .continue_ k => some (k.takeWhile (· ≠ 0))
  | _ => none

/-- The calls on the storage during a round, of other threads and of the dump itself. -/
def DumpRound.calls (belongs : Bytes → Option Bool) (r : DumpRound) : List (Env × Cmd) :=
  r.before ++ r.mid ++
    match r.key? with
    | some k => if belongs k = some true then [(r.env, .get { key := k } {})] else []
    | none => []

/-- The calls on the storage during some rounds. -/
def dumpCalls (belongs : Bytes → Option Bool) (rs : List DumpRound) : List (Env × Cmd) :=
  rs.flatMap (·.calls belongs)

/-- At every round the key is visible when it is read. -/
def AlwaysFound (b : Bytes → Option Bool) (s : Store) (rs : List DumpRound) : Prop :=
  ∀ pre r post k, rs = pre ++ r :: post → r.key? = some k → b k = some true →
    lookup (run s (dumpCalls b pre ++ r.before ++ r.mid)) r.env.now k ≠ none

end Flare
