import Verif.Model.Iterate
import Verif.Spec.Dump

/-! What the properties about going through all keys say. -/
namespace Flare

/-- The records are in the order of the file, and no key has two. -/
def Records.Ok (f : Records) : Prop := f.Pairwise (fun a b => a.1 < b.1) ∧ (f.map (·.2)).Nodup

/-- The change removes the record of the key or puts it elsewhere. -/
def FileEv.Touches (k : Bytes) : FileEv → Prop
  | .put _ _ => False
  | .out k' => k' = k
  | .move k' _ => k' = k

/-- The leaves have different numbers, and no key has two records. -/
def Leaves.Ok (t : Leaves) : Prop := (t.map (·.id)).Nodup ∧ t.keys.Nodup

/-- The records behind the cursor. -/
def Leaves.after (t : Leaves) : TreePos → List Bytes
  | .start => t.keys
  | .lost => []
  | .at id i =>
    match t.tail id with
    | [] => []
    | l :: ls => l.keys.drop (i + 1) ++ Leaves.keys ls

/-- The change does not harm: what is removed is behind the cursor, and the leaf of the cursor is not dropped. -/
def TreeEv.Harmless (t : Leaves) (p : TreePos) : TreeEv → Prop
  | .out k => k ∈ t.after p ∨ k ∉ t.keys
  | .drop id => ∀ i, p ≠ .at id i
  | _ => True

/-- No change of these harms. -/
def TreeHarmless : Leaves → TreePos → List TreeEv → Prop
  | _, _, [] => True
  | t, p, e :: es => e.Harmless t p ∧ TreeHarmless (t.apply e) p es

/-- No change between the calls of an iteration harms. -/
def CursorHarmless : Leaves → TreePos → List (List TreeEv) → Prop
  | _, _, [] => True
  | t, p, es :: rest =>
    TreeHarmless t p es ∧ ∀ k s, tcbNext (es.foldl (fun s e => tcbChange e s) (t, p)) = some (k, s) → CursorHarmless s.1 s.2 rest

/-- The keys that are returned if the removal of the one returned last makes the next one be passed over. -/
def passing (gone : Bytes → Bool) : List Bytes → List Bytes
  | [] => []
  | [k] => [k]
  | k :: k' :: ks => if gone k then k :: passing gone ks else k :: passing gone (k' :: ks)

/-- A dump that reads the record of the key removes it: it has expired and is of the partition. -/
def readGone (b : Bytes → Option Bool) (s : Store) (env : Env) (k : Bytes) : Bool :=
  b k == some true && env.outOk && (dbGet s.db k).isSome && (lookup s env.now k).isNone

/-- The rounds of a dump with nobody else at work, in which the iteration returns these keys. -/
def quietRounds (env : Env) (ks : List Bytes) : List DumpRound :=
  (ks.map fun k => { ans := .continue_ k, env := env }) ++ [{ ans := .end_, env := env }]

end Flare
