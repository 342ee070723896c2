import Verif.Model.Replication

/-!
One storage used by several connections at once.  Every connection has a thread of its own
(/repo/src/flared/handler_request.cc:56-98), the threads share the storage object.

A call is one locked section of the storage, except that `get` and `incr` remove a record that they have found
expired in a second section, after the lock has been released (/repo/src/lib/storage_tch.cc:429-432, 498-501).
What happens between the two sections is up to the other threads.

Simplifications:
* A locked section is one step (the locks themselves are in Model/Locks, C15).
* The node answers for all keys itself and has no slaves. -/
namespace Flare

/-- The first section of a call, and the entry of the record that is still to be removed. -/
def firstSection (s : Store) (env : Env) : Cmd → Store × Out × Option Entry
  | .get e b =>
    match getRead s env.now e b with
    | (o, true) => (s, o, some o.e)
    | (o, false) => (s, o, none)
  | .incr e v i b => incrLocked s env e v i b
  | c => let (s', o) := step s env c; (s', o, none)

/-- What a thread does at the storage. -/
inductive ShEv where
  /-- thread `c` makes a call -/
  | call (c : Nat) (env : Env) (cmd : Cmd)
  /-- thread `c` removes the record it has found expired -/
  | late (c : Nat) (env : Env)
  deriving DecidableEq, Repr

/-- The storage, and for every thread the removal it still has to make. -/
structure Shared where
  store : Store
  due : Nat → Option Entry := fun _ => none

/-- What is seen of a step: the call of a thread and its outcome, or that time has passed. -/
inductive ShSeen where
  | did (c : Nat) (now : Int64) (cmd : Cmd) (o : Out)
  | quiet (now : Int64)
  deriving DecidableEq, Repr

def Shared.setDue (s : Shared) (c : Nat) (d : Option Entry) : Shared :=
  { s with due := fun x => if x = c then d else s.due x }

/-- One step; a thread that has a removal to make does nothing else before. -/
def shStep (s : Shared) : ShEv → Shared × Option ShSeen
  | .call c env cmd =>
    match s.due c with
    | some _ => (s, none)
    | none =>
      let (st, o, d) := firstSection s.store env cmd
      (Shared.setDue { s with store := st } c d, some (.did c env.now cmd o))
  | .late c env =>
    match s.due c with
    | none => (s, none)
    | some e => (Shared.setDue { s with store := (removeExpired s.store env e).1 } c none, some (.quiet env.now))

def shRun (s : Shared) (evs : List ShEv) : Shared := evs.foldl (fun s ev => (shStep s ev).1) s

/-- What is seen of all steps, in order. -/
def shSeen : Shared → List ShEv → List ShSeen
  | _, [] => []
  | s, ev :: evs => (shStep s ev).2.toList ++ shSeen (shStep s ev).1 evs

end Flare
