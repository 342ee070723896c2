import Verif.Model.Storage

/-!
Sequences of iteration calls mixed with ordinary storage calls (C16).
-/
namespace Flare

/-- A call of the storage interface, iteration calls included. -/
inductive ICall where
  | begin_ (initOk : Bool)
  | next (ans : Iteration)
  | end_
  | cmd (env : Env) (c : Cmd)

/-- The store after the call and whether the call succeeded. -/
def istep (s : Store) : ICall → Store × Bool
  | .begin_ ok => ((iterBegin s ok).1, decide ((iterBegin s ok).2 = .ok))
  | .next ans => (s, decide (iterNext s ans ≠ .error))
  | .end_ => ((iterEnd s).1, decide ((iterEnd s).2 = .ok))
  | .cmd env c => ((step s env c).1, decide ((step s env c).2.rc = .ok))

/-- The calls with their success. -/
def itrace (s : Store) : List ICall → List (ICall × Bool)
  | [] => []
  | c :: cs => (c, (istep s c).2) :: itrace (istep s c).1 cs

/-- The store after the calls. -/
def irun (s : Store) : List ICall → Store
  | [] => s
  | c :: cs => irun (istep s c).1 cs

/-- A successful iter_begin in a trace. -/
def isBegin : ICall × Bool → Bool
  | (.begin_ _, true) => true
  | _ => false

/-- A successful iter_end in a trace. -/
def isEnd : ICall × Bool → Bool
  | (.end_, true) => true
  | _ => false

end Flare
