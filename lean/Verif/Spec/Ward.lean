import Verif.Model.Ward
import Verif.Spec.Cluster
import Verif.Spec.Monitor

/-! Notions used to say when an index server takes its nodes down and brings them up. -/
namespace Flare

/-- The map says that the node is down. -/
def Ward.Down (s : Ward) (k : NodeKey) : Prop := ∃ n, mfind s.ix.nodes k = some n ∧ n.state = .down

/-- The map has the node, and not as down. -/
def Ward.Alive (s : Ward) (k : NodeKey) : Prop := ∃ n, mfind s.ix.nodes k = some n ∧ n.state ≠ .down

/-- The node a command is about. -/
def ICmd.node : ICmd → NodeKey
  | .add k => k
  | .down k => k
  | .ready k => k
  | .up k => k
  | .remove k => k
  | .role k _ _ _ => k
  | .state k _ => k

/-- No step of the operation fails. -/
def IEnv.Fine (env : IEnv) : Prop := env.beginOk = true ∧ env.loadOk = true ∧ env.storeOk = true

/-- A time in which node `k` always answers (`ok`) or never does: nobody gives commands about it, the threshold
of its watcher is not changed, no thread is woken with an empty queue (C45), no step of an operation fails, and no command is one that loses a partition
(C23).  Everything else may happen. -/
def WardEv.Calm (k : NodeKey) (ok : Bool) (s : Ward) : WardEv → Prop
  | .connect _ _ => True
  | .round j g => g ≠ .nothing ∧ (j = k → g.steady = true ∧
    if ok then g.fails = false ∧ g ≠ .unknown else g ≠ .check true)
  | .control env => env.Fine ∧ ∀ j r q, s.queue = (j, r) :: q → Safe s.ix.nodes (r.command j)
  | .cmd env c => env.Fine ∧ c.node ≠ k ∧ Safe s.ix.nodes c
  | .update _ => True
  | .threshold _ => True

def Ward.CalmRun (k : NodeKey) (ok : Bool) : Ward → List WardEv → Prop
  | _, [] => True
  | s, e :: l => e.Calm k ok s ∧ ∀ s', s.step e = some s' → Ward.CalmRun k ok s' l

/-- A round of the watcher of `k` that shows that the node answers, or that it does not. -/
def WardEv.shows (k : NodeKey) (ok : Bool) : WardEv → Bool
  | .round j g => j = k && if ok then g = .check true else g.fails
  | _ => false

def WardEv.isControl : WardEv → Bool
  | .control _ => true
  | _ => false

/-- The server is in order, knows the node and has a thread watching it that tried to connect. -/
structure Ward.Watches (s : Ward) (k : NodeKey) (threshold : Int) : Prop where
  map : ∃ n, mfind s.ix.nodes k = some n
  watcher : ∃ m, s.watchers k = some ⟨m, true⟩ ∧ m.threshold = threshold ∧ 0 ≤ m.failed
  positive : 0 < threshold

/-- The index server has come to its state by an orderly history (C20-C25) that does not end with a failed
save. -/
def Index.InOrder (s : Index) : Prop :=
  ∃ as, Orderly true Index.init as ∧ freshAfter true as = true ∧ s = ixRun Index.init as

/-- How often the controller takes a request. -/
def controls (l : List WardEv) : Nat := l.countP WardEv.isControl

/-- How often a round of the watcher shows the node's condition. -/
def showings (k : NodeKey) (ok : Bool) (l : List WardEv) : Nat := l.countP (WardEv.shows k ok)

/-- Failures of node `k` since the last successful check; the newest event comes last. -/
def streak (k : NodeKey) : Nat → List WardEv → Nat
  | n, [] => n
  | n, .connect j ok :: l => streak k (if j = k ∧ ok = false then n + 1 else n) l
  | n, .round j g :: l =>
    streak k (if j = k then (if g = .check true then 0 else if g.fails then n + 1 else n) else n) l
  | n, _ :: l => streak k n l

/-- Nobody changes the threshold. -/
def WardEv.steady : WardEv → Bool
  | .round _ g => g.steady
  | .threshold _ => false
  | _ => true

/-- The command takes node `k` down. -/
def ICmd.takesDown (k : NodeKey) : ICmd → Bool
  | .down j => j = k
  | .state j .down => j = k
  | _ => false

/-- An orderly history: as `Orderly`, with the requests the controller works off. -/
def Ward.OrderlyRun : Bool → Ward → List WardEv → Prop
  | _, _, [] => True
  | fresh, s, e :: l =>
    (match e with
      | .cmd _ c => fresh = true ∧ Safe s.ix.nodes c
      | .control _ => fresh = true ∧ ∀ j r q, s.queue = (j, r) :: q → Safe s.ix.nodes (r.command j)
      | _ => True) ∧
    ∀ s', s.step e = some s' → Ward.OrderlyRun
      (match e with
        | .cmd env _ => env.storeOk
        | .control env => env.storeOk
        | .update env => fresh || env.loadOk
        | _ => fresh) s' l

def WardEv.freshAfter (fresh : Bool) : List WardEv → Bool
  | [] => fresh
  | e :: l => WardEv.freshAfter (match e with
      | .cmd env _ => env.storeOk
      | .control env => env.storeOk
      | .update env => fresh || env.loadOk
      | _ => fresh) l

end Flare
