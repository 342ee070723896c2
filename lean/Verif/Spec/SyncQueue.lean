import Verif.Model.SyncQueue

/-! Notions used to state the properties of waiting for queued requests. -/
namespace Flare

/-- The sender has processed the request. -/
def QJob.served : QJob → Bool
  | .signalling b => b
  | .done b => b
  | _ => false

/-- The sender still has to call `sync_unref` for this job. -/
def QJob.pending : QJob → Bool
  | .queued => true
  | .running => true
  | .ran => true
  | _ => false

/-- The sender is about to send the signal. -/
def QJob.isSignalling : QJob → Bool
  | .signalling _ => true
  | _ => false

/-- How many steps the job still takes at most. -/
def QJob.weight : QJob → Nat
  | .queued => 4
  | .running => 3
  | .ran => 2
  | .signalling _ => 1
  | .done _ => 0
  | .lost => 0

def MainOp.weight : MainOp → Nat
  | .push => 5
  | _ => 1

def SyncSt.weight (st : SyncSt) : Nat :=
  (st.prog.map MainOp.weight).sum + (st.jobs.map QJob.weight).sum

/-- Every `sync_ref` is followed by the `enqueue` it is for or by the `sync_unref` that takes it
back, and there is no `sync` once the object has been enqueued without `sync_ref`.  `owed`: a
`sync_ref` has just been made. -/
def Tidy : Bool → List MainOp → Prop
  | false, .ref :: p => Tidy true p
  | true, .push :: p => Tidy false p
  | true, .unref :: p => Tidy false p
  | false, .wait :: p => Tidy false p
  | false, p => ∀ o ∈ p, o = .push
  | true, _ => False

/-- No sender is shut down while it has the object. -/
def SyncAct.plain : SyncAct → Bool
  | .main => true
  | .work _ => true
  | _ => false

/-- The owner has done everything it had to do. -/
def SyncSt.finished (st : SyncSt) : Prop := st.prog = [] ∧ st.waiting = false

/-- The owner has returned from the `sync` that is followed by `q`. -/
def SyncSt.passed (st : SyncSt) (q : List MainOp) : Prop :=
  st.prog.length ≤ q.length ∧ (st.prog.length = q.length → st.waiting = false)

end Flare
