import Verif.Model.Storage

/-! Model of a write that is handed to another node and repeated if no answer comes,
/repo/src/lib/queue_proxy_write.cc:75-128: a client's write sent on to the master, or a copy sent to
a replica.

Simplifications.
* The receiving node executes the command on its storage (`Cmd`); routing there is not repeated
  here (Model/Routing).
* A try either does not reach the storage, or is executed and its answer is lost (the connection
  breaks, or the answer does not come in time), or is executed and answered. -/
namespace Flare

inductive TryEnd where
  | unsent | unanswered | answered
  deriving DecidableEq, Repr

/-- One pass of the loop: what others do at the receiver before, and how it ends. -/
structure FwdTry where
  before : List (Env × Cmd) := []
  env : Env
  ends : TryEnd
  deriving Repr

/-- `max_retry`, /repo/src/lib/queue_proxy_write.h:59. -/
def maxRetry : Nat := 4

/-- The loop of `queue_proxy_write::run`, /repo/src/lib/queue_proxy_write.cc:89-106: the receiver's
storage afterwards, and the answer if there is one (otherwise the queue entry has failed).  The
first argument is `retry`; tries that are not given have not happened yet. -/
def forwardRun (c : Cmd) : Nat → List FwdTry → Store → Store × Option Out
  | 0, _, s => (s, none)
  | _ + 1, [], s => (s, none)
  | n + 1, t :: ts, s =>
    let s := run s t.before
    match t.ends with
    | .unsent => forwardRun c n ts s
    | .unanswered => forwardRun c n ts (step s t.env c).1
    | .answered => ((step s t.env c).1, some (step s t.env c).2)

end Flare
