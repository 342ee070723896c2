import Verif.Model.Retry

/-! Model of the connection over which a node hands on writes, one after the other
(`handler_proxy::run` and `_process_queue`, /repo/src/lib/handler_proxy.cc:62-166;
`handler_cluster_replication::run`, /repo/src/lib/handler_cluster_replication.cc:59-110): which line
is taken for the answer to which write.

A write is sent and then, unless it is marked `noreply`, one line is read and taken for its answer
(`op_set::_parse_text_client_parameters`, /repo/src/lib/op_set.cc:221-240, the same in op_delete.cc
and op_incr.cc).  `connection_tcp::read` closes the connection when it breaks, but not when the time
to wait has passed (/repo/src/lib/connection_tcp.cc:242-249).  `queue_proxy_write::run` opens it again
only if it is closed (/repo/src/lib/queue_proxy_write.cc:93-101); closing empties the buffer
(/repo/src/lib/connection_tcp.cc:610-625).

Simplifications.
* The lines the receiver sends are not bytes but tokens: the number of the write they answer (which
  the sender does not see) and what they say.  Every line is an answer that the sender recognises.
* A request whose answer is late is executed before the next one on this connection, and what others
  do in between is part of the next try.
* Opening the connection again succeeds, or the next try ends `unsent`.
* A sender that does not read (`noreply`), or that finds a line in its buffer, does not notice that
  the connection breaks; this is then the beginning of the next try.
* Reads over the same connection are not in this model (Model/Get). -/
namespace Flare

/-- How one try of a write ends. -/
inductive LinkEnd where
  /-- writing fails, the connection is closed -/
  | unsent
  /-- executed, but the connection breaks before the answer is there -/
  | broken
  /-- executed, but nothing comes before the time to wait has passed; the connection stays open -/
  | late
  /-- executed and answered in time -/
  | inTime
  deriving DecidableEq, Repr

structure LinkTry where
  before : List (Env × Cmd) := []
  env : Env
  /-- the receiver does not execute it but answers with an error: no partition, or nowhere to hand
  it on (/repo/src/lib/op_set.cc:131-135) -/
  refused : Bool := false
  ends : LinkEnd
  deriving Repr

/-- A write to hand on, marked `noreply` or not, and how its tries end. -/
structure LinkJob where
  cmd : Cmd
  noreply : Bool := false
  tries : List LinkTry
  deriving Repr

/-- An answer: `none` is the error of a refused request. -/
abbrev LinkLine := Option Out

/-- The receiver's storage and the lines on the way or in the buffer, oldest first, each with the
number of the write it answers. -/
structure Link where
  store : Store
  unread : List (Nat × LinkLine) := []
  deriving Repr

/-- What the receiver does with a request (`op_set::_run_server`, /repo/src/lib/op_set.cc:113-181):
its storage afterwards and the lines it sends.  Errors are sent even if the request is marked
`noreply` (:131-135, :145-147); other answers are not (:176-178). -/
def linkServe (noreply : Bool) (c : Cmd) (t : LinkTry) (s : Store) : Store × List LinkLine :=
  if t.refused then (s, [none])
  else
    let (s', o) := step s t.env c
    (s', if o.rc = .ok ∧ noreply then [] else [some o])

/-- How `run_client` ends: it fails, or succeeds without reading, or with the line it has read. -/
inductive LinkRes where
  | failed
  | unasked
  | answer (owner : Nat) (l : LinkLine)
  deriving DecidableEq, Repr

/-- One `run_client` of write number `i`, with `open` behind it if the connection is closed. -/
def linkTry (i : Nat) (noreply : Bool) (c : Cmd) (t : LinkTry) (k : Link) : Link × LinkRes :=
  let s := run k.store t.before
  let (s', ls) := linkServe noreply c t s
  let own := ls.map fun l => (i, l)
  match t.ends with
  | .unsent => ({ store := s }, .failed)
  | .broken =>
    match noreply, k.unread with
    | true, u => ({ store := s', unread := u }, .unasked)
    | false, [] => ({ store := s' }, .failed)
    | false, (j, l) :: u => ({ store := s', unread := u }, .answer j l)
  | .late =>
    match noreply, k.unread with
    | true, u => ({ store := s', unread := u ++ own }, .unasked)
    | false, [] => ({ store := s', unread := own }, .failed)
    | false, (j, l) :: u => ({ store := s', unread := u ++ own }, .answer j l)
  | .inTime =>
    match noreply, k.unread ++ own with
    | true, u => ({ store := s', unread := u }, .unasked)
    | false, [] => ({ store := s' }, .failed)
    | false, (j, l) :: u => ({ store := s', unread := u }, .answer j l)

/-- The loop of `queue_proxy_write::run`, /repo/src/lib/queue_proxy_write.cc:89-106. -/
def linkRun (i : Nat) (noreply : Bool) (c : Cmd) : Nat → List LinkTry → Link → Link × LinkRes
  | 0, _, k => (k, .failed)
  | _ + 1, [], k => (k, .failed)
  | n + 1, t :: ts, k =>
    match linkTry i noreply c t k with
    | (k, .failed) => linkRun i noreply c n ts k
    | (k, r) => (k, r)

/-- The loop of the handler: the writes in the order of the queue, numbered from `i` on. -/
def linkJobs (i : Nat) : List LinkJob → Link → Link × List LinkRes
  | [], k => (k, [])
  | j :: js, k =>
    let (k, r) := linkRun i j.noreply j.cmd maxRetry j.tries k
    let (k, rs) := linkJobs (i + 1) js k
    (k, r :: rs)

end Flare
