import Verif.Model.Replication

/-! Model of the reconstruction of a replica: the master serves a dump while it goes on
executing writes, and both the records of the dump and the copies of the writes arrive at the
new replica, over different connections.

Simplifications.
* The dump is seen one record at a time: which keys it visits, and in which order, is up to
  the caller (`op_dump::_run_server` visits every record, see C47).
* Records of a dump arrive as they were sent (C34_dump). -/
namespace Flare

/-- What happens at the master. -/
inductive MEvent where
  | write (env : Env) (path : List Bytes) (r : WriteReq)
  | read (env : Env) (e : Entry)
  | dump (env : Env) (k : Bytes)
  deriving Repr

def MEvent.now : MEvent → Int64
  | .write env _ _ => env.now
  | .read env _ => env.now
  | .dump env _ => env.now

/-- What the master sends to the new replica. -/
inductive Sent where
  | copy (c : WriteReq)
  | dump (e : Entry)
  deriving DecidableEq, Repr

/-- One event at the master.  `dump`: the body of the loop of `op_dump::_run_server`,
/repo/src/lib/op_dump.cc:193-210: the key from the iteration is read, and sent unless the read
failed or found nothing. -/
def MEvent.apply (m : Store) : MEvent → Store × Option Sent
  | .write env path r =>
    let (m', c) := atMaster m env path r
    (m', c.map .copy)
  | .read env e => ((get m env e {}).1, none)
  | .dump env k =>
    let (m', o) := get m env { key := k } {}
    (m', if o.rc = .ok ∧ o.r ≠ some .notFound then some (.dump o.e) else none)

/-- The master's store, and everything sent, after a list of events. -/
def masterRun (m : Store) : List MEvent → Store × List Sent
  | [] => (m, [])
  | ev :: evs =>
    let (m', x) := ev.apply m
    let (m'', xs) := masterRun m' evs
    (m'', match x with
      | some x => x :: xs
      | none => xs)

/-- What happens at the new replica: a copy or a dumped record arrives, or a client reads. -/
inductive Arrival where
  | copy (c : WriteReq)
  | dump (e : Entry)
  | read (e : Entry)
  deriving Repr

/-- One event at the replica.  A dumped record goes to the storage with `behavior_dump`,
/repo/src/lib/op_dump.cc:301-305. -/
def Arrival.apply (s : Store) (env : Env) : Arrival → Store
  | .copy c => atSlave s env c
  | .dump e => (set s env e .ofDump).1
  | .read e => (get s env e {}).1

/-- The replica's store after a list of arrivals. -/
def replicaRun (s : Store) : List (Env × Arrival) → Store
  | [] => s
  | (env, a) :: as => replicaRun (a.apply s env) as

end Flare
