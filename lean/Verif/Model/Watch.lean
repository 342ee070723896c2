import Verif.Model.TimeUtil
import Verif.Model.Control
import Verif.Model.Monitor

/-!
The watch over storage accesses that take too long, and what becomes of a node with a broken storage:
/repo/src/lib/time_watcher.cc, time_watcher_observer.cc, time_watcher_processor.cc, time_watcher_scoped_observer.cc,
/repo/src/flared/status_node.cc, /repo/src/lib/op_ping.cc.

Simplifications.
* Registering, unregistering and a look at all accesses are one step each (they hold `_map_mutex`).
* The map from ids to accesses is a list of pairs; the order in which it is looked through makes no difference.
* Only `get` (and what is derived from it), `set` (and `add`, `replace`, `append`, `prepend`, `cas`) and `delete` are
  watched (/repo/src/lib/op_get.cc:136-141, op_set.cc:140-145, op_delete.cc:115-120); an access of `incr`, `touch`,
  `keys`, `dump` or `flush_all` does not appear here.
* A reload is one step; the polling thread that is stopped has ended before the next one is started
  (/repo/src/lib/time_watcher.cc:87-96).
-/
namespace Flare

/-- `time_watcher_target_info`. -/
structure Watched where
  start : Timespec
  warn : Timespec
  deriving DecidableEq, Repr

/-- `time_watcher`, the static members of `time_watcher_observer` and the status of the node.  `held` are the
`time_watcher_scoped_observer`s that exist, each with its `_tw_id`; they are told apart by a number. -/
structure Watch where
  map : List (UInt64 × Watched) := []
  next : UInt64 := 0
  held : List (Nat × UInt64) := []
  warn : UInt32
  ng : UInt32
  /-- a thread polls -/
  polling : Bool
  /-- `node_status_storage_error` -/
  broken : Bool := false
  deriving DecidableEq, Repr

/-- The loop of `_generate_id`, /repo/src/lib/time_watcher.cc:106-112: the id, and the counter afterwards (`incr` gives
the value before).  `none`: the bound on the number of rounds was reached. -/
def genId (map : List (UInt64 × Watched)) : Nat → UInt64 → Option (UInt64 × UInt64)
  | 0, _ => none
  | n + 1, c => if map.any (·.1 = c) then genId map n (c + 1) else some (c, c + 1)

/-- What happens. -/
inductive WEv where
  /-- a storage access begins: `time_watcher_scoped_observer::time_watcher_scoped_observer` -/
  | start (a : Nat) (now : Timespec)
  /-- it ends: the destructor -/
  | finish (a : Nat)
  /-- the storage itself reports an error, e.g. /repo/src/lib/storage_tch.cc:269-283 -/
  | fault
  /-- the polling thread looks at all accesses -/
  | poll (now : Timespec)
  /-- new options, /repo/src/flared/flared.cc:405-410 -/
  | reload (on : Bool) (interval warn ng : UInt32)
  deriving DecidableEq, Repr

/-- `_check_timestamp` and `on_storage_access_no_response`, /repo/src/lib/time_watcher.cc:98-104,
/repo/src/lib/time_watcher_observer.cc:42-65: whether the storage is reported as broken.  The first threshold is the
one at the time of registration, the second the present one. -/
def Watch.reports (s : Watch) (now : Timespec) (x : Watched) : Bool :=
  match checkTimestamp now x.start x.warn with
  | none => false
  | some d => isBigger d (msecToTimespec s.ng)

/-- One step.  The thread of an interval of zero ends at once (/repo/src/lib/time_watcher_processor.cc:57-61). -/
def Watch.step (s : Watch) : WEv → Watch
  | .start a now =>
    match genId s.map (s.map.length + 1) s.next with
    | none => s
    | some (id, next) =>
      { s with
        map := (id, ⟨now, msecToTimespec s.warn⟩) :: s.map.filter (·.1 ≠ id)
        next := next, held := (a, id) :: s.held }
  | .finish a =>
    match s.held.find? (·.1 = a) with
    | none => s
    | some (_, id) => { s with map := s.map.filter (·.1 ≠ id), held := s.held.filter (·.1 ≠ a) }
  | .fault => { s with broken := true }
  | .poll now => if s.polling then { s with broken := s.broken || s.map.any fun x => s.reports now x.2 } else s
  | .reload on interval warn ng => { s with warn := warn, ng := ng, polling := on && interval ≠ 0 }

def Watch.run (s : Watch) (l : List WEv) : Watch := l.foldl Watch.step s

/-- A node that starts, /repo/src/flared/flared.cc:263-269. -/
def Watch.init (on : Bool) (interval warn ng : UInt32) : Watch :=
  { warn := warn, ng := ng, polling := on && interval ≠ 0 }

/-- `op_ping::_run_server`, /repo/src/lib/op_ping.cc:78-86, with /repo/src/flared/status_node.h:51-61. -/
def pingAnswer (broken : Bool) : Bytes :=
  if broken then resultLine .serverError (ascii "storage error") else resultLine .ok []

/-- `op_ping::_parse_text_client_parameters`, /repo/src/lib/op_ping.cc:95-104: whether the check succeeded. -/
def pingRead (s : Bytes) : Bool :=
  match readLine s with
  | none => false
  | some (l, _) => cstr l = ascii "OK\n"

end Flare
