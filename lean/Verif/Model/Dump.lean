import Verif.Model.Text
import Verif.Model.KeyResolver

/-! Model of copying whole partitions: `op_dump` at both ends (/repo/src/lib/op_dump.cc), the
handler that runs it (/repo/src/lib/handler_reconstruction.cc), and the initial copy to another
cluster (/repo/src/lib/handler_dump_replication.cc).

Simplifications.
* Which keys `tchdbiternext` returns is an input of the model.
* Calls of other threads happen before `iter_next` or between `iter_next` and `get`, where the
  loops hold no lock of the storage; `get` is taken as one step.
* Waiting (`wait`, bandwidth limit) is left out; so is TCP_NODELAY. -/
namespace Flare

/-! ### The sender -/

/-- The key is to be sent: `_partition < 0`, or it resolves to the partition,
/repo/src/lib/op_dump.cc:184-192.  `none` is undefined behaviour of the resolver. -/
def inPartition (kr : Resolver) (hash : Bytes → Int32) (partition : Int) (size : Nat) (k : Bytes) :
    Option Bool :=
  if partition ≥ 0 then
    match resolve kr (hash k).toInt size with
    | none => none
    | some p => some ((p : Int) == partition)
  else some true

/-- One round of the loop, seen from outside: the calls of other threads before `iter_next`, the
answer of `tchdbiternext`, whether a shutdown has been requested, the calls of other threads
before `get`, the circumstances of `get`, whether the write succeeds, and whether a shutdown
has been requested by the time the loop has been left. -/
structure DumpRound where
  before : List (Env × Cmd) := []
  ans : Iteration
  shutdown : Bool := false
  mid : List (Env × Cmd) := []
  env : Env
  writeOk : Bool := true
  late : Bool := false
  deriving Repr

/-- The last line of the answer. -/
inductive DumpEnd where
  | fin
  | busy
  | interrupted
  | canceled
  | ub
  deriving DecidableEq, Repr

/-- A dump so far: the store, the entries sent, and the last line if the loop has been left. -/
structure DumpRun where
  store : Store
  sent : List Entry
  ended : Option DumpEnd
  deriving Repr

def DumpRun.cons (e : Entry) (r : DumpRun) : DumpRun := { r with sent := e :: r.sent }

/-- The choice of the last line, /repo/src/lib/op_dump.cc:222-230; `i` is the last answer of
`iter_next`. -/
def dumpEnd (i : Iteration) (shutdown : Bool) : DumpEnd :=
  if shutdown then .interrupted
  else match i with
    | .end_ => .fin
    | _ => .canceled

/-- The loop of `op_dump::_run_server`, /repo/src/lib/op_dump.cc:179-214.  The variable `e` is
declared outside of the loop: a round begins with what the last one has left in it. -/
def dumpLoop (belongs : Bytes → Option Bool) : Store → Entry → List DumpRound → DumpRun
  | s, _, [] => ⟨s, [], none⟩
  | s, e, r :: rs =>
    let s := run s r.before
    match iterNext s r.ans with
    | .continue_ k =>
      if r.shutdown then ⟨s, [], some (dumpEnd (.continue_ k) true)⟩
      else
        let s := run s r.mid
        match belongs k with
        | none => ⟨s, [], some .ub⟩
        | some false => dumpLoop belongs s { e with key := k } rs
        | some true =>
          let (s, o) := get s r.env { e with key := k } {}
          if o.rc ≠ .ok ∨ o.r = some .notFound then dumpLoop belongs s o.e rs
          else if !r.writeOk then ⟨s, [], some (dumpEnd (.continue_ k) r.late)⟩
          else (dumpLoop belongs s o.e rs).cons o.e
    | i => ⟨s, [], some (dumpEnd i (r.shutdown || r.late))⟩

/-- `op_dump::_run_server`, /repo/src/lib/op_dump.cc:163-231. -/
def dumpServer (belongs : Bytes → Option Bool) (s : Store) (initOk : Bool) (rs : List DumpRound) :
    DumpRun :=
  match iterBegin s initOk with
  | (s, .ok) =>
    let r := dumpLoop belongs s { key := [] } rs
    if r.ended.isSome then { r with store := (iterEnd r.store).1 } else r
  | (s, _) => ⟨s, [], some .busy⟩

/-- A text of ASCII characters. -/
def ascii (s : String) : Bytes := s.toList.map fun c => UInt8.ofNat c.toNat

/-- The last line as it is sent, /repo/src/lib/op_dump.cc:168-170, 222-230 with
`op::_send_text_result`, /repo/src/lib/op.cc:181-190. -/
def DumpEnd.line : DumpEnd → Bytes
  | .fin => strEnd ++ crlf
  | .busy => ascii "SERVER_ERROR database busy" ++ crlf
  | .interrupted => ascii "SERVER_ERROR operation interrupted" ++ crlf
  | .canceled => ascii "SERVER_ERROR iteration canceled" ++ crlf
  | .ub => []

/-! ### The receiver -/

inductive ClientEnd where
  /-- `run_client` returns 0 -/
  | ok
  /-- `run_client` returns -1 -/
  | failed
  /-- undefined behaviour while parsing -/
  | ub
  deriving DecidableEq, Repr

/-- `op_dump::_parse_text_client_parameters`, /repo/src/lib/op_dump.cc:243-314: the entries
handed to the storage and the return value.  `sd` gives the shutdown flag at the successive
moments it is looked at.  A round consumes at least one byte, so the length of the stream bounds
the number of rounds (`fuel`). -/
def dumpClient (now : Int64) (w q : Bytes) (sd : Nat → Bool) :
    Nat → Nat → Bytes → List Entry × ClientEnd
  | 0, _, _ => ([], .failed)
  | fuel + 1, n, s =>
    if sd n then ([], .ok)
    else
      match readLine s with
      | none => ([], .failed)
      | some _ =>
        if sd (n + 1) then ([], .ok)
        else
          match readAnswer now w q s with
          | .error .err => ([], .failed)
          | .error .ub => ([], .ub)
          | .ok (.fin _) => ([], .ok)
          | .ok (.value e rest) =>
            let (es, r) := dumpClient now w q sd fuel (n + 2) rest
            (e :: es, r)

/-- The storage after the entries have been handed to it; failures are ignored,
/repo/src/lib/op_dump.cc:301-305. -/
def storeDump (s : Store) : List (Env × Entry) → Store
  | [] => s
  | (env, e) :: es => storeDump (set s env e .ofDump).1 es

/-! ### The handler -/

/-- What the index server is told. -/
inductive Told where
  /-- `activate_node(true)`: state active -/
  | active
  /-- `activate_node()`: state ready -/
  | ready
  /-- `deactivate_node()`: role proxy -/
  | proxy
  deriving DecidableEq, Repr

/-- The end of `handler_reconstruction::run` for a slave,
/repo/src/lib/handler_reconstruction.cc:67-112. -/
def slaveDone : ClientEnd → Option Told
  | .ok => some .active
  | .failed => some .proxy
  | .ub => none

/-- What happens to the reconstruction of a master, which copies from every other master at the same
time: a copy is counted and started (`_shift_node_role`, /repo/src/lib/cluster.cc:1548-1574), and
later ends well or not (/repo/src/lib/handler_reconstruction.cc:89-105). -/
inductive CopyStep where
  | start
  | done
  | failed
  deriving DecidableEq, Repr

/-- The counter `_master_reconstruction` and what the index server is told.  A copy that failed is
not counted back. -/
def CopyStep.apply (n : Int) : CopyStep → Int × Option Told
  | .start => (n + 1, none)
  | .done => (n - 1, if n - 1 ≤ 0 then some .ready else none)
  | .failed => (n, some .proxy)

/-- Counter and messages after some steps. -/
def copySteps (n : Int) : List CopyStep → Int × List Told
  | [] => (n, [])
  | c :: cs =>
    let (n, t) := c.apply n
    let (n, ts) := copySteps n cs
    (n, t.toList ++ ts)

/-! ### The initial copy to another cluster -/

/-- The loop of `handler_dump_replication::run`, /repo/src/lib/handler_dump_replication.cc:95-135: the
entries handed to `op_set::run_client`.  Unlike in `op_dump` the result of `get` is looked at only
if the return value is negative (:111-118); `writeOk` is the answer of `run_client`. -/
def dumpReplLoop (belongs : Bytes → Option Bool) : Store → Entry → List DumpRound → DumpRun
  | s, _, [] => ⟨s, [], none⟩
  | s, e, r :: rs =>
    let s := run s r.before
    match iterNext s r.ans with
    | .continue_ k =>
      if r.shutdown then ⟨s, [], some .interrupted⟩
      else
        let s := run s r.mid
        match belongs k with
        | none => ⟨s, [], some .ub⟩
        | some false => dumpReplLoop belongs s { e with key := k } rs
        | some true =>
          let (s, o) := get s r.env { e with key := k } {}
          if o.rc ≠ .ok then dumpReplLoop belongs s o.e rs
          else if !r.writeOk then ⟨s, [o.e], some .canceled⟩
          else (dumpReplLoop belongs s o.e rs).cons o.e
    | .end_ => ⟨s, [], some .fin⟩
    | .error => ⟨s, [], some .canceled⟩

end Flare
