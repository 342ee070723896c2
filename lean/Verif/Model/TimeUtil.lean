import Verif.Model.Bytes

/-!
Time arithmetic, /repo/src/lib/time_util.cc:33-105.

`timespec` is a pair of integers.  Simplification: `tv_sec` and `tv_nsec` are unbounded (`time_t` and `long`
have 64 bits), so signed overflow does not occur.
-/
namespace Flare

structure Timespec where
  sec : Int
  nsec : Int
  deriving DecidableEq, Repr

/-- `time_util_billion`, /repo/src/lib/time_util.cc:33. -/
abbrev timeBillion : Int := 1000000000

/-- `msec_to_timespec`, /repo/src/lib/time_util.cc:35-40.  `msec / 1000` is an unsigned division;
`msec - t.tv_sec * 1000` is computed in `long`. -/
def msecToTimespec (msec : UInt32) : Timespec :=
  let sec : Int := (msec / 1000).toNat
  ⟨sec, ((msec.toNat : Int) - sec * 1000) * 1000 * 1000⟩

/-- `timeval_to_timespec`, /repo/src/lib/time_util.cc:42-47. -/
def timevalToTimespec (sec usec : Int) : Timespec := ⟨sec, usec * 1000⟩

/-- `add`, /repo/src/lib/time_util.cc:79-88. -/
def Timespec.add (a b : Timespec) : Timespec :=
  let r : Timespec := ⟨a.sec + b.sec, a.nsec + b.nsec⟩
  if r.nsec ≥ timeBillion then ⟨r.sec + 1, r.nsec - timeBillion⟩ else r

/-- `sub`, /repo/src/lib/time_util.cc:90-99. -/
def Timespec.sub (a b : Timespec) : Timespec :=
  let r : Timespec := ⟨a.sec - b.sec, a.nsec - b.nsec⟩
  if r.nsec < 0 then ⟨r.sec - 1, r.nsec + timeBillion⟩ else r

/-- `is_bigger`, /repo/src/lib/time_util.cc:101-105. -/
def isBigger (a b : Timespec) : Bool :=
  if a.sec = b.sec then a.nsec > b.nsec else a.sec > b.sec

/-- `_check_timestamp`, /repo/src/lib/time_watcher.cc:98-104: the difference passed to the callback, if it is
called. -/
def checkTimestamp (now timestamp threshold : Timespec) : Option Timespec :=
  let d := now.sub timestamp
  if isBigger d threshold then some d else none

/-- What happens when a storage access takes long. -/
inductive SlowAccess where
  | quiet | warn | storageError
  deriving DecidableEq, Repr

/-- One look at a running storage access: `_check_timestamp` with the callback
`on_storage_access_no_response`, /repo/src/lib/time_watcher_observer.cc:42-65, registered with the warning
threshold (:67-72). -/
def observe (now timestamp : Timespec) (warnMsec pingNgMsec : UInt32) : SlowAccess :=
  match checkTimestamp now timestamp (msecToTimespec warnMsec) with
  | none => .quiet
  | some d => if isBigger d (msecToTimespec pingNgMsec) then .storageError else .warn

end Flare
