import Verif.Model.Dump

/-!
Model of the logger, /repo/src/lib/logger.cc:60-286: the lines on the standard error output, the facility of `syslog`,
and the logger being closed and opened again by a reload (/repo/src/flared/flared.cc:367-370).

Simplifications:
* A message is given as the text after `vsnprintf` has filled in the arguments, before it is cut.
* The C library is glibc: `openlog` ignores the facility 0, the facility is `LOG_USER` before the first `openlog`, and
  `closelog` leaves it as it is.
* Writing to the standard error output does not fail, and a line is written in one piece. -/
namespace Flare

/-- The eight functions of /repo/src/lib/logger.cc:97-253. -/
inductive LogLevel where
  | emerg | alert | crit | err | warning | notice | info | debug
  deriving DecidableEq, Repr

/-- The three letters of the level, for instance /repo/src/lib/logger.cc:99. -/
def LogLevel.tag : LogLevel → Bytes
  | .emerg => ascii "EMG"
  | .alert => ascii "ALT"
  | .crit => ascii "CRT"
  | .err => ascii "ERR"
  | .warning => ascii "WRN"
  | .notice => ascii "NTC"
  | .info => ascii "INF"
  | .debug => ascii "DBG"

/-- `LOG_EMERG` to `LOG_DEBUG`, for instance /repo/src/lib/logger.cc:110. -/
def LogLevel.number : LogLevel → Nat
  | .emerg => 0
  | .alert => 1
  | .crit => 2
  | .err => 3
  | .warning => 4
  | .notice => 5
  | .info => 6
  | .debug => 7

/-- A call of one of the macros, /repo/src/lib/logger.h:49-67. -/
structure LogCall where
  thread : Nat
  level : LogLevel
  file : Bytes
  line : Nat
  func : Bytes
  text : Bytes
  deriving DecidableEq, Repr

/-- `vsnprintf(buf, 1024, …)` followed by `s << buf`, /repo/src/lib/logger.cc:101-106. -/
def logText (t : Bytes) : Bytes := (cstr t).take 1023

/-- The line without its end, /repo/src/lib/logger.cc:98-106. -/
def LogCall.render (r : LogCall) : Bytes :=
  91 :: (decimal r.thread ++ 93 :: 91 :: (r.level.tag ++ 93 :: 91 :: (r.file ++ 58 :: (decimal r.line ++
    45 :: (r.func ++ 93 :: 32 :: logText r.text)))))

/-- What has been written to the standard error output, /repo/src/lib/logger.cc:107-108. -/
def stderrLog : List LogCall → Bytes
  | [] => []
  | r :: rs => r.render ++ 10 :: stderrLog rs

/-- `_facility_atoi`, /repo/src/lib/logger.cc:265-283: a name that is not in the map gives 0. -/
def facilityCode (name : Bytes) : Nat :=
  if name = ascii "auth" then 32
  else if name = ascii "daemon" then 24
  else if name = ascii "user" then 8
  else if name = ascii "local0" then 128
  else if name = ascii "local1" then 136
  else if name = ascii "local2" then 144
  else if name = ascii "local3" then 152
  else if name = ascii "local4" then 160
  else if name = ascii "local5" then 168
  else if name = ascii "local6" then 176
  else if name = ascii "local7" then 184
  else 0

/-- The logger and the facility that the C library holds. -/
structure LogState where
  isOpen : Bool
  toStderr : Bool
  facility : Nat
  deriving DecidableEq, Repr

/-- A process that has just begun: `LOG_USER`. -/
def LogState.fresh : LogState := ⟨false, false, 8⟩

/-- `logger::open`, /repo/src/lib/logger.cc:60-75. -/
def LogState.opened (s : LogState) (name : Bytes) (toStderr : Bool) : LogState :=
  if s.isOpen then s
  else ⟨true, toStderr, if toStderr = true ∨ facilityCode name = 0 then s.facility else facilityCode name⟩

/-- `logger::close`, /repo/src/lib/logger.cc:80-92. -/
def LogState.closed (s : LogState) : LogState := if s.isOpen then { s with isOpen := false } else s

/-- The reload, /repo/src/flared/flared.cc:367-370 and /repo/src/flarei/flarei.cc:349-352. -/
def LogState.reload (s : LogState) (name : Bytes) (toStderr : Bool) : LogState := s.closed.opened name toStderr

/-- The start, /repo/src/flared/flared.cc:146, and a history of reloads; `log_stderr` is only read at the start. -/
def logHistory (toStderr : Bool) (name : Bytes) (names : List Bytes) : LogState :=
  names.foldl (fun s n => s.reload n toStderr) (LogState.fresh.opened name toStderr)

/-- The priority of a message to `syslog`, for instance /repo/src/lib/logger.cc:110; nothing is sent with `log_stderr`. -/
def LogState.priority (s : LogState) (l : LogLevel) : Option Nat :=
  if s.toStderr then none else some (s.facility + l.number)

end Flare
