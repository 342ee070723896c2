import Verif.Model.Control
import Verif.Model.Config

/-!
Model of the file with the process id that a server keeps in its data directory, /repo/src/lib/app.cc:146-193: it is to
keep a second server from the same directory.

Simplifications:
* Only the file guards the directory here.  The port that a server listens on and the lock of the storage, which are
  taken before (/repo/src/flared/flared.cc:296, /repo/src/flarei/flarei.cc:283), are not modelled; two index servers on
  different ports have neither in common.
* The file can be read and written, and a process that may not be signalled exists (`EPERM` is not `ESRCH`).
* Who opened the file writes into it, also when another server has emptied it since; what is written after `unlink` is
  lost. -/
namespace Flare

/-- `ifs >> s`: the blanks at the beginning are skipped, and the word ends at the next one. -/
def streamWord (s : Bytes) : Bytes := (s.dropWhile isBlank).takeWhile (fun c => !isBlank c)

/-- How far the start of a server is in `_set_pid`. -/
inductive PidPhase where
  /-- after the check, /repo/src/lib/app.cc:151-164 -/
  | checked
  /-- the file is open and empty, /repo/src/lib/app.cc:166 -/
  | opened
  /-- the number is written, /repo/src/lib/app.cc:172-178 -/
  | running
  deriving DecidableEq, Repr

/-- The file and the processes of the machine. -/
structure PidWorld where
  file : Option Bytes
  servers : List (Nat × PidPhase)
  /-- processes that are no servers of this directory -/
  others : List Nat
  /-- process groups -/
  groups : List Nat
  deriving DecidableEq, Repr

def PidWorld.pids (w : PidWorld) : List Nat := w.servers.map Prod.fst ++ w.others

/-- Whether `kill(i, 0)` in process `p` fails with anything but `ESRCH`: 0 is the group of the caller, -1 all processes,
and other negative numbers are groups. -/
def PidWorld.answers (w : PidWorld) (p : Nat) (i : Int) : Bool :=
  if i = 0 ∨ i = -1 then true
  else if 0 < i then decide (i.toNat = p) || w.pids.contains i.toNat
  else w.groups.contains (-i).toNat

/-- How the check ends. -/
inductive PidCheck where
  | go
  /-- `return -1` -/
  | refused
  /-- `bad_lexical_cast`, which nobody catches -/
  | thrown
  deriving DecidableEq, Repr

/-- The check of process `p`, /repo/src/lib/app.cc:151-163. -/
def PidWorld.check (w : PidWorld) (p : Nat) : PidCheck :=
  match w.file with
  | none => .go
  | some s =>
    match lexInt (streamWord s) with
    | none => .thrown
    | some i => if w.answers p i.toInt then .refused else .go

/-- What can happen. -/
inductive PidEvent where
  /-- a server with this process id comes to the check -/
  | start (p : Nat)
  | empty (p : Nat)
  | write (p : Nat)
  /-- `shutdown`, /repo/src/lib/app.cc:184-193 -/
  | stop (p : Nat)
  /-- a server is killed -/
  | die (p : Nat)
  /-- another process begins -/
  | appear (p : Nat)
  /-- another process ends -/
  | vanish (p : Nat)
  deriving DecidableEq, Repr

/-- One event; what cannot happen changes nothing.  The kernel gives out positive numbers below 2^31 that are not in
use. -/
def PidWorld.step (w : PidWorld) : PidEvent → PidWorld
  | .start p =>
    if 0 < p ∧ p < 2147483648 ∧ p ∉ w.pids ∧ w.check p = .go then
      { w with servers := (p, .checked) :: w.servers }
    else w
  | .empty p =>
    if (p, .checked) ∈ w.servers then
      { w with file := some [], servers := (p, .opened) :: w.servers.erase (p, .checked) }
    else w
  | .write p =>
    if (p, .opened) ∈ w.servers then
      { w with
        file := w.file.map (fun s => decimal p ++ [10] ++ s.drop ((decimal p).length + 1))
        servers := (p, .running) :: w.servers.erase (p, .opened) }
    else w
  | .stop p =>
    if (p, .running) ∈ w.servers then { w with file := none, servers := w.servers.erase (p, .running) } else w
  | .die p => { w with servers := w.servers.filter (fun x => x.1 ≠ p) }
  | .appear p =>
    if 0 < p ∧ p < 2147483648 ∧ p ∉ w.pids then { w with others := p :: w.others } else w
  | .vanish p => { w with others := w.others.filter (fun x => x ≠ p) }

def PidWorld.run (w : PidWorld) (es : List PidEvent) : PidWorld := es.foldl PidWorld.step w

end Flare
