import Verif.Model.Config

/-!
Model of the limit of open files that a server sets for itself, /repo/src/flared/flared.cc:481-502 and
/repo/src/flarei/flarei.cc:399-420, at its start and at every reload.

Simplifications:
* `getrlimit` does not fail, and nobody else changes the limits of the process.
* The kernel is Linux: `setrlimit(RLIMIT_NOFILE)` is refused if the hard limit is above `fs.nr_open`, and if it is raised
  without the privilege; otherwise it works. -/
namespace Flare

/-- `struct rlimit`. -/
structure FdLimits where
  cur : Nat
  max : Nat
  deriving DecidableEq, Repr

/-- What the kernel allows. -/
structure FdKernel where
  privileged : Bool
  nrOpen : Nat
  deriving DecidableEq, Repr

/-- `get_max_connection() * 2 + 16` with a `uint32_t`, /repo/src/flared/flared.cc:487. -/
def wantedFds (m : Nat) : Nat := (m * 2 + 16) % 4294967296

/-- `setrlimit(RLIMIT_NOFILE)`: `none` when it is refused. -/
def FdKernel.set (k : FdKernel) (old new : FdLimits) : Option FdLimits :=
  if new.max < new.cur then none
  else if k.nrOpen < new.max then none
  else if old.max < new.max ∧ k.privileged = false then none
  else some new

/-- `_set_resource_limit`, /repo/src/flared/flared.cc:481-502: `none` for -1. -/
def setResourceLimit (k : FdKernel) (l : FdLimits) (m : Nat) : Option FdLimits :=
  if l.cur < wantedFds m then
    k.set l ⟨wantedFds m, if l.max < wantedFds m then wantedFds m else l.max⟩
  else some l

/-- A server that runs: its limits and its `max-connection`. -/
structure FdServer where
  limits : FdLimits
  conns : Nat
  deriving DecidableEq, Repr

/-- The start, /repo/src/flared/flared.cc:161-164; `i` is the value of `max-connection` as it is written. -/
def startFds (k : FdKernel) (l : FdLimits) (i : Int) : Option FdServer :=
  (setResourceLimit k l (toUInt32 i)).map (⟨·, toUInt32 i⟩)

/-- The reload, /repo/src/flared/flared.cc:399-400 (the answer is not looked at). -/
def FdServer.reload (k : FdKernel) (s : FdServer) (i : Int) : FdServer :=
  ⟨(setResourceLimit k s.limits (toUInt32 i)).getD s.limits, toUInt32 i⟩

def FdServer.reloads (k : FdKernel) (s : FdServer) (is : List Int) : FdServer := is.foldl (FdServer.reload k) s

end Flare
