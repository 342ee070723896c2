import Verif.Model.Text

/-! Model of how the index server keeps its state in a file, /repo/src/lib/file_coordinator.cc.

Simplifications.
* The state is any text here; `Model/Archive` has the text that is written.
* The file system has the two files that are used.  A crash is a crash of the process: what has been
  handed to the system stays (no loss of power; the code calls no `fsync`).
* The mutex makes a save one sequence of system calls. -/
namespace Flare

/-- The files `flare.xml` and `flare.xml.tmp`. -/
structure Disk where
  file : Option Bytes
  tmp : Option Bytes
  deriving DecidableEq, Repr

/-- The system calls of `file_coordinator::_save`, /repo/src/lib/file_coordinator.cc:78-107. -/
inductive FsOp where
  /-- `ofstream ofs(path_tmp)` creates or truncates -/
  | create
  /-- a part of the buffer is written -/
  | write (b : Bytes)
  | unlink
  | rename
  deriving DecidableEq, Repr

def Disk.apply (d : Disk) : FsOp → Disk
  | .create => { d with tmp := some [] }
  | .write b => { d with tmp := d.tmp.map (· ++ b) }
  | .unlink => { d with file := none }
  | .rename => match d.tmp with
    | none => d
    | some b => ⟨some b, none⟩

/-- What `_save` does if nothing fails; `chunks` is the way the stream buffer is flushed. -/
def saveOps (chunks : List Bytes) : List FsOp :=
  .create :: chunks.map .write ++ [.unlink, .rename]

def Disk.applyAll (d : Disk) (ops : List FsOp) : Disk := ops.foldl Disk.apply d

/-- Which system call of a save fails. -/
inductive SaveFault where
  | none_ | open_
  /-- only `n` bytes reach the file (the disk is full); the stream's state is not looked at,
  /repo/src/lib/file_coordinator.cc:91-92 -/
  | write (n : Nat)
  | unlink | rename
  deriving DecidableEq, Repr

/-- `file_coordinator::_save` with its return value, /repo/src/lib/file_coordinator.cc:78-107. -/
def Disk.save (d : Disk) (xml : Bytes) : SaveFault → Disk × Bool
  | .none_ => (d.applyAll (saveOps [xml]), true)
  | .open_ => (d, false)
  | .write n => (d.applyAll (saveOps [xml.take n]), true)
  | .unlink => (d.applyAll [.create, .write xml], false)
  | .rename => (d.applyAll [.create, .write xml, .unlink], false)

/-- `file_coordinator::_load`, /repo/src/lib/file_coordinator.cc:112-148: a file that is missing is
an empty state and no error. -/
def Disk.load (d : Disk) : Bytes := d.file.getD []

/-- A history of the index server: saves that end, and saves that end with a crash after some of
the system calls, however the text is cut. -/
inductive SaveEv where
  | save (xml : Bytes) (f : SaveFault)
  | crash (chunks : List Bytes) (done : Nat)
  deriving DecidableEq, Repr

def Disk.event (d : Disk) : SaveEv → Disk
  | .save xml f => (d.save xml f).1
  | .crash chunks done => d.applyAll ((saveOps chunks).take done)

def Disk.history (d : Disk) (l : List SaveEv) : Disk := l.foldl Disk.event d

end Flare
