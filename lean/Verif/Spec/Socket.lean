import Verif.Model.Socket
import Verif.Spec.Connection

/-! What is asked of reads at the level of system calls (C100). -/
namespace Flare

/-- The bytes a connection has not handed out yet: those in the internal buffer and those of
the peer. -/
def Sock.view (s : Sock) : Bytes := s.conn.rest ++ s.stream

/-- The position lies in the buffer. -/
def Sock.Ok (s : Sock) : Prop := ∀ w pos, s.buf = some (w, pos) → pos ≤ w.length

/-- What a sequence of reads returns, up to the first one that does not return bytes. -/
def Sock.reads : List ReadCall → Sock → List Bytes
  | [], _ => []
  | .line :: cs, s =>
    match s.readline with
    | (.ok d, s) => d :: Sock.reads cs s
    | _ => []
  | .size n :: cs, s =>
    match s.readsize n with
    | (.ok d, s) => d :: Sock.reads cs s
    | _ => []

/-- The connection behind a sequence of reads, whatever they returned. -/
def Sock.after : List ReadCall → Sock → Sock
  | [], s => s
  | .line :: cs, s => Sock.after cs s.readline.2
  | .size n :: cs, s => Sock.after cs (s.readsize n).2

/-- No `read` is interrupted by a signal. -/
def NoIntr (ts : List Turn) : Prop := ∀ t ∈ ts, t.recv ≠ .intr

/-- No system call fails or times out, and each `read` takes something. -/
def Turn.Good (t : Turn) : Prop :=
  t.poll = .ready ∧ (∃ a, t.avail = some (a + 1)) ∧ ∃ k, t.recv = .bytes k

end Flare
