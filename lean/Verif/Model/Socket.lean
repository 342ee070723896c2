import Verif.Model.Wire

/-! Model of the reading side of `connection_tcp` at the level of its system calls
(/repo/src/lib/connection_tcp.cc:175-465): `poll`, `ioctl(FIONREAD)` and `read`, each of which
may also fail, be interrupted or time out, and the counter of bytes read
(/repo/src/lib/stats.h:98).

`Model/Connection` takes the socket for a list of pieces that arrive without any failure;
here the kernel answers each system call as it likes.

Simplifications: the answers of the kernel are a list, one element for each turn of the loop
in `read`; where it is used up the thread waits in `poll` (`waiting`).  The bytes the peer has
sent or will send are one stream, of which each `read` takes the first ones; where the
stream has ended, `read` finds the end of it (0 bytes).  `POLLRDHUP` is not asked for and never
reported (/repo/src/lib/connection_tcp.cc:236).  `errno` after a `poll` that fails or reports
neither of its two events is `EINTR` or something else (after such a report it is left over
from an earlier system call).  Lengths are natural numbers (a connection never holds
`INT_MAX` unread bytes).  Memory is not modelled. -/
namespace Flare

/-- What `poll` answers: nothing within the time allowed; an error, or an event that is neither
`POLLIN` nor `POLLPRI`, with `errno` being `EINTR` or not; or that there is something to
read. -/
inductive PollAns where
  | timeout
  | err (intr : Bool)
  | ready
  deriving DecidableEq, Repr

/-- What `read` answers: at most `k + 1` bytes, the end of the stream, or an error. -/
inductive RecvAns where
  | bytes (k : Nat)
  | eof
  | again
  | intr
  | fail
  deriving DecidableEq, Repr

/-- What the system calls of one turn of the loop answer; `avail` is the answer of
`ioctl(FIONREAD)`, which fails for `none` and otherwise reports no more bytes than there are. -/
structure Turn where
  poll : PollAns := .ready
  avail : Option Nat := some 1
  recv : RecvAns := .bytes 0
  deriving DecidableEq, Repr

/-- A connection: the internal buffer as in `Conn`, whether `_sock` is a socket, the bytes that
the peer sends from here on, the counter `bytes_read`, and the answers of the kernel. -/
structure Sock where
  buf : Option (Bytes × Nat) := none
  up : Bool := true
  stream : Bytes := []
  counted : Nat := 0
  kernel : List Turn := []
  deriving DecidableEq, Repr

/-- How the loop of `read` ends: all bytes looked for; all of them and more than were asked
for, to be kept in the internal buffer; nothing, as `read` was interrupted (0); an error, with
the socket closed or not (-1); the end of the stream (-2); or not at all so far. -/
inductive RecvEnd where
  | data (d : Bytes)
  | early (d : Bytes)
  | zero
  | err (closed : Bool)
  | eof
  | waiting
  deriving DecidableEq, Repr

/-- What the loop leaves behind: the rest of the stream, the counter, the answers not used. -/
structure RecvOut where
  stop : RecvEnd
  stream : Bytes
  counted : Nat
  kernel : List Turn
  deriving DecidableEq, Repr

/-- The loop of `read`, /repo/src/lib/connection_tcp.cc:235-330; `bufsiz` is `none` before the
first turn, `acc` are the `len` bytes read so far; `noBuf` is `_read_buf == NULL`.  The
`continue` after `EAGAIN` goes to the condition of the loop. -/
def recvLoop (expect : Nat) (noBuf : Bool) :
    List Turn → Option Nat → Bytes → Bytes → Nat → RecvOut
  | [], _, _, st, cnt => ⟨.waiting, st, cnt, []⟩
  | t :: ts, bufsiz, acc, st, cnt =>
    match t.poll with
    | .timeout => ⟨.err false, st, cnt, ts⟩
    | .err intr => ⟨.err (!intr), st, cnt, ts⟩
    | .ready =>
      match bufsiz.or (if 1024 < expect then some expect
          else t.avail.map (fun a => min a st.length)) with
      | none => ⟨.err true, st, cnt, ts⟩
      | some n =>
        match t.recv with
        | .eof => ⟨.eof, st, cnt, ts⟩
        | .again =>
          if acc.length < n then recvLoop expect noBuf ts (some n) acc st cnt
          else ⟨.data acc, st, cnt, ts⟩
        | .intr => ⟨.zero, st, cnt, ts⟩
        | .fail => ⟨.err true, st, cnt, ts⟩
        | .bytes k =>
          let d := st.take (min (k + 1) (n - acc.length))
          let st := st.drop (min (k + 1) (n - acc.length))
          if d = [] then ⟨.eof, st, cnt, ts⟩
          else if n ≤ (acc ++ d).length then
            if 0 < expect ∧ expect < (acc ++ d).length ∧ n < 1024 ∧ noBuf then
              ⟨.early (acc ++ d), st, cnt + d.length, ts⟩
            else ⟨.data (acc ++ d), st, cnt + d.length, ts⟩
          else recvLoop expect noBuf ts (some n) (acc ++ d) st (cnt + d.length)

/-- What `read`, `readline` and `readsize` return: bytes, a negative number, or nothing so
far. -/
inductive SockRes where
  | ok (d : Bytes)
  | ret (n : Int)
  | waiting
  deriving DecidableEq, Repr

/-- The buffer of the connection as that of a `Conn`. -/
def Sock.conn (s : Sock) : Conn := { buf := s.buf, net := [] }

/-- The part of `read` for the socket, /repo/src/lib/connection_tcp.cc:235-330.  Closing the
connection also drops the internal buffer (/repo/src/lib/connection_tcp.cc:617-631). -/
def Sock.fromNet (s : Sock) (expect : Nat) : SockRes × Sock :=
  let o := recvLoop expect s.buf.isNone s.kernel none [] s.stream s.counted
  let s := { s with stream := o.stream, counted := o.counted, kernel := o.kernel }
  match o.stop with
  | .data d => (.ok d, s)
  | .early d => (.ok (d.take expect), { s with buf := some (d, expect) })
  | .zero => (.ok [], s)
  | .err true => (.ret (-1), { s with up := false, buf := none })
  | .err false => (.ret (-1), s)
  | .eof => (.ret (-2), { s with up := false, buf := none })
  | .waiting => (.waiting, s)

/-- `read` with `readline = true`, /repo/src/lib/connection_tcp.cc:180-214; the Boolean is
`actual`. -/
def Sock.readForLine (s : Sock) : SockRes × Bool × Sock :=
  if s.up = false then (.ret (-1), true, s)
  else if s.conn.rest ≠ [] then
    (.ok s.conn.lineFromBuf.1, false, { s with buf := s.conn.lineFromBuf.2.buf })
  else ((s.fromNet 0).1, true, (s.fromNet 0).2)

/-- `read` with `readline = false`, /repo/src/lib/connection_tcp.cc:180-186, 215-233. -/
def Sock.readForSize (s : Sock) (expect : Nat) : SockRes × Sock :=
  if s.up = false then (.ret (-1), s)
  else if s.conn.rest ≠ [] then
    (.ok (s.conn.sizeFromBuf expect).1, { s with buf := (s.conn.sizeFromBuf expect).2.buf })
  else s.fromNet expect

/-- `_add_read_buf`, /repo/src/lib/connection_tcp.cc:681-698. -/
def Sock.addBuf (s : Sock) (p : Bytes) : Sock := { s with buf := (s.conn.addBuf p).buf }

/-- The loop of `readline`, /repo/src/lib/connection_tcp.cc:342-414. -/
def sockLineLoop : Nat → Bytes → Sock → SockRes × Sock
  | 0, _, s => (.waiting, s)
  | fuel + 1, r, s =>
    match s.readForLine with
    | (.waiting, _, s) => (.waiting, s)
    | (.ret n, _, s) => (.ret n, s)
    | (.ok t, actual, s) =>
      if actual = false ∧ r = [] ∧ t.getLast? = some chNl then
        if 1 < t.length ∧ t.dropLast.getLast? = some chCr then
          (.ok (t.dropLast.dropLast ++ [chNl]), s)
        else (.ok t, s)
      else
        let l := t.takeWhile (· ≠ chNl)
        if l.length < t.length then
          let line :=
            if l.getLast? = some chCr then r ++ l.dropLast ++ [chNl]
            else if l = [] ∧ r.getLast? = some chCr then r.dropLast ++ [chNl]
            else r ++ l ++ [chNl]
          let extra := t.drop (l.length + 1)
          (.ok line, if extra ≠ [] then s.addBuf extra else s)
        else sockLineLoop fuel (r ++ t) s

/-- `readline`.  Every round uses an answer of the kernel or empties the buffer. -/
def Sock.readline (s : Sock) : SockRes × Sock := sockLineLoop (s.kernel.length + 2) [] s

/-- The loop of `readsize`, /repo/src/lib/connection_tcp.cc:421-465. -/
def sockSizeLoop : Nat → Nat → Bytes → Sock → SockRes × Sock
  | 0, _, _, s => (.waiting, s)
  | fuel + 1, n, data, s =>
    if data.length < n then
      match s.readForSize (n - data.length) with
      | (.waiting, s) => (.waiting, s)
      | (.ret e, s) => (.ret e, s)
      | (.ok t, s) =>
        if data.length = 0 ∧ t.length = n then (.ok t, s)
        else if n ≤ data.length + t.length then
          let diff := n - data.length
          sockSizeLoop fuel n (data ++ t.take diff)
            (if 0 < t.length - diff then s.addBuf (t.drop diff) else s)
        else sockSizeLoop fuel n (data ++ t) s
    else (.ok data, s)

/-- `readsize`. -/
def Sock.readsize (s : Sock) (n : Nat) : SockRes × Sock :=
  sockSizeLoop (s.kernel.length + 3) n [] s

/-- The counter `bytes_written` over the loop of `write`,
/repo/src/lib/connection_tcp.cc:488-541, /repo/src/lib/stats.h:99: what each `::write` has
taken is added (`pour` without the bytes themselves). -/
def pourCount : List Kernel → Nat → Nat → Nat
  | _, 0, cnt => cnt
  | [], _ + 1, cnt => cnt
  | .took k :: ks, n + 1, cnt => pourCount ks (n - k) (cnt + min (k + 1) (n + 1))
  | .zero :: _, _ + 1, cnt => cnt
  | .fail :: _, _ + 1, cnt => cnt
  | .ready :: ks, n + 1, cnt => pourCount ks (n + 1) cnt
  | .timeout :: ks, n + 1, cnt => pourCount ks (n + 1) cnt
  | .intr :: ks, n + 1, cnt => pourCount ks (n + 1) cnt

end Flare
