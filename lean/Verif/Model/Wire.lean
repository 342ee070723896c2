import Verif.Model.Connection

/-! Model of the writing side of `connection_tcp`
(/repo/src/lib/connection_tcp.cc:470-581, 616-630, 718-745): the internal buffer for writes, the loop
around `::write`, `writeline` and `close`.

The kernel is the list of what it will answer to the successive calls of `::write`; a connection whose
list has run out waits for ever (`waiting`).  Simplifications: that `::close` fails, `_errno` and the
statistics are left out, and `poll` after EAGAIN is part of the answer of the kernel. -/
namespace Flare

/-- What `::write` answers, and after EAGAIN what `poll` answers
(/repo/src/lib/connection_tcp.cc:488-541). -/
inductive Kernel where
  /-- `k + 1` bytes are taken, or all if there are fewer -/
  | took (k : Nat)
  /-- 0 -/
  | zero
  /-- EAGAIN; `poll` says that writing is possible -/
  | ready
  /-- EAGAIN; the ten seconds of `poll` have passed -/
  | timeout
  /-- EINTR, of `::write` or of `poll` -/
  | intr
  /-- any other error, of `::write` or of `poll` -/
  | fail
  deriving DecidableEq, Repr

/-- The internal buffer: its contents, the bytes allocated and `_write_buf_chunk_size`. -/
structure WriteBuf where
  data : Bytes := []
  cap : Nat := 0
  chunks : Nat := 0
  deriving DecidableEq, Repr

/-- A connection, as far as writing is concerned; `sent` is what the kernel has taken, `buf` is `none`
for `_write_buf == NULL`. -/
structure Wire where
  up : Bool := true
  buf : Option WriteBuf := none
  sent : Bytes := []
  kernel : List Kernel := []
  deriving DecidableEq, Repr

/-- What has been handed over and not been sent. -/
def Wire.pending (w : Wire) : Bytes :=
  match w.buf with
  | none => []
  | some b => b.data

/-- `_add_write_buf`, /repo/src/lib/connection_tcp.cc:718-734.  `none`: the sum or the size of the new
block does not fit into an `int`, or `memcpy` writes behind the block. -/
def WriteBuf.add (b : WriteBuf) (p : Bytes) : Option WriteBuf :=
  let len := b.data.length + p.length
  if len > intMax then none
  else
    let chunks := len / 8192 + 1
    if chunks > b.chunks ∧ chunks * 8192 > intMax then none
    else
      let cap := if chunks > b.chunks then chunks * 8192 else b.cap
      if len > cap then none else some { data := b.data ++ p, cap := cap, chunks := chunks }

/-- How the loop of `write` ends. -/
inductive Poured where
  | full | short | broken | waiting
  deriving DecidableEq, Repr

/-- The loop of `write`, /repo/src/lib/connection_tcp.cc:488-541: the bytes taken, the end, what is left
of the kernel's answers. -/
def pour : List Kernel → Bytes → Bytes × Poured × List Kernel
  | ks, [] => ([], .full, ks)
  | [], _ :: _ => ([], .waiting, [])
  | .took k :: ks, c :: p =>
    let r := pour ks (p.drop k)
    (c :: p.take k ++ r.1, r.2.1, r.2.2)
  | .zero :: ks, _ :: _ => ([], .short, ks)
  | .ready :: ks, c :: p => pour ks (c :: p)
  | .timeout :: ks, c :: p => pour ks (c :: p)
  | .intr :: ks, c :: p => pour ks (c :: p)
  | .fail :: ks, _ :: _ => ([], .broken, ks)

/-- What a call returns. -/
inductive WireEnd where
  | ret (n : Int)
  | waiting
  | ub
  deriving DecidableEq, Repr

/-- The end of `write`, /repo/src/lib/connection_tcp.cc:486-549: `all` is sent and the internal buffer is
given back. -/
def Wire.send (w : Wire) (all : Bytes) : Wire × WireEnd :=
  let r := pour w.kernel all
  let w := { w with sent := w.sent ++ r.1, kernel := r.2.2 }
  match r.2.1 with
  | .full | .short => ({ w with buf := none }, .ret r.1.length)
  | .broken => ({ w with up := false, buf := none }, .ret (-1))
  | .waiting => (w, .waiting)

/-- `write`, /repo/src/lib/connection_tcp.cc:470-549. -/
def Wire.write (w : Wire) (p : Bytes) (buffered : Bool) : Wire × WireEnd :=
  if w.up = false then (w, .ret (-1))
  else if buffered then
    match (w.buf.getD {}).add p with
    | none => (w, .ub)
    | some b => ({ w with buf := some b }, .ret p.length)
  else
    match w.buf with
    | none => w.send p
    | some b =>
      match b.add p with
      | none => (w, .ub)
      | some b => w.send b.data

/-- The loop of `writeline`, /repo/src/lib/connection_tcp.cc:560-580: `q` is what is left of the line, `n`
what the calls so far have returned, `m` how many more calls there can be.  The eighth call is an error
whatever it has done. -/
def Wire.lineLoop : Nat → Wire → Bytes → Int → Wire × WireEnd
  | 0, w, _, _ => (w, .ret (-1))
  | m + 1, w, q, n =>
    match w.write q false with
    | (w, .ret r) =>
      if r < 0 then (w, .ret r)
      else if m = 0 then (w, .ret (-1))
      else if q.length ≤ r then (w, .ret (n + r))
      else Wire.lineLoop m w (q.drop r.toNat) (n + r)
    | (w, e) => (w, e)

/-- `writeline`, /repo/src/lib/connection_tcp.cc:551-581: `strlen` ends the line at a NUL. -/
def Wire.line (w : Wire) (p : Bytes) : Wire × WireEnd := Wire.lineLoop 8 w (cstr p ++ crlf) 0

/-- `close`, /repo/src/lib/connection_tcp.cc:616-630. -/
def Wire.close (w : Wire) : Wire × WireEnd := ({ w with up := false, buf := none }, .ret 0)

/-- A call of the owner of the connection. -/
inductive WireCall where
  | write (p : Bytes) (buffered : Bool)
  | line (p : Bytes)
  | close
  deriving DecidableEq, Repr

/-- One call. -/
def Wire.call (w : Wire) : WireCall → Wire × WireEnd
  | .write p b => w.write p b
  | .line p => w.line p
  | .close => w.close

/-- Calls one after the other, with what they return; a call that does not return is the last one. -/
def Wire.calls : List WireCall → Wire → Wire × List WireEnd
  | [], w => (w, [])
  | c :: cs, w =>
    match w.call c with
    | (w, .ret n) => let r := Wire.calls cs w; (r.1, .ret n :: r.2)
    | (w, e) => (w, [e])

end Flare
