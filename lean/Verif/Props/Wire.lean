import Verif.Spec.Wire
import Verif.Props.Connection
import Verif.Lemmas.TextLines
import Verif.Lemmas.MySql

/-! C76: what one end writes is what the other end reads. -/
namespace Flare

/-! ### The loop around `::write` -/

theorem pour_prefix (ks : List Kernel) (p : Bytes) : (pour ks p).1 <+: p := by
  induction ks generalizing p with
  | nil => cases p <;> simp [pour]
  | cons k ks ih =>
    cases p with
    | nil => simp [pour]
    | cons c p =>
      cases k with
      | took k =>
        simp only [pour]
        obtain ⟨t, ht⟩ := ih (p.drop k)
        refine ⟨t, ?_⟩
        rw [List.append_assoc, ht, List.cons_append, List.take_append_drop]
      | zero => simp [pour]
      | ready => simpa only [pour] using ih (c :: p)
      | timeout => simpa only [pour] using ih (c :: p)
      | intr => simpa only [pour] using ih (c :: p)
      | fail => simp [pour]

theorem pour_full (ks : List Kernel) (p : Bytes) (h : (pour ks p).2.1 = .full) : (pour ks p).1 = p := by
  induction ks generalizing p with
  | nil => cases p <;> simp [pour] at h ⊢
  | cons k ks ih =>
    cases p with
    | nil => simp [pour]
    | cons c p =>
      cases k with
      | took k =>
        simp only [pour] at h ⊢
        rw [ih _ h, List.cons_append, List.take_append_drop]
      | zero => simp [pour] at h
      | ready => simp only [pour] at h ⊢; exact ih _ h
      | timeout => simp only [pour] at h ⊢; exact ih _ h
      | intr => simp only [pour] at h ⊢; exact ih _ h
      | fail => simp [pour] at h

theorem pour_short (ks : List Kernel) (p : Bytes) (hz : Kernel.zero ∉ ks) : (pour ks p).2.1 ≠ .short := by
  induction ks generalizing p with
  | nil => cases p <;> simp [pour]
  | cons k ks ih =>
    have hz' : Kernel.zero ∉ ks := fun h => hz (List.mem_cons_of_mem _ h)
    cases p with
    | nil => simp [pour]
    | cons c p =>
      cases k with
      | took k => simpa only [pour] using ih _ hz'
      | zero => simp at hz
      | ready => simpa only [pour] using ih _ hz'
      | timeout => simpa only [pour] using ih _ hz'
      | intr => simpa only [pour] using ih _ hz'
      | fail => simp [pour]

theorem pour_rest (ks : List Kernel) (p : Bytes) : ∀ k ∈ (pour ks p).2.2, k ∈ ks := by
  induction ks generalizing p with
  | nil => cases p <;> simp [pour]
  | cons k ks ih =>
    intro x hx
    cases p with
    | nil => simpa [pour] using hx
    | cons c p =>
      cases k with
      | took k => exact List.mem_cons_of_mem _ (ih _ x (by simpa only [pour] using hx))
      | zero => exact List.mem_cons_of_mem _ (by simpa only [pour] using hx)
      | ready => exact List.mem_cons_of_mem _ (ih _ x (by simpa only [pour] using hx))
      | timeout => exact List.mem_cons_of_mem _ (ih _ x (by simpa only [pour] using hx))
      | intr => exact List.mem_cons_of_mem _ (ih _ x (by simpa only [pour] using hx))
      | fail => exact List.mem_cons_of_mem _ (by simpa only [pour] using hx)

/-! ### One call -/

/-- The capacity of the block after `p` has been added. -/
def WriteBuf.capFor (b : WriteBuf) (p : Bytes) : Nat :=
  if (b.data.length + p.length) / 8192 + 1 > b.chunks then ((b.data.length + p.length) / 8192 + 1) * 8192
  else b.cap

theorem WriteBuf.add_eq (b : WriteBuf) (p : Bytes) : b.add p =
    if b.data.length + p.length > intMax then none
    else if (b.data.length + p.length) / 8192 + 1 > b.chunks ∧
      ((b.data.length + p.length) / 8192 + 1) * 8192 > intMax then none
    else if b.data.length + p.length > b.capFor p then none
    else some { data := b.data ++ p, cap := b.capFor p, chunks := (b.data.length + p.length) / 8192 + 1 } :=
  rfl

theorem WriteBuf.add_shape {b b' : WriteBuf} {p : Bytes} (h : b.add p = some b') :
    b' = { data := b.data ++ p, cap := b.capFor p, chunks := (b.data.length + p.length) / 8192 + 1 } := by
  rw [WriteBuf.add_eq] at h
  by_cases h1 : b.data.length + p.length > intMax
  · rw [if_pos h1] at h; exact nomatch h
  rw [if_neg h1] at h
  by_cases h2 : (b.data.length + p.length) / 8192 + 1 > b.chunks ∧
      ((b.data.length + p.length) / 8192 + 1) * 8192 > intMax
  · rw [if_pos h2] at h; exact nomatch h
  rw [if_neg h2] at h
  by_cases h3 : b.data.length + p.length > b.capFor p
  · rw [if_pos h3] at h; exact nomatch h
  rw [if_neg h3] at h
  exact (Option.some.inj h).symm

theorem WriteBuf.add_data {b b' : WriteBuf} {p : Bytes} (h : b.add p = some b') : b'.data = b.data ++ p := by
  rw [WriteBuf.add_shape h]

theorem Wire.pending_getD (w : Wire) : (w.buf.getD {}).data = w.pending := by
  simp only [Wire.pending]
  cases w.buf <;> rfl

/-- What comes of a call on an open connection whose kernel never answers 0. -/
structure Wire.Step (w : Wire) (p : Bytes) (sends : Bool) (r : Wire × WireEnd) : Prop where
  good : r.2.good = true → r.1.up = true ∧ r.1.sent ++ r.1.pending = w.sent ++ w.pending ++ p ∧
    (sends = true → r.1.pending = [])
  bad : ∀ n, r.2 = .ret n → n < 0 → r.1.up = false ∧ n = -1
  sent : r.1.sent <+: w.sent ++ w.pending ++ p
  grows : w.sent <+: r.1.sent
  kernel : Kernel.zero ∉ r.1.kernel

theorem Wire.send_step (w : Wire) (p all : Bytes) (ha : all = w.pending ++ p) (hup : w.up = true)
    (hz : Kernel.zero ∉ w.kernel) : w.Step p true (w.send all) := by
  have hpre := pour_prefix w.kernel all
  have hfull := pour_full w.kernel all
  have hshort := pour_short w.kernel all hz
  have hk : Kernel.zero ∉ (pour w.kernel all).2.2 := fun h => hz (pour_rest _ _ _ h)
  have hs : w.sent ++ (pour w.kernel all).1 <+: w.sent ++ w.pending ++ p := by
    rw [List.append_assoc, ← ha]; exact List.prefix_append_right_inj _ |>.mpr hpre
  have hg : w.sent <+: w.sent ++ (pour w.kernel all).1 := List.prefix_append _ _
  simp only [Wire.send]
  cases he : (pour w.kernel all).2.1 with
  | full =>
    refine ⟨fun _ => ⟨hup, ?_, fun _ => rfl⟩, ?_, hs, hg, hk⟩
    · simp only [Wire.pending, hfull he, List.append_nil, List.append_assoc]
      rw [ha]; rfl
    · intro n hn; simp only [WireEnd.ret.injEq] at hn; omega
  | short => exact absurd he hshort
  | broken =>
    refine ⟨by simp [WireEnd.good], ?_, hs, hg, hk⟩
    intro n hn _
    simp only [WireEnd.ret.injEq] at hn
    exact ⟨rfl, hn.symm⟩
  | waiting => exact ⟨by simp [WireEnd.good], by simp, hs, hg, hk⟩

theorem Wire.write_step (w : Wire) (p : Bytes) (b : Bool) (hup : w.up = true) (hz : Kernel.zero ∉ w.kernel) :
    w.Step p (!b) (w.write p b) := by
  have hub : w.Step p (!b) (w, .ub) :=
    ⟨by simp [WireEnd.good], by simp, by simp, List.prefix_rfl, hz⟩
  have h0 : ¬ w.up = false := by rw [hup]; decide
  cases b with
  | true =>
    simp only [Wire.write, if_neg h0, if_true]
    cases h : (w.buf.getD {}).add p with
    | none => exact hub
    | some b' =>
      have hd := WriteBuf.add_data h
      rw [Wire.pending_getD] at hd
      have hp : ({ w with buf := some b' } : Wire).pending = w.pending ++ p := hd
      refine ⟨fun _ => ⟨hup, ?_, by simp⟩, ?_, ?_, List.prefix_rfl, hz⟩
      · simp only [hp, List.append_assoc]
      · intro n hn; simp only [WireEnd.ret.injEq] at hn; omega
      · simp
  | false =>
    simp only [Wire.write, if_neg h0, Bool.false_eq_true, if_false, Bool.not_false]
    cases hb : w.buf with
    | none => exact w.send_step p p (by simp [Wire.pending, hb]) hup hz
    | some b =>
      cases ha : b.add p with
      | none => simp only [ha]; exact hub
      | some b' =>
        simp only [ha]
        exact w.send_step p b'.data (by rw [WriteBuf.add_data ha]; simp [Wire.pending, hb]) hup hz

theorem Wire.send_ret (w : Wire) (all : Bytes) (hz : Kernel.zero ∉ w.kernel) (r : Int)
    (h : (w.send all).2 = .ret r) : r = -1 ∨ r = all.length := by
  have hfull := pour_full w.kernel all
  have hshort := pour_short w.kernel all hz
  simp only [Wire.send] at h
  cases he : (pour w.kernel all).2.1 with
  | full => rw [he, hfull he] at h; simp only [WireEnd.ret.injEq] at h; exact .inr h.symm
  | short => exact absurd he hshort
  | broken => rw [he] at h; simp only [WireEnd.ret.injEq] at h; exact .inl h.symm
  | waiting => rw [he] at h; simp at h

/-- An unbuffered write returns -1 or the number of all bytes that it has sent, those kept back before
included. -/
theorem Wire.write_ret (w : Wire) (p : Bytes) (hz : Kernel.zero ∉ w.kernel) (r : Int)
    (h : (w.write p false).2 = .ret r) : r = -1 ∨ r = (w.pending ++ p).length := by
  simp only [Wire.write, Bool.false_eq_true, if_false] at h
  split at h
  · simp only [WireEnd.ret.injEq] at h; exact .inl h.symm
  · cases hb : w.buf with
    | none =>
      simp only [hb] at h
      simpa [Wire.pending, hb] using w.send_ret p hz r h
    | some b =>
      simp only [hb] at h
      cases ha : b.add p with
      | none => simp [ha] at h
      | some b' =>
        simp only [ha] at h
        have := w.send_ret b'.data hz r h
        rwa [WriteBuf.add_data ha, show b.data = w.pending by simp [Wire.pending, hb]] at this

/-- Unless the kernel answers 0, a line is one write. -/
theorem Wire.line_write (w : Wire) (p : Bytes) (hz : Kernel.zero ∉ w.kernel) :
    w.line p = w.write (cstr p ++ crlf) false := by
  simp only [Wire.line]
  obtain ⟨q, hq⟩ : ∃ q, q = cstr p ++ crlf := ⟨_, rfl⟩
  rw [← hq]
  simp only [Wire.lineLoop]
  have hr := w.write_ret q hz
  obtain ⟨r, e⟩ : ∃ r, r = w.write q false := ⟨_, rfl⟩
  rw [← e] at hr ⊢
  obtain ⟨w', x⟩ := r
  cases x with
  | ret r =>
    simp only
    rcases hr r rfl with h | h
    · rw [if_pos (by omega)]
    · have : (q.length : Int) ≤ r := by rw [h, List.length_append]; omega
      rw [if_neg (by omega), if_neg (by decide), if_pos this, Int.zero_add]
  | waiting => rfl
  | ub => rfl

/-- One call on an open connection. -/
theorem Wire.call_step (w : Wire) (c : WireCall) (hup : w.up = true) (hz : Kernel.zero ∉ w.kernel)
    (hc : c ≠ .close) : w.Step c.payload c.sends (w.call c) := by
  cases c with
  | write p b => exact w.write_step p b hup hz
  | line p =>
    simp only [Wire.call, WireCall.payload, WireCall.sends, w.line_write p hz]
    exact w.write_step _ false hup hz
  | close => exact absurd rfl hc

/-- One call on a closed connection. -/
theorem Wire.call_down (w : Wire) (c : WireCall) (h : w.up = false) :
    (w.call c).1.up = false ∧ (w.call c).1.sent = w.sent ∧
      ((w.call c).2 = .ret (-1) ∨ c = .close ∧ (w.call c).2 = .ret 0) := by
  cases c with
  | write p b => simp [Wire.call, Wire.write, h]
  | line p => simp [Wire.call, Wire.line, Wire.lineLoop, Wire.write, h]
  | close => simp [Wire.call, Wire.close]

/-! ### The internal buffer -/

/-- The allocated block has room for the bytes and for at least one more. -/
def WriteBuf.Ok (b : WriteBuf) : Prop :=
  b = {} ∨ (b.cap = b.chunks * 8192 ∧ b.chunks = b.data.length / 8192 + 1)

theorem WriteBuf.capFor_ok {b : WriteBuf} {p : Bytes} (hb : b.Ok) :
    b.capFor p = ((b.data.length + p.length) / 8192 + 1) * 8192 := by
  simp only [WriteBuf.capFor]
  split
  · rfl
  · rename_i hn
    rcases hb with rfl | ⟨h1, h2⟩
    · simp at hn
    · rw [h1]; omega

theorem WriteBuf.add_ok {b b' : WriteBuf} {p : Bytes} (hb : b.Ok) (h : b.add p = some b') : b'.Ok := by
  rw [WriteBuf.add_shape h]
  exact .inr ⟨WriteBuf.capFor_ok hb, by simp only [List.length_append]⟩

theorem WriteBuf.add_some {b : WriteBuf} {p : Bytes} (hb : b.Ok)
    (h : b.data.length + p.length < 2147475456) : (b.add p).isSome = true := by
  have hi : intMax = 2147483647 := rfl
  rw [WriteBuf.add_eq, WriteBuf.capFor_ok hb, if_neg (by omega), if_neg (by omega), if_neg (by omega)]
  rfl

theorem WriteBuf.add_none {b : WriteBuf} {p : Bytes} (hb : b.Ok) (hd : b.data.length < 2147475456)
    (h : 2147475456 ≤ b.data.length + p.length) : b.add p = none := by
  have hi : intMax = 2147483647 := rfl
  rw [WriteBuf.add_eq]
  by_cases h1 : b.data.length + p.length > intMax
  · rw [if_pos h1]
  · rw [if_neg h1, if_pos]
    refine ⟨?_, by omega⟩
    rcases hb with rfl | ⟨h1, h2⟩
    · simp
    · omega

/-- The internal buffer of a connection is in order. -/
def Wire.BufOk (w : Wire) : Prop := (w.buf.getD {}).Ok

theorem Wire.bufOk_none {w : Wire} (h : w.buf = none) : w.BufOk := by
  simp [Wire.BufOk, h, WriteBuf.Ok]

theorem Wire.send_buf (w : Wire) (all : Bytes) : (w.send all).1.buf = none ∨ (w.send all).1.buf = w.buf := by
  simp only [Wire.send]
  split <;> simp

theorem Wire.send_ub (w : Wire) (all : Bytes) : (w.send all).2 ≠ .ub := by
  simp only [Wire.send]
  split <;> simp

theorem Wire.write_bufOk (w : Wire) (p : Bytes) (b : Bool) (h : w.BufOk) : (w.write p b).1.BufOk := by
  have hs : ∀ all, (w.send all).1.BufOk := fun all => by
    rcases w.send_buf all with e | e
    · exact Wire.bufOk_none e
    · simpa only [Wire.BufOk, e] using h
  simp only [Wire.write]
  split
  · exact h
  · split
    · split
      · exact h
      · rename_i _ _ _ b' he
        exact WriteBuf.add_ok h he
    · split
      · exact hs _
      · split
        · exact h
        · exact hs _

theorem Wire.write_room (w : Wire) (p : Bytes) (b : Bool) (h : w.BufOk)
    (hl : (w.pending ++ p).length < 2147475456) : (w.write p b).2 ≠ .ub := by
  rw [List.length_append] at hl
  have h1 := h
  simp only [Wire.BufOk] at h1
  have h2 := WriteBuf.add_some (p := p) h1 (by rw [Wire.pending_getD]; exact hl)
  simp only [Wire.write]
  split
  · simp
  · split
    · cases ha : (w.buf.getD {}).add p with
      | none => rw [ha] at h2; exact nomatch h2
      | some b => simp
    · cases hb : w.buf with
      | none => exact w.send_ub _
      | some b =>
        rw [hb] at h2
        simp only [Option.getD_some] at h2
        cases ha : b.add p with
        | none => rw [ha] at h2; exact nomatch h2
        | some b => simp only [ha]; exact w.send_ub _

/-! ### C76 -/

/-- C76.  On a connection that has been closed, by its owner or after an error, nothing more is sent, and
every attempt to write is answered with an error. -/
theorem C76_closed (cs : List WireCall) (w : Wire) (h : w.up = false) :
    (Wire.calls cs w).1.sent = w.sent ∧
      (Wire.calls cs w).2 = cs.map fun c => .ret (if c = .close then 0 else -1) := by
  induction cs generalizing w with
  | nil => exact ⟨rfl, rfl⟩
  | cons c cs ih =>
    obtain ⟨h1, h2, h3⟩ := w.call_down c h
    simp only [Wire.calls]
    obtain ⟨r, e⟩ : ∃ r, r = w.call c := ⟨_, rfl⟩
    rw [← e] at h1 h2 h3 ⊢
    obtain ⟨w', x⟩ := r
    simp only at h1 h2 h3
    obtain ⟨i1, i2⟩ := ih w' h1
    rcases h3 with h3 | ⟨rfl, h3⟩ <;> subst h3
    · refine ⟨i1.trans h2, ?_⟩
      simp only [i2, List.map_cons, List.cons.injEq, and_true, WireEnd.ret.injEq]
      rw [if_neg]
      rintro rfl
      simp [Wire.call, Wire.close] at e
    · exact ⟨i1.trans h2, by simp [i2]⟩

example : (Wire.calls [.line [97], .write [98] true, .close]
    { up := false, kernel := [.took 9] }) = ({ up := false, kernel := [.took 9] },
      [.ret (-1), .ret (-1), .ret 0]) := by decide

/-- C76.  Whatever the kernel does — takes the bytes in parts of any sizes, is full, lets time pass, is
interrupted, breaks the connection off —, the peer is sent a beginning of the bytes handed over, in order:
nothing twice, nothing left out in between. -/
theorem C76_prefix_partial (cs : List WireCall) (w : Wire) (hz : Kernel.zero ∉ w.kernel) :
    (Wire.calls cs w).1.sent <+: w.sent ++ w.pending ++ payloads cs := by
  induction cs generalizing w with
  | nil => simp [Wire.calls, payloads]
  | cons c cs ih =>
    cases hup : w.up with
    | false => rw [(C76_closed (c :: cs) w hup).1, List.append_assoc]; exact List.prefix_append _ _
    | true =>
      by_cases hc : c = .close
      · subst hc
        simp only [Wire.calls, Wire.call, Wire.close]
        rw [(C76_closed cs _ rfl).1, List.append_assoc]; exact List.prefix_append _ _
      · have st := w.call_step c hup hz hc
        simp only [Wire.calls]
        obtain ⟨r, e⟩ : ∃ r, r = w.call c := ⟨_, rfl⟩
        rw [← e] at st ⊢
        obtain ⟨w', x⟩ := r
        have hp : payloads (c :: cs) = c.payload ++ payloads cs := by simp [payloads]
        have hle : w'.sent <+: w.sent ++ w.pending ++ payloads (c :: cs) := by
          rw [hp, ← List.append_assoc]
          exact st.sent.trans (List.prefix_append _ _)
        cases x with
        | ret n =>
          simp only
          by_cases hn : 0 ≤ n
          · obtain ⟨_, g2, _⟩ := st.good (by simp [WireEnd.good, hn])
            have := ih w' st.kernel
            simp only at g2
            rwa [g2, List.append_assoc, ← hp] at this
          · obtain ⟨b1, _⟩ := st.bad n rfl (by omega)
            rw [(C76_closed cs w' b1).1]
            exact hle
        | waiting => exact hle
        | ub => exact hle

/-- C76.  If no call says that something went wrong, then everything handed over has been sent or is kept
back, and the connection is open. -/
theorem C76_whole_partial (cs : List WireCall) (w : Wire) (hup : w.up = true) (hz : Kernel.zero ∉ w.kernel)
    (hc : .close ∉ cs) (hg : ∀ e ∈ (Wire.calls cs w).2, e.good = true) :
    (Wire.calls cs w).1.up = true ∧
    (Wire.calls cs w).1.sent ++ (Wire.calls cs w).1.pending = w.sent ++ w.pending ++ payloads cs ∧
    (∀ c, cs.getLast? = some c → c.sends = true → (Wire.calls cs w).1.pending = []) := by
  induction cs generalizing w with
  | nil => exact ⟨hup, by simp [Wire.calls, payloads], by simp⟩
  | cons c cs ih =>
    have st := w.call_step c hup hz (fun e => hc (by simp [e]))
    simp only [Wire.calls] at hg ⊢
    obtain ⟨r, e⟩ : ∃ r, r = w.call c := ⟨_, rfl⟩
    rw [← e] at st hg ⊢
    obtain ⟨w', x⟩ := r
    have hp : payloads (c :: cs) = c.payload ++ payloads cs := by simp [payloads]
    cases x with
    | ret n =>
      simp only at hg ⊢
      obtain ⟨g1, g2, g3⟩ := st.good (hg _ (List.mem_cons_self ..))
      simp only at g1 g2 g3
      obtain ⟨i1, i2, i3⟩ := ih w' g1 st.kernel (fun h => hc (List.mem_cons_of_mem _ h))
        (fun e he => hg e (List.mem_cons_of_mem _ he))
      refine ⟨i1, by rw [i2, g2, hp, List.append_assoc], ?_⟩
      intro d hd hs
      cases cs with
      | nil =>
        simp only [List.getLast?_singleton, Option.some.injEq] at hd
        subst hd
        exact g3 hs
      | cons c' cs' => exact i3 d (by simpa using hd) hs
    | waiting => exact absurd (hg _ (List.mem_singleton_self _)) (by simp [WireEnd.good])
    | ub => exact absurd (hg _ (List.mem_singleton_self _)) (by simp [WireEnd.good])

example : (Wire.calls [.write [1, 2, 3] true, .write [4] true, .line [65, 66]]
    { kernel := [.took 1, .timeout, .took 0, .intr, .ready, .took 9] }) =
    ({ sent := [1, 2, 3, 4, 65, 66, 13, 10], kernel := [] }, [.ret 3, .ret 1, .ret 8]) := by decide

/-- The lines and blocks of a stream. -/
theorem flatReads_parcels (ps : List Parcel) (keep : Parcel → Bool) (hok : ∀ x ∈ ps, x.Ok) (more : Bytes) :
    flatReads (ps.map Parcel.read) (payloads (ps.map fun x => x.call (keep x)) ++ more) =
      ps.map fun x => some x.got := by
  induction ps with
  | nil => rfl
  | cons x ps ih =>
    have ih := ih (fun y hy => hok y (List.mem_cons_of_mem _ hy))
    have hx := hok x (List.mem_cons_self ..)
    have hp : payloads ((x :: ps).map fun x => x.call (keep x)) =
        (x.call (keep x)).payload ++ payloads (ps.map fun x => x.call (keep x)) := by simp [payloads]
    rw [hp, List.append_assoc]
    cases x with
    | line l =>
      have hl : cstr l = l := cstr_safe fun c hc => (hx c hc).1
      have e1 : (Parcel.call (keep (.line l)) (.line l)).payload = l ++ crlf := by
        simp only [Parcel.call, WireCall.payload, hl]
      have e2 : Parcel.read (.line l) = .line := rfl
      have e3 : Parcel.got (.line l) = l ++ [chNl] := rfl
      simp only [List.map_cons, e1, e2, e3, flatReads, readLine_crlf (fun c hc => (hx c hc).2), ih]
    | block b =>
      have e1 : (Parcel.call (keep (.block b)) (.block b)).payload = b := rfl
      have e2 : Parcel.read (.block b) = .size b.length := rfl
      have e3 : Parcel.got (.block b) = b := rfl
      simp only [List.map_cons, e1, e2, e3, flatReads]
      rw [if_neg (by rw [List.length_append]; omega), List.take_left, List.drop_left, ih]

/-- C76.  One end writes lines and blocks on a new connection, each block at once or kept back; the kernel
of this end takes them as it likes, the network cuts them into any pieces; the other end reads lines and
blocks.  If no call of the writer says that something went wrong and nothing is kept back at the end, then
the reader gets exactly the lines and blocks that were written. -/
theorem C76_arrives_partial (ps : List Parcel) (keep : Parcel → Bool) (hok : ∀ x ∈ ps, x.Ok)
    (kernel : List Kernel) (hz : Kernel.zero ∉ kernel) (net : List Bytes) (hn : ∀ s ∈ net, s ≠ [])
    (hg : ∀ e ∈ (Wire.calls (ps.map fun x => x.call (keep x)) { kernel := kernel }).2, e.good = true)
    (hp : (Wire.calls (ps.map fun x => x.call (keep x)) { kernel := kernel }).1.pending = [])
    (hs : (Wire.calls (ps.map fun x => x.call (keep x)) { kernel := kernel }).1.sent <+: net.flatten) :
    ({ net := net } : Conn).reads (ps.map Parcel.read) = ps.map fun x => some x.got := by
  have hw := (C76_whole_partial _ { kernel := kernel } rfl hz (by
    simp only [List.mem_map, not_exists, not_and]
    intro x _ h
    cases x <;> simp [Parcel.call] at h) hg).2.1
  rw [hp, List.append_nil] at hw
  simp only [Wire.pending, List.nil_append] at hw
  rw [hw] at hs
  obtain ⟨more, hm⟩ := hs
  rw [C40_reads _ _ ⟨hn, fun _ _ hb => by simp at hb⟩]
  simp only [Conn.stream, Conn.rest, List.nil_append, ← hm]
  exact flatReads_parcels ps keep hok more

example :
    let ps : List Parcel := [.block [10, 0, 13], .line [97, 98], .block [], .line [13]]
    (Wire.calls (ps.map fun x => x.call (x = .block [10, 0, 13])) { kernel := [.took 2, .took 8, .took 8] }) =
      ({ sent := [10, 0, 13, 97, 98, 13, 10, 13, 13, 10] }, [.ret 3, .ret 7, .ret 0, .ret 3]) ∧
    ({ net := [[10, 0], [13, 97, 98, 13], [10, 13, 13, 10, 7]] } : Conn).reads (ps.map Parcel.read) =
      [some [10, 0, 13], some [97, 98, 10], some [], some [13, 10]] := by decide

/-- C76.  Less than 2147475456 bytes never lead out of the internal buffer. -/
theorem C76_room_partial (cs : List WireCall) (w : Wire) (hz : Kernel.zero ∉ w.kernel) (hb : w.BufOk)
    (h : (w.pending ++ payloads cs).length < 2147475456) : .ub ∉ (Wire.calls cs w).2 := by
  induction cs generalizing w with
  | nil => simp [Wire.calls]
  | cons c cs ih =>
    have hp : payloads (c :: cs) = c.payload ++ payloads cs := by simp [payloads]
    cases hup : w.up with
    | false => rw [(C76_closed (c :: cs) w hup).2]; simp
    | true =>
      by_cases hc : c = .close
      · subst hc
        simp only [Wire.calls, Wire.call, Wire.close]
        rw [(C76_closed cs _ rfl).2]; simp
      · have st := w.call_step c hup hz hc
        have hw : ∃ b, w.call c = w.write c.payload b := by
          cases c with
          | write p b => exact ⟨b, rfl⟩
          | line p => exact ⟨false, w.line_write p hz⟩
          | close => exact absurd rfl hc
        obtain ⟨b, hw⟩ := hw
        rw [hp] at h
        have hr := w.write_room c.payload b hb (by simp only [List.length_append] at h ⊢; omega)
        have hbo := w.write_bufOk c.payload b hb
        rw [← hw] at hr hbo
        simp only [Wire.calls]
        obtain ⟨r, e⟩ : ∃ r, r = w.call c := ⟨_, rfl⟩
        rw [← e] at st hr hbo ⊢
        obtain ⟨w', x⟩ := r
        cases x with
        | ret n =>
          simp only [List.mem_cons, reduceCtorEq, false_or]
          by_cases hn : 0 ≤ n
          · obtain ⟨_, g2, _⟩ := st.good (by simp [WireEnd.good, hn])
            simp only at g2
            refine ih w' st.kernel hbo ?_
            have hl := congrArg List.length g2
            have hgr := st.grows.length_le
            simp only [List.length_append] at hl h hgr ⊢
            omega
          · rw [(C76_closed cs w' (st.bad n rfl (by omega)).1).2]; simp
        | waiting => simp
        | ub => simp at hr

/-- C76, negation.  As soon as 2147475456 bytes are kept back, the length of the internal buffer overflows:
a request like "get a a a …" with a stored value is enough, since `op_get` keeps back the answers to all
keys (/repo/src/lib/op_get.cc:335). -/
theorem C76_too_much (p : Bytes) (n : Nat) (more : List WireCall) (w : Wire) (hup : w.up = true)
    (hb : w.BufOk) (hlt : w.pending.length < 2147475456)
    (h : 2147475456 ≤ w.pending.length + n * p.length) :
    .ub ∈ (Wire.calls (List.replicate n (.write p true) ++ more) w).2 := by
  induction n generalizing w with
  | zero => omega
  | succ n ih =>
    have h0 : ¬ w.up = false := by rw [hup]; decide
    simp only [List.replicate_succ, List.cons_append, Wire.calls, Wire.call, Wire.write, if_neg h0, if_true]
    cases ha : (w.buf.getD {}).add p with
    | none => simp
    | some b =>
      simp only [List.mem_cons, reduceCtorEq, false_or]
      have hd := WriteBuf.add_data ha
      rw [Wire.pending_getD] at hd
      have hpe : ({ w with buf := some b } : Wire).pending = w.pending ++ p := hd
      have hlt' : w.pending.length + p.length < 2147475456 := by
        refine Nat.lt_of_not_le fun hge => ?_
        have := WriteBuf.add_none (b := w.buf.getD {}) (p := p) hb (by rw [Wire.pending_getD]; exact hlt)
          (by rw [Wire.pending_getD]; omega)
        rw [this] at ha
        exact nomatch ha
      refine ih { w with buf := some b } hup (WriteBuf.add_ok hb ha) ?_ ?_
      · rw [hpe, List.length_append]; exact hlt'
      · rw [hpe, List.length_append]
        rw [Nat.add_mul] at h
        omega

example (v : Bytes) (h : v.length = 1048576) :
    .ub ∈ (Wire.calls (List.replicate 2048 (.write v true) ++ [.line (ascii "END")]) {}).2 :=
  C76_too_much v 2048 _ {} rfl (Wire.bufOk_none rfl) (by decide) (by rw [h]; decide)

/-- C76, negation.  A peer that does not read keeps the thread for ever: the ten seconds of `write_timeout`
(/repo/src/lib/connection_tcp.h:79) can pass any number of times, the connection stays open and the call
does not return. -/
theorem C76_waits_for_ever (n : Nat) (w : Wire) (p : Bytes) (hup : w.up = true) (hb : w.buf = none)
    (hp : p ≠ []) (hk : w.kernel = List.replicate n .timeout) :
    w.write p false = ({ w with kernel := [] }, .waiting) := by
  have h : ∀ n, pour (List.replicate n .timeout) p = ([], .waiting, []) := by
    intro n
    cases p with
    | nil => exact absurd rfl hp
    | cons c p =>
      induction n with
      | zero => rfl
      | succ n ih => simpa only [List.replicate_succ, pour] using ih
  have h0 : ¬ w.up = false := by rw [hup]; decide
  simp only [Wire.write, if_neg h0, Bool.false_eq_true, if_false, hb, Wire.send, hk, h, List.append_nil]

example : (({ kernel := List.replicate 3 .timeout } : Wire).line (ascii "END")).2 = .waiting := by decide

/-- C76, negation.  If `::write` answers 0, a line behind a block that has been kept back is lost and the
caller is told that all went well: the bytes of the block are counted as bytes of the line. -/
theorem C76_zero_loses :
    Wire.calls [.write (ascii "VALUE a 0 1\r\n1\r\n") true, .line (ascii "END")]
      { kernel := [.took 15, .zero] } =
      ({ sent := ascii "VALUE a 0 1\r\n1\r\n" }, [.ret 16, .ret 16]) := by decide

/-- C76, negation.  If `::write` answers 0, a line behind a block that has been kept back is sent from a
wrong place on. -/
theorem C76_zero_skips :
    Wire.calls [.write (ascii "V\r\n") true, .line (ascii "ERROR")]
      { kernel := [.took 2, .zero, .took 9] } =
      ({ sent := ascii "V\r\n" ++ ascii "OR\r\n" }, [.ret 3, .ret 7]) := by decide

/-- C76, negation.  A line that needs the eighth call is sent and reported as not sent. -/
theorem C76_eighth_call :
    Wire.calls [.line (ascii "END")] { kernel := List.replicate 7 .zero ++ [.took 4] } =
      ({ sent := ascii "END\r\n" }, [.ret (-1)]) := by decide

end Flare
