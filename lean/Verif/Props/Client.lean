import Verif.Spec.Client
import Verif.Lemmas.Control

/-! Property theorems about the client library: C104. -/
namespace Flare

theorem errandRun_one (P : ErrandBufs) (e : Errand) (t : ErrandTry) (k : Desk) (g : GetSlot) :
    errandRun P e 1 [t] k g = errandTry P e t k g := by
  rcases h : errandTry P e t k g with ⟨k', ⟨x, s, l⟩⟩
  simp only [errandRun, h]
  split
  · rename_i hx
    have hx : x = .failed := hx
    subst hx
    simp
  · rfl

theorem clientWrite_proper {cmd : WriteCmd} {k d : Bytes} {flag : UInt32} {version : UInt64}
    (hc : cmd = .add ∨ cmd = .cas) (hk : PlainKey k 8192) (hl : k.length + d.length + 8192 ≤ intMax) :
    (Errand.write (clientWrite cmd k d flag version)).Proper := by
  have hn : (UInt64.ofNat d.length).toNat = d.length := by
    rw [UInt64.toNat_ofNat']
    exact Nat.mod_eq_of_lt (by simp only [intMax] at hl; omega)
  refine ⟨⟨hk, fun n hn => (by cases hn), by simp [clientWrite], by simp [clientWrite]⟩, ?_, ?_⟩
  · have h1 : (clientWrite cmd k d flag version).cmd.kind = .store := by rcases hc with rfl | rfl <;> rfl
    simp only [encodeWrite, h1]
    rw [if_pos]
    · rfl
    · simp only [clientWrite, hn, proxyIdent, if_true, List.length_nil]
      omega
  · intro h
    rcases hc with rfl | rfl <;> cases h

theorem printInt_fits (i : Int32) {k : Bytes} (hk : PlainKey k 8192) : k.length + (printInt i).length + 8192 ≤ intMax := by
  have h1 := printInt_length i
  have h2 := hk.2.2
  simp only [intMax]
  omega

theorem silent_write (cmd : WriteCmd) (k d : Bytes) (flag : UInt32) (version : UInt64) :
    (Errand.write (clientWrite cmd k d flag version)).silent = false := by
  simp [Errand.silent, clientWrite]

/-- The request of a proper call. -/
theorem call_errand {x : ClientCall} (hx : x.Proper) {e : Errand} (he : x.errand = some e) : e.Proper ∧ e.silent = false := by
  cases x with
  | connect => cases he
  | disconnect => cases he
  | get y k g =>
    obtain rfl := (Option.some.inj he).symm
    exact ⟨⟨hx.1, hx.2.1⟩, rfl⟩
  | add k d f =>
    obtain rfl := (Option.some.inj he).symm
    exact ⟨clientWrite_proper (.inl rfl) hx.1 hx.2, silent_write _ _ _ _ _⟩
  | addInt k d f =>
    obtain rfl := (Option.some.inj he).symm
    exact ⟨clientWrite_proper (.inl rfl) hx (printInt_fits d hx), silent_write _ _ _ _ _⟩
  | cas k d f v =>
    obtain rfl := (Option.some.inj he).symm
    exact ⟨clientWrite_proper (.inr rfl) hx.1 hx.2, silent_write _ _ _ _ _⟩

/-- What is told for the end of the try. -/
def ClientCall.saying : ClientCall → ErrandTold → ClientSaid
  | .get _ _ _, r => clientGot r
  | _, r => clientResult r.ends

/-- What a call becomes if its request is sent: one try, and what is told for its end. -/
theorem call_sent {P : ErrandBufs} {x : ClientCall} (hx : x.Proper) {e : Errand} (he : x.errand = some e) {t : ClientTurn}
    {c : ClientSt} (hup : c.up = true ∨ t.opens = true ∧ ∀ y k g, x ≠ .get y k g) :
    (c.call P t x).1.desk = (errandTry P e t.try_ c.desk e.slot).1 ∧
    (c.call P t x).1.up = (t.try_.sent && !(t.try_.breaks && (errandTry P e t.try_ c.desk e.slot).2.ends.isFailed)) ∧
    (c.call P t x).2.did = (errandTry P e t.try_ c.desk e.slot).2.did ∧
    (c.call P t x).2.said = x.saying (errandTry P e t.try_ c.desk e.slot).2 := by
  have hw : ∀ r, e = .write r → (c.write P r t).1.desk = (errandTry P e t.try_ c.desk e.slot).1 ∧
      (c.write P r t).1.up = (t.try_.sent && !(t.try_.breaks && (errandTry P e t.try_ c.desk e.slot).2.ends.isFailed)) ∧
      (c.write P r t).2.did = (errandTry P e t.try_ c.desk e.slot).2.did ∧
      (c.write P r t).2.said = clientResult (errandTry P e t.try_ c.desk e.slot).2.ends := by
    rintro r rfl
    by_cases hc : c.up = true
    · simp [ClientSt.write, ClientSt.ask, hc, Errand.slot]
    · have ho : t.opens = true := by
        rcases hup with h | h
        · exact absurd h hc
        · exact h.1
      simp [ClientSt.write, ClientSt.ask, hc, ho, ClientSt.open_, Errand.slot]
  cases x with
  | connect => cases he
  | disconnect => cases he
  | get y k g =>
    obtain rfl := (Option.some.inj he).symm
    obtain ⟨-, -, k0, rfl⟩ := hx
    have hc : c.up = true := by
      rcases hup with h | h
      · exact h
      · exact absurd rfl (h.2 y k _)
    simp [ClientSt.call, ClientSt.ask, hc, Errand.slot, ClientCall.saying]
  | add k d f =>
    have h := hw (clientWrite .add k d f 0) (Option.some.inj he).symm
    simpa only [ClientSt.call, ClientCall.saying] using h
  | addInt k d f =>
    have h := hw (clientWrite .add k (printInt d) f 0) (Option.some.inj he).symm
    simpa only [ClientSt.call, ClientCall.saying] using h
  | cas k d f v =>
    have h := hw (clientWrite .cas k d f v) (Option.some.inj he).symm
    simpa only [ClientSt.call, ClientCall.saying] using h

theorem reply_plain {d d' : Done} {cmd : WriteCmd} (hc : cmd = .add ∨ cmd = .cas)
    (hd : ∃ r m e, d' = .sent true r m e) (h : ∀ now, d'.reply now cmd = d.reply now cmd) :
    ∃ r, clientResult (.wrote d') = .result r ∧ ∃ m, ∀ now, d.reply now cmd = .result r m := by
  obtain ⟨r, m, e, rfl⟩ := hd
  refine ⟨r, rfl, m, fun now => ?_⟩
  rw [← h now]
  rcases hc with rfl | rfl <;> simp [Done.reply, WriteCmd.kind]

/-- What the client reads of an answer to a write is always a result of its own. -/
theorem write_ends {P : ErrandBufs} {r : WriteReq} (hr : r.cmd = .add ∨ r.cmd = .cas) {t : ErrandTry} {k : Desk} {g : GetSlot}
    {d : Done} (h : (errandTry P (.write r) t k g).2.ends = .wrote d) : ∃ x m e, d = .sent true x m e := by
  have hk : r.cmd.kind ≠ .count ∧ r.cmd ≠ .gat := by rcases hr with h | h <;> rw [h] <;> decide
  simp only [errandTry] at h
  split at h
  · cases h
  · split at h
    · cases h
    · rename_i s d0 a _
      simp only [errandRead, writeClient, if_neg hk.1, if_neg hk.2] at h
      revert h
      split <;> intro h
      · rename_i x rest hx
        cases h
        revert hx
        split
        · intro hx; cases hx; exact ⟨_, _, _, rfl⟩
        · split <;> intro hx <;> cases hx
          exact ⟨_, _, _, rfl⟩
      · cases h
      · cases h

/-! ### As it should be -/

theorem found_avail (g : GetSlot) : (ReadAt.asked g).found.isSome = g.avail := by
  simp only [ReadAt.found]
  cases g.avail <;> rfl

/-- What is told for a try that ends as it should. -/
theorem said_right {P : ErrandBufs} {x : ClientCall} (hx : x.Proper) {e : Errand} (he : x.errand = some e) {t : ClientTurn}
    {k : Desk} {d : ErrandDid} {now : Int64}
    (h : e.right now d (errandTry P e t.try_ k e.slot).2.ends (errandTry P e t.try_ k e.slot).2.slot) :
    x.right now d (x.saying (errandTry P e t.try_ k e.slot).2) := by
  have hw : ∀ r, e = .write r → (r.cmd = .add ∨ r.cmd = .cas) → e.silent = false →
      ∃ d0, d = .wrote d0 ∧ ∃ y, clientResult (errandTry P e t.try_ k e.slot).2.ends = .result y ∧
        ∃ m, ∀ now, d0.reply now r.cmd = .result y m := by
    rintro r rfl hr hs
    cases d with
    | read a => exact absurd h (by simp [Errand.right])
    | wrote d0 =>
      obtain ⟨d', h1, h2⟩ := h
      have hs' : r.entry.option &&& optNoreply = 0 := by simpa [Errand.silent] using hs
      rw [h1]
      exact ⟨d0, rfl, reply_plain hr (write_ends hr h1) (h2 hs')⟩
  have hsil := (call_errand hx he).2
  cases x with
  | connect => cases he
  | disconnect => cases he
  | get y k0 g =>
    obtain rfl := (Option.some.inj he).symm
    cases d with
    | wrote d => exact absurd h (by simp [Errand.right])
    | read a =>
      obtain ⟨h1, h2, h3⟩ := h
      refine ⟨_, ?_, h2, h3⟩
      simp only [ClientCall.saying, clientGot, h1]
      have : (errandTry P (.read y k0) t.try_ k (Errand.read y k0).slot).2.slot.avail = a.found.isSome := by
        rw [← found_avail, h3, Option.isSome_map]
      rw [this]
  | add k0 d0 f =>
    obtain ⟨d1, rfl, h1⟩ := hw _ (Option.some.inj he).symm (.inl rfl) hsil
    exact h1
  | addInt k0 d0 f =>
    obtain ⟨d1, rfl, h1⟩ := hw _ (Option.some.inj he).symm (.inl rfl) hsil
    exact h1
  | cas k0 d0 f v =>
    obtain ⟨d1, rfl, h1⟩ := hw _ (Option.some.inj he).symm (.inr rfl) hsil
    exact h1

theorem arrives_client {cmd : WriteCmd} (hc : cmd = .add ∨ cmd = .cas) {k d : Bytes} {flag : UInt32} {version : UInt64}
    (hl : k.length + d.length + 8192 ≤ intMax) (clk : Int64) :
    arrives clk (clientWrite cmd k d flag version) = clientWrite cmd k d flag version := by
  have hn : (UInt64.ofNat d.length).toNat = d.length := by
    rw [UInt64.toNat_ofNat']
    exact Nat.mod_eq_of_lt (by simp only [intMax] at hl; omega)
  rcases hc with rfl | rfl <;> simp only [arrives, clientWrite, hn, List.take_length, realtime, if_true]

/-- What the node does for the request of a call. -/
theorem serve_meaning {P : ErrandBufs} (hP : P.Ok) {x : ClientCall} (hx : x.Proper) {e : Errand} (he : x.errand = some e)
    {cmd : Cmd} (hm : x.meaning = some cmd) {t : ErrandTry} {s s' : Store} {b a : Bytes} {d : ErrandDid}
    (hb : e.bytes = some b) (h : errandServe P t s b = some (s', d, a)) :
    s' = (if t.refused.isSome then s else (step s t.env cmd).1) ∧
      (t.refused = none → d = .wrote (.own (step s t.env cmd).2) ∨ d = .read (.here (step s t.env cmd).2)) := by
  have hw : ∀ r, e = .write r → Sendable r 8192 → (arrives t.clk r).call = cmd →
      s' = (if t.refused.isSome then s else (step s t.env cmd).1) ∧
      (t.refused = none → d = .wrote (.own (step s t.env cmd).2) ∨ d = .read (.here (step s t.env cmd).2)) := by
    rintro r rfl hsd hcmd
    rw [serve_write hP.first hP.q hsd hb, hcmd] at h
    cases ht : t.refused with
    | some full =>
      simp only [ht, Option.map_eq_some_iff, Prod.mk.injEq] at h
      obtain ⟨-, -, h1, -⟩ := h
      exact ⟨by simp [h1], fun h => by cases h⟩
    | none =>
      simp only [ht, Option.map_eq_some_iff, Prod.mk.injEq] at h
      obtain ⟨-, -, h1, h2, -⟩ := h
      exact ⟨by simp [h1], fun _ => .inl h2.symm⟩
  have hpr := (call_errand hx he).1
  cases x with
  | connect => cases he
  | disconnect => cases he
  | get y k g =>
    obtain rfl := (Option.some.inj he).symm
    obtain rfl := Option.some.inj hm
    obtain rfl := Option.some.inj hb
    rw [serve_read hP.first hP.q hx.1 hx.2.1] at h
    cases ht : t.refused with
    | some full =>
      simp only [ht, Option.map_eq_some_iff, Prod.mk.injEq] at h
      obtain ⟨-, -, h1, -⟩ := h
      exact ⟨by simp [h1], fun h => by cases h⟩
    | none =>
      simp only [ht, Option.map_eq_some_iff, Prod.mk.injEq] at h
      obtain ⟨-, -, h1, h2, -⟩ := h
      exact ⟨by simp [h1], fun _ => .inr h2.symm⟩
  | add k d0 f =>
    obtain rfl := (Option.some.inj he).symm
    refine hw _ rfl hpr.1 ?_
    rw [arrives_client (.inl rfl) hx.2]
    exact Option.some.inj hm
  | addInt k d0 f =>
    obtain rfl := (Option.some.inj he).symm
    refine hw _ rfl hpr.1 ?_
    rw [arrives_client (.inl rfl) (printInt_fits d0 hx)]
    exact Option.some.inj hm
  | cas k d0 f v =>
    obtain rfl := (Option.some.inj he).symm
    refine hw _ rfl hpr.1 ?_
    rw [arrives_client (.inr rfl) hx.2]
    exact Option.some.inj hm

/-- A call over a connection without unread bytes, if its request is sent and answered in time and in full: the node has
carried out exactly the storage call that is meant (or has refused it), the caller is told what the node has done, and
nothing is left on the connection.  `add` and `cas` open a closed connection first. -/
theorem C104_told (P : ErrandBufs) (hP : P.Ok) (x : ClientCall) (hx : x.Proper) (cmd : Cmd) (hm : x.meaning = some cmd)
    (t : ClientTurn) (ht : t.try_.Prompt) (c : ClientSt) (hw : c.desk.wire = []) (hs : c.desk.store.Ok)
    (hup : c.up = true ∨ t.opens = true ∧ ∀ y k g, x ≠ .get y k g) (hc : CalmCall P x t c) :
    (c.call P t x).1.up = true ∧ (c.call P t x).1.desk.wire = [] ∧
    (c.call P t x).1.desk.store = (if t.try_.refused.isSome then run c.desk.store t.try_.before
      else (step (run c.desk.store t.try_.before) t.try_.env cmd).1) ∧
    ∃ d, (c.call P t x).2.did = [d] ∧ x.right t.try_.now d (c.call P t x).2.said ∧
      (t.try_.refused = none → d = .wrote (.own (step (run c.desk.store t.try_.before) t.try_.env cmd).2) ∨
        d = .read (.here (step (run c.desk.store t.try_.before) t.try_.env cmd).2)) := by
  obtain ⟨e, he⟩ : ∃ e, x.errand = some e := by
    cases x with
    | connect => cases hm
    | disconnect => cases hm
    | _ => exact ⟨_, rfl⟩
  obtain ⟨hpr, -⟩ := call_errand hx he
  have hcalm := hc e he (by rcases hup with h | h; exacts [.inl h, .inr h.1])
  have hng : ∀ r, e = .write r → r.cmd ≠ .gat := by
    rintro r rfl
    cases x with
    | connect => cases he
    | disconnect => cases he
    | get y k g => cases he
    | add k d f => injection (Option.some.inj he) with h; rw [← h]; exact fun h => by cases h
    | addInt k d f => injection (Option.some.inj he) with h; rw [← h]; exact fun h => by cases h
    | cas k d f v => injection (Option.some.inj he) with h; rw [← h]; exact fun h => by cases h
  obtain ⟨h1, d, h2, h3⟩ := C97_answered P hP e hpr hng 0 t.try_ [] c.desk hw hs ht.1 ht.2.1 hcalm
  rw [errandRun_one] at h1 h2 h3
  obtain ⟨c1, c2, c3, c4⟩ := call_sent (P := P) hx he hup
  obtain ⟨b, s', d', a, hb, hserve, -⟩ := hcalm ht.1
  obtain ⟨m1, m2⟩ := serve_meaning hP hx he hm hb hserve
  have htry := prompt_try (g := e.slot) ht hb hserve
  refine ⟨?_, by rw [c1]; exact h1, ?_, d, by rw [c3]; exact h2, ?_, ?_⟩
  · rw [c2, ht.1, ht.2.2]
    rfl
  · rw [c1, htry]
    exact m1
  · rw [c4]
    exact said_right hx he h3
  · rw [htry] at h2
    obtain rfl : d' = d := by simpa using h2
    exact m2

/-- A call whose request is not sent: the caller is told of the failure, and nothing is done. -/
theorem call_unsent {P : ErrandBufs} {x : ClientCall} {e : Errand} (he : x.errand = some e) {t : ClientTurn}
    {c : ClientSt} (hup : c.up = false) (ho : t.opens = true → ∃ y k g, x = .get y k g) :
    (c.call P t x).1.up = false ∧ (c.call P t x).1.desk = { c.desk with store := run c.desk.store t.try_.before } ∧
      (c.call P t x).2.did = [] ∧ (c.call P t x).2.said.isError = true := by
  cases x with
  | connect => cases he
  | disconnect => cases he
  | get y k g => simp [ClientSt.call, ClientSt.ask, hup, ClientSt.meanwhile, clientGot, ClientSaid.isError]
  | add k d f =>
    have ho : t.opens = false := by cases h : t.opens with
      | false => rfl
      | true => obtain ⟨_, _, _, h⟩ := ho h; cases h
    simp [ClientSt.call, ClientSt.write, hup, ho, ClientSt.open_, ClientSt.meanwhile, ClientSaid.isError]
  | addInt k d f =>
    have ho : t.opens = false := by cases h : t.opens with
      | false => rfl
      | true => obtain ⟨_, _, _, h⟩ := ho h; cases h
    simp [ClientSt.call, ClientSt.write, hup, ho, ClientSt.open_, ClientSt.meanwhile, ClientSaid.isError]
  | cas k d f v =>
    have ho : t.opens = false := by cases h : t.opens with
      | false => rfl
      | true => obtain ⟨_, _, _, h⟩ := ho h; cases h
    simp [ClientSt.call, ClientSt.write, hup, ho, ClientSt.open_, ClientSt.meanwhile, ClientSaid.isError]

theorem call_one {P : ErrandBufs} (hP : P.Ok) {x : ClientCall} (hx : x.Proper) {t : ClientTurn} {c : ClientSt}
    (hw : c.desk.wire = []) (hs : c.desk.store.Ok) (hc : CalmCall P x t c) :
    (c.call P t x).1.desk.wire = [] ∧ (c.call P t x).1.desk.store.Ok ∧
      (x.errand.isSome = true → (c.call P t x).2.said.isError = true ∨
        ∃ d, (c.call P t x).2.did = [d] ∧ x.right t.try_.now d (c.call P t x).2.said) := by
  have hrun := run_ok hs t.try_.before
  cases he : x.errand with
  | none =>
    refine (fun h => ⟨h.1, h.2, fun h => by cases h⟩ : _ ∧ _ → _) ?_
    cases x with
    | connect =>
      simp only [ClientSt.call]
      split
      · exact ⟨hw, hrun⟩
      · exact ⟨hw, hrun⟩
    | disconnect =>
      simp only [ClientSt.call]
      split
      · exact ⟨hw, hrun⟩
      · exact ⟨rfl, hrun⟩
    | _ => cases he
  | some e =>
    by_cases hup : c.up = true ∨ t.opens = true ∧ ∀ y k g, x ≠ .get y k g
    · have hcalm := hc e he (by rcases hup with h | h; exacts [.inl h, .inr h.1])
      obtain ⟨h1, h2, h3⟩ := calm_turn hP (call_errand hx he).1 hw hs hcalm
      obtain ⟨c1, -, c3, c4⟩ := call_sent (P := P) hx he hup
      refine ⟨by rw [c1]; exact h1, by rw [c1]; exact h2, fun _ => ?_⟩
      rcases h3 with ⟨h3, -⟩ | ⟨d, h3, h4⟩
      · left
        rw [c4]
        cases x <;> simp [ClientCall.saying, clientGot, clientResult, h3, ClientSaid.isError]
      · right
        refine ⟨d, by rw [c3]; exact h3, ?_⟩
        rw [c4]
        exact said_right hx he h4
    · have h1 : c.up = false := by
        cases h : c.up with
        | false => rfl
        | true => exact absurd (.inl h) hup
      obtain ⟨u1, u2, u3, u4⟩ := call_unsent (P := P) he h1 (fun ho => by
        false_or_by_contra
        rename_i hn
        exact hup (.inr ⟨ho, fun y k g h => hn ⟨y, k, g, h⟩⟩))
      rw [u2]
      exact ⟨hw, hrun, fun _ => .inl u4⟩

/-- Any sequence of calls in which no answer comes late, with connections that break (in the middle of the answers to
writes, too) and that cannot be opened, and with refusals: every caller is told that the call has failed, or what the
node has done for this call; and nothing is ever left on the connection.  Missing for the full claim: late answers,
entries that have been used before, and `disconnect`; see below. -/
theorem C104_session_partial (P : ErrandBufs) (hP : P.Ok) (l : List (ClientCall × ClientTurn)) (c : ClientSt)
    (hw : c.desk.wire = []) (hs : c.desk.store.Ok) (hx : ∀ x ∈ l, x.1.Proper) (hc : CalmCalls P l c) :
    (c.calls P l).1.desk.wire = [] ∧ (c.calls P l).2.length = l.length ∧
      ∀ (i : Nat) (x : ClientCall) (t : ClientTurn) (r : ClientTold), l[i]? = some (x, t) → (c.calls P l).2[i]? = some r →
        x.errand.isSome = true → r.said.isError = true ∨ ∃ d, r.did = [d] ∧ x.right t.try_.now d r.said := by
  induction l generalizing c with
  | nil => exact ⟨hw, rfl, fun i x t r h => by simp at h⟩
  | cons y l ih =>
    obtain ⟨x0, t0⟩ := y
    obtain ⟨h1, h2⟩ := hc
    obtain ⟨o1, o2, o3⟩ := call_one hP (hx _ List.mem_cons_self) hw hs h1
    obtain ⟨i1, i2, i3⟩ := ih _ o1 o2 (fun x hx' => hx x (List.mem_cons_of_mem _ hx')) h2
    refine ⟨i1, by simp only [ClientSt.calls, List.length_cons, i2], fun i x t r h h' => ?_⟩
    cases i with
    | zero =>
      simp only [List.getElem?_cons_zero, Option.some.injEq, Prod.mk.injEq] at h
      simp only [ClientSt.calls, List.getElem?_cons_zero, Option.some.injEq] at h'
      obtain ⟨rfl, rfl⟩ := h
      subst h'
      exact o3
    | succ i =>
      simp only [ClientSt.calls, List.getElem?_cons_succ] at h h'
      exact i3 i x t r h h'

/-! ### What the code does instead -/

/-- `disconnect` does not disconnect: an open connection is left open, with all that has not been read, however often
it is called and whatever else is done by other clients. -/
theorem C104_disconnect (P : ErrandBufs) (l : List (ClientCall × ClientTurn)) (hl : ∀ x ∈ l, x.1 = .disconnect ∨ x.1 = .connect)
    (c : ClientSt) (hup : c.up = true) :
    (c.calls P l).1.up = true ∧ (c.calls P l).1.desk.wire = c.desk.wire ∧ ∀ r ∈ (c.calls P l).2, r.said = .code true := by
  induction l generalizing c with
  | nil => exact ⟨hup, rfl, fun r hr => by cases hr⟩
  | cons y l ih =>
    obtain ⟨x, t⟩ := y
    have h1 : c.call P t x = (c.meanwhile t, { said := .code true }) := by
      rcases hl _ List.mem_cons_self with h | h
      all_goals
        have h : x = _ := h
        subst h
        simp [ClientSt.call, hup]
    obtain ⟨i1, i2, i3⟩ := ih (fun x hx => hl x (List.mem_cons_of_mem _ hx)) (c.meanwhile t) hup
    simp only [ClientSt.calls, h1]
    refine ⟨i1, i2, fun r hr => ?_⟩
    rcases List.mem_cons.1 hr with rfl | h
    · rfl
    · exact i3 r h

/-- So an answer that was late is not got rid of: after `disconnect` and `connect`, which both report success, the next
`get` of the key is told the answer that was late, and its own answer is left on the connection. -/
theorem C104_stale (P : ErrandBufs) (hP : P.Ok) (y : ResponseType) (q : Bytes) (he : (Errand.read y q).Proper)
    (t0 : ErrandTry) (s0 s0' : Store) (hs0 : s0.Ok) (a0 : Bytes) (d0 : ErrandDid)
    (h0 : errandServe P t0 s0 (getRequest y q) = some (s0', d0, a0)) (hf0 : d0.fits) (c : ClientSt) (hup : c.up = true)
    (hc : c.desk.wire = a0) (t1 t2 t3 : ClientTurn) (h3 : t3.try_.Prompt) (s' : Store) (d : ErrandDid) (a k0 : Bytes)
    (hd : errandServe P t3.try_ (run (run (run c.desk.store t1.try_.before) t2.try_.before) t3.try_.before)
      (getRequest y q) = some (s', d, a)) :
    (c.calls P [(.disconnect, t1), (.connect, t2), (.get y q { e := { key := k0 } }, t3)]).1 =
      { up := true, desk := { store := s', wire := a } } ∧
    ∃ x, (c.calls P [(.disconnect, t1), (.connect, t2), (.get y q { e := { key := k0 } }, t3)]).2 =
      [{ said := .code true }, { said := .code true }, { said := x, did := [d] }] ∧
      (ClientCall.get y q { e := { key := k0 } }).right t3.try_.now d0 x := by
  obtain ⟨g, h1, h2⟩ := own_read hP.first hP.q hP.w hs0 he h0 hf0 t3.try_.now
  have hread : errandRead P t3.try_.now (a0 ++ a) (Errand.read y q).slot (.read y q) = (.got, g, a) := by
    have := getClient_more (m := a) (n' := (a0 ++ a).length + 1) (by simp) h1
    simp only [errandRead, Errand.slot, this, List.nil_append]
  have htry : errandTry P (.read y q) t3.try_ ((c.meanwhile t1).meanwhile t2).desk { e := { key := q } } =
      ({ store := s', wire := a }, { ends := .got, slot := g, did := [d] }) := by
    have := prompt_try (P := P) (e := .read y q) (k := ((c.meanwhile t1).meanwhile t2).desk) (g := { e := { key := q } })
      h3 rfl hd
    rw [this]
    have hwire : ((c.meanwhile t1).meanwhile t2).desk.wire = a0 := hc
    rw [hwire]
    have hread' : errandRead P t3.try_.now (a0 ++ a) { e := { key := q } } (.read y q) = (.got, g, a) := hread
    rw [hread']
  have hup2 : ((c.meanwhile t1).meanwhile t2).up = true := hup
  have hcalls : c.calls P [(.disconnect, t1), (.connect, t2), (.get y q { e := { key := k0 } }, t3)] =
      ({ up := true, desk := { store := s', wire := a } },
       [{ said := .code true }, { said := .code true },
        { said := .value (if g.avail then .ok else .notFound) g, did := [d] }]) := by
    simp only [ClientSt.calls, ClientSt.call, hup, if_true]
    have hup1 : (c.meanwhile t1).up = true := hup
    simp only [hup1, if_true, ClientSt.ask, hup2, Bool.true_eq_false, if_false, htry, clientGot, h3.1, h3.2.2]
    rfl
  rw [hcalls]
  refine ⟨rfl, _, rfl, ?_⟩
  cases d0 with
  | wrote d => exact absurd h2 (by simp [Errand.right])
  | read v =>
    obtain ⟨-, e1, e2⟩ := h2
    refine ⟨g, ?_, e1, e2⟩
    rw [← found_avail, e2, Option.isSome_map]

/-- `get` and `gets` do not open a closed connection: all of them fail, without anything being sent, until another call
opens it. -/
theorem C104_get_closed (P : ErrandBufs) (l : List (ClientCall × ClientTurn)) (hl : ∀ x ∈ l, ∃ y k g, x.1 = .get y k g)
    (c : ClientSt) (hup : c.up = false) :
    (c.calls P l).1.up = false ∧ (c.calls P l).2.length = l.length ∧
      ∀ r ∈ (c.calls P l).2, r.did = [] ∧ r.said.isError = true := by
  induction l generalizing c with
  | nil => exact ⟨hup, rfl, fun r hr => by cases hr⟩
  | cons z l ih =>
    obtain ⟨x, t⟩ := z
    obtain ⟨y, k, g, hx⟩ := hl _ List.mem_cons_self
    have hx : x = .get y k g := hx
    subst hx
    obtain ⟨u1, -, u3, u4⟩ := call_unsent (P := P) (x := .get y k g) rfl hup (t := t) (fun _ => ⟨y, k, g, rfl⟩)
    obtain ⟨i1, i2, i3⟩ := ih (fun x hx => hl x (List.mem_cons_of_mem _ hx)) _ u1
    refine ⟨i1, by simp only [ClientSt.calls, List.length_cons, i2], fun r hr => ?_⟩
    rcases List.mem_cons.1 hr with rfl | h
    · exact ⟨u3, u4⟩
    · exact i3 r h

/-- An entry that has been used before: if the node finds nothing, `get` still reports success, with the data that was in
the entry, which may be that of another key. -/
theorem C104_reused (P : ErrandBufs) (y : ResponseType) (k : Bytes) (g : GetSlot) (hg : g.avail = true)
    (t : ClientTurn) (ht : t.try_.Prompt) (c : ClientSt) (hup : c.up = true) (hw : c.desk.wire = []) (s' : Store) (d : ErrandDid)
    (hd : errandServe P t.try_ (run c.desk.store t.try_.before) (getRequest y k) = some (s', d, strEnd ++ crlf)) :
    (c.call P t (.get y k g)).2 = { said := .value .ok { g with e := { g.e with key := k } }, did := [d] } := by
  obtain ⟨h, eh⟩ : ∃ h : GetSlot, h = { g with e := { g.e with key := k } } := ⟨_, rfl⟩
  have hav : h.avail = true := by rw [eh]; exact hg
  have hend := getClient_end (now := t.try_.now) (w := P.w) (q := P.q) (more := []) (g := h) (n := (strEnd ++ crlf).length)
  rw [List.append_nil] at hend
  have htry := prompt_try (P := P) (e := .read y k) (k := c.desk) (g := h) ht rfl hd
  rw [hw, List.nil_append] at htry
  simp only [errandRead, hend] at htry
  simp only [ClientSt.call, ClientSt.ask, hup, Bool.true_eq_false, if_false, ← eh, htry, clientGot, hav, if_true]

/-- A key is sent as it is: with a line break in it, what follows is read by the node as the next request. -/
theorem C104_injected (first q : Bytes) (hf : first.length = 1024) (hq : q.length = 8192) (now : Int64) (y : ResponseType)
    (hy : y = .get ∨ y = .gets) (k m : Bytes) (hk : PlainKey k 8192) (hm : ∀ c ∈ m, c ≠ 0) :
    takeReq now first q (getRequest y (k ++ crlf ++ m)) = .req (.get y [k]) (m ++ crlf) := by
  have e : getRequest y (k ++ crlf ++ m) = getRequest y k ++ (m ++ crlf) := by
    have h1 : cstr k = k := cstr_plain hk.word
    have h2 : cstr (k ++ crlf ++ m) = k ++ crlf ++ m := by
      have := List.takeWhile_append_of_pos (p := fun c : UInt8 => decide (c ≠ 0)) (l₁ := k ++ crlf ++ m) (l₂ := []) (by
        intro c hc
        rcases List.mem_append.1 hc with hc | hc
        · rcases List.mem_append.1 hc with hc | hc
          · have hw := hk.word c hc
            have : c ≠ 0 := by
              rintro rfl
              exact absurd hw (by decide)
            simpa using this
          · simp only [crlf, List.mem_cons, List.not_mem_nil, or_false] at hc
            rcases hc with rfl | rfl <;> decide
        · simpa using hm c hc)
      simpa [cstr] using this
    simp only [getRequest, h1, h2]
    simp
  rw [e]
  have := takeReq_encode (now := now) (first := first) (q := q) (more := m ++ crlf) (r := .get y [k]) hf hq
    ⟨hy, by simp, by simp, by simpa using hk⟩ (request_get hy hk)
  rw [this]
  rfl

/-! ### Examples -/

/-- A node that answers at once. -/
def promptTurn : ClientTurn := { try_ := { env := { now := 100 } } }

example :
    (({ desk := { store := { cacheSize := 0 } } } : ClientSt).calls {} [(.add (ascii "k") (ascii "v") 7, promptTurn),
      (.add (ascii "k") (ascii "w") 7, promptTurn), (.addInt (ascii "n") (-3) 0, promptTurn),
      (.get .get (ascii "k") { e := { key := [] } }, promptTurn),
      (.get .get (ascii "x") { e := { key := [] } }, promptTurn), (.disconnect, promptTurn)]).2.map (fun r =>
        match r.said with
        | .value x g => (ClientSaid.result x, g.e.data)
        | x => (x, [])) =
      [(.result .stored, []), (.result .notStored, []), (.result .stored, []), (.result .ok, ascii "v"),
        (.result .notFound, []), (.code true, [])] := by decide +kernel

/-- The data of one key under the name of another one. -/
example :
    let g : GetSlot := { e := { key := ascii "k", size := 1, data := ascii "v" }, avail := true }
    (({ up := true, desk := { store := { cacheSize := 0 } } } : ClientSt).call {} promptTurn (.get .get (ascii "x") g)).2.said =
      .value .ok { e := { key := ascii "x", size := 1, data := ascii "v" }, avail := true } := by decide +kernel

/-- A key that deletes another one. -/
example : takeReq 0 (List.replicate 1024 0) (List.replicate 8192 0) (getRequest .get (ascii "a\r\ndelete b")) =
    .req (.get .get [ascii "a"]) (ascii "delete b\r\n") := by decide +kernel

/-- After a lost connection every `get` fails, although the node is there; an `add` brings the connection back. -/
example :
    (({ up := true, desk := { store := { cacheSize := 0 } } } : ClientSt).calls {} [
      (.get .get (ascii "k") { e := { key := [] } }, { promptTurn with try_ := { env := { now := 100 }, sent := false } }),
      (.get .get (ascii "k") { e := { key := [] } }, promptTurn), (.get .get (ascii "k") { e := { key := [] } }, promptTurn),
      (.add (ascii "k") (ascii "v") 0, promptTurn), (.get .get (ascii "k") { e := { key := [] } }, promptTurn)]).2.map
        (·.said.isError) = [true, true, true, false, false] := by decide +kernel

/-- Nothing can be read from a stream that has ended. -/
theorem clientRead_cut (P : ErrandBufs) (now : Int64) {x : ClientCall} {e : Errand} (he : x.errand = some e) :
    ∃ g rest, errandRead P now [] e.slot e = (.failed, g, rest) := by
  have hl : readLine [] = none := by decide
  cases x with
  | connect => cases he
  | disconnect => cases he
  | get y k g =>
    obtain rfl := (Option.some.inj he).symm
    simp [errandRead, getClient, hl]
  | add k d f =>
    obtain rfl := (Option.some.inj he).symm
    simp [errandRead, writeClient, clientWrite, readResponse, hl, WriteCmd.kind]
  | addInt k d f =>
    obtain rfl := (Option.some.inj he).symm
    simp [errandRead, writeClient, clientWrite, readResponse, hl, WriteCmd.kind]
  | cas k d f v =>
    obtain rfl := (Option.some.inj he).symm
    simp [errandRead, writeClient, clientWrite, readResponse, hl, WriteCmd.kind]

/-- **C104**: a call whose connection breaks before the answer is told as an error although the node has carried it out,
and the connection counts as closed, so that the next write opens a new one. -/
theorem C104_cut (P : ErrandBufs) {x : ClientCall} (hx : x.Proper) {e : Errand} (he : x.errand = some e) {t : ClientTurn}
    (hs : t.try_.sent = true) (hi : t.try_.inTime = some 0) (hb : t.try_.breaks = true) {c : ClientSt} (hup : c.up = true)
    {s' : Store} {d : ErrandDid} {a : Bytes}
    (hd : e.bytes.bind (errandServe P t.try_ (run c.desk.store t.try_.before)) = some (s', d, a)) :
    (c.call P t x).1 = { up := false, desk := { store := s', wire := [] } } ∧
      (c.call P t x).2.said.isError = true ∧ (c.call P t x).2.did = [d] := by
  obtain ⟨h1, h2, h3, h4⟩ := call_sent (P := P) hx he (t := t) (c := c) (.inl hup)
  obtain ⟨g, rest, hr⟩ := clientRead_cut P t.try_.now he
  have ht : errandTry P e t.try_ c.desk e.slot = ({ store := s', wire := [] }, { ends := .failed, slot := g, did := [d] }) := by
    unfold errandTry
    simp [hs, hd, hi, hb, cutAt, hr]
  rw [ht] at h1 h2 h3 h4
  refine ⟨?_, ?_, h3⟩
  · obtain ⟨r, er⟩ : ∃ r, r = (c.call P t x).1 := ⟨_, rfl⟩
    rw [← er] at h1 h2 ⊢
    cases r
    simp only at h1 h2
    rw [h1, h2, hs, hb]
    rfl
  · rw [h4]
    cases x <;> rfl

example :
    (({ up := true, desk := { store := { cacheSize := 0 } } } : ClientSt).calls {} [
      (.add (ascii "k") (ascii "v") 0, { promptTurn with try_ := { promptTurn.try_ with inTime := some 0, breaks := true } }),
      (.add (ascii "k") (ascii "v") 0, promptTurn)]).2.map (·.said) = [.result .error, .result .notStored] := by
  decide +kernel

end Flare
