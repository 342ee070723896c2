import Verif.Props.Worker
import Verif.Props.Wire
import Verif.Props.Config
import Verif.Props.MySqlMore
import Verif.Props.BinMeaning

/-! Further parts of C72, C73, C74, C75 and C76, found to be missing by wrong programs that the other theorems let
pass. -/
namespace Flare

/-! ### C76: what a call returns -/

/-- C76.  A call that succeeds returns the number of bytes it has dealt with: its own if they are kept back, otherwise
also those that were kept back before. -/
theorem C76_returned_partial (w : Wire) (c : WireCall) (n : Int) (hup : w.up = true)
    (hz : Kernel.zero ∉ w.kernel) (hc : c ≠ .close) (h : (w.call c).2 = .ret n) (hn : 0 ≤ n) :
    n = (if c.sends then w.pending.length else 0) + c.payload.length := by
  have h0 : ¬ w.up = false := by rw [hup]; decide
  cases c with
  | write p b =>
    cases b with
    | true =>
      simp only [Wire.call, Wire.write, if_neg h0, if_true] at h
      cases ha : (w.buf.getD {}).add p with
      | none => rw [ha] at h; exact nomatch h
      | some b =>
        rw [ha] at h
        simp only [WireEnd.ret.injEq] at h
        simp only [WireCall.sends, WireCall.payload, Bool.not_true, Bool.false_eq_true, if_false]
        omega
    | false =>
      have := w.write_ret p hz n h
      simp only [List.length_append] at this
      simp only [WireCall.sends, WireCall.payload, Bool.not_false, if_true]
      omega
  | line p =>
    simp only [Wire.call, w.line_write p hz] at h
    have := w.write_ret _ hz n h
    simp only [List.length_append] at this
    simp only [WireCall.sends, WireCall.payload, if_true, List.length_append]
    omega
  | close => exact absurd rfl hc

example : (Wire.calls [.write (ascii "abc") true, .write (ascii "de") true, .line (ascii "END")]
    { kernel := [.took 3, .intr, .took 9] }).2 = [.ret 3, .ret 2, .ret 10] := by decide

/-! ### C75: callers that wait for the start, and the end of a thread -/

/-- C75.  Nobody waits in vain for the end of a thread: however it came to an end, it has said so. -/
theorem C75_end_told (acts : List WorkAct) (s : Work) (hs : ({} : Work).run acts = some s) (hd : s.at_ = .dead) :
    s.stopped = true := by
  have : ∀ (acts : List WorkAct) (t : Work), (t.at_ = .dead → t.stopped = true) → t.run acts = some s →
      s.at_ = .dead → s.stopped = true := by
    intro acts
    induction acts with
    | nil => intro t h hs; simp only [Work.run, Option.some.injEq] at hs; exact hs ▸ h
    | cons a as ih =>
      intro t h hs
      simp only [Work.run, Option.bind_eq_some_iff] at hs
      obtain ⟨u, h1, h2⟩ := hs
      refine ih u ?_ h2
      by_cases ht : t.stopped = true
      · exact fun _ => Work.stopped_step h1 ht
      have hnd : t.at_ ≠ .dead := fun e => ht (h e)
      cases a with
      | go room =>
        simp only [Work.step, Work.go] at h1
        split at h1 <;> simp only [Option.some.injEq, reduceCtorEq] at h1 <;> subst h1
        all_goals (try split) <;> simp_all
        all_goals (split <;> simp_all)
      | poke =>
        simp only [Work.step, Option.some.injEq] at h1
        subst h1
        simp only [Work.signal]
        split <;> simp_all
      | fire y =>
        simp only [Work.step] at h1
        split at h1 <;> simp only [Option.some.injEq, reduceCtorEq] at h1
        subst h1
        simp only [Work.signal]
        split <;> simp_all
      | ask q => simp only [Work.step, Option.some.injEq] at h1; subst h1; split <;> exact fun e => absurd e hnd
      | look =>
        simp only [Work.step] at h1
        split at h1 <;> simp only [Option.some.injEq, reduceCtorEq] at h1
        subst h1
        split <;> exact fun e => absurd e hnd
      | mark g => simp only [Work.step, Option.some.injEq] at h1; subst h1; exact fun e => absurd e hnd
      | _ =>
        simp only [Work.step] at h1
        split at h1 <;> simp only [Option.some.injEq, reduceCtorEq] at h1
        subst h1
        simp_all
  exact this acts {} (fun h => nomatch h) hs hd

/-- Nobody is about to wait for the start of `h`. -/
def Work.NotFor (s : Work) (h : Nat) : Prop :=
  h ∉ s.looking ∧ (s.boss = .gave → s.given.getLast? ≠ some h)

theorem Work.told_step {s t : Work} {a : WorkAct} {h : Nat} (h1 : s.step a = some t) (hn : s.NotFor h)
    (hg : a ≠ .give h) : t.NotFor h ∧ (h ∉ s.waiting → h ∉ t.waiting) := by
  obtain ⟨hl, hb⟩ := hn
  cases a with
  | go room =>
    simp only [Work.step, Work.go] at h1
    split at h1 <;> simp only [Option.some.injEq, reduceCtorEq] at h1 <;> subst h1
    all_goals (try split) <;> first
      | exact ⟨⟨hl, hb⟩, fun x => x⟩
      | exact ⟨⟨hl, hb⟩, fun x y => x (List.mem_of_mem_drop y)⟩
  | poke => simp only [Work.step, Option.some.injEq] at h1; subst h1; exact ⟨⟨hl, hb⟩, fun x => x⟩
  | mark g => simp only [Work.step, Option.some.injEq] at h1; subst h1; exact ⟨⟨hl, hb⟩, fun x => x⟩
  | ask q => simp only [Work.step, Option.some.injEq] at h1; subst h1; split <;> exact ⟨⟨hl, hb⟩, fun x => x⟩
  | look =>
    simp only [Work.step] at h1
    split at h1 <;> simp only [Option.some.injEq, reduceCtorEq] at h1
    rename_i x xs hx
    rw [hx] at hl
    subst h1
    split
    · exact ⟨⟨fun y => hl (List.mem_cons_of_mem _ y), hb⟩, fun x => x⟩
    · refine ⟨⟨fun y => hl (List.mem_cons_of_mem _ y), hb⟩, fun y z => ?_⟩
      rcases List.mem_append.1 z with z | z
      · exact y z
      · rw [List.mem_singleton.1 z] at hl; exact hl List.mem_cons_self
  | give x =>
    simp only [Work.step] at h1
    split at h1 <;> simp only [Option.some.injEq, reduceCtorEq] at h1
    subst h1
    refine ⟨⟨hl, fun _ => ?_⟩, fun x => x⟩
    simp only [List.getLast?_append, List.getLast?_singleton, Option.some_or, ne_eq, Option.some.injEq]
    exact fun e => hg (by rw [e])
  | fire y =>
    simp only [Work.step] at h1
    split at h1 <;> simp only [Option.some.injEq, reduceCtorEq] at h1
    rename_i hbg
    subst h1
    refine ⟨⟨?_, fun e => nomatch e⟩, fun x => x⟩
    cases y with
    | false => exact hl
    | true =>
      simp only [if_true, Work.signal, List.mem_append, not_or]
      refine ⟨hl, fun e => hb hbg ?_⟩
      cases hx : s.given.getLast? with
      | none => rw [hx] at e; exact nomatch e
      | some v => rw [hx] at e; simp only [Option.toList, List.mem_singleton] at e; rw [e]
  | _ =>
    simp only [Work.step] at h1
    split at h1 <;> simp only [Option.some.injEq, reduceCtorEq] at h1
    subst h1
    exact ⟨⟨hl, fun e => by first | exact hb e | exact nomatch e⟩, fun x => x⟩

theorem Work.told_run (acts : List WorkAct) {s t : Work} {h : Nat} (hs : s.run acts = some t) (hn : s.NotFor h)
    (hg : .give h ∉ acts) (hw : h ∉ s.waiting) : h ∉ t.waiting := by
  induction acts generalizing s with
  | nil => simp only [Work.run, Option.some.injEq] at hs; exact hs ▸ hw
  | cons a as ih =>
    simp only [Work.run, Option.bind_eq_some_iff] at hs
    obtain ⟨u, h1, h2⟩ := hs
    obtain ⟨i1, i2⟩ := Work.told_step h1 hn (fun e => hg (by simp [e]))
    exact ih h2 i1 (fun e => hg (List.mem_cons_of_mem _ e)) (i2 hw)

/-- When nobody is about to call the thread or to wait, only a start changes who waits. -/
theorem Work.quiet_step {s t : Work} {a : WorkAct} (h1 : s.step a = some t) (hb : s.boss = .none)
    (hl : s.looking = []) :
    t.looking = [] ∧ (t.waiting = s.waiting ∨ (t.waiting = s.waiting.drop 1 ∧ t.ran ≠ s.ran)) ∧
      (t.ran ≠ s.ran → t.waiting = s.waiting.drop 1) := by
  cases a with
  | go room =>
    simp only [Work.step, Work.go] at h1
    split at h1 <;> simp only [Option.some.injEq, reduceCtorEq] at h1 <;> subst h1
    all_goals (try split) <;> first
      | exact ⟨hl, .inl rfl, fun e => absurd rfl e⟩
      | exact ⟨hl, .inr ⟨rfl, by simp⟩, fun _ => rfl⟩
  | poke => simp only [Work.step, Option.some.injEq] at h1; subst h1; exact ⟨hl, .inl rfl, fun e => absurd rfl e⟩
  | mark g => simp only [Work.step, Option.some.injEq] at h1; subst h1; exact ⟨hl, .inl rfl, fun e => absurd rfl e⟩
  | ask q =>
    simp only [Work.step, Option.some.injEq] at h1
    subst h1
    split <;> exact ⟨hl, .inl rfl, fun e => absurd rfl e⟩
  | look => simp [Work.step, hl] at h1
  | fire y => simp [Work.step, hb] at h1
  | _ =>
    simp only [Work.step] at h1
    split at h1 <;> simp only [Option.some.injEq, reduceCtorEq] at h1
    subst h1
    exact ⟨hl, .inl rfl, fun e => absurd rfl e⟩

theorem Work.told_called (acts : List WorkAct) {s s' : Work} {ran : List Nat} {h : Nat} (hc : s.Called ran h)
    (ht : s.Timely acts) (hs : s.run acts = some s') (hn : s.far ≤ acts.countP WorkAct.isGo) (hl : s.looking = [])
    (hw : s.waiting = [h]) (hg : .give h ∉ acts) : h ∉ s'.waiting := by
  induction acts generalizing s with
  | nil =>
    obtain ⟨-, hat⟩ := Work.called_fired hc
    rw [List.countP_nil] at hn
    rcases hat with ⟨c, hat⟩ | hat | hat | hat | hat <;> simp [Work.far, hat] at hn
  | cons a as ih =>
    simp only [Work.run, Option.bind_eq_some_iff] at hs
    obtain ⟨t, h1, h2⟩ := hs
    have hnf : s.NotFor h := ⟨by rw [hl]; simp, fun e => by rw [hc.2.1] at e; exact nomatch e⟩
    have hg' : .give h ∉ as := fun e => hg (List.mem_cons_of_mem _ e)
    have hnt := (Work.told_step h1 hnf (fun e => hg (by simp [e]))).1
    rcases Work.called_step hc ht.1 h1 with hr | ⟨h3, h4⟩
    · refine Work.told_run as h2 hnt hg' ?_
      have hrs : t.ran ≠ s.ran := by
        rw [hr, hc.2.2.1]
        intro e
        have := congrArg List.length e
        simp at this
      rw [(Work.quiet_step h1 hc.2.1 hl).2.2 hrs, hw]
      simp
    · obtain ⟨q1, q2, -⟩ := Work.quiet_step h1 hc.2.1 hl
      have hw' : t.waiting = [h] := by
        rcases q2 with q2 | ⟨-, q2⟩
        · rw [q2, hw]
        · exact absurd (h3.2.2.1.trans hc.2.2.1.symm) q2
      refine ih h3 (ht.2 t h1) h2 ?_ q1 hw' hg'
      rw [List.countP_cons] at hn
      rw [h4]
      cases hgo : a.isGo <;> simp only [hgo, Bool.false_eq_true, if_true, if_false] at hn ⊢ <;> omega

/-- C75.  A caller that has begun to wait before the start is told of it: when it is the only one that waits and nobody
else is about to, then once the thread has gone on four times, with anything in time by others in between, it no longer
waits.  (One that looks too late waits for a start that has been: `C75_start_missed`.) -/
theorem C75_start_told (acts more : List WorkAct) (s s' : Work) (h : Nat) (ht : ({} : Work).Timely acts)
    (hs : ({} : Work).run acts = some s) (hg : s.given = s.ran ++ [h]) (hb : s.boss = .none) (hl : s.looking = [])
    (hw : s.waiting = [h]) (hm : s.Timely more) (hr : s.run more = some s') (hn : 4 ≤ more.countP WorkAct.isGo)
    (hnew : .give h ∉ more) : h ∉ s'.waiting := by
  have hc : s.Called s.ran h := ⟨Work.ok_run acts {} s Work.ok_start ht hs, hb, rfl, hg⟩
  obtain ⟨-, hat⟩ := Work.called_fired hc
  refine Work.told_called more hc hm hr (Nat.le_trans ?_ hn) hl hw hnew
  rcases hat with ⟨c, hat⟩ | hat | hat | hat | hat <;> simp [Work.far, hat]

/-- A caller waits, the thread goes on, and others go on too. -/
example : ∃ s s', ({} : Work).run [.name, .give 7, .fire true, .look] = some s ∧ s.waiting = [7] ∧
    s.run [.go true, .go true, .go true, .finish, .go true] = some s' ∧ s'.waiting = [] ∧ s'.ran = [7] :=
  ⟨_, _, rfl, rfl, rfl, rfl, rfl⟩

/-! ### C73: which index servers a node uses -/

theorem searchIndex_none (s : Bytes) (h : ∀ c ∈ s, c ≠ 58) : searchIndex s = none := by
  induction s with
  | nil => rfl
  | cons c s ih =>
    have : matchIndex (c :: s) = none := by
      unfold matchIndex
      simp only
      split
      · rename_i t ht
        have h1 : (58 : UInt8) ∈ ((skipComma (c :: s)).dropWhile isBlank).dropWhile isNameChar := by rw [ht]; simp
        have h2 := (List.dropWhile_sublist _).subset ((List.dropWhile_sublist _).subset h1)
        have h3 : (58 : UInt8) ∈ c :: s := by
          unfold skipComma at h2
          split at h2
          · rename_i hx
            rw [hx]
            exact List.mem_cons_of_mem _ h2
          · exact h2
        exact absurd rfl (h _ h3)
      · rfl
    unfold searchIndex
    rw [this]
    exact ih fun a ha => h a (by simp [ha])

theorem loadIni_index {g : Given} {i : IniOption} (h : loadIni g = some i) : indexServersOf g = some i.indexServers := by
  simp only [loadIni] at h
  cases hi : indexServersOf g with
  | none => rw [hi] at h; exact nomatch h
  | some v =>
    rw [hi] at h
    simp only at h
    split at h
    · exact nomatch h
    split at h
    · exact nomatch h
    cases h
    rfl

theorem startNode_index {cli file : Given} :
    (indexServersOf (cli.over file) = none → startNode cli file = none) ∧
    ∀ n, startNode cli file = some n → some n.set.indexServers = indexServersOf (cli.over file) := by
  constructor
  · intro h
    simp only [startNode, loadIni, h]
  · intro n hn
    simp only [startNode] at hn
    cases hi : loadIni (cli.over file) with
    | none => rw [hi] at hn; exact nomatch hn
    | some i =>
      rw [hi] at hn
      rw [loadIni_index hi]
      simp only at hn
      repeat' split at hn
      all_goals first
        | (cases hn; rfl)
        | cases hn

/-- C73.  Which options about index servers are accepted: a list alone, with at least one server in it, or a name alone
or with a port; the port is 12120 if it is not given. -/
theorem C73_index_options (g : Given) :
    (∀ s, g.indexServers = some s → (g.indexServerName ≠ none ∨ g.indexServerPort ≠ none ∨ (∀ c ∈ s, c ≠ 58)) →
      ∀ cli file, cli.over file = g → startNode cli file = none) ∧
    (g.indexServers = none → (g.indexServerName = none ∨ g.indexServerName = some []) →
      ∀ cli file, cli.over file = g → startNode cli file = none) ∧
    (∀ name cli file n, g.indexServers = none → g.indexServerName = some name → cli.over file = g →
      startNode cli file = some n → n.set.indexServers = [⟨name, g.indexServerPort.getD 12120⟩]) := by
  refine ⟨fun s hs h cli file e => ?_, fun h1 h2 cli file e => ?_, fun name cli file n h1 h2 e hn => ?_⟩
  · refine startNode_index.1 ?_
    rw [e]
    unfold indexServersOf
    simp only [hs]
    cases hv : indexEntries (s.length + 1) s with
    | none => rfl
    | some v =>
      simp only
      by_cases h0 : v = []
      · rw [if_pos h0]
      · rw [if_neg h0]
        rcases h with h | h | h
        · cases hx : g.indexServerName with
          | none => exact absurd hx h
          | some _ => rfl
        · cases hx : g.indexServerPort with
          | none => exact absurd hx h
          | some _ => simp
        · rw [indexEntries, searchIndex_none s h] at hv
          exact absurd (Option.some.inj hv).symm h0
  · refine startNode_index.1 ?_
    rw [e]
    rcases h2 with h2 | h2 <;> simp [indexServersOf, h1, h2]
  · have := startNode_index.2 n hn
    rw [e] at this
    by_cases h0 : name = []
    · simp [indexServersOf, h1, h2, h0] at this
    · simpa [indexServersOf, h1, h2, h0] using this

/-- A name in the file and a port on the command line; a list and a port beside it. -/
example : ((startNode { indexServerPort := some 7 } { indexServerName := some (ascii "i") }).map (·.set.indexServers),
    (startNode { indexServerPort := some 7 } { indexServers := some (ascii "i:1") }).map (·.set.indexServers)) =
    (some [⟨ascii "i", 7⟩], none) := by decide +kernel

/-! ### C74 -/

/-- C74.  The text of a value has no byte that ends it or that a terminal, a file or a line would take for its own: no NUL,
no end of line, no control-Z. -/
theorem C74_text_clean (d : Bytes) : ∀ c ∈ sqlEscape d, c ≠ 0 ∧ c ≠ 10 ∧ c ≠ 13 ∧ c ≠ 26 := by
  intro c hc
  obtain ⟨x, -, hx⟩ := List.mem_flatMap.1 hc
  unfold sqlEscapeByte at hx
  repeat' split at hx
  all_goals (simp only [List.mem_cons, List.not_mem_nil, or_false] at hx)
  all_goals first
    | (rcases hx with rfl | rfl <;> decide)
    | (subst hx; refine ⟨?_, ?_, ?_, ?_⟩ <;> assumption)

example : sqlEscape [26, 97, 39, 10] = [92, 90, 97, 92, 39, 92, 110] := by decide

/-- Defect: a query is compared up to a NUL byte, what follows it is not looked at. -/
theorem C74_query_cut (now : Int64) (rest : Bytes) :
    sqlAnswer now (ascii "SELECT UNIX_TIMESTAMP()" ++ 0 :: rest) = sqlAnswer now (ascii "SELECT UNIX_TIMESTAMP()") := by
  have : ∀ w : Bytes, caseMatch (w ++ 0 :: rest) w = true ∧ caseMatch w w = true := by
    intro w
    induction w with
    | nil => exact ⟨by simp [caseMatch], rfl⟩
    | cons c w ih => simp [caseMatch, ih]
  unfold sqlAnswer
  rw [if_pos (this _).1, if_pos (this _).2]

/-! ### C72 -/

/-- C72.  What does not begin with the magic byte of a request is not a request of the binary protocol: nothing is done
and nothing is sent. -/
theorem C72_magic {σ : Type} (B : BBack σ) (now : Int64) (st : σ) (m : UInt8) (s : Bytes) (hm : m ≠ 0x80) :
    binServeAll B now st (m :: s) = { st := st, stop := .other } := by
  simp [binServeAll, binSession, takeBin, hm]

example : (binServeAll (binNode 1000) 1000 { cacheSize := 0 } (0x81 :: (BinAsk.noop.msg.encode.drop 1))).out = [] := by
  rw [C72_magic _ _ _ _ _ (by decide)]

end Flare
