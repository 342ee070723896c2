import Verif.Model.Logger
import Verif.Spec.Log
import Verif.Props.Show

/-! # C110: what the log says -/

namespace Flare

/-- A call whose parts can be told apart: the names of the file and the function have none of the marks in them. -/
structure LogCall.Tidy (r : LogCall) : Prop where
  file : ∀ c ∈ r.file, c ≠ 10 ∧ c ≠ 58
  func : ∀ c ∈ r.func, c ≠ 10 ∧ c ≠ 93

theorem logLines_line {l : Bytes} (h : ∀ c ∈ l, c ≠ 10) (acc s : Bytes) :
    logLines acc (l ++ 10 :: s) = (acc.reverse ++ l) :: logLines [] s := by
  induction l generalizing acc with
  | nil => simp [logLines]
  | cons c l ih =>
    have hc : c ≠ 10 := h c (List.mem_cons_self ..)
    show logLines acc (c :: (l ++ 10 :: s)) = _
    rw [logLines, if_neg hc, ih (fun d hd => h d (List.mem_cons_of_mem _ hd))]
    simp

theorem logPart_unique {x : UInt8} {a a' b b' : Bytes} (h : ∀ c ∈ a, c ≠ x) (h' : ∀ c ∈ a', c ≠ x)
    (e : a ++ x :: b = a' ++ x :: b') : a = a' ∧ b = b' := by
  induction a generalizing a' with
  | nil =>
    cases a' with
    | nil => exact ⟨rfl, (List.cons.inj e).2⟩
    | cons d a' => exact absurd (List.cons.inj e).1.symm (h' d (List.mem_cons_self ..))
  | cons c a ih =>
    cases a' with
    | nil => exact absurd (List.cons.inj e).1 (h c (List.mem_cons_self ..))
    | cons d a' =>
      obtain ⟨e1, e2⟩ := List.cons.inj e
      obtain ⟨e3, e4⟩ := ih (fun c hc => h c (List.mem_cons_of_mem _ hc)) (fun c hc => h' c (List.mem_cons_of_mem _ hc)) e2
      exact ⟨by rw [e1, e3], e4⟩

theorem logDigit_plain (n : Nat) : ∀ c ∈ decimal n, c ≠ 10 ∧ c ≠ 93 ∧ c ≠ 45 := by
  intro c hc
  have h := decimal_digits n c hc
  refine ⟨?_, ?_, ?_⟩ <;> rintro rfl <;> exact absurd h (by decide)

theorem logTag_plain (l : LogLevel) : ∀ c ∈ l.tag, c ≠ 10 ∧ c ≠ 93 := by cases l <;> decide

theorem logTag_inj {l l' : LogLevel} (h : l.tag = l'.tag) : l = l' := by
  cases l <;> cases l' <;> first | rfl | exact absurd h (by decide)

theorem logText_mem {t : Bytes} {c : UInt8} (h : c ∈ logText t) : c ∈ t :=
  List.takeWhile_subset _ (List.mem_of_mem_take h)

theorem logCstr_self {t : Bytes} (h : ∀ c ∈ t, c ≠ 0) : cstr t = t := by
  have e := List.takeWhile_append_of_pos (p := (· ≠ (0 : UInt8))) (l₁ := t) (l₂ := []) fun c hc => by simpa using h c hc
  simpa [cstr] using e

theorem logRender_no_nl {r : LogCall} (h : r.Tidy) (ht : ∀ c ∈ logText r.text, c ≠ 10) : ∀ c ∈ r.render, c ≠ 10 := by
  intro c hc
  simp only [LogCall.render, List.mem_cons, List.mem_append] at hc
  rcases hc with rfl | hc | rfl | rfl | hc | rfl | rfl | hc | rfl | hc | rfl | hc | rfl | rfl | hc
  all_goals first
    | decide
    | exact (logDigit_plain _ _ hc).1
    | exact (logTag_plain _ _ hc).1
    | exact (h.file _ hc).1
    | exact (h.func _ hc).1
    | exact ht _ hc

/-- **C110**, partial (texts without an end of a line): the log has one line for each message, in their order. -/
theorem C110_lines_partial {rs : List LogCall} (h : ∀ r ∈ rs, r.Tidy ∧ ∀ c ∈ r.text, c ≠ 10) :
    logLines [] (stderrLog rs) = rs.map LogCall.render := by
  induction rs with
  | nil => rfl
  | cons r rs ih =>
    obtain ⟨h1, h2⟩ := h r (List.mem_cons_self ..)
    show logLines [] (r.render ++ 10 :: stderrLog rs) = _
    rw [logLines_line (logRender_no_nl h1 fun c hc => h2 c (logText_mem hc)), ih fun r hr => h r (List.mem_cons_of_mem _ hr)]
    rfl

/-- **C110**: a line tells the thread and the level, whatever the rest; and the file, the line, the function and the text
up to the cut. -/
theorem C110_read {r r' : LogCall} (e : r.render = r'.render) :
    r.thread = r'.thread ∧ r.level = r'.level ∧
      (r.Tidy → r'.Tidy → r.file = r'.file ∧ r.line = r'.line ∧ r.func = r'.func ∧ logText r.text = logText r'.text) := by
  have e1 := (List.cons.inj e).2
  obtain ⟨e2, e3⟩ := logPart_unique (fun c hc => (logDigit_plain _ c hc).2.1) (fun c hc => (logDigit_plain _ c hc).2.1) e1
  obtain ⟨e4, e5⟩ := logPart_unique (fun c hc => (logTag_plain _ c hc).2) (fun c hc => (logTag_plain _ c hc).2)
    (List.cons.inj e3).2
  refine ⟨decimal_inj e2, logTag_inj e4, fun h h' => ?_⟩
  obtain ⟨e6, e7⟩ := logPart_unique (fun c hc => (h.file c hc).2) (fun c hc => (h'.file c hc).2) (List.cons.inj e5).2
  obtain ⟨e8, e9⟩ := logPart_unique (fun c hc => (logDigit_plain _ c hc).2.2) (fun c hc => (logDigit_plain _ c hc).2.2) e7
  obtain ⟨e10, e11⟩ := logPart_unique (fun c hc => (h.func c hc).2) (fun c hc => (h'.func c hc).2) e9
  exact ⟨e6, decimal_inj e8, e10, (List.cons.inj e11).2⟩

/-- A warning of `op_get`, /repo/src/lib/op_get.cc:128. -/
def exampleLogCall : LogCall :=
  ⟨17, .warning, ascii "op_get.cc", 128, ascii "_run_server", ascii "proxy error (key=a) -> continue"⟩

example : logLines [] (stderrLog [exampleLogCall, exampleLogCall]) =
    [ascii "[17][WRN][op_get.cc:128-_run_server] proxy error (key=a) -> continue",
      ascii "[17][WRN][op_get.cc:128-_run_server] proxy error (key=a) -> continue"] := by decide +kernel

/-- **C110**: a text of up to 1023 bytes is logged whole, and of a longer one exactly the first 1023 bytes. -/
theorem C110_cut {t : Bytes} (h : ∀ c ∈ t, c ≠ 0) : (logText t).length = min 1023 t.length ∧ logText t <+: t := by
  have e : cstr t = t := logCstr_self h
  unfold logText
  rw [e]
  exact ⟨List.length_take, List.take_prefix ..⟩

/-- **C110** fails beyond the cut: two messages that differ only behind the first 1023 bytes cannot be told apart. -/
theorem C110_same (r : LogCall) {t a b : Bytes} (h : ∀ c ∈ t, c ≠ 0) (ht : t.length = 1023) :
    ({ r with text := t ++ a } : LogCall).render = ({ r with text := t ++ b } : LogCall).render := by
  have key : ∀ s, logText (t ++ s) = t := fun s => by
    unfold logText cstr
    rw [List.takeWhile_append_of_pos fun c hc => by simpa using h c hc, List.take_append_of_le_length (by omega),
      List.take_of_length_le (by omega)]
  unfold LogCall.render
  rw [key, key]

/-- **C110** fails for a text with an end of a line in it: the log is the one of two messages, and the second is all the
sender's own, with any thread, level and place.  The keys of the binary protocol may have such bytes and are logged
(/repo/src/lib/op_get.cc:128, /repo/src/lib/handler_proxy.cc:116). -/
theorem C110_forged (r f : LogCall) {a : Bytes} (ha : ∀ c ∈ a, c ≠ 0) (hf : ∀ c ∈ f.render, c ≠ 0)
    (hl : a.length + 1 + f.render.length ≤ 1023) (rs : List LogCall) :
    stderrLog ({ r with text := a ++ 10 :: f.render } :: rs) = stderrLog ({ r with text := a } :: f :: rs) := by
  have whole : ∀ {t : Bytes}, (∀ c ∈ t, c ≠ 0) → t.length ≤ 1023 → logText t = t := fun {t} h hl => by
    have e : cstr t = t := logCstr_self h
    unfold logText
    rw [e, List.take_of_length_le hl]
  have h1 : logText a = a := whole ha (by omega)
  have h2 : logText (a ++ 10 :: f.render) = a ++ 10 :: f.render := by
    refine whole (fun c hc => ?_) (by simp only [List.length_append, List.length_cons]; omega)
    rcases List.mem_append.mp hc with hc | hc
    · exact ha c hc
    · rcases List.mem_cons.mp hc with rfl | hc
      · decide
      · exact hf c hc
  show LogCall.render _ ++ 10 :: stderrLog rs = LogCall.render _ ++ 10 :: (f.render ++ 10 :: stderrLog rs)
  simp only [LogCall.render] at h1 h2 ⊢
  rw [h1, h2]
  simp only [List.append_assoc, List.cons_append]

example : stderrLog [{ exampleLogCall with text := ascii "key=a" ++ 10 :: LogCall.render { exampleLogCall with level := .emerg } }] =
    stderrLog [{ exampleLogCall with text := ascii "key=a" }, { exampleLogCall with level := .emerg }] :=
  C110_forged _ _ (by decide +kernel) (by decide +kernel) (by decide +kernel) []

/-! ## The facility -/

/-- The facility that a history of names asks for: the last one of those that are known, and `LOG_USER` without any. -/
def LastFacility (names : List Bytes) (f : Nat) : Prop :=
  (∃ before n after, names = before ++ n :: after ∧ facilityCode n = f ∧ f ≠ 0 ∧ ∀ m ∈ after, facilityCode m = 0) ∨
    ((∀ m ∈ names, facilityCode m = 0) ∧ f = 8)

theorem logReload_open {s : LogState} (h : s.isOpen = true) (n : Bytes) (b : Bool) :
    s.reload n b = ⟨true, b, if b = true ∨ facilityCode n = 0 then s.facility else facilityCode n⟩ := by
  simp [LogState.reload, LogState.closed, LogState.opened, h]

theorem logHistory_snoc (b : Bool) (n m : Bytes) (ns : List Bytes) :
    logHistory b n (ns ++ [m]) = (logHistory b n ns).reload m b := by
  simp [logHistory, List.foldl_append]

theorem logHistory_open (b : Bool) (n : Bytes) (ns : List Bytes) :
    (logHistory b n ns).isOpen = true ∧ (logHistory b n ns).toStderr = b := by
  induction ns using List.reverseRecOn with
  | nil => exact ⟨rfl, rfl⟩
  | append_singleton ns m ih =>
    rw [logHistory_snoc, logReload_open ih.1]
    exact ⟨rfl, rfl⟩

theorem LastFacility_snoc {ns : List Bytes} {f : Nat} (h : LastFacility ns f) (m : Bytes) :
    LastFacility (ns ++ [m]) (if facilityCode m = 0 then f else facilityCode m) := by
  by_cases hm : facilityCode m = 0
  · rw [if_pos hm]
    rcases h with ⟨p, n, q, e, h1, h2, h3⟩ | ⟨h1, h2⟩
    · refine .inl ⟨p, n, q ++ [m], by simp [e], h1, h2, fun x hx => ?_⟩
      rcases List.mem_append.mp hx with hx | hx
      · exact h3 x hx
      · rw [List.mem_singleton.mp hx, hm]
    · refine .inr ⟨fun x hx => ?_, h2⟩
      rcases List.mem_append.mp hx with hx | hx
      · exact h1 x hx
      · rw [List.mem_singleton.mp hx, hm]
  · rw [if_neg hm]
    exact .inl ⟨ns, m, [], rfl, rfl, hm, fun x hx => absurd hx (List.not_mem_nil)⟩

/-- **C110**: through every history of reloads, messages go to the facility that was asked for last, names that are not
known being passed over; with `log_stderr` nothing goes to `syslog`. -/
theorem C110_facility (n : Bytes) (ns : List Bytes) (l : LogLevel) :
    (∃ f, LastFacility (n :: ns) f ∧ (logHistory false n ns).priority l = some (f + l.number)) ∧
      (logHistory true n ns).priority l = none := by
  have key : LastFacility (n :: ns) (logHistory false n ns).facility := by
    induction ns using List.reverseRecOn with
    | nil =>
      have h := LastFacility_snoc (ns := []) (f := 8) (.inr ⟨fun x hx => absurd hx (List.not_mem_nil), rfl⟩) n
      simpa [logHistory, LogState.opened, LogState.fresh] using h
    | append_singleton ns m ih =>
      have h := LastFacility_snoc ih m
      rw [logHistory_snoc, logReload_open (logHistory_open ..).1]
      simpa using h
  refine ⟨⟨_, key, ?_⟩, ?_⟩
  · simp [LogState.priority, (logHistory_open false n ns).2]
  · simp [LogState.priority, (logHistory_open true n ns).2]

/-- The names of the manual and their facilities in `syslog.h`, shifted to their place. -/
def facilityTable : List (Bytes × Nat) :=
  [(ascii "auth", 4), (ascii "daemon", 3), (ascii "user", 1), (ascii "local0", 16), (ascii "local1", 17),
    (ascii "local2", 18), (ascii "local3", 19), (ascii "local4", 20), (ascii "local5", 21), (ascii "local6", 22),
    (ascii "local7", 23)]

/-- **C110**: exactly the eleven names are known, and the priority tells the facility and the level. -/
theorem C110_names (n : Bytes) (ns : List Bytes) (m : Bytes) :
    (∀ c, (m, c) ∈ facilityTable → ∀ l, (logHistory false n (ns ++ [m])).priority l = some (c * 8 + l.number)) ∧
      ((∀ c, (m, c) ∉ facilityTable) → logHistory false n (ns ++ [m]) = logHistory false n ns) := by
  have ho := logHistory_open false n ns
  rw [logHistory_snoc, logReload_open ho.1]
  constructor
  · intro c hc l
    have h : facilityCode m = c * 8 ∧ c ≠ 0 := by
      simp only [facilityTable, List.mem_cons, Prod.mk.injEq, List.not_mem_nil, or_false] at hc
      rcases hc with ⟨rfl, rfl⟩ | ⟨rfl, rfl⟩ | ⟨rfl, rfl⟩ | ⟨rfl, rfl⟩ | ⟨rfl, rfl⟩ | ⟨rfl, rfl⟩ | ⟨rfl, rfl⟩ |
        ⟨rfl, rfl⟩ | ⟨rfl, rfl⟩ | ⟨rfl, rfl⟩ | ⟨rfl, rfl⟩ <;> decide +kernel
    simp [LogState.priority, h.1]
    omega
  · intro hm
    have h : facilityCode m = 0 := by
      simp only [facilityTable, List.mem_cons, Prod.mk.injEq, List.not_mem_nil, or_false, not_or, not_and] at hm
      unfold facilityCode
      have f : ∀ (s : Bytes) (k : Nat), (m = s → ¬ k = k) → m ≠ s := fun s k h e => h e rfl
      rw [if_neg (f _ 4 (hm 4).1), if_neg (f _ 3 (hm 3).2.1), if_neg (f _ 1 (hm 1).2.2.1),
        if_neg (f _ 16 (hm 16).2.2.2.1), if_neg (f _ 17 (hm 17).2.2.2.2.1), if_neg (f _ 18 (hm 18).2.2.2.2.2.1),
        if_neg (f _ 19 (hm 19).2.2.2.2.2.2.1), if_neg (f _ 20 (hm 20).2.2.2.2.2.2.2.1),
        if_neg (f _ 21 (hm 21).2.2.2.2.2.2.2.2.1), if_neg (f _ 22 (hm 22).2.2.2.2.2.2.2.2.2.1),
        if_neg (f _ 23 (hm 23).2.2.2.2.2.2.2.2.2.2)]
    cases hs : logHistory false n ns with
    | mk a b c =>
      rw [hs] at ho
      obtain ⟨rfl, rfl⟩ : a = true ∧ b = false := ho
      simp [h]

theorem ite_mod_eight {p : Prop} [Decidable p] {a b : Nat} (ha : a % 8 = 0) (hb : b % 8 = 0) : (if p then a else b) % 8 = 0 := by
  by_cases h : p
  · rw [if_pos h, ha]
  · rw [if_neg h, hb]

theorem facilityCode_mod (m : Bytes) : facilityCode m % 8 = 0 := by
  unfold facilityCode
  repeat (refine ite_mod_eight rfl ?_)
  rfl

/-- The levels with their three letters and their severities in RFC 5424. -/
def severityTable : List (LogLevel × Bytes × Nat) :=
  [(.emerg, [69, 77, 71], 0), (.alert, [65, 76, 84], 1), (.crit, [67, 82, 84], 2), (.err, [69, 82, 82], 3),
    (.warning, [87, 82, 78], 4), (.notice, [78, 84, 67], 5), (.info, [73, 78, 70], 6), (.debug, [68, 66, 71], 7)]

/-- **C110**: every level is in the table; a line has its letters behind the thread, and the severity of a message to
`syslog` is its number, whatever the reloads. -/
theorem C110_levels (r : LogCall) (n : Bytes) (ns : List Bytes) :
    ∃ tag sev, (r.level, tag, sev) ∈ severityTable ∧
      (91 :: (decimal r.thread ++ [93, 91] ++ tag ++ [93, 91])) <+: r.render ∧
      ∀ p, (logHistory false n ns).priority r.level = some p → p % 8 = sev := by
  have hp : ∀ p, (logHistory false n ns).priority r.level = some p → p % 8 = r.level.number := by
    intro p h
    obtain ⟨⟨f, hf, e⟩, -⟩ := C110_facility n ns r.level
    rw [e] at h
    cases h
    have h8 : f % 8 = 0 := by
      rcases hf with ⟨_, m, _, _, h1, _, _⟩ | ⟨_, h2⟩
      · rw [← h1]
        exact facilityCode_mod m
      · rw [h2]
    have : r.level.number < 8 := by cases r.level <;> decide
    omega
  refine ⟨r.level.tag, r.level.number, ?_, ?_, hp⟩
  · cases r.level <;> decide +kernel
  · refine ⟨r.file ++ 58 :: (decimal r.line ++ 45 :: (r.func ++ 93 :: 32 :: logText r.text)), ?_⟩
    simp [LogCall.render]

example : (logHistory false (ascii "local3") [ascii "lokal4"]).priority .err = some (19 * 8 + 3) := by decide +kernel

end Flare
