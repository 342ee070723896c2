import Verif.Lemmas.ConnRequest

/-! Lines that nodes send are clean. -/
set_option linter.unusedSimpArgs false
namespace Flare

/-- Neither NUL nor part of a line end. -/
def Vis (l : Bytes) : Prop := ∀ c ∈ l, c ≠ 0 ∧ c ≠ chCr ∧ c ≠ chNl

theorem Vis.append {a b : Bytes} (ha : Vis a) (hb : Vis b) : Vis (a ++ b) := by
  intro c hc
  rcases List.mem_append.1 hc with h | h
  · exact ha c h
  · exact hb c h

theorem Vis.space {a : Bytes} (ha : Vis a) : Vis (chSpace :: a) := by
  intro c hc
  rcases List.mem_cons.1 hc with rfl | h
  · decide
  · exact ha c h

theorem vis_nil : Vis [] := by intro c hc; simp at hc

theorem vis_decimal (n : Nat) : Vis (decimal n) := fun c hc =>
  have h := decimal_digits n c hc
  ⟨digit_ne h (by decide), digit_ne h (by decide), digit_ne h (by decide)⟩

theorem vis_decimalInt (i : Int) : Vis (decimalInt i) := by
  simp only [decimalInt]
  split
  · intro c hc
    rcases List.mem_cons.1 hc with rfl | h
    · decide
    · exact vis_decimal _ c h
  · exact vis_decimal _

theorem vis_ite {p : Prop} [Decidable p] {a : Bytes} (ha : Vis a) :
    Vis (if p then a else []) := by
  split
  · exact ha
  · exact vis_nil

theorem vis_noreply : Vis strNoreply := by intro c hc; revert c; decide
theorem vis_sync : Vis strSync := by intro c hc; revert c; decide
theorem vis_async : Vis strAsync := by intro c hc; revert c; decide

theorem vis_options (o : UInt32) : Vis (optionWords o) :=
  Vis.append (Vis.append (vis_ite vis_noreply.space) (vis_ite vis_sync.space))
    (vis_ite vis_async.space)

theorem cleanLine_of {a t more : Bytes} (ha : ∀ c ∈ a, c ≠ 0 ∧ c ≠ chNl) (ht : Vis t)
    (hne : t ≠ []) : CleanLine (a ++ t ++ crlf ++ more) := by
  intro l rest h
  rw [readLine_crlf] at h
  · simp only [Option.some.injEq, Prod.mk.injEq] at h
    obtain ⟨rfl, rfl⟩ := h
    constructor
    · intro h
      simp only [List.mem_append, List.mem_singleton] at h
      rcases h with (h | h) | h
      · exact (ha 0 h).1 rfl
      · exact (ht 0 h).1 rfl
      · exact absurd h (by decide)
    · rw [List.dropLast_concat, List.getLast?_append]
      cases hx : t.getLast? with
      | none => exact absurd (List.getLast?_eq_none_iff.1 hx) hne
      | some x =>
        have := List.mem_of_getLast? hx
        simp only [Option.some_or, ne_eq, Option.some.injEq]
        exact (ht x this).2.1
  · intro c hc
    rcases List.mem_append.1 hc with h | h
    · exact (ha c h).2
    · exact (ht c h).2.2

theorem proxyIdent_chars {l : List Bytes} (h : PlainPath l) :
    ∀ c ∈ proxyIdent l, c ≠ 0 ∧ c ≠ chNl := by
  have hj : ∀ (l : List Bytes) (acc : Bytes), PlainPath l → (∀ c ∈ acc, c ≠ 0 ∧ c ≠ chNl) →
      ∀ c ∈ l.foldl (fun s x => if s = [] then x else s ++ chComma :: x) acc, c ≠ 0 ∧ c ≠ chNl := by
    intro l
    induction l with
    | nil => intro acc _ ha; exact ha
    | cons x l ih =>
      intro acc hp ha
      rw [List.foldl_cons]
      apply ih
      · exact fun n hn => hp n (by simp [hn])
      · have hx := (hp x (by simp)).2
        intro c hc
        split at hc
        · exact ⟨(hx c hc).1, (hx c hc).2.1⟩
        · rcases List.mem_append.1 hc with hc | hc
          · exact ha c hc
          · rcases List.mem_cons.1 hc with rfl | hc
            · decide
            · exact ⟨(hx c hc).1, (hx c hc).2.1⟩
  intro c hc
  simp only [proxyIdent] at hc
  split at hc
  · simp at hc
  · simp only [List.cons_append, List.mem_cons, List.mem_append, List.not_mem_nil, or_false] at hc
    rcases hc with rfl | hc | rfl
    · decide
    · exact hj l [] h (by simp) c hc
    · decide

theorem proxyIdent_head (l : List Bytes) (x : Bytes) (hx : x.head? ≠ some 0x80) :
    (proxyIdent l ++ x).head? ≠ some 0x80 := by
  simp only [proxyIdent]
  split
  · simpa using hx
  · simp only [List.cons_append, List.head?_cons, ne_eq, Option.some.injEq]; decide

/-- What a node forwards begins a clean line and is not taken for the binary protocol. -/
theorem encode_clean {r : WriteReq} {n : Nat} (hr : Sendable r n) {b : Bytes}
    (hb : encodeWrite r = some b) (more : Bytes) :
    CleanLine (b ++ more) ∧ (b ++ more).head? ≠ some 0x80 := by
  obtain ⟨hk, hp, ho, hx⟩ := hr
  have hkey := cstr_plain hk.word
  have hpre : ∀ c ∈ proxyIdent r.path ++ (r.cmd.ident ++ chSpace :: r.entry.key),
      c ≠ 0 ∧ c ≠ chNl := by
    intro c hc
    rcases List.mem_append.1 hc with hc | hc
    · exact proxyIdent_chars hp c hc
    · rcases List.mem_append.1 hc with hc | hc
      · have := (ident_facts r.cmd).1 c hc
        simp only [wordChar, decide_eq_true_eq] at this
        exact ⟨this.1, this.2.2⟩
      · rcases List.mem_cons.1 hc with rfl | hc
        · decide
        · exact ⟨(hk.2.1 c hc).1, (hk.2.1 c hc).2.2⟩
  have hid : ∀ x : Bytes, (r.cmd.ident ++ x).head? ≠ some 0x80 := by
    intro x
    cases r.cmd <;> simp [WriteCmd.ident] <;> decide
  suffices h : ∃ t rest, b = proxyIdent r.path ++ (r.cmd.ident ++ chSpace :: r.entry.key) ++ t ++
      crlf ++ rest ∧ Vis t ∧ t ≠ [] by
    obtain ⟨t, rest, h1, h2, h3⟩ := h
    constructor
    · rw [h1, List.append_assoc _ rest more]
      exact cleanLine_of hpre h2 h3
    · rw [h1]
      simp only [List.append_assoc]
      exact proxyIdent_head _ _ (hid _)
  cases hkind : r.cmd.kind with
  | store =>
    simp only [encodeWrite, hkind] at hb
    split at hb
    case isFalse => exact absurd hb (by simp)
    case isTrue =>
      refine ⟨_, r.entry.data.take r.entry.size.toNat ++ crlf, ?_,
        Vis.append (Vis.append (vis_decimal r.entry.flag.toNat).space
          ((vis_decimalInt r.entry.expire.toInt).space)) (Vis.append
          (vis_decimal r.entry.size.toNat).space (Vis.append
          (vis_ite (p := r.entry.version > 0 ∨ r.cmd = .cas)
            (vis_decimal r.entry.version.toNat).space) (vis_options r.entry.option))), by simp⟩
      rw [← Option.some.inj hb]
      simp [storeLine, hkey]
  | count =>
    simp only [encodeWrite, hkind] at hb
    split at hb
    case isFalse => exact absurd hb (by simp)
    case isTrue =>
      refine ⟨_, [], ?_, Vis.append (vis_decimal r.value.toNat).space
        (vis_options r.entry.option), by simp⟩
      rw [← Option.some.inj hb]
      simp [countLine, hkey]
  | delete =>
    have hc : r.cmd = .delete := by
      revert hkind
      cases r.cmd <;> simp [WriteCmd.kind]
    simp only [encodeWrite, hkind] at hb
    split at hb
    case isFalse => exact absurd hb (by simp)
    case isTrue =>
      refine ⟨_, [], ?_, Vis.append (vis_decimalInt r.entry.expire.toInt).space (Vis.append
          (vis_ite (p := r.entry.version > 0)
            (vis_decimal r.entry.version.toNat).space) (vis_options r.entry.option)), by simp⟩
      rw [← Option.some.inj hb]
      simp [deleteLine, hkey, hc]
  | touch =>
    simp only [encodeWrite, hkind] at hb
    split at hb
    case isFalse => exact absurd hb (by simp)
    case isTrue =>
      refine ⟨_, [], ?_, Vis.append (vis_decimalInt r.entry.expire.toInt).space
          (vis_ite (p := r.entry.option &&& optNoreply ≠ 0) vis_noreply.space), by simp⟩
      rw [← Option.some.inj hb]
      simp [touchLine, hkey]

end Flare
