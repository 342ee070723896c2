import Verif.Spec.Monitor

/-! Lemmas about the monitor. -/
namespace Flare

/-- What a round does after the comparison with the node map. -/
theorem mon_work {m m' : Mon} {g : MonGot} {r : List MonReq} (hg : g.steady = true)
    (h : m.work g = some (m', r)) :
    (g = .check true ∧ (m', r) = m.countSuccess) ∨
    (g ≠ .check true ∧ (g.fails = true ∨ m.threshold ≤ m.failed) ∧ (m', r) = m.countFailure) ∨
    (g ≠ .check true ∧ g.fails = false ∧ m' = m ∧ r = []) := by
  cases g with
  | option t => cases hg
  | nothing => cases hg
  | unknown => exact .inr (.inl ⟨nofun, .inl rfl, (Option.some.inj h).symm⟩)
  | check ok =>
    cases ok with
    | true => exact .inl ⟨rfl, (Option.some.inj h).symm⟩
    | false => exact .inr (.inl ⟨nofun, .inl rfl, (Option.some.inj h).symm⟩)
  | sync a ok =>
    simp only [Mon.work] at h
    by_cases hc : m.failed ≥ m.threshold ∧ a = false
    · rw [if_pos hc] at h
      exact .inr (.inl ⟨nofun, .inr hc.1, (Option.some.inj h).symm⟩)
    · rw [if_neg hc] at h
      cases ok with
      | true =>
        have h := Option.some.inj h
        exact .inr (.inr ⟨nofun, rfl, (Prod.mk.inj h).1.symm, (Prod.mk.inj h).2.symm⟩)
      | false => exact .inr (.inl ⟨nofun, .inl rfl, (Option.some.inj h).symm⟩)

/-- The comparison with the node map. -/
theorem mon_look (m : Mon) (v : MonView) :
    (m.look v).threshold = m.threshold ∧
    ((m.look v).failed = m.failed ∨ (v = some true ∧ (m.look v).failed = m.threshold) ∨
      (v = some false ∧ m.threshold ≤ m.failed ∧ (m.look v).failed = 0)) ∧
    (v = some false → 0 < m.threshold → (m.look v).failed < m.threshold) := by
  rcases v with _ | _ | _
  · exact ⟨rfl, .inl rfl, nofun⟩
  · rw [show m.look (some false) = if m.failed ≥ m.threshold then { m with failed := 0 } else m
      from rfl]
    by_cases h : m.failed ≥ m.threshold
    · rw [if_pos h]; exact ⟨rfl, .inr (.inr ⟨rfl, h, rfl⟩), fun _ h => h⟩
    · rw [if_neg h]; exact ⟨rfl, .inl rfl, fun _ _ => by omega⟩
  · exact ⟨rfl, .inr (.inl ⟨rfl, rfl⟩), nofun⟩

theorem failuresSince_other {n : Nat} {v : MonView} {g : MonGot} (h : g ≠ .check true) :
    failuresSince n [(v, g)] = if g.fails then n + 1 else n := by
  cases g with
  | check ok => cases ok with
    | true => exact absurd rfl h
    | false => rfl
  | _ => rfl

theorem failuresSince_append (n : Nat) (l l' : List (MonView × MonGot)) :
    failuresSince n (l ++ l') = failuresSince (failuresSince n l) l' := by
  induction l generalizing n with
  | nil => rfl
  | cons x l ih =>
    obtain ⟨v, g⟩ := x
    cases g with
    | check ok => cases ok <;> simp only [List.cons_append, failuresSince, ih]
    | _ => simp only [List.cons_append, failuresSince, ih]

/-- The counter of the monitor is either at or above the threshold (the node counts as down) or not
above the number of failures since the last successful check. -/
theorem mon_counter {m m' : Mon} {v : MonView} {g : MonGot} {r : List MonReq} {n : Nat}
    (hg : g.steady = true) (h : m.step v g = some (m', r))
    (hm : m.threshold ≤ m.failed ∨ m.failed ≤ n) :
    m'.threshold = m.threshold ∧
    (m'.threshold ≤ m'.failed ∨ m'.failed ≤ (failuresSince n [(v, g)] : Nat)) ∧
    (.down ∈ r → m.threshold ≤ (failuresSince n [(v, g)] : Nat)) := by
  obtain ⟨l1, l2, _⟩ := mon_look m v
  rcases mon_work hg h with ⟨rfl, e⟩ | ⟨ne, hf, e⟩ | ⟨ne, hf, rfl, rfl⟩
  · simp only [Mon.countSuccess] at e
    obtain ⟨rfl, rfl⟩ := Prod.mk.inj e
    refine ⟨l1, .inr (by simp [failuresSince]), fun hd => ?_⟩
    split at hd <;> simp at hd
  · simp only [Mon.countFailure] at e
    obtain ⟨rfl, rfl⟩ := Prod.mk.inj e
    rw [failuresSince_other ne]
    refine ⟨l1, ?_, fun hd => ?_⟩
    · dsimp only
      rcases hf with hf | hf
      · rw [hf, if_pos rfl]; push_cast; omega
      · exact .inl (by omega)
    · split at hd
      · next he =>
        rcases hf with hf | hf
        · rw [hf, if_pos rfl]; push_cast; omega
        · omega
      · simp at hd
  · rw [failuresSince_other ne, hf, if_neg (by simp)]
    refine ⟨l1, ?_, fun hd => by simp at hd⟩
    omega

theorem mon_rounds {m m' : Mon} {l : List (MonView × MonGot)} {n : Nat}
    (hl : ∀ x ∈ l, x.2.steady = true) (h : m.rounds l = some m')
    (hm : m.threshold ≤ m.failed ∨ m.failed ≤ n) :
    m'.threshold = m.threshold ∧
    (m'.threshold ≤ m'.failed ∨ m'.failed ≤ (failuresSince n l : Nat)) := by
  induction l generalizing m n with
  | nil => cases h; exact ⟨rfl, hm⟩
  | cons x l ih =>
    obtain ⟨v, g⟩ := x
    simp only [Mon.rounds] at h
    cases hs : m.step v g with
    | none => rw [hs] at h; cases h
    | some p =>
      obtain ⟨m1, r⟩ := p
      rw [hs] at h
      obtain ⟨c1, c2, _⟩ := mon_counter (hl (v, g) (List.mem_cons_self ..)) hs hm
      obtain ⟨d1, d2⟩ := ih (fun x hx => hl x (List.mem_cons_of_mem _ hx)) h c2
      refine ⟨d1.trans c1, ?_⟩
      have := failuresSince_append n [(v, g)] l
      rw [List.singleton_append] at this
      rw [this]; exact d2

end Flare
