import Verif.Model.KeyResolver

namespace Flare

theorem nextRow_length (i : Nat) (l : List Nat) : ∀ c, (nextRow i c l).length = l.length := by
  induction l with
  | nil => intro c; rfl
  | cons k l ih => intro c; simp [nextRow, ih]

theorem nextRow_get (i : Nat) (l : List Nat) : ∀ (c : Nat → Nat) (j : Nat) (k : Nat), l[j]? = some k →
    (nextRow i c l)[j]? = some k ∨ (nextRow i c l)[j]? = some (i - 1) := by
  induction l with
  | nil => intro c j k h; simp at h
  | cons a l ih =>
    intro c j k h
    cases j with
    | zero =>
      simp at h; subst h
      simp only [nextRow, List.getElem?_cons_zero, if_true]
      by_cases hm : (c a + 1) % i = i - 1 <;> simp [hm]
    | succ j => simp only [List.getElem?_cons_succ] at h; simp only [nextRow, List.getElem?_cons_succ]; exact ih _ j k h

theorem row_spec (hint v : Nat) (hh : 1 ≤ hint) : ∀ n, 1 ≤ n →
    ∃ r, row hint v n = some r ∧ r.length = v ∧ ∀ x ∈ r, x < n := by
  intro n
  induction n with
  | zero => intro h; omega
  | succ n ih =>
    intro _
    simp only [row]
    by_cases hn : n + 1 ≤ hint
    · rw [if_pos hn]
      refine ⟨_, rfl, by simp, ?_⟩
      intro x hx
      simp only [List.mem_map, List.mem_range] at hx
      obtain ⟨a, -, rfl⟩ := hx
      exact Nat.mod_lt _ (by omega)
    · rw [if_neg hn]
      obtain ⟨r, hr, hl, hm⟩ := ih (by omega)
      refine ⟨_, by rw [hr]; rfl, by rw [nextRow_length, hl], ?_⟩
      intro x hx
      obtain ⟨j, hj⟩ := List.getElem?_of_mem hx
      have hlt : j < r.length := by
        have := (List.getElem?_eq_some_iff.1 hj).1
        rwa [nextRow_length] at this
      obtain ⟨k, hk⟩ : ∃ k, r[j]? = some k := ⟨r[j], by simp [hlt]⟩
      have hkm : k < n := hm k (List.mem_of_getElem? hk)
      rcases nextRow_get (n + 1) r (fun _ => 0) j k hk with h | h <;>
      · rw [h] at hj; simp at hj; omega

/-- Counting: how many slots of partition `k` are handed to the new partition, starting from counter
value `c k`. -/
theorem nextRow_moved (i : Nat) (hi : 2 ≤ i) (k : Nat) (hk : k < i - 1) (l : List Nat)
    (hl : ∀ x ∈ l, x < i - 1) : ∀ c : Nat → Nat,
    (nextRow i c l).count k + (c k + l.count k + 1) / i = l.count k + (c k + 1) / i := by
  induction l with
  | nil => intro c; simp [nextRow]
  | cons a l ih =>
    intro c
    have ih' := ih (fun x hx => hl x (by simp [hx]))
    have ha : a < i - 1 := hl a (by simp)
    simp only [nextRow]
    by_cases hak : a = k
    · subst hak
      have h1 := ih' (fun x => if x = a then c a + 1 else c x)
      simp only [if_true, List.count_cons, BEq.rfl] at h1 ⊢
      have hdiv : (c a + 1 + 1) / i = (c a + 1) / i + if (c a + 1) % i = i - 1 then 1 else 0 := by
        have hq := Nat.div_add_mod (c a + 1) i
        have hr := Nat.mod_lt (c a + 1) (show 0 < i by omega)
        generalize (c a + 1) / i = q at hq ⊢
        generalize (c a + 1) % i = r at hq hr ⊢
        by_cases h : r = i - 1
        · rw [if_pos h]
          have : c a + 1 + 1 = i * (q + 1) := by rw [Nat.mul_add]; omega
          rw [this, Nat.mul_div_cancel_left _ (by omega)]
        · rw [if_neg h]
          rw [show c a + 1 + 1 = (r + 1) + i * q by omega, Nat.add_mul_div_left _ _ (by omega),
            Nat.div_eq_of_lt (by omega)]
          omega
      have e1 : c a + (l.count a + 1) + 1 = c a + 1 + l.count a + 1 := by omega
      rw [e1]
      rw [hdiv] at h1
      by_cases h : (c a + 1) % i = i - 1
      · simp only [h, if_true] at h1 ⊢
        have : ¬ (i - 1 = a) := by omega
        simp only [beq_iff_eq, this, if_false]
        omega
      · simp only [h, if_false, BEq.rfl, if_true] at h1 ⊢
        omega
    · have h1 := ih' (fun x => if x = a then c a + 1 else c x)
      have hka : k ≠ a := fun h => hak h.symm
      simp only [if_neg hka, List.count_cons] at h1 ⊢
      have hne : ((if (c a + 1) % i = i - 1 then i - 1 else a) == k) = false := by
        simp only [beq_eq_false_iff_ne]; split <;> omega
      have hne2 : (a == k) = false := by simpa using hak
      simp only [if_true, hne, hne2] at h1 ⊢
      simpa using h1

end Flare
