import Verif.Spec.Cluster
import Mathlib.Data.List.Nodup
import Mathlib.Data.List.Perm.Subperm

set_option linter.unusedSimpArgs false

namespace Flare

theorem mfind_mset {α : Type} (m : List (Nat × α)) (x : Nat) (a : α) (y : Nat) :
    mfind (mset m x a) y = if x = y then some a else mfind m y := by
  induction m with
  | nil => simp [mset, mfind]
  | cons e m ih =>
    obtain ⟨k, v⟩ := e
    simp only [mset]
    split
    · simp [mfind]
    · split
      · next h => subst h; simp only [mfind]; split <;> rfl
      · simp only [mfind, ih]
        by_cases h : k = y
        · subst h
          rw [if_pos rfl, if_neg (by omega), if_pos rfl]
        · simp [h]

theorem mfind_merase {α : Type} (m : List (Nat × α)) (x y : Nat) :
    mfind (merase m x) y = if x = y then none else mfind m y := by
  induction m with
  | nil => simp [merase, mfind]
  | cons e m ih =>
    obtain ⟨k, v⟩ := e
    simp only [merase, List.filter_cons] at ih ⊢
    by_cases hk : k = x
    · subst hk
      simp only [ne_eq, not_true, decide_false, Bool.false_eq_true, if_false, ih, mfind]
      split <;> rfl
    · simp only [ne_eq, hk, not_false_eq_true, decide_true, if_true, mfind, ih]
      by_cases h : k = y
      · subst h; simp [show x ≠ k from fun h => hk h.symm]
      · simp [h]

theorem mfind_pset {α : Type} (m : List (Int × α)) (x : Int) (a : α) (y : Int) :
    mfind (pset m x a) y = if x = y then some a else mfind m y := by
  induction m with
  | nil => simp [pset, mfind]
  | cons e m ih =>
    obtain ⟨k, v⟩ := e
    simp only [pset]
    split
    · next h => subst h; simp only [mfind]; split <;> rfl
    · next hk =>
      simp only [mfind, ih]
      by_cases h : k = y
      · subst h; simp [show x ≠ k from fun h => hk h.symm]
      · simp [h]

theorem mfind_none_iff {κ α : Type} [DecidableEq κ] (m : List (κ × α)) (x : κ) :
    mfind m x = none ↔ x ∉ m.map (·.1) := by
  induction m with
  | nil => simp [mfind]
  | cons e m ih =>
    obtain ⟨k, v⟩ := e
    simp only [mfind]
    by_cases h : k = x
    · subst h; simp
    · simp only [h, if_false, ih, List.map_cons, List.mem_cons, not_or]
      exact ⟨fun h2 => ⟨fun h3 => h h3.symm, h2⟩, fun h2 => h2.2⟩

theorem pset_keys {α : Type} (m : List (Int × α)) (x : Int) (a : α) :
    (pset m x a).map (·.1) = if x ∈ m.map (·.1) then m.map (·.1) else m.map (·.1) ++ [x] := by
  induction m with
  | nil => simp [pset]
  | cons e m ih =>
    obtain ⟨k, v⟩ := e
    simp only [pset]
    by_cases h : k = x
    · subst h; simp
    · have h' : x ≠ k := fun h2 => h h2.symm
      simp only [h, if_false, List.map_cons, ih, List.mem_cons, h', false_or]
      split <;> simp

theorem pset_nodup {α : Type} (m : List (Int × α)) (x : Int) (a : α) (h : (m.map (·.1)).Nodup) :
    ((pset m x a).map (·.1)).Nodup := by
  rw [pset_keys]
  split
  · exact h
  · next hx => exact List.nodup_append.2 ⟨h, by simp, by
      intro b hb c hc hbc
      simp only [List.mem_singleton] at hc
      exact hx (by rw [← hc, ← hbc]; exact hb)⟩

/-! ### Ordered node maps -/

def Sorted {α : Type} (m : List (Nat × α)) : Prop := (m.map (·.1)).Pairwise (· < ·)

theorem mset_keys_mem {α : Type} (m : List (Nat × α)) (x : Nat) (a : α) (y : Nat)
    (h : y ∈ (mset m x a).map (·.1)) : y = x ∨ y ∈ m.map (·.1) := by
  induction m with
  | nil => simp [mset] at h; exact Or.inl h
  | cons e m ih =>
    obtain ⟨k, v⟩ := e
    simp only [mset] at h
    split at h
    · simpa using h
    · split at h
      · next hx => subst hx; simp at h ⊢; rcases h with h | h <;> simp [h]
      · simp only [List.map_cons, List.mem_cons] at h ⊢
        rcases h with h | h
        · exact Or.inr (Or.inl h)
        · rcases ih h with h | h
          · exact Or.inl h
          · exact Or.inr (Or.inr h)

theorem mset_sorted {α : Type} (m : List (Nat × α)) (x : Nat) (a : α) (h : Sorted m) :
    Sorted (mset m x a) := by
  induction m with
  | nil => simp [mset, Sorted]
  | cons e m ih =>
    obtain ⟨k, v⟩ := e
    simp only [Sorted, List.map_cons, List.pairwise_cons] at h ih ⊢
    simp only [mset]
    split
    · next hx =>
      simp only [List.map_cons, List.pairwise_cons]
      refine ⟨?_, h.1, h.2⟩
      intro y hy
      simp only [List.mem_cons] at hy
      rcases hy with rfl | hy
      · exact hx
      · exact Nat.lt_trans hx (h.1 y hy)
    · split
      · next hx => subst hx; simp only [List.map_cons, List.pairwise_cons]; exact h
      · simp only [List.map_cons, List.pairwise_cons]
        refine ⟨?_, ih h.2⟩
        intro y hy
        rcases mset_keys_mem m x a y hy with rfl | hy
        · omega
        · exact h.1 y hy

theorem merase_sorted {α : Type} (m : List (Nat × α)) (x : Nat) (h : Sorted m) : Sorted (merase m x) := by
  simp only [Sorted, merase] at *
  exact List.Pairwise.sublist (List.Sublist.map _ List.filter_sublist) h

theorem mem_iff_mfind {α : Type} (m : List (Nat × α)) (h : Sorted m) (k : Nat) (v : α) :
    (k, v) ∈ m ↔ mfind m k = some v := by
  induction m with
  | nil => simp [mfind]
  | cons e m ih =>
    obtain ⟨k', v'⟩ := e
    simp only [Sorted, List.map_cons, List.pairwise_cons] at h
    simp only [mfind, List.mem_cons, Prod.mk.injEq]
    by_cases hk : k' = k
    · subst hk
      simp only [if_true, Option.some.injEq, true_and]
      constructor
      · rintro (h1 | h1)
        · exact h1.symm
        · exact absurd (h.1 k' (List.mem_map.2 ⟨_, h1, rfl⟩)) (Nat.lt_irrefl _)
      · intro h1; exact Or.inl h1.symm
    · simp only [hk, if_false, show ¬ k = k' from fun h => hk h.symm, false_and, false_or]
      exact ih h.2

/-! ### Small facts about keys of a complete table -/

theorem length_of_keys {α : Type} (m : List (Int × α)) (hnd : (m.map (·.1)).Nodup) (N : Nat)
    (h : ∀ p : Int, p ∈ m.map (·.1) ↔ 0 ≤ p ∧ p < N) : m.length = N := by
  have hp : (m.map (·.1)).Perm ((List.range N).map Int.ofNat) := by
    rw [List.perm_ext_iff_of_nodup hnd]
    · intro p
      rw [h p]
      simp only [List.mem_map, List.mem_range]
      constructor
      · rintro ⟨h1, h2⟩; exact ⟨p.toNat, by omega, by simp [Int.toNat_of_nonneg h1]⟩
      · rintro ⟨a, h1, rfl⟩; exact ⟨Int.natCast_nonneg a, Int.ofNat_lt.2 h1⟩
    · exact List.Nodup.map (fun a b h => Int.ofNat_inj.1 h) List.nodup_range
  have := hp.length_eq
  simpa using this

theorem top_le {α : Type} (m : List (Int × α)) (a : Int) (N : Int) (ha : a ≤ N)
    (h : ∀ e ∈ m, e.1 ≤ N) : m.foldl (fun n e => if n < e.1 then e.1 else n) a ≤ N := by
  induction m generalizing a with
  | nil => exact ha
  | cons e m ih =>
    simp only [List.foldl_cons]
    apply ih
    · split
      · exact h e (by simp)
      · exact ha
    · intro e' he'; exact h e' (by simp [he'])

theorem le_top {α : Type} (m : List (Int × α)) (a : Int) :
    a ≤ m.foldl (fun n e => if n < e.1 then e.1 else n) a ∧
      ∀ e ∈ m, e.1 ≤ m.foldl (fun n e => if n < e.1 then e.1 else n) a := by
  induction m generalizing a with
  | nil => simp
  | cons e m ih =>
    simp only [List.foldl_cons]
    have h1 := ih (if a < e.1 then e.1 else a)
    have h2 : a ≤ (if a < e.1 then e.1 else a) ∧ e.1 ≤ (if a < e.1 then e.1 else a) := by split <;> omega
    refine ⟨by omega, ?_⟩
    intro e' he'
    simp only [List.mem_cons] at he'
    rcases he' with rfl | he'
    · omega
    · exact h1.2 e' he'

end Flare
