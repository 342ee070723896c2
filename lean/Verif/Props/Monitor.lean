import Verif.Lemmas.Monitor

/-! The monitor (C45). -/
namespace Flare

/-- Never too early: whenever the monitor asks for its node to be taken down, there have been at
least as many failures as the threshold says since the last successful check (or since the start;
a connection that could not be opened counts). -/
theorem C45_not_early {t : Int} {connected : Bool} {l : List (MonView × MonGot)} {m m' : Mon}
    {v : MonView} {g : MonGot} {r : List MonReq} (hl : ∀ x ∈ l, x.2.steady = true)
    (hg : g.steady = true) (h : (Mon.start t connected).1.rounds l = some m)
    (hs : m.step v g = some (m', r)) (hd : .down ∈ r) :
    t ≤ (failuresSince (if connected then 0 else 1) (l ++ [(v, g)]) : Nat) := by
  have h0 : (Mon.start t connected).1.threshold = t ∧
      (Mon.start t connected).1.failed = ((if connected then 0 else 1 : Nat) : Int) := by
    cases connected <;> simp [Mon.start, Mon.countFailure]
  obtain ⟨a1, a2⟩ := mon_rounds (n := if connected then 0 else 1) hl h (.inr (by omega))
  obtain ⟨b1, b2, b3⟩ := mon_counter hg hs a2
  rw [failuresSince_append]
  have := b3 hd
  omega

/-- Not too late: while the map says that the node is not down and the checks fail, the monitor
asks for it to be taken down at every `t`-th failure, and at no other. -/
theorem C45_every {t : Nat} (ht : 0 < t) (k : Nat) :
    ∃ m : Mon, (⟨t, 0⟩ : Mon).rounds (List.replicate k (some false, .check false)) = some m ∧
      m.threshold = t ∧ ∃ m' r, m.step (some false) (.check false) = some (m', r) ∧
      (.down ∈ r ↔ (k + 1) % t = 0) := by
  have key : ∀ k (d : Nat), d ≤ t →
      ∃ d' : Nat, d' ≤ t ∧ d' % t = (d + k) % t ∧
        (⟨t, d⟩ : Mon).rounds (List.replicate k (some false, .check false)) = some ⟨t, d'⟩ := by
    intro k
    induction k with
    | zero => intro d hd; exact ⟨d, hd, rfl, rfl⟩
    | succ k ih =>
      intro d hd
      by_cases h : d = t
      · subst h
        obtain ⟨d', h1, h2, h3⟩ := ih 1 (by omega)
        refine ⟨d', h1, ?_, ?_⟩
        · rw [h2]
          have : d + (k + 1) = (1 + k) + d := by omega
          rw [this, Nat.add_mod_right]
        · simp only [List.replicate_succ, Mon.rounds, Mon.step, Mon.look]
          rw [if_pos (by simp)]
          exact h3
      · obtain ⟨d', h1, h2, h3⟩ := ih (d + 1) (by omega)
        refine ⟨d', h1, ?_, ?_⟩
        · rw [h2]; congr 1; omega
        · simp only [List.replicate_succ, Mon.rounds, Mon.step, Mon.look]
          rw [if_neg (by simp only [ge_iff_le, Int.ofNat_le, Nat.not_le]; omega)]
          exact h3
  obtain ⟨d', h1, h2, h3⟩ := key k 0 (by omega)
  refine ⟨_, h3, rfl, ?_⟩
  have hmod : (k + 1) % t = (d' + 1) % t := by
    rw [Nat.add_mod k 1, Nat.add_mod d' 1, h2, Nat.zero_add]
  by_cases h : d' = t
  · subst h
    refine ⟨_, _, rfl, ?_⟩
    have hl : (⟨(d' : Int), (d' : Int)⟩ : Mon).look (some false) = ⟨d', 0⟩ := by
      simp [Mon.look]
    rw [hl, hmod, Nat.add_mod_left]
    simp only
    by_cases h1 : d' = 1
    · subst h1; simp
    · have : ¬ ((0 : Int) + 1 = (d' : Int)) := by omega
      rw [Nat.mod_eq_of_lt (by omega)]
      simp only [if_neg this]
      simp
  · refine ⟨_, _, rfl, ?_⟩
    have hl : (⟨(t : Int), (d' : Int)⟩ : Mon).look (some false) = ⟨t, d'⟩ := by
      unfold Mon.look
      rw [if_neg (by simp only [ge_iff_le, Int.ofNat_le, Nat.not_le]; omega)]
    rw [hl, hmod]
    simp only
    by_cases h1 : d' + 1 = t
    · have : (d' : Int) + 1 = (t : Int) := by omega
      simp [this, h1]
    · have : ¬ ((d' : Int) + 1 = (t : Int)) := by omega
      rw [Nat.mod_eq_of_lt (by omega)]
      simp [this]

/-- Up is asked for exactly when a check succeeds while the node counts as down: the map says so,
or the map does not know the node and the failures have reached the threshold. -/
theorem C45_up {m m' : Mon} {v : MonView} {g : MonGot} {r : List MonReq} (ht : 0 < m.threshold)
    (h : m.step v g = some (m', r)) :
    .up ∈ r ↔ g = .check true ∧
      (v = some true ∨ (v = none ∧ m.threshold ≤ m.failed)) := by
  obtain ⟨l1, l2, l3⟩ := mon_look m v
  by_cases hg : g.steady = true
  · rcases mon_work hg h with ⟨rfl, e⟩ | ⟨ne, hf, e⟩ | ⟨ne, hf, rfl, rfl⟩
    · simp only [Mon.countSuccess] at e
      obtain ⟨rfl, rfl⟩ := Prod.mk.inj e
      rcases v with _ | _ | _
      · simp [Mon.look]
      · have := l3 rfl ht
        have : ¬ (m.look (some false)).failed ≥ (m.look (some false)).threshold := by omega
        simp [this]
      · simp [Mon.look]
    · simp only [Mon.countFailure] at e
      obtain ⟨rfl, rfl⟩ := Prod.mk.inj e
      refine ⟨fun hu => ?_, fun hu => absurd hu.1 ne⟩
      split at hu <;> simp at hu
    · exact ⟨fun hu => by simp at hu, fun hu => absurd hu.1 ne⟩
  · cases g with
    | option t => cases h; exact ⟨fun hu => by simp at hu, fun hu => nomatch hu.1⟩
    | nothing => cases h
    | _ => exact absurd rfl hg

/-- While the map knows the node the counter stays between 0 and one above the threshold. -/
theorem C45_bounded {m m' : Mon} {d : Bool} {g : MonGot} {r : List MonReq} (ht : 0 < m.threshold)
    (hg : g.steady = true) (h0 : 0 ≤ m.failed) (h : m.step (some d) g = some (m', r)) :
    0 ≤ m'.failed ∧ m'.failed ≤ m'.threshold + 1 := by
  obtain ⟨l1, l2, l3⟩ := mon_look m (some d)
  have hb : (m.look (some d)).failed ≤ m.threshold ∧ 0 ≤ (m.look (some d)).failed := by
    cases d
    · have := l3 rfl ht; omega
    · simp [Mon.look]; omega
  rcases mon_work hg h with ⟨rfl, e⟩ | ⟨ne, hf, e⟩ | ⟨ne, hf, rfl, rfl⟩
  · obtain ⟨rfl, rfl⟩ := Prod.mk.inj e
    dsimp only; omega
  · obtain ⟨rfl, rfl⟩ := Prod.mk.inj e
    dsimp only; omega
  · omega

example : (⟨3, 0⟩ : Mon).rounds [(some false, .check false), (some false, .check false)] =
    some ⟨3, 2⟩ ∧ (⟨3, 2⟩ : Mon).step (some false) (.check false) = some (⟨3, 3⟩, [.down]) ∧
    (⟨3, 3⟩ : Mon).step (some true) (.check true) = some (⟨3, 0⟩, [.up]) := by decide

/-- A threshold of 0: no failure ever takes the node down, and every successful check asks for it to
be brought up (which turns a preparing slave active, C25). -/
theorem C45_threshold_zero {m m' : Mon} {d : Bool} {g : MonGot} {r : List MonReq}
    (ht : m.threshold = 0) (h0 : 0 ≤ m.failed) (h : m.step (some d) g = some (m', r)) :
    .down ∉ r ∧ (g = .check true → .up ∈ r) := by
  obtain ⟨l1, l2, l3⟩ := mon_look m (some d)
  have hb : (m.look (some d)).failed = 0 := by
    cases d
    · have : m.failed ≥ m.threshold := by omega
      simp [Mon.look, this]
    · simp [Mon.look, ht]
  by_cases hg : g.steady = true
  · rcases mon_work hg h with ⟨rfl, e⟩ | ⟨ne, hf, e⟩ | ⟨ne, hf, rfl, rfl⟩
    · obtain ⟨rfl, rfl⟩ := Prod.mk.inj e
      have : (m.look (some d)).failed ≥ (m.look (some d)).threshold := by omega
      simp [this]
    · obtain ⟨rfl, rfl⟩ := Prod.mk.inj e
      have : ¬ (m.look (some d)).failed + 1 = (m.look (some d)).threshold := by omega
      simp [this, ne]
    · exact ⟨by simp, fun hu => absurd hu ne⟩
  · cases g with
    | option t => cases h; exact ⟨by simp, nofun⟩
    | nothing => cases h
    | _ => exact absurd rfl hg

example : (⟨0, 0⟩ : Mon).step (some false) (.check true) = some (⟨0, 0⟩, [.up]) ∧
    (⟨0, 0⟩ : Mon).step (some false) (.check false) = some (⟨0, 1⟩, []) := by decide

/-- A signal that is sent after the entry has already been taken wakes the waiting thread without
an entry, and the monitor then uses an empty pointer: the index server crashes. -/
theorem C45_late_signal (g : MonGot) (m : Mon) (v : MonView) :
    (⟨[], false⟩ : MonQueue).results [.push g, .enter, .enter, .signal] = [g, .nothing] ∧
    m.step v .nothing = none := ⟨rfl, rfl⟩

end Flare
