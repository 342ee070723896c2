import Verif.Model.ArchiveIndex
import Verif.Props.Archive
import Verif.Props.Cluster

/-! C27 and C98: the index server restarted from the text it has stored. -/
namespace Flare

/-- Every key has its own text, and ports are ints. -/
structure KeyNames.Ok (N : KeyNames) : Prop where
  back : ∀ k, N.back (N.key k) = k
  port : ∀ k, IntOk (N.port k)

/-- The numbers of a stored state fit. -/
structure SavedFits (t : Nat × NodeMap × Int) : Prop where
  version : t.1 < 2 ^ 64
  count : t.2.1.length < 2 ^ 64
  partition : ∀ e ∈ t.2.1, IntOk e.2.partition
  balance : ∀ e ∈ t.2.1, IntOk e.2.balance
  types : ∀ e ∈ t.2.1, IntOk e.2.threadType
  threadType : IntOk t.2.2

theorem arcRole_back (r : Role) : arcRoleBack (arcRole r) = r := by cases r <;> decide

theorem arcNodeState_back (s : NState) : arcNodeStateBack (arcNodeState s) = s := by cases s <;> decide

/-- Nothing of the state is lost by writing it with names. -/
theorem arcBack_of {N : KeyNames} (h : N.Ok) (t : Nat × NodeMap × Int) : arcBack N (arcOf N t) = t := by
  obtain ⟨v, l, tt⟩ := t
  simp only [arcBack, arcOf, List.map_map, Prod.mk.injEq, true_and, and_true]
  conv => rhs; rw [← List.map_id l]
  apply List.map_congr_left
  intro e _
  simp [Function.comp, arcNodeOf, h.back, arcRole_back, arcNodeState_back]

theorem arcOf_distinct {N : KeyNames} (h : N.Ok) : ∀ {l : NodeMap}, Sorted l →
    Distinct (l.map fun e => (N.key e.1, arcNodeOf N e.1 e.2)) := by
  intro l
  induction l with
  | nil => intro _; trivial
  | cons e l ih =>
    intro hs
    unfold Sorted at hs
    rw [List.map_cons, List.pairwise_cons] at hs
    refine ⟨?_, ih hs.2⟩
    intro x hx
    obtain ⟨y, hy, rfl⟩ := List.mem_map.1 hx
    intro he
    have h1 : y.1 = e.1 := by
      have := congrArg N.back he
      simpa only [h.back] using this
    have h2 := hs.1 y.1 (List.mem_map.2 ⟨y, hy, rfl⟩)
    rw [h1] at h2
    exact Nat.lt_irrefl _ h2

theorem arcOf_fits {N : KeyNames} (h : N.Ok) {t : Nat × NodeMap × Int} (ht : SavedFits t) (hs : Sorted t.2.1) :
    ArcFits (arcOf N t) := by
  refine ⟨ht.version, by simpa [arcOf] using ht.count, ?_, arcOf_distinct h hs, ht.threadType⟩
  intro e he
  obtain ⟨y, hy, rfl⟩ := List.mem_map.1 he
  refine ⟨h.port _, ?_, ?_, ht.partition y hy, ht.balance y hy, ht.types y hy⟩
  · unfold IntOk
    simp only [arcNodeOf]
    cases y.2.role <;> simp [arcRole]
  · unfold IntOk
    simp only [arcNodeOf]
    cases y.2.state <;> simp [arcNodeState]

theorem arcOf_sane (N : KeyNames) (t : Nat × NodeMap × Int) :
    (arcOf N t).sane = t.2.1.all fun e => e.2.threadType < t.2.2 := by
  simp only [ArcState.sane, arcOf, List.all_map]
  rfl

/-- An index server that is restarted from the text it has stored, after any orderly history without a failed save
pending, is exactly in the state before. -/
theorem C27_restart_text_partial {N : KeyNames} (hN : N.Ok) (as : List IAct) (ho : Orderly true .init as)
    (hf : freshAfter true as = true) {t : Nat × NodeMap × Int} (ht : (ixRun .init as).saved = some t) (hfit : SavedFits t) :
    startupText N (arcWrite (arcOf N t)) = some (ixRun .init as) := by
  obtain ⟨s', h1, h2⟩ := C27_restart_same_partial as ho hf
  obtain ⟨M, hi⟩ := run_inv as true 0 .init init_inv ho
  obtain ⟨M', hm⟩ := hi.oldSaved t.1 t.2.1 t.2.2 ht
  have hfits := arcOf_fits hN hfit hm.sorted
  have hne : arcWrite (arcOf N t) ≠ [] := by
    intro e
    have := congrArg List.length e
    rw [arcWrite, arcCore, List.length_append, List.length_append] at this
    have h0 := head_pos
    simp only [List.length_nil] at this
    omega
  unfold startupText
  rw [if_neg hne, C98_round_trip hfits, arcOf_sane, hm.loads]
  simp only
  rw [arcBack_of hN, ← ht, h1, h2 (by rw [ht]; simp)]

/-- The same after failed saves: it comes up with what was stored last. -/
theorem C27_works_text_partial {N : KeyNames} (hN : N.Ok) (as : List IAct) (ho : Orderly true .init as)
    {t : Nat × NodeMap × Int} (ht : (ixRun .init as).saved = some t) (hfit : SavedFits t) :
    ∃ s', startupText N (arcWrite (arcOf N t)) = some s' ∧ s'.saved = some t := by
  obtain ⟨s', h1, h2⟩ := C27_restart_works_partial as ho
  obtain ⟨M, hi⟩ := run_inv as true 0 .init init_inv ho
  obtain ⟨M', hm⟩ := hi.oldSaved t.1 t.2.1 t.2.2 ht
  have hfits := arcOf_fits hN hfit hm.sorted
  have hne : arcWrite (arcOf N t) ≠ [] := by
    intro e
    have := congrArg List.length e
    rw [arcWrite, arcCore, List.length_append, List.length_append] at this
    have h0 := head_pos
    simp only [List.length_nil] at this
    omega
  unfold startupText
  rw [if_neg hne, C98_round_trip hfits, arcOf_sane, hm.loads]
  simp only
  rw [arcBack_of hN, ← ht]
  exact ⟨s', h1, by rw [h2, ht]⟩

/-- From a part of the text the index server does not come up — unless it is nothing at all, with which it comes up as if
there had never been a node. -/
theorem C98_restart_part {N : KeyNames} (hN : N.Ok) {t : Nat × NodeMap × Int} (hfit : SavedFits t) (hs : Sorted t.2.1)
    {n : Nat} (hn : n < (arcCore (arcOf N t)).length) :
    startupText N ((arcWrite (arcOf N t)).take n) = if n = 0 then some Index.init else none := by
  have hfits := arcOf_fits hN hfit hs
  obtain ⟨h0, h1, h2, h3, _⟩ := C98_part hfits ⟨0, [], 16⟩ n
  by_cases k0 : n = 0
  · subst k0
    rw [if_pos rfl, List.take_zero]
    unfold startupText
    rw [if_pos rfl]
    decide
  · rw [if_neg k0]
    have hne : (arcWrite (arcOf N t)).take n ≠ [] := by
      intro e
      have := congrArg List.length e
      rw [arcWrite, List.length_take, List.length_append] at this
      simp only [List.length_nil] at this
      omega
    unfold startupText
    rw [if_neg hne]
    by_cases k1 : n < arcHead.length
    · rw [h1 (by omega) k1]
    by_cases k2 : n < arcHead.length + arcFirstTag.length
    · rw [h2 (by omega) k2]
    · obtain ⟨t', e⟩ := h3 (by omega) hn
      rw [e]

/-- Names like `n1:12121`. -/
def plainNames : KeyNames :=
  ⟨fun k => 110 :: decimal k ++ ascii ":12121", fun k => 110 :: decimal k, fun _ => 12121,
    fun s => decValue ((s.drop 1).takeWhile isDigit)⟩

theorem plainNames_ok : plainNames.Ok := by
  refine ⟨fun k => ?_, fun k => by simp [plainNames, IntOk]⟩
  show decValue (((110 :: decimal k ++ ascii ":12121").drop 1).takeWhile isDigit) = k
  rw [List.cons_append, List.drop_succ_cons, List.drop_zero, takeWhile_digits (decimal_digits k) (by
    intro c hc
    obtain rfl : 58 = c := by simpa [ascii] using hc
    decide), decValue_decimal]

/-- The history with failures and a restart, and then a restart from its text. -/
example : startupText plainNames (arcWrite (arcOf plainNames ((ixRun .init busy).saved.getD (0, [], 0)))) =
    some (ixRun .init busy) := by decide +kernel

/-- From the first 700 bytes of it, and from none. -/
example : startupText plainNames ((arcWrite (arcOf plainNames ((ixRun .init busy).saved.getD (0, [], 0)))).take 700) = none ∧
    startupText plainNames [] = some Index.init := by decide +kernel

end Flare
