import Verif.Lemmas.Senders

/-! C101: the threads that send to another node. -/
namespace Flare

theorem SendersSt.bounded_run {k N : Nat} (hk : 0 < k) (acts : List SendersAct) {s t : SendersSt}
    (h : s.Bounded k N) (ha : ∀ a ∈ acts, a.steady ∧ a.below N)
    (hs : s.run (k : Int) acts = some t) : t.Bounded k N := by
  induction acts generalizing s with
  | nil => simp only [SendersSt.run, Option.some.injEq] at hs; exact hs ▸ h
  | cons a as ih =>
    simp only [SendersSt.run, h.1, Bool.false_eq_true, if_false] at hs
    cases hx : s.step (k : Int) a with
    | none => rw [hx] at hs; cases hs
    | some u =>
      rw [hx] at hs
      have := ha a (by simp)
      exact ih (SendersSt.bounded_step hk h this.1 this.2 hx) (fun b hb => ha b (by simp [hb])) hs

/-- C101.  As long as no sender stops, `N` threads that serve clients, in whatever order they and the
senders take turns, never start more than `N` times the number of senders asked for, and the choice
never divides by zero.  Missing: it is not the number asked for (`C101_too_many`). -/
theorem C101_bound_partial {k N : Nat} (hk : 0 < k) (acts : List SendersAct) (s : SendersSt)
    (ha : ∀ a ∈ acts, a.steady ∧ a.below N) (hs : ({} : SendersSt).run (k : Int) acts = some s) :
    s.crashed = false ∧ s.senders.length ≤ k * N := by
  have h0 : ({} : SendersSt).Bounded k N :=
    ⟨rfl, fun _ h => (nomatch h), [], List.nodup_nil, by simp, fun _ h => (nomatch h), by simp, by simp⟩
  obtain ⟨h1, -, L, l1, l2, -, -, l5⟩ := SendersSt.bounded_run hk acts h0 ha hs
  refine ⟨h1, ?_⟩
  have := Nat.mul_le_mul_left k (nodup_below N L l1 l2)
  omega

/-! ### One call at a time -/

/-- All senders run, but for the one that is being started; nothing has been refused. -/
def SendersSt.Neat (k : Nat) (s : SendersSt) : Prop :=
  s.crashed = false ∧ s.refused = [] ∧ (s.senders.map (·.id)).Nodup ∧ (∀ t ∈ s.senders, t.id < s.next) ∧
  ∃ c, (∀ d, d ≠ c → s.calls d = .idle) ∧
    match s.calls c with
    | .idle => (∀ t ∈ s.senders, t.running = true) ∧ s.senders.length ≤ k
    | .short _ n => (∀ t ∈ s.senders, t.running = true) ∧ s.senders.length + n = k
    | .starting _ id n => (∀ t ∈ s.senders, t.id ≠ id → t.running = true) ∧ s.senders.length + n = k
    | .chosen id => (∀ t ∈ s.senders, t.running = true) ∧ s.senders.length ≤ k ∧ ∃ t ∈ s.senders, t.id = id

theorem SendersSt.neat_call {k : Nat} {s : SendersSt} (h : s.Neat k) {c : Nat} (hc : s.calls c ≠ .idle) :
    (∀ d, d ≠ c → s.calls d = .idle) ∧
    match s.calls c with
    | .idle => (∀ t ∈ s.senders, t.running = true) ∧ s.senders.length ≤ k
    | .short _ n => (∀ t ∈ s.senders, t.running = true) ∧ s.senders.length + n = k
    | .starting _ id n => (∀ t ∈ s.senders, t.id ≠ id → t.running = true) ∧ s.senders.length + n = k
    | .chosen id => (∀ t ∈ s.senders, t.running = true) ∧ s.senders.length ≤ k ∧ ∃ t ∈ s.senders, t.id = id := by
  obtain ⟨-, -, -, -, c', h1, h2⟩ := h
  by_cases e : c = c'
  · subst e; exact ⟨h1, h2⟩
  · exact absurd (h1 c e) hc

theorem SendersSt.put_other (s : SendersSt) (c d : Nat) (a : CallAt) (h : d ≠ c) :
    (s.put c a).calls d = s.calls d := by simp [SendersSt.put, h]

theorem SendersSt.put_self (s : SendersSt) (c : Nat) (a : CallAt) : (s.put c a).calls c = a := by
  simp [SendersSt.put]

theorem sender_same (l : List SendThread) (hp : l.Pairwise (fun a b => a.id ≠ b.id)) {u v : SendThread}
    (hu : u ∈ l) (hv : v ∈ l) (e : u.id = v.id) : u = v := by
  induction l with
  | nil => cases hu
  | cons w l ih =>
    obtain ⟨p1, p2⟩ := List.pairwise_cons.1 hp
    rcases List.mem_cons.1 hu with rfl | hu'
    · rcases List.mem_cons.1 hv with h | h
      · exact h.symm
      · exact absurd e (p1 v h)
    · rcases List.mem_cons.1 hv with rfl | h
      · exact absurd e.symm (p1 u hu')
      · exact ih p2 hu' h

theorem SendersSt.neat_step {k : Nat} (hk : 0 < k) {s t : SendersSt} {a : SendersAct} (h : s.Neat k)
    (ha : a.steady) (hb : s.serial a) (hs : s.step (k : Int) a = some t) : t.Neat k := by
  have h' := h
  obtain ⟨h1, h2, h3, h4, c0, h5, h6⟩ := h
  cases a with
  | call c x =>
    have hall := hb
    simp only [SendersSt.serial] at hall
    have h6' : (∀ t ∈ s.senders, t.running = true) ∧ s.senders.length ≤ k := by
      rw [hall c0] at h6; exact h6
    simp only [SendersSt.step, hall c] at hs
    split at hs
    · simp only [Option.some.injEq] at hs
      subst hs
      refine ⟨h1, h2, h3, h4, c, fun d hd => by rw [SendersSt.put_other _ _ _ _ hd]; exact hall d, ?_⟩
      rw [SendersSt.put_self]
      exact ⟨h6'.1, by show s.senders.length + _ = k; omega⟩
    · simp only [Option.some.injEq] at hs
      subst hs
      obtain ⟨u, hu, -, hp⟩ := s.pick_some c x (by omega)
      rw [hp]
      refine ⟨h1, h2, h3, h4, c, fun d hd => by rw [SendersSt.put_other _ _ _ _ hd]; exact hall d, ?_⟩
      rw [SendersSt.put_self]
      exact ⟨h6'.1, h6'.2, u, hu, rfl⟩
  | make c =>
    simp only [SendersSt.step] at hs
    split at hs
    · rename_i x need hat
      simp only [Option.some.injEq] at hs
      subst hs
      obtain ⟨g1, g2⟩ := SendersSt.neat_call h' (c := c) (by rw [hat]; simp)
      rw [hat] at g2
      have hfresh : s.next ∉ s.senders.map (·.id) := by
        intro hm
        obtain ⟨u, hu, e⟩ := List.mem_map.1 hm
        have := h4 u hu
        omega
      refine ⟨h1, h2, ?_, ?_, c, fun d hd => by rw [SendersSt.put_other _ _ _ _ hd]; exact g1 d hd, ?_⟩
      · show ((s.senders ++ [_]).map _).Nodup
        rw [List.map_append, List.nodup_append]
        refine ⟨h3, by simp, ?_⟩
        intro a ha b hb
        simp only [List.map_cons, List.map_nil, List.mem_singleton] at hb
        rintro rfl
        exact hfresh (hb ▸ ha)
      · intro u hu
        show u.id < s.next + 1
        rcases List.mem_append.1 hu with hu | hu
        · have := h4 u hu; omega
        · rw [List.mem_singleton.1 hu]; exact Nat.lt_succ_self _
      · rw [SendersSt.put_self]
        refine ⟨?_, ?_⟩
        · intro u hu hne
          rcases List.mem_append.1 hu with hu | hu
          · exact g2.1 u hu
          · rw [List.mem_singleton.1 hu] at hne; exact absurd rfl hne
        · show (s.senders ++ [_]).length + need = k
          have := g2.2
          simp; omega
    · cases hs
  | start id =>
    simp only [SendersSt.step, Option.some.injEq] at hs
    subst hs
    have hids : (s.senders.map (fun t => if t.id = id then { t with running := true } else t)).map (·.id) =
        s.senders.map (·.id) := by
      rw [List.map_map]
      apply List.map_congr_left
      intro u _
      simp only [Function.comp]
      split <;> rfl
    have hrun : ∀ u ∈ s.senders.map (fun t => if t.id = id then { t with running := true } else t),
        ∃ v ∈ s.senders, v.id = u.id ∧ (v.running = true → u.running = true) := by
      intro u hu
      obtain ⟨v, hv, e⟩ := List.mem_map.1 hu
      refine ⟨v, hv, ?_⟩
      subst e
      split <;> simp
    have hmem : ∀ v ∈ s.senders, ∃ u ∈ s.senders.map (fun t => if t.id = id then { t with running := true } else t),
        u.id = v.id := by
      intro v hv
      refine ⟨_, List.mem_map.2 ⟨v, hv, rfl⟩, ?_⟩
      split <;> rfl
    refine ⟨h1, h2, ?_, ?_, c0, h5, ?_⟩
    · dsimp only; rw [hids]; exact h3
    · intro u hu
      obtain ⟨v, hv, e, -⟩ := hrun u hu
      have := h4 v hv
      dsimp only; omega
    · dsimp only
      rw [List.length_map]
      cases hat : s.calls c0 with
      | idle =>
        rw [hat] at h6
        exact ⟨fun u hu => by obtain ⟨v, hv, -, e⟩ := hrun u hu; exact e (h6.1 v hv), h6.2⟩
      | short x n =>
        rw [hat] at h6
        exact ⟨fun u hu => by obtain ⟨v, hv, -, e⟩ := hrun u hu; exact e (h6.1 v hv), h6.2⟩
      | starting x i n =>
        rw [hat] at h6
        exact ⟨fun u hu hne => by
          obtain ⟨v, hv, e', e⟩ := hrun u hu; exact e (h6.1 v hv (by rw [e']; exact hne)), h6.2⟩
      | chosen i =>
        rw [hat] at h6
        obtain ⟨a1, a2, v, hv, a3⟩ := h6
        obtain ⟨u, hu, e⟩ := hmem v hv
        exact ⟨fun u hu => by obtain ⟨v, hv, -, e⟩ := hrun u hu; exact e (a1 v hv), a2, u, hu, e.trans a3⟩
  | seen c =>
    simp only [SendersSt.step] at hs
    split at hs
    · rename_i x id need hat
      split at hs
      · rename_i hr
        simp only [Option.some.injEq] at hs
        subst hs
        obtain ⟨g1, g2⟩ := SendersSt.neat_call h' (c := c) (by rw [hat]; simp)
        rw [hat] at g2
        refine ⟨h1, h2, h3, h4, c, fun d hd => by rw [SendersSt.put_other _ _ _ _ hd]; exact g1 d hd, ?_⟩
        rw [SendersSt.put_self]
        refine ⟨?_, g2.2⟩
        intro u hu
        by_cases e : u.id = id
        · simp only [SendersSt.runs, List.any_eq_true, Bool.and_eq_true, beq_iff_eq] at hr
          obtain ⟨v, hv, e1, e2⟩ := hr
          have : u = v := by
            exact sender_same s.senders (List.pairwise_map.1 h3) hu hv (e.trans e1.symm)
          rw [this]; exact e2
        · exact g2.1 u hu e
      · cases hs
    · cases hs
  | again c =>
    simp only [SendersSt.step] at hs
    split at hs
    · rename_i x hat
      simp only [Option.some.injEq] at hs
      subst hs
      obtain ⟨g1, g2⟩ := SendersSt.neat_call h' (c := c) (by rw [hat]; simp)
      rw [hat] at g2
      have hlen := g2.2
      obtain ⟨u, hu, -, hp⟩ := s.pick_some c x (by omega)
      rw [hp]
      refine ⟨h1, h2, h3, h4, c, fun d hd => by rw [SendersSt.put_other _ _ _ _ hd]; exact g1 d hd, ?_⟩
      rw [SendersSt.put_self]
      exact ⟨g2.1, by show s.senders.length ≤ k; omega, u, hu, rfl⟩
    · cases hs
  | enq c =>
    simp only [SendersSt.step] at hs
    split at hs
    · rename_i id hat
      obtain ⟨g1, g2⟩ := SendersSt.neat_call h' (c := c) (by rw [hat]; simp)
      rw [hat] at g2
      obtain ⟨a1, a2, v, hv, a3⟩ := g2
      have hr : s.runs id = true := by
        simp only [SendersSt.runs, List.any_eq_true, Bool.and_eq_true, beq_iff_eq]
        exact ⟨v, hv, a3, a1 v hv⟩
      rw [if_pos hr] at hs
      simp only [Option.some.injEq] at hs
      subst hs
      refine ⟨h1, h2, h3, h4, c, fun d hd => by rw [SendersSt.put_other _ _ _ _ hd]; exact g1 d hd, ?_⟩
      rw [SendersSt.put_self]
      exact ⟨a1, a2⟩
    · cases hs
  | stop id => exact ha.elim
  | gone id => exact ha.elim

/-- C101.  Where no call begins before the one before it has come to its end, and no sender stops, there
are never more senders than asked for, and every entry is taken. -/
theorem C101_one_by_one_partial {k : Nat} (hk : 0 < k) (acts : List SendersAct) (s : SendersSt)
    (ha : ∀ a ∈ acts, a.steady) (hb : ({} : SendersSt).Serial (k : Int) acts)
    (hs : ({} : SendersSt).run (k : Int) acts = some s) :
    s.crashed = false ∧ s.senders.length ≤ k ∧ s.refused = [] := by
  have key : ∀ (acts : List SendersAct) (u : SendersSt), u.Neat k → (∀ a ∈ acts, a.steady) →
      u.Serial (k : Int) acts → u.run (k : Int) acts = some s → s.Neat k := by
    intro acts
    induction acts with
    | nil =>
      intro u h _ _ hs
      simp only [SendersSt.run, Option.some.injEq] at hs
      exact hs ▸ h
    | cons a as ih =>
      intro u h ha hb hs
      simp only [SendersSt.run, h.1, Bool.false_eq_true, if_false] at hs
      cases hx : u.step (k : Int) a with
      | none => rw [hx] at hs; cases hs
      | some v =>
        rw [hx] at hs
        exact ih v (SendersSt.neat_step hk h (ha a (by simp)) hb.1 hx) (fun b hb => ha b (by simp [hb]))
          (hb.2 v hx) hs
  have h := key acts {} ⟨rfl, rfl, by simp, by simp, 0, fun _ _ => rfl, by simp⟩ ha hb hs
  obtain ⟨h1, h2, -, -, c, h5, h6⟩ := h
  refine ⟨h1, ?_, h2⟩
  cases hat : s.calls c <;> rw [hat] at h6
  · exact h6.2
  · have := h6.2; omega
  · have := h6.2; omega
  · exact h6.2.1

/-! ### The senders stay -/

/-- C101.  Once there are enough senders and nobody is starting any, they stay the same as long as none of
them stops, and the sender of an entry depends on the hash of its key alone. -/
theorem C101_stay {k : Nat} (hk : 0 < k) (acts : List SendersAct) (s s' : SendersSt)
    (hcr : s.crashed = false) (hq : ∀ c, (s.calls c).busy = false) (hlen : k ≤ s.senders.length)
    (ha : ∀ a ∈ acts, a.steady) (hs : s.run (k : Int) acts = some s') :
    s'.senders.map (·.id) = s.senders.map (·.id) ∧
    ∀ (hash : Bytes → Int32) key c t, s'.step (k : Int) (.call c (hash key)) = some t →
      ∃ id, (s.senders.map (·.id))[senderIndex hash s.senders.length key]? = some id ∧ t.calls c = .chosen id := by
  have key : ∀ (acts : List SendersAct) (u : SendersSt), u.crashed = false →
      (∀ c, (u.calls c).busy = false) → u.senders.map (·.id) = s.senders.map (·.id) →
      (∀ a ∈ acts, a.steady) → u.run (k : Int) acts = some s' →
      s'.senders.map (·.id) = s.senders.map (·.id) := by
    intro acts
    induction acts with
    | nil =>
      intro u _ _ hi _ hs
      simp only [SendersSt.run, Option.some.injEq] at hs
      exact hs ▸ hi
    | cons a as ih =>
      intro u hc hb hi ha hs
      have hul : u.senders.length = s.senders.length := by
        have := congrArg List.length hi; simpa using this
      simp only [SendersSt.run, hc, Bool.false_eq_true, if_false] at hs
      cases hx : u.step (k : Int) a with
      | none => rw [hx] at hs; cases hs
      | some v =>
        rw [hx] at hs
        have hsteady := ha a (by simp)
        have hv : v.crashed = false ∧ (∀ c, (v.calls c).busy = false) ∧
            v.senders.map (·.id) = s.senders.map (·.id) := by
          have hput : ∀ (w : SendersSt) (c : Nat) (y : CallAt), w.crashed = false →
              w.calls = u.calls → w.senders = u.senders → y.busy = false →
              (w.put c y).crashed = false ∧ (∀ d, ((w.put c y).calls d).busy = false) ∧
              (w.put c y).senders.map (·.id) = s.senders.map (·.id) := by
            intro w c y h1 h2 h3 h4
            refine ⟨h1, ?_, by show w.senders.map _ = _; rw [h3]; exact hi⟩
            intro d
            show (if d = c then y else w.calls d).busy = false
            split
            · exact h4
            · rw [h2]; exact hb d
          cases a with
          | call c x =>
            simp only [SendersSt.step] at hx
            split at hx
            · rw [if_neg (by omega)] at hx
              simp only [Option.some.injEq] at hx
              subst hx
              obtain ⟨w, -, -, hp⟩ := u.pick_some c x (by omega)
              rw [hp]
              exact hput u c _ hc rfl rfl rfl
            · cases hx
          | make c =>
            simp only [SendersSt.step] at hx
            split at hx
            · rename_i hat; have := hb c; rw [hat] at this; cases this
            · cases hx
          | start id =>
            simp only [SendersSt.step, Option.some.injEq] at hx
            subst hx
            refine ⟨hc, hb, ?_⟩
            dsimp only
            rw [List.map_map, ← hi]
            apply List.map_congr_left
            intro w _
            simp only [Function.comp]
            split <;> rfl
          | seen c =>
            simp only [SendersSt.step] at hx
            split at hx
            · rename_i hat; have := hb c; rw [hat] at this; cases this
            · cases hx
          | again c =>
            simp only [SendersSt.step] at hx
            split at hx
            · rename_i hat; have := hb c; rw [hat] at this; cases this
            · cases hx
          | enq c =>
            simp only [SendersSt.step] at hx
            split at hx
            · split at hx <;>
              · simp only [Option.some.injEq] at hx
                subst hx
                exact hput _ c _ hc rfl rfl rfl
            · cases hx
          | stop id => exact hsteady.elim
          | gone id => exact hsteady.elim
        exact ih v hv.1 hv.2.1 hv.2.2 (fun b hb => ha b (by simp [hb])) hs
  have hi := key acts s hcr hq rfl ha hs
  refine ⟨hi, ?_⟩
  intro hash key' c t ht
  have hul : s'.senders.length = s.senders.length := by
    have := congrArg List.length hi; simpa using this
  simp only [SendersSt.step] at ht
  split at ht
  · rw [if_neg (by omega)] at ht
    simp only [Option.some.injEq] at ht
    subst ht
    obtain ⟨w, -, hw, hp⟩ := s'.pick_some c (hash key') (by omega)
    refine ⟨w.id, ?_, by rw [hp]; exact SendersSt.put_self ..⟩
    rw [show senderIndex hash s.senders.length key' = hashIndex (hash key') s.senders.length from rfl]
    rw [← hi, ← hul, List.getElem?_map, hw]; rfl
  · cases ht

/-! ### A sender that stops, and the end of the process -/

theorem SendersSt.step_stopped {k : Int} {s t : SendersSt} {id : Nat} {a : SendersAct} (hr : s.runs id = false)
    (ha : a ≠ .start id) (h : s.step k a = some t) :
    t.runs id = false ∧ t.taken.filter (fun e => e.2 == id) = s.taken.filter (fun e => e.2 == id) := by
  have hpick : ∀ c x, (s.pick c x).runs id = false ∧
      (s.pick c x).taken.filter (fun e => e.2 == id) = s.taken.filter (fun e => e.2 == id) := by
    intro c x
    simp only [SendersSt.pick]
    split <;> exact ⟨hr, rfl⟩
  have hall : ∀ x ∈ s.senders, x.id = id → x.running = false := by
    intro x hx hid
    have := List.any_eq_false.1 hr x hx
    simpa [hid] using this
  cases a with
  | call c x =>
    simp only [SendersSt.step] at h
    split at h
    · split at h
      · cases h; exact ⟨hr, rfl⟩
      · cases h; exact hpick c x
    · cases h
  | make c =>
    simp only [SendersSt.step] at h
    split at h
    · cases h
      refine ⟨?_, rfl⟩
      show (s.senders ++ [({ id := s.next } : SendThread)]).any _ = false
      rw [List.any_append]
      simp [show s.senders.any (fun t => t.id == id && t.running) = false from hr]
    · cases h
  | start j =>
    simp only [SendersSt.step, Option.some.injEq] at h
    subst h
    refine ⟨?_, rfl⟩
    show (s.senders.map _).any _ = false
    rw [List.any_eq_false]
    intro x hx
    obtain ⟨y, hy, rfl⟩ := List.mem_map.1 hx
    by_cases hj : y.id = j
    · have : y.id ≠ id := by rintro rfl; exact ha (by rw [hj])
      simp [hj]
      intro h'
      exact absurd (hj.trans h') this
    · rw [if_neg hj]
      by_cases hid : y.id = id
      · simp [hall y hy hid]
      · simp [hid]
  | seen c =>
    simp only [SendersSt.step] at h
    split at h
    · split at h
      · cases h; exact ⟨hr, rfl⟩
      · cases h
    · cases h
  | again c =>
    simp only [SendersSt.step] at h
    split at h
    · cases h; exact hpick c _
    · cases h
  | enq c =>
    simp only [SendersSt.step] at h
    split at h
    · rename_i j hat
      split at h
      · rename_i hrun
        cases h
        have hj : (j == id) = false := by
          simp only [beq_eq_false_iff_ne]
          rintro rfl
          rw [hr] at hrun; cases hrun
        refine ⟨hr, ?_⟩
        show (s.taken ++ [(c, j)]).filter _ = _
        rw [List.filter_append]
        simp [hj]
      · cases h; exact ⟨hr, rfl⟩
    · cases h
  | stop j =>
    simp only [SendersSt.step, Option.some.injEq] at h
    subst h
    refine ⟨?_, rfl⟩
    show (s.senders.map _).any _ = false
    rw [List.any_eq_false]
    intro x hx
    obtain ⟨y, hy, rfl⟩ := List.mem_map.1 hx
    by_cases hj : y.id = j
    · simp [hj]
    · rw [if_neg hj]
      by_cases hid : y.id = id
      · simp [hall y hy hid]
      · simp [hid]
  | gone j =>
    simp only [SendersSt.step, Option.some.injEq] at h
    subst h
    refine ⟨?_, rfl⟩
    show (s.senders.filter _).any _ = false
    rw [List.any_eq_false]
    intro x hx
    have hx := (List.mem_filter.1 hx).1
    by_cases hid : x.id = id
    · simp [hall x hx hid]
    · simp [hid]

/-- C101.  A sender that has stopped takes nothing any more, whatever the others do, whoever chose it before, and as long as it
is not started again: entries for it are refused. -/
theorem C101_stopped {k : Int} (id : Nat) (acts : List SendersAct) (ha : ∀ a ∈ acts, a ≠ .start id) (s s' : SendersSt)
    (hs : s.run k (.stop id :: acts) = some s') :
    s'.taken.filter (fun e => e.2 == id) = s.taken.filter (fun e => e.2 == id) := by
  have key : ∀ (acts : List SendersAct) (u : SendersSt), (∀ a ∈ acts, a ≠ .start id) → u.runs id = false →
      u.run k acts = some s' → s'.taken.filter (fun e => e.2 == id) = u.taken.filter (fun e => e.2 == id) := by
    intro acts
    induction acts with
    | nil => intro u _ _ h; cases h; rfl
    | cons a as ih =>
      intro u ha hr h
      rw [SendersSt.run] at h
      split at h
      · cases h; rfl
      · cases hx : u.step k a with
        | none => rw [hx] at h; cases h
        | some v =>
          rw [hx] at h
          obtain ⟨h1, h2⟩ := SendersSt.step_stopped hr (ha a (List.mem_cons_self ..)) hx
          rw [ih v (fun b hb => ha b (List.mem_cons_of_mem _ hb)) h1 h, h2]
  rw [SendersSt.run] at hs
  split at hs
  · cases hs; rfl
  · simp only [SendersSt.step] at hs
    have h2 := fun hr => key acts _ ha hr hs
    refine h2 ?_
    show (s.senders.map _).any _ = false
    rw [List.any_eq_false]
    intro x hx
    obtain ⟨y, hy, rfl⟩ := List.mem_map.1 hx
    by_cases hj : y.id = id
    · simp [hj]
    · simp [hj]

/-- C101.  After a division by zero nothing happens any more. -/
theorem C101_ended {k : Int} (acts more : List SendersAct) (s s' : SendersSt) (hs : s.run k acts = some s')
    (hc : s'.crashed = true) : s.run k (acts ++ more) = some s' := by
  induction acts generalizing s with
  | nil =>
    cases hs
    cases more with
    | nil => rfl
    | cons a as => rw [List.nil_append, SendersSt.run, if_pos hc]
  | cons a as ih =>
    rw [List.cons_append, SendersSt.run]
    rw [SendersSt.run] at hs
    split at hs
    · rename_i h; rw [if_pos h]; exact hs
    · rename_i h
      rw [if_neg h]
      cases hx : s.step k a with
      | none => rw [hx] at hs; cases hs
      | some v => rw [hx] at hs; exact ih v hs

example : (({} : SendersSt).run 1 [.call 0 7, .make 0, .start 0, .seen 0, .again 0, .stop 0, .enq 0]).map
    (fun s => (s.taken, s.refused)) = some ([], [(0, 0)]) := by decide +kernel

example : (({} : SendersSt).run 0 [.call 0 7, .start 5, .call 1 8]).map (fun s => s.crashed) = some true := by decide +kernel

/-! ### Examples and defects -/

/-- One caller starts `n` senders and chooses one. -/
def oneCall (c : Nat) (h : Int32) (ids : List Nat) : List SendersAct :=
  .call c h :: ids.flatMap (fun i => [.make c, .start i, .seen c]) ++ [.again c, .enq c]

example : (({} : SendersSt).run 2 (oneCall 0 7 [0, 1] ++ [.call 1 8, .enq 1])).map
    (fun s => (s.senders, s.taken, s.refused)) =
    some ([⟨0, true⟩, ⟨1, true⟩], [(0, 1), (1, 0)], []) := by decide +kernel

/-- Defect: a sender is in the map before it runs.  A second caller counts it, may choose it, and its entry
is refused, although nothing stops and nothing is full.  For the copy of a write this is only logged: the
copy is lost. -/
theorem C101_refused : ∃ acts : List SendersAct, (∀ a ∈ acts, a.steady ∧ a.below 2) ∧
    (({} : SendersSt).run 2 acts).map (fun s => (s.taken, s.refused)) = some ([(0, 1)], [(1, 1)]) :=
  ⟨[.call 0 7, .make 0, .start 0, .seen 0, .make 0, .call 1 7, .enq 1, .start 1, .seen 0, .again 0, .enq 0],
    by simp [SendersAct.steady, SendersAct.below], by decide +kernel⟩

/-- Defect: two callers that find no sender both start as many as asked for, and they stay: `C101_bound_partial`
cannot be improved. -/
theorem C101_too_many : ∃ acts : List SendersAct, (∀ a ∈ acts, a.steady ∧ a.below 2) ∧
    (({} : SendersSt).run 2 acts).map (fun s => s.senders.length) = some 4 :=
  ⟨[.call 0 7, .call 1 7] ++ [.make 0, .start 0, .seen 0, .make 0, .start 1, .seen 0] ++
      [.make 1, .start 2, .seen 1, .make 1, .start 3, .seen 1],
    by simp [SendersAct.steady, SendersAct.below], by decide +kernel⟩

/-- Defect: while the second of the two starts its senders, the entries of one key go to one sender first and
to another one afterwards. -/
theorem C101_moved : ∃ acts : List SendersAct, (∀ a ∈ acts, a.steady ∧ a.below 2) ∧
    (({} : SendersSt).run 2 acts).map (fun s => (s.taken, s.refused)) = some ([(0, 0), (0, 2)], []) :=
  ⟨[.call 0 2, .call 1 7] ++ [.make 0, .start 0, .seen 0, .make 0, .start 1, .seen 0, .again 0, .enq 0] ++
      [.make 1, .start 2, .seen 1, .call 0 2, .enq 0],
    by simp [SendersAct.steady, SendersAct.below], by decide +kernel⟩

/-- Defect: with `proxy-concurrency` 0 or less, which nothing forbids, the first request for another node
divides by zero. -/
theorem C101_zero (conc : Int) (h : conc ≤ 0) (c : Nat) (x : Int32) :
    (({} : SendersSt).run conc [.call c x]).map (·.crashed) = some true := by
  simp only [SendersSt.run, SendersSt.step, Bool.false_eq_true, if_false]
  rw [if_neg (by simp only [List.length_nil]; omega)]
  rfl

/-- Defect: so does a request whose senders end in the moment after their start, as a `kill` or the end of
the node can make them. -/
theorem C101_gone : (({} : SendersSt).run 1 [.call 0 7, .make 0, .start 0, .seen 0, .stop 0, .gone 0,
    .again 0]).map (·.crashed) = some true := by decide +kernel

/-- The premises of `C101_stay` and `C101_one_by_one_partial` hold for the example above. -/
example : (({} : SendersSt).run 2 (oneCall 0 7 [0, 1])).map (fun s => (s.crashed, decide (2 ≤ s.senders.length),
    (s.calls 0).busy, (s.calls 1).busy)) = some (false, true, false, false) := by decide +kernel

end Flare
