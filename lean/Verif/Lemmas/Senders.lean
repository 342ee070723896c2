import Verif.Spec.Senders

/-! Lemmas about the senders (C101). -/
namespace Flare

/-- How many senders a caller is still to make. -/
def CallAt.need : CallAt → Nat
  | .short _ n => n
  | .starting _ _ n => n
  | _ => 0

theorem nodup_below (N : Nat) (l : List Nat) (hn : l.Nodup) (h : ∀ c ∈ l, c < N) : l.length ≤ N := by
  induction N generalizing l with
  | zero =>
    cases l with
    | nil => simp
    | cons c l => exact absurd (h c (by simp)) (by omega)
  | succ N ih =>
    have h1 := ih (l.erase N) (hn.erase N) (fun c hc => by
      have := h c (List.mem_of_mem_erase hc)
      have hne : c ≠ N := by
        rintro rfl
        exact absurd hc (by
          intro hc'
          exact (List.Nodup.mem_erase_iff hn).1 hc' |>.1 rfl)
      omega)
    have h2 : l.length ≤ (l.erase N).length + 1 := by
      rw [List.length_erase]; split <;> omega
    omega

theorem hashIndex_lt (h : Int32) {n : Nat} (hn : 0 < n) : hashIndex h n < n := Nat.mod_lt _ hn

theorem SendersSt.pick_some (s : SendersSt) (c : Nat) (h : Int32) (hn : 0 < s.senders.length) :
    ∃ t ∈ s.senders, s.senders[hashIndex h s.senders.length]? = some t ∧
      s.pick c h = s.put c (.chosen t.id) := by
  have hlt := hashIndex_lt h hn
  refine ⟨s.senders[hashIndex h s.senders.length], List.getElem_mem hlt,
    List.getElem?_eq_getElem hlt, ?_⟩
  simp only [SendersSt.pick, List.getElem?_eq_getElem hlt]

theorem sum_map_put {f g : Nat → Nat} {c : Nat} {l : List Nat} (hn : l.Nodup) (hc : c ∈ l)
    (hfg : ∀ d, d ≠ c → g d = f d) : (l.map g).sum + f c = (l.map f).sum + g c := by
  induction l with
  | nil => simp at hc
  | cons d l ih =>
    simp only [List.map_cons, List.sum_cons]
    by_cases hd : d = c
    · subst hd
      have : l.map g = l.map f := by
        apply List.map_congr_left
        intro x hx
        exact hfg x (by rintro rfl; exact (List.nodup_cons.1 hn).1 hx)
      rw [this]; omega
    · have h1 := ih (List.nodup_cons.1 hn).2 (by
        rcases List.mem_cons.1 hc with h | h
        · exact absurd h.symm hd
        · exact h)
      rw [hfg d hd]; omega

/-- What bounds the number of senders: every caller goes short at most once. -/
def SendersSt.Bounded (k N : Nat) (s : SendersSt) : Prop :=
  s.crashed = false ∧
  (∀ c, (s.calls c).busy = true → k ≤ s.senders.length + (s.calls c).need) ∧
  ∃ L : List Nat, L.Nodup ∧ (∀ c ∈ L, c < N) ∧ (∀ c, (s.calls c).busy = true → c ∈ L) ∧
    (∀ c ∈ L, (s.calls c).busy = false → k ≤ s.senders.length) ∧
    s.senders.length + (L.map (fun c => (s.calls c).need)).sum ≤ k * L.length

theorem busy_of_need {a : CallAt} (h : a.busy = false) : a.need = 0 := by
  cases a <;> first | rfl | cases h

/-- A step of a caller that does not touch the senders. -/
theorem SendersSt.Bounded.put {k N : Nat} {s t : SendersSt} (h : s.Bounded k N) (c : Nat) (a : CallAt)
    (hcr : t.crashed = s.crashed) (hs : t.senders.length = s.senders.length)
    (hca : t.calls = fun d => if d = c then a else s.calls d)
    (hn : a.need = (s.calls c).need) (hb : a.busy = true → (s.calls c).busy = true)
    (hk : (s.calls c).busy = true → a.busy = false → k ≤ s.senders.length) :
    t.Bounded k N := by
  obtain ⟨h1, h2, L, l1, l2, l3, l4, l5⟩ := h
  have hneed : ∀ d, (t.calls d).need = (s.calls d).need := by
    intro d
    rw [hca]; dsimp only
    split
    · rename_i hd; rw [hd, hn]
    · rfl
  refine ⟨hcr.trans h1, ?_, L, l1, l2, ?_, ?_, ?_⟩
  · intro d hd
    rw [hneed, hs]
    apply h2
    rw [hca] at hd; dsimp only at hd
    split at hd
    · rename_i hdc; rw [hdc]; exact hb hd
    · exact hd
  · intro d hd
    apply l3
    rw [hca] at hd; dsimp only at hd
    split at hd
    · rename_i hdc; rw [hdc]; exact hb hd
    · exact hd
  · intro d hd hd'
    rw [hs]
    rw [hca] at hd'; dsimp only at hd'
    split at hd'
    · rename_i hdc
      subst hdc
      cases hx : (s.calls d).busy with
      | false => exact l4 d hd hx
      | true => exact hk hx hd'
    · exact l4 d hd hd'
  · rw [hs, show (fun c => (t.calls c).need) = fun c => (s.calls c).need from funext hneed]
    exact l5

theorem SendersSt.bounded_step {k N : Nat} (hk : 0 < k) {s t : SendersSt} {a : SendersAct}
    (h : s.Bounded k N) (ha : a.steady) (hb : a.below N) (hs : s.step (k : Int) a = some t) :
    t.Bounded k N := by
  cases a with
  | call c x =>
    simp only [SendersSt.step] at hs
    split at hs
    · rename_i hidle
      split at hs
      · rename_i hlt
        simp only [Option.some.injEq] at hs
        subst hs
        obtain ⟨h1, h2, L, l1, l2, l3, l4, l5⟩ := h
        have hlt' : s.senders.length < k := by omega
        have hc : c ∉ L := fun hc => by
          have := l4 c hc (by rw [hidle]; rfl)
          omega
        have hneed : (((k : Int) - s.senders.length).toNat) = k - s.senders.length := by omega
        obtain ⟨u, hu⟩ : ∃ u, u = s.put c (.short x ((k : Int) - s.senders.length).toNat) := ⟨_, rfl⟩
        have hcalls : ∀ d, d ≠ c → u.calls d = s.calls d := fun d hd => by
          simp [hu, SendersSt.put, hd]
        have hcall : u.calls c = .short x (k - s.senders.length) := by
          simp [hu, SendersSt.put, hneed]
        have hsn : u.senders = s.senders := by rw [hu]; rfl
        have hcr : u.crashed = false := by rw [hu]; exact h1
        rw [← hu]
        refine ⟨hcr, ?_, c :: L, List.nodup_cons.2 ⟨hc, l1⟩, ?_, ?_, ?_, ?_⟩
        · intro d hd
          rw [hsn]
          by_cases hdc : d = c
          · subst hdc
            rw [hcall]
            show k ≤ s.senders.length + (k - s.senders.length)
            omega
          · rw [hcalls d hdc] at hd ⊢
            exact h2 d hd
        · intro d hd
          rcases List.mem_cons.1 hd with h | h
          · rw [h]; exact hb
          · exact l2 d h
        · intro d hd
          by_cases hdc : d = c
          · subst hdc; simp
          · rw [hcalls d hdc] at hd
            exact List.mem_cons_of_mem _ (l3 d hd)
        · intro d hd hd'
          rw [hsn]
          rcases List.mem_cons.1 hd with h | h
          · rw [h, hcall] at hd'; cases hd'
          · have hdc : d ≠ c := fun e => hc (e ▸ h)
            rw [hcalls d hdc] at hd'
            exact l4 d h hd'
        · have he : L.map (fun d => (u.calls d).need) = L.map (fun c => (s.calls c).need) := by
            apply List.map_congr_left
            intro d hd
            rw [hcalls d (fun e => hc (e ▸ hd))]
          rw [List.map_cons, List.sum_cons, he, hcall, hsn, List.length_cons, Nat.mul_add]
          show s.senders.length + (k - s.senders.length + _) ≤ _
          omega
      · rename_i hge
        simp only [Option.some.injEq] at hs
        subst hs
        obtain ⟨u, -, -, hp⟩ := s.pick_some c x (by omega)
        rw [hp]
        exact h.put c _ rfl rfl rfl (by rw [hidle]; rfl) (by simp [CallAt.busy]) (by rw [hidle]; simp [CallAt.busy])
    · cases hs
  | make c =>
    simp only [SendersSt.step] at hs
    split at hs
    · rename_i x need hat
      simp only [Option.some.injEq] at hs
      subst hs
      obtain ⟨h1, h2, L, l1, l2, l3, l4, l5⟩ := h
      have hlen : (s.add.put c (.starting x s.next need)).senders.length = s.senders.length + 1 := by
        simp [SendersSt.put, SendersSt.add]
      have hcalls : ∀ d, d ≠ c → (s.add.put c (.starting x s.next need)).calls d = s.calls d :=
        fun d hd => by simp [SendersSt.put, SendersSt.add, hd]
      have hcall : (s.add.put c (.starting x s.next need)).calls c = .starting x s.next need := by
        simp [SendersSt.put]
      have hcL : c ∈ L := l3 c (by rw [hat]; rfl)
      refine ⟨h1, ?_, L, l1, l2, ?_, ?_, ?_⟩
      · intro d hd
        rw [hlen]
        by_cases hdc : d = c
        · subst hdc
          have := h2 d (by rw [hat]; rfl)
          rw [hat] at this
          rw [hcall]
          simp only [CallAt.need] at this ⊢
          omega
        · rw [hcalls d hdc] at hd ⊢
          have := h2 d hd
          omega
      · intro d hd
        by_cases hdc : d = c
        · rw [hdc]; exact hcL
        · rw [hcalls d hdc] at hd; exact l3 d hd
      · intro d hd hd'
        rw [hlen]
        by_cases hdc : d = c
        · rw [hdc, hcall] at hd'; cases hd'
        · rw [hcalls d hdc] at hd'
          have := l4 d hd hd'
          omega
      · have := sum_map_put (f := fun c => (s.calls c).need)
          (g := fun d => ((s.add.put c (.starting x s.next need)).calls d).need) l1 hcL
          (fun d hd => by rw [hcalls d hd])
        rw [hcall, hat] at this
        simp only [CallAt.need] at this l5 ⊢
        rw [hlen]
        omega
    · cases hs
  | start id =>
    simp only [SendersSt.step, Option.some.injEq] at hs
    subst hs
    exact h.put 0 (s.calls 0) rfl (by simp) (by funext d; dsimp only; split <;> simp_all) rfl (fun h => h)
      (fun h1 h2 => by rw [h1] at h2; cases h2)
  | seen c =>
    simp only [SendersSt.step] at hs
    split at hs
    · rename_i x id need hat
      split at hs
      · simp only [Option.some.injEq] at hs
        subst hs
        exact h.put c _ rfl rfl rfl (by rw [hat]; rfl) (by rw [hat]; simp [CallAt.busy]) (by simp [CallAt.busy])
      · cases hs
    · cases hs
  | again c =>
    simp only [SendersSt.step] at hs
    split at hs
    · rename_i x hat
      simp only [Option.some.injEq] at hs
      subst hs
      have hlen := h.2.1 c (by rw [hat]; rfl)
      rw [hat] at hlen
      simp only [CallAt.need, Nat.add_zero] at hlen
      obtain ⟨u, -, -, hp⟩ := s.pick_some c x (by omega)
      rw [hp]
      exact h.put c _ rfl rfl rfl (by rw [hat]; rfl) (by simp [CallAt.busy]) (fun _ _ => hlen)
    · cases hs
  | enq c =>
    simp only [SendersSt.step] at hs
    split at hs
    · rename_i id hat
      split at hs <;>
      · simp only [Option.some.injEq] at hs
        subst hs
        exact h.put c _ rfl rfl rfl (by rw [hat]; rfl) (by simp [CallAt.busy]) (by rw [hat]; simp [CallAt.busy])
    · cases hs
  | stop id => exact ha.elim
  | gone id => exact ha.elim

end Flare
