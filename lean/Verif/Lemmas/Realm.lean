import Verif.Spec.Realm
import Verif.Props.Routing
import Verif.Lemmas.TombReigns

namespace Flare

/-! ### Runs and traces -/

theorem rRun_append (C : RealmCfg) (s : Realm) (a b : List REv) : rRun C s (a ++ b) = rRun C (rRun C s a) b :=
  List.foldl_append

theorem rRun_cons (C : RealmCfg) (s : Realm) (e : REv) (b : List REv) : rRun C s (e :: b) = rRun C (rStep C s e) b := rfl

theorem rTrace_append (C : RealmCfg) : ∀ (a b : List REv) (s : Realm),
    rTrace C s (a ++ b) = rTrace C s a ++ rTrace C (rRun C s a) b
  | [], _, _ => rfl
  | e :: a, b, s => by
    rw [List.cons_append, rTrace, rTrace_append C a b, rTrace, List.append_assoc, rRun_cons]

theorem rStep_g (C : RealmCfg) (s : Realm) (e : REv) : (rStep C s e).g = gRun C.rep s.g (e.group C s) := rfl

theorem rRun_g (C : RealmCfg) : ∀ (evs : List REv) (s : Realm), (rRun C s evs).g = gRun C.rep s.g (rTrace C s evs)
  | [], _ => rfl
  | e :: evs, s => by rw [rRun_cons, rRun_g C evs, rStep_g, rTrace, gRun_append]

theorem gStep_slaves (rep : Bool) (g : Group) (ev : GEv) (h : ∀ i l, ev ≠ .role i l) : (gStep rep g ev).slaves = g.slaves := by
  cases ev with
  | write i env path r refused => simp only [gStep]; split <;> rfl
  | arrive f env => simp only [gStep]; split <;> rfl
  | again f env => simp only [gStep]; split <;> rfl
  | lose f => rfl
  | answer a =>
    simp only [gStep]
    split
    · rfl
    · split <;> rfl
  | read i env e => rfl
  | role i l => exact absurd rfl (h i l)
  | dump i j env k => rfl
  | put d env => simp only [gStep]; split <;> rfl
  | drop d => rfl

theorem possible_not_role {C : RealmCfg} {s : Realm} {ev : GEv} (h : ev.possible C s = true) : ∀ i l, ev ≠ .role i l := by
  rintro i l rfl
  cases h

/-! ### What a node takes itself for -/

/-- The node acts on the maps it has got. -/
def RolesOk (C : RealmCfg) (s : Realm) : Prop := ∀ i, s.g.slaves i = s.role C i

/-- What a node has got was sent. -/
def Fed (s : Realm) : Prop := ∀ i, ∀ m ∈ s.got i, m ∈ sent .init s.acts

theorem sent_append (as bs : List IAct) : ∀ s : Index, sent s (as ++ bs) = sent s as ++ sent (ixRun s as) bs := by
  induction as with
  | nil => intro s; rfl
  | cons a as ih =>
    intro s
    have : ixRun s (a :: as) = ixRun (ixAct s a) as := rfl
    rw [this]
    cases a with
    | cmd env c => rw [List.cons_append, sent, sent, ih, List.append_assoc]
    | update env => rw [List.cons_append, sent, sent, ih]
    | restart => rw [List.cons_append, sent, sent, ih]

theorem role_congr {C : RealmCfg} {s s' : Realm} {i : NodeKey} (h1 : s'.dead i = s.dead i) (h2 : s'.got i = s.got i) :
    s'.role C i = s.role C i := by
  simp only [Realm.role, Realm.view, h1, h2]

theorem fed_step (C : RealmCfg) (s : Realm) (ev : REv) (h : Fed s) : Fed (rStep C s ev) := by
  cases ev with
  | act a =>
    intro i m hm
    show m ∈ sent .init (s.acts ++ [a])
    rw [sent_append]
    exact List.mem_append_left _ (h i m hm)
  | deliver i n =>
    intro j m hm
    simp only [rStep] at hm ⊢
    cases hn : (sent .init s.acts)[n]? with
    | none => simp only [hn] at hm ⊢; exact h j m hm
    | some x =>
      simp only [hn] at hm ⊢
      by_cases hj : j = i
      · rw [if_pos hj] at hm
        rcases List.mem_append.1 hm with hm | hm
        · exact h j m hm
        · rw [List.mem_singleton.1 hm]; exact List.mem_of_getElem? hn
      · rw [if_neg hj] at hm
        exact h j m hm
  | crash i => exact h
  | data ev => cases ev <;> exact h

theorem roles_step (C : RealmCfg) (s : Realm) (ev : REv) (h : RolesOk C s) : RolesOk C (rStep C s ev) := by
  cases ev with
  | act a => exact h
  | deliver i n =>
    intro j
    simp only [rStep, REv.group]
    cases hn : (sent .init s.acts)[n]? with
    | none => exact h j
    | some x =>
      dsimp only
      split
      · rename_i he
        by_cases hj : j = i
        · subst hj; exact he.symm
        · refine (h j).trans ?_
          symm
          exact role_congr rfl (if_neg hj)
      · by_cases hj : j = i
        · subst hj
          simp only [gRun, List.foldl_cons, List.foldl_nil, gStep, if_true]
          rfl
        · simp only [gRun, List.foldl_cons, List.foldl_nil, gStep, hj, if_false]
          refine (h j).trans ?_
          symm
          exact role_congr rfl (if_neg hj)
  | crash i =>
    intro j
    simp only [rStep, REv.group]
    by_cases hj : j = i
    · subst hj
      split
      · rename_i he
        simp only [gRun, List.foldl_nil, he, Realm.role, if_true]
      · simp only [gRun, List.foldl_cons, List.foldl_nil, gStep, if_true, Realm.role]
    · have hr : ({ s with dead := fun j => if j = i then true else s.dead j } : Realm).role C j = s.role C j :=
        role_congr (if_neg hj) rfl
      split
      · exact (h j).trans hr.symm
      · simp only [gRun, List.foldl_cons, List.foldl_nil, gStep, hj, if_false]
        exact (h j).trans hr.symm
  | data ev =>
    intro j
    have hg : (rStep C s (.data ev)).g.slaves = s.g.slaves := by
      rw [rStep_g]
      simp only [REv.group]
      split
      · rename_i hp
        simp only [gRun, List.foldl_cons, List.foldl_nil]
        exact gStep_slaves _ _ _ (possible_not_role hp)
      · rfl
    rw [hg]
    refine (h j).trans (role_congr ?_ ?_).symm
    · cases ev <;> rfl
    · cases ev <;> rfl

/-! ### What the maps say -/

section
variable {kr : Resolver} {h : Int} {p N : Nat}

theorem takesFor_init (me : NodeKey) : takesFor kr h me .init = none := by
  simp [takesFor, preWrite, determine, View.init]

theorem takesFor_good {near : NodeKey → Bool} {v : View} (g : GoodView near N v) (hr : Routable kr N h)
    (hp : resolve kr h N = some p) (hlt : p < N) (hs : ∀ k, ¬ Prepares v.nodes k) (me : NodeKey) :
    (Leads v.nodes p me → takesFor kr h me v = some ((slavesOf v.nodes p).map (·.1))) ∧
    (¬ Leads v.nodes p me → takesFor kr h me v = none) := by
  have hm : ¬ Moving kr N v.nodes h := fun ⟨⟨k, hk⟩, _⟩ => hs k hk
  have hd := C29_decision g { hash := h } hr hp hlt me (fun _ => true)
  have hex : Executes kr N v.nodes p me { hash := h } ↔ Leads v.nodes p me := by
    simp [Executes]
  constructor
  · intro hL
    simp only [takesFor]
    rw [if_pos (hd.1.2 (hex.2 hL))]
    have hdm := g.determine_main hp hlt
    have hb1 := (ledBy_main g p near me).2 hL
    simp only [postWrite, hdm, (g.determinePrep_eq hr (by omega)).2 hm, hb1, Bool.true_or, if_true, List.count_nil,
      show ¬ 2 ≤ 0 by omega, if_false, List.append_nil]
    rw [filter_enqueueOk]
    · simp [mkPart]
    · exact follows_known g.sorted
  · intro hL
    simp only [takesFor]
    rw [if_neg (fun hc => hL (hex.1 (hd.1.1 hc)))]

end

theorem good_unique {N M : Nat} {nodes : NodeMap} (hs : Sorted nodes) (h1 : Good N (mfind nodes)) (h2 : Good M (mfind nodes)) :
    N = M := by
  have e1 := h1.exists_range hs
  have e2 := h2.exists_range hs
  have h3 := (e1 M).symm.trans (e2 M)
  have h4 := (e1 N).symm.trans (e2 N)
  omega

/-- A cluster in which master `m` follows others that have stopped.  `base` is the version of the first map that counts. -/
structure Reach (C : RealmCfg) (N p base : Nat) (s : Realm) (m : NodeKey) : Prop where
  orderly : Orderly true .init s.acts
  fresh : freshAfter true s.acts = true
  roles : RolesOk C s
  fed : Fed s
  leads : Leads s.ix.nodes p m
  good : Good N (mfind s.ix.nodes)
  last : ∃ x, (sent .init s.acts).getLast? = some x ∧ base ≤ x.version
  maps : ∀ x ∈ sent .init s.acts, base ≤ x.version → Good N (mfind x.nodes) ∧ (∀ k, ¬ Prepares x.nodes k) ∧
    ∀ i, Leads x.nodes p i → s.dead i = true ∨ i = m
  heard : ∀ i, s.got i = [] ∨ ∃ x ∈ s.got i, base ≤ x.version
  gone : ∀ i, s.dead i = true → i = m ∨ ∀ n, mfind s.ix.nodes i = some n → n.role = .proxy
  opens : ∀ e ∈ s.g.open_, e.1 < s.g.next ∧ (s.dead (s.who e.1) = true ∨ s.who e.1 = m)

theorem versions_unique (as : List IAct) : ∀ a ∈ sent .init as, ∀ b ∈ sent .init as, a.version = b.version → a = b := by
  have h1 := (C24_messages as).1
  intro a ha b hb hab
  obtain ⟨i, hi, rfl⟩ := List.mem_iff_getElem.1 ha
  obtain ⟨j, hj, rfl⟩ := List.mem_iff_getElem.1 hb
  rcases Nat.lt_trichotomy i j with h | rfl | h
  · have := List.pairwise_iff_getElem.1 h1 i j hi hj h; omega
  · rfl
  · have := List.pairwise_iff_getElem.1 h1 j i hj hi h; omega

theorem versions_last (as : List IAct) {x : NodeMsg} (hl : (sent .init as).getLast? = some x) :
    ∀ a ∈ sent .init as, a.version ≤ x.version := by
  have h1 := (C24_messages as).1
  intro a ha
  obtain ⟨i, hi, rfl⟩ := List.mem_iff_getElem.1 ha
  rw [List.getLast?_eq_getElem?] at hl
  obtain ⟨hj, hl⟩ := List.getElem?_eq_some_iff.1 hl
  rcases Nat.lt_or_ge i ((sent .init as).length - 1) with h | h
  · have := List.pairwise_iff_getElem.1 h1 i _ hi hj h
    rw [hl] at this
    omega
  · have : i = (sent .init as).length - 1 := by omega
    subst this
    rw [hl]

/-- The map in memory is the last one sent. -/
theorem last_nodes {as : List IAct} (ho : Orderly true .init as) (hf : freshAfter true as = true) {x : NodeMsg}
    (hl : (sent .init as).getLast? = some x) : x.nodes = (ixRun .init as).nodes ∧ x.version = (ixRun .init as).version := by
  obtain ⟨M, hi⟩ := run_inv as true 0 .init init_inv ho
  rw [hf] at hi
  obtain ⟨tt, ht⟩ := (C24_messages as).2 x hl
  obtain ⟨h1, h2, -⟩ := (hi.saved _ _ _ ht).2 rfl
  exact ⟨h2, h1⟩

section
variable {C : RealmCfg} {N p base : Nat} {s : Realm} {m : NodeKey}

/-- What a node with a map believes. -/
theorem Reach.view (h : Reach C N p base s m) {i : NodeKey} (hi : s.got i ≠ []) :
    ∃ x ∈ s.got i, base ≤ x.version ∧ (∀ y ∈ s.got i, y.version ≤ x.version) ∧ (s.view C i).nodes = x.nodes ∧
      GoodView (C.near i) N (s.view C i) := by
  have hg := sent_good s.acts true 0 .init init_inv h.orderly
  obtain ⟨y, hy, hb⟩ := (h.heard i).resolve_left hi
  rcases receiveAll_spec (C.near i) i (s.got i) .init with ⟨-, h'⟩ | ⟨x, g1, -, g3, -, g5⟩
  · have := h' y hy; simp [View.init] at this
  · obtain ⟨M, hs, hM⟩ := hg x (h.fed i x g1)
    rw [build_sorted _ hs] at g5
    have hbx : base ≤ x.version := Nat.le_trans hb (g3 y hy)
    refine ⟨x, g1, hbx, g3, g5, ?_⟩
    obtain ⟨M', hv⟩ := receiveAll_good (C.near i) i (s.got i) (fun z hz => hg z (h.fed i z hz)) .init (.inl rfl) (.inl hi)
    have hgood := (h.maps x (h.fed i x g1) hbx).1
    have : N = M' := by
      refine good_unique hs hgood ?_
      have := hv.good
      rw [g5] at this
      exact this
    rw [this]
    exact hv

variable (hr : Routable C.kr N (C.hash C.key)) (hp : resolve C.kr (C.hash C.key) N = some p ∧ p < N)

include hr hp in
theorem Reach.role_none (h : Reach C N p base s m) {i : NodeKey} (hi : i ≠ m) : s.role C i = none := by
  simp only [Realm.role]
  split
  · rfl
  · rename_i hd
    by_cases hg : s.got i = []
    · simp only [Realm.view, hg, receiveAll, List.foldl_nil]
      exact takesFor_init i
    · obtain ⟨x, h1, h2, -, h4, h5⟩ := h.view hg
      obtain ⟨-, h6, h7⟩ := h.maps x (h.fed i x h1) h2
      refine (takesFor_good h5 hr hp.1 hp.2 (by rw [h4]; exact h6) i).2 ?_
      rw [h4]
      intro hL
      rcases h7 i hL with h | h
      · exact hd h
      · exact hi h

include hr hp in
theorem Reach.role_master (h : Reach C N p base s m) (hi : s.Informed m) (hd : s.dead m = false) :
    s.role C m = some ((slavesOf s.ix.nodes p).map (·.1)) := by
  obtain ⟨y, hy, hym⟩ := hi
  simp only [Realm.role, hd, Bool.false_eq_true, if_false]
  obtain ⟨x, h1, h2, h3, h4, h5⟩ := h.view (i := m) (List.ne_nil_of_mem hym)
  have hxy : x = y := versions_unique s.acts x (h.fed m x h1) y (List.mem_of_getLast? hy)
    (Nat.le_antisymm (versions_last s.acts hy x (h.fed m x h1)) (h3 y hym))
  subst hxy
  have hn : x.nodes = s.ix.nodes := (last_nodes h.orderly h.fresh hy).1
  have := (takesFor_good h5 hr hp.1 hp.2 (by rw [h4]; exact (h.maps x (h.fed m x h1) h2).2.1) m).1
    (by rw [h4, hn]; exact h.leads)
  rw [this, h4, hn]

include hr hp in
theorem Reach.others (h : Reach C N p base s m) {i : NodeKey} (hi : i ≠ m) : s.g.slaves i = none := by
  rw [h.roles i]; exact h.role_none hr hp hi

/-! ### Ordinary events -/

theorem gStep_opens (rep : Bool) (g : Group) (ev : GEv) (hid : ∀ e ∈ g.open_, e.1 < g.next) :
    ∀ e ∈ (gStep rep g ev).open_, e.1 < (gStep rep g ev).next ∧
      (e ∈ g.open_ ∨ (e.1 = g.next ∧ ∃ i env path r refused, ev = .write i env path r refused ∧ (g.slaves i).isSome ∧
        e.2.1 = r)) := by
  intro e he
  cases ev with
  | write i env path r refused =>
    simp only [gStep] at he ⊢
    cases hs : g.slaves i with
    | none =>
      simp only [hs] at he ⊢
      exact ⟨hid e he, .inl he⟩
    | some l =>
      simp only [hs] at he ⊢
      rcases List.mem_append.1 he with he | he
      · exact ⟨Nat.lt_succ_of_lt (hid e he), .inl he⟩
      · rw [List.mem_singleton.1 he]
        exact ⟨Nat.lt_succ_self _, .inr ⟨rfl, _, _, _, _, _, rfl, by rw [hs]; rfl, rfl⟩⟩
  | arrive f env =>
    simp only [gStep] at he ⊢
    split at he <;> exact ⟨hid e he, .inl he⟩
  | again f env =>
    simp only [gStep] at he ⊢
    split at he <;> exact ⟨hid e he, .inl he⟩
  | lose f => exact ⟨hid e he, .inl he⟩
  | answer a =>
    simp only [gStep] at he ⊢
    split at he
    · exact ⟨hid e he, .inl he⟩
    · rename_i id r o hn
      split at he
      · rename_i hc
        rw [if_pos hc]
        exact ⟨hid e he, .inl he⟩
      · rename_i hc
        rw [if_neg hc]
        have := List.mem_of_mem_eraseIdx he
        exact ⟨hid e this, .inl this⟩
  | read i env e' => exact ⟨hid e he, .inl he⟩
  | role i l => exact ⟨hid e he, .inl he⟩
  | dump i j env k => exact ⟨hid e he, .inl he⟩
  | put d env =>
    simp only [gStep] at he ⊢
    split at he <;> exact ⟨hid e he, .inl he⟩
  | drop d => exact ⟨hid e he, .inl he⟩

theorem gStep_next_le (rep : Bool) (g : Group) (ev : GEv) : g.next ≤ (gStep rep g ev).next := by
  cases ev with
  | write i env path r refused => simp only [gStep]; split <;> simp
  | arrive f env => simp only [gStep]; split <;> simp [Group.setStore]
  | again f env => simp only [gStep]; split <;> simp [Group.setStore]
  | lose f => exact Nat.le_refl _
  | answer a =>
    simp only [gStep]
    split
    · exact Nat.le_refl _
    · split <;> exact Nat.le_refl _
  | read i env e => exact Nat.le_refl _
  | role i l => exact Nat.le_refl _
  | dump i j env k => exact Nat.le_refl _
  | put d env => simp only [gStep]; split <;> simp [Group.setStore]
  | drop d => exact Nat.le_refl _

include hr hp in
/-- A node gets a map, or something happens among the nodes. -/
theorem Reach.step (h : Reach C N p base s m) {ev : REv} (ho : ev.ordinary = true)
    (hd : ∀ i n, ev = .deliver i n → s.got i = [] → n + 1 = (sent .init s.acts).length) :
    Reach C N p base (rStep C s ev) m ∧ (rStep C s ev).acts = s.acts ∧ (rStep C s ev).dead = s.dead ∧
      (∀ i, s.Informed i → (rStep C s ev).Informed i) ∧ s.g.next ≤ (rStep C s ev).g.next ∧
      (∀ e ∈ (rStep C s ev).g.open_, (e ∈ s.g.open_ ∧ (rStep C s ev).who e.1 = s.who e.1) ∨ (e.1 = s.g.next ∧
        ∃ i env path refused, ev = .data (.write i env path e.2.1 refused) ∧ (s.g.slaves i).isSome)) := by
  have hroles := roles_step C s ev h.roles
  have hfed := fed_step C s ev h.fed
  cases ev with
  | act a => cases ho
  | crash i => cases ho
  | deliver i n =>
    have ha : (rStep C s (.deliver i n)).acts = s.acts := by
      simp only [rStep]; split <;> rfl
    have hdd : (rStep C s (.deliver i n)).dead = s.dead := by
      simp only [rStep]; split <;> rfl
    have hwh : (rStep C s (.deliver i n)).who = s.who := by
      simp only [rStep]; split <;> rfl
    have hgg : (rStep C s (.deliver i n)).g.open_ = s.g.open_ ∧ (rStep C s (.deliver i n)).g.next = s.g.next := by
      rw [rStep_g]
      simp only [REv.group]
      split
      · exact ⟨rfl, rfl⟩
      · split <;> exact ⟨rfl, rfl⟩
    have hsub : ∀ j, ∀ x ∈ s.got j, x ∈ (rStep C s (.deliver i n)).got j := by
      intro j x hx
      simp only [rStep]
      split
      · exact hx
      · show x ∈ if j = i then _ else _
        split
        · exact List.mem_append_left _ hx
        · exact hx
    refine ⟨⟨by rw [ha]; exact h.orderly, by rw [ha]; exact h.fresh, hroles, hfed, ?_, ?_, by rw [ha]; exact h.last, ?_, ?_, ?_, ?_⟩,
      ha, hdd, ?_⟩
    · simp only [Realm.ix, ha]; exact h.leads
    · simp only [Realm.ix, ha]; exact h.good
    · rw [ha, hdd]; exact h.maps
    · intro j
      rcases h.heard j with hj | ⟨x, hx, hb⟩
      · cases hn : (sent .init s.acts)[n]? with
        | none =>
          left
          simp only [rStep, hn]
          exact hj
        | some x =>
          by_cases hji : j = i
          · subst hji
            right
            refine ⟨x, ?_, ?_⟩
            · simp only [rStep, hn, if_true]
              exact List.mem_append_right _ (List.mem_singleton.2 rfl)
            · obtain ⟨y, hy, hb⟩ := h.last
              have hlen := hd j n rfl hj
              rw [List.getLast?_eq_getElem?, ← hlen, Nat.add_sub_cancel, hn] at hy
              cases hy
              exact hb
          · left
            simp only [rStep, hn, hji, if_false]
            exact hj
      · exact .inr ⟨x, hsub j x hx, hb⟩
    · rw [hdd]
      simp only [Realm.ix, ha]
      exact h.gone
    · rw [hgg.1, hgg.2, hdd, hwh]
      exact h.opens
    · refine ⟨?_, by rw [hgg.2], fun e he => .inl ⟨by rw [hgg.1] at he; exact he, by rw [hwh]⟩⟩
      rintro j ⟨x, hx, hxj⟩
      exact ⟨x, by rw [ha]; exact hx, hsub j x hxj⟩
  | data ev =>
    have ha : (rStep C s (.data ev)).acts = s.acts := by cases ev <;> rfl
    have hdd : (rStep C s (.data ev)).dead = s.dead := by cases ev <;> rfl
    have hgot : (rStep C s (.data ev)).got = s.got := by cases ev <;> rfl
    have hid : ∀ e ∈ s.g.open_, e.1 < s.g.next := fun e he => (h.opens e he).1
    have hold : ∀ e ∈ s.g.open_, (rStep C s (.data ev)).who e.1 = s.who e.1 := by
      intro e' he'
      have hne := Nat.ne_of_lt (hid e' he')
      cases ev with
      | write i env path r refused =>
        show (if e'.1 = s.g.next then i else s.who e'.1) = _
        rw [if_neg hne]
      | _ => rfl
    refine ⟨⟨by rw [ha]; exact h.orderly, by rw [ha]; exact h.fresh, hroles, hfed, ?_, ?_, by rw [ha]; exact h.last, ?_, ?_, ?_, ?_⟩,
      ha, hdd, ?_, ?_, ?_⟩
    · simp only [Realm.ix, ha]; exact h.leads
    · simp only [Realm.ix, ha]; exact h.good
    · rw [ha, hdd]; exact h.maps
    · rw [hgot]; exact h.heard
    · rw [hdd]
      simp only [Realm.ix, ha]
      exact h.gone
    · intro e he
      rw [hdd]
      rw [rStep_g] at he ⊢
      simp only [REv.group] at he ⊢
      by_cases hpo : ev.possible C s = true
      · rw [if_pos hpo] at he ⊢
        simp only [gRun, List.foldl_cons, List.foldl_nil] at he ⊢
        obtain ⟨h1, h2⟩ := gStep_opens _ _ _ hid e he
        refine ⟨h1, ?_⟩
        rcases h2 with h2 | ⟨h2, i, env, path, r, refused, rfl, h3, -⟩
        · rw [hold e h2]; exact (h.opens e h2).2
        · have : (rStep C s (.data (.write i env path r refused))).who e.1 = i := by
            show (if e.1 = s.g.next then i else s.who e.1) = _
            rw [if_pos h2]
          rw [this]
          right
          refine Classical.byContradiction fun hne => ?_
          rw [h.others hr hp hne] at h3
          cases h3
      · rw [if_neg hpo] at he ⊢
        simp only [gRun, List.foldl_nil] at he ⊢
        rw [hold e he]
        exact h.opens e he
    · rintro j ⟨x, hx, hxj⟩
      exact ⟨x, by rw [ha]; exact hx, by rw [hgot]; exact hxj⟩
    · rw [rStep_g]
      simp only [REv.group]
      split
      · exact gStep_next_le _ _ _
      · exact Nat.le_refl _
    · intro e he
      rw [rStep_g] at he
      simp only [REv.group] at he
      split at he
      · simp only [gRun, List.foldl_cons, List.foldl_nil] at he
        rcases (gStep_opens _ _ _ hid e he).2 with h2 | ⟨h2, i, env, path, r, refused, rfl, h3, rfl⟩
        · exact .inl ⟨h2, hold e h2⟩
        · exact .inr ⟨h2, _, _, _, _, rfl, h3⟩
      · exact .inl ⟨he, hold e he⟩

theorem idleFor_cons_opt {rep : Bool} {k : Bytes} {g : Group} {l l' : List GEv} (h : IdleFor rep k g l)
    (h' : IdleFor rep k (gRun rep g l) l') : IdleFor rep k g (l ++ l') := by
  induction l generalizing g with
  | nil => exact h'
  | cons ev l ih => exact ⟨h.1, ih h.2 h'⟩

theorem steadyIn_append {rep : Bool} {k : Bytes} {n : Nat} {e : Era} {g : Group} {l l' : List GEv}
    (h : SteadyIn rep k n e g l) (h' : SteadyIn rep k n e (gRun rep g l) l') : SteadyIn rep k n e g (l ++ l') := by
  induction l generalizing g with
  | nil => exact h'
  | cons ev l ih => exact ⟨h.1, ih h.2 h'⟩

/-- Clients with an open write of the key have lost their master. -/
def Orphaned (C : RealmCfg) (s : Realm) : Prop := ∀ e ∈ s.g.open_, e.2.1.entry.key = C.key → s.dead (s.who e.1) = true

include hr hp in
/-- Nothing happens to the key while there is no master. -/
theorem Reach.hushed : ∀ (evs : List REv) {s : Realm}, Reach C N p base s m → Orphaned C s → Hushed C s evs →
    IdleFor C.rep C.key s.g (rTrace C s evs) ∧ Reach C N p base (rRun C s evs) m ∧ Orphaned C (rRun C s evs) ∧
      (rRun C s evs).acts = s.acts ∧ (rRun C s evs).dead = s.dead
  | [], _, h, ho, _ => ⟨trivial, h, ho, rfl, rfl⟩
  | ev :: evs, s, h, ho, hh => by
    obtain ⟨h1, h2, h3⟩ := hh
    obtain ⟨g1, g2, g3, -, -, g6⟩ := h.step hr hp h1 (by rintro i n rfl; exact h2)
    have ho' : Orphaned C (rStep C s ev) := by
      intro e he hk
      rw [g3]
      rcases g6 e he with ⟨x, y⟩ | ⟨-, i, env, path, refused, rfl, hs⟩
      · rw [y]; exact ho e x hk
      · rw [h2 hk] at hs; cases hs
    obtain ⟨i1, i2, i3, i4, i5⟩ := Reach.hushed evs g1 ho' h3
    refine ⟨?_, i2, i3, i4.trans g2, i5.trans g3⟩
    refine idleFor_cons_opt ?_ i1
    cases ev with
    | act a => exact trivial
    | crash i => simp only [REv.group]; split <;> simp [IdleFor, GEv.idleFor]
    | deliver i n =>
      simp only [REv.group]
      split
      · exact trivial
      · split <;> simp [IdleFor, GEv.idleFor]
    | data ev =>
      simp only [REv.group]
      split
      · rename_i hpo
        refine ⟨?_, trivial⟩
        cases ev with
        | write i env path r refused =>
          intro hk
          simp only [GEv.possible, Bool.and_eq_true] at hpo
          rw [h2 hk] at hpo
          cases hpo.1
        | answer a =>
          intro q hq hk
          simp only [GEv.possible, hq, Option.all_some, Bool.not_eq_true'] at hpo
          rw [ho q (List.mem_of_getElem? hq) hk] at hpo
          cases hpo
        | dump i j env k' => exact h2
        | _ => exact trivial
      · exact trivial

include hr hp in
/-- A master in charge. -/
theorem Reach.undisturbed {since : Nat} {e : Era} (hm : e.master = m) : ∀ (evs : List REv) {s : Realm}, Reach C N p base s m →
    s.dead m = false → s.Informed m → since ≤ s.g.next →
    (∀ q ∈ s.g.open_, q.2.1.entry.key = C.key → s.dead (s.who q.1) = true ∨ since ≤ q.1) → Undisturbed C m s evs →
    SteadyIn C.rep C.key since e s.g (rTrace C s evs) ∧ Reach C N p base (rRun C s evs) m ∧
      (rRun C s evs).acts = s.acts ∧ (rRun C s evs).dead = s.dead
  | [], _, h, _, _, _, _, _ => ⟨trivial, h, rfl, rfl⟩
  | ev :: evs, s, h, hd, hi, hn, ho, hh => by
    obtain ⟨h1, h2, h3⟩ := hh
    obtain ⟨g1, g2, g3, g4, g5, g6⟩ := h.step hr hp h1 (by rintro i n rfl; exact h2)
    have ho' : ∀ q ∈ (rStep C s ev).g.open_, q.2.1.entry.key = C.key →
        (rStep C s ev).dead ((rStep C s ev).who q.1) = true ∨ since ≤ q.1 := by
      intro q hq hk
      rw [g3]
      rcases g6 q hq with ⟨x, y⟩ | ⟨x, -⟩
      · rw [y]; exact ho q x hk
      · right; rw [x]; exact hn
    obtain ⟨i1, i2, i3, i4⟩ := Reach.undisturbed hm evs g1 (by rw [g3]; exact hd) (g4 m hi) (Nat.le_trans hn g5) ho' h3
    refine ⟨?_, i2, i3.trans g2, i4.trans g3⟩
    refine steadyIn_append ?_ i1
    cases ev with
    | act a => cases h1
    | crash i => cases h1
    | deliver i n =>
      simp only [REv.group]
      cases hx : (sent .init s.acts)[n]? with
      | none => exact trivial
      | some x =>
        dsimp only
        rw [if_pos]
        · exact trivial
        · have hcong : Realm.role C { s with got := fun j => if j = i then s.got j ++ [x] else s.got j } i =
              (rStep C s (.deliver i n)).role C i := by
            refine role_congr ?_ ?_
            · rw [g3]
            · simp only [rStep, hx]
          rw [hcong, h.roles i]
          by_cases him : i = m
          · subst him
            rw [g1.role_master hr hp (g4 i hi) (by rw [g3]; exact hd), h.role_master hr hp hi hd]
            simp only [Realm.ix, g2]
          · rw [g1.role_none hr hp him, h.role_none hr hp him]
    | data ev =>
      simp only [REv.group]
      split
      · rename_i hpo
        refine ⟨?_, trivial⟩
        cases ev with
        | write i env path r refused => exact h2
        | lose f => exact fun x hx _ => h2 x hx
        | role i l => cases hpo
        | answer a =>
          intro q hq hk
          simp only [GEv.possible, hq, Option.all_some, Bool.not_eq_true'] at hpo
          rcases ho q (List.mem_of_getElem? hq) hk with h | h
          · rw [h] at hpo; cases hpo
          · exact h
        | dump i j env k' => exact fun hk => .inl ((h2 hk).trans hm.symm)
        | _ => exact trivial
      · exact trivial

/-- The master stops. -/
theorem Reach.crash (h : Reach C N p base s m) : Reach C N p base (rStep C s (.crash m)) m ∧
    Orphaned C (rStep C s (.crash m)) ∧ (rStep C s (.crash m)).dead m = true := by
  have hroles := roles_step C s (.crash m) h.roles
  have hfed := fed_step C s (.crash m) h.fed
  have hdead : ∀ i, s.dead i = true → (rStep C s (.crash m)).dead i = true := by
    intro i hi
    show (if i = m then true else s.dead i) = true
    split
    · rfl
    · exact hi
  have hm : (rStep C s (.crash m)).dead m = true := if_pos rfl
  have hgg : (rStep C s (.crash m)).g.open_ = s.g.open_ ∧ (rStep C s (.crash m)).g.next = s.g.next := by
    rw [rStep_g]
    simp only [REv.group]
    split <;> exact ⟨rfl, rfl⟩
  have hop : ∀ e ∈ s.g.open_, (rStep C s (.crash m)).dead (s.who e.1) = true := by
    intro e he
    rcases (h.opens e he).2 with x | x
    · exact hdead _ x
    · rw [x]; exact hm
  refine ⟨⟨h.orderly, h.fresh, hroles, hfed, h.leads, h.good, h.last, ?_, h.heard, ?_, ?_⟩, ?_, hm⟩
  · intro x hx hb
    obtain ⟨a, b, c⟩ := h.maps x hx hb
    exact ⟨a, b, fun i hi => (c i hi).imp_left (hdead i)⟩
  · intro i hi
    by_cases him : i = m
    · exact .inl him
    · have : s.dead i = true := by
        have hi' : (if i = m then true else s.dead i) = true := hi
        rwa [if_neg him] at hi'
      exact h.gone i this
  · intro e he
    rw [hgg.1] at he
    rw [hgg.2]
    exact ⟨(h.opens e he).1, .inl (hop e he)⟩
  · intro e he _
    rw [hgg.1] at he
    exact hop e he

theorem freshAfter_concat (env : IEnv) (c : ICmd) : ∀ (as : List IAct) (b : Bool),
    freshAfter b (as ++ [.cmd env c]) = env.storeOk
  | [], _ => rfl
  | _ :: as, _ => freshAfter_concat env c as _

theorem ixRun_concat (as : List IAct) (env : IEnv) (c : ICmd) :
    ixRun .init (as ++ [.cmd env c]) = (ixStep env (ixRun .init as) c).1 := List.foldl_append

/-- The index server takes the master down, and another one is named. -/
theorem Reach.down (h : Reach C N p base s m) (hd : s.dead m = true) {f : NodeKey}
    (hL : Leads (rStep C s (.act (.cmd {} (.down m)))).ix.nodes p f) :
    Reach C N p base (rStep C s (.act (.cmd {} (.down m)))) f ∧ s.dead f = false ∧
      (∀ j, Follows (rStep C s (.act (.cmd {} (.down m)))).ix.nodes p j → Follows s.ix.nodes p j) ∧ Follows s.ix.nodes p f := by
  have hroles := roles_step C s (.act (.cmd {} (.down m))) h.roles
  have hfed := fed_step C s (.act (.cmd {} (.down m))) h.fed
  obtain ⟨s', hs'⟩ : ∃ s', s' = rStep C s (.act (.cmd {} (.down m))) := ⟨_, rfl⟩
  rw [← hs'] at hL hroles hfed ⊢
  have hacts : s'.acts = s.acts ++ [.cmd {} (.down m)] := by rw [hs']; rfl
  have hgot : s'.got = s.got := by rw [hs']; rfl
  have hdead : s'.dead = s.dead := by rw [hs']; rfl
  have hwho : s'.who = s.who := by rw [hs']; rfl
  have hg : s'.g = s.g := by rw [hs']; rfl
  have hix : s'.ix = (ixStep {} s.ix (.down m)).1 := by
    simp only [Realm.ix, hacts]; exact ixRun_concat _ _ _
  obtain ⟨n, hn, hrn, hsn, hpn⟩ := h.leads
  have ho' : Orderly true .init s'.acts := by
    rw [hacts, orderly_append]
    refine ⟨h.orderly, ?_⟩
    rw [h.fresh]
    exact ⟨rfl, trivial, trivial⟩
  have hf' : freshAfter true s'.acts = true := by rw [hacts, freshAfter_concat]
  obtain ⟨x0, hx0, hb0⟩ := h.last
  have hx0n := last_nodes h.orderly h.fresh hx0
  have hstill : ∀ k, ¬ Prepares s.ix.nodes k := by
    have := (h.maps x0 (List.mem_of_getLast? hx0) hb0).2.1
    rw [hx0n.1] at this
    exact this
  have hC22 := (C22_failover_partial s.acts h.orderly h.fresh m n hn hrn hsn).2
  change _ ∨ _ at hC22
  obtain ⟨N', hi'⟩ := run_inv s'.acts true 0 .init init_inv ho'
  rw [hf'] at hi'
  have hi'2 : IxInv true N' s'.ix := hi'
  have hsort : Sorted s'.ix.nodes := hi'2.map.sorted
  rw [hpn] at hC22
  rw [show ixStep {} (ixRun .init s.acts) (.down m) = ixStep {} s.ix (.down m) from rfl, ← hix] at hC22
  rw [show (ixRun .init s.acts).nodes = s.ix.nodes from rfl] at hC22
  obtain ⟨fn, hL1, hL2, hL3, hL4⟩ := id hL
  have hmem := (activeMasters_mem hsort).2 ⟨hL1, hL2, hL3, hL4⟩
  rcases hC22 with ⟨f0, fm, b, ⟨a1, a2, a3, a4⟩, -, -, q1, q2, q3, q4⟩ | ⟨-, -, -, q⟩
  · have hff : f = f0 := by
      have : f ∈ (activeMasters s'.ix.nodes p).map (·.1) := List.mem_map_of_mem (f := (·.1)) hmem
      rw [q4] at this
      exact List.mem_singleton.1 this
    subst hff
    have hfm : f ≠ m := by
      rintro rfl
      rw [show mfind s.ix.nodes f = some n from hn] at a1
      cases a1
      rw [hrn] at a2; cases a2
    have huniq : ∀ i, Leads s'.ix.nodes p i → i = f := by
      rintro i ⟨ni, l1, l2, l3, l4⟩
      have : i ∈ (activeMasters s'.ix.nodes p).map (·.1) :=
        List.mem_map_of_mem (f := (·.1)) ((activeMasters_mem hsort).2 ⟨l1, l2, l3, l4⟩)
      rw [q4] at this
      exact List.mem_singleton.1 this
    have hnew : ∀ k, ¬ Prepares s'.ix.nodes k := by
      rintro k ⟨nk, l1, l2, l3⟩
      by_cases hkf : k = f
      · subst hkf
        rw [q1] at l1
        cases l1
        rw [show (({ fm with role := .master, balance := b } : Node).state) = fm.state from rfl, a3] at l3
        rcases l3 with h | h <;> cases h
      · by_cases hkm : k = m
        · subst hkm
          rw [q2] at l1
          cases l1
          cases l2
        · rw [q3 k hkf hkm] at l1
          exact hstill k ⟨nk, l1, l2, l3⟩
    have hN : N' = N := by
      have hgo := h.good
      have hgn := hi'2.map.good
      rcases Nat.lt_trichotomy N' N with hlt | he | hlt
      · obtain ⟨k, nk, l1, l2, l3, l4⟩ := hgo.all N' (by omega) (by omega)
        have hpN : ((p : Int)) < N' := by
          have := (hgn.master f _ q1 rfl).2.2.1 (.inl a3)
          rw [show (({ fm with role := .master, balance := b } : Node).partition) = fm.partition from rfl, a4] at this
          exact this
        by_cases hkf : k = f
        · subst hkf; rw [a1] at l1; cases l1; rw [a2] at l2; cases l2
        · by_cases hkm : k = m
          · subst hkm; rw [show mfind s.ix.nodes k = some n from hn] at l1; cases l1; omega
          · rw [← q3 k hkf hkm] at l1
            have := (hgn.master k nk l1 l2).2.2.1 l4
            omega
      · exact he
      · obtain ⟨k, nk, l1, l2, l3, l4⟩ := hgn.all N (by omega) (by omega)
        have hpN : ((p : Int)) < N := by
          have := (hgo.master m n hn hrn).2.2.1 (.inl hsn)
          rw [hpn] at this
          exact this
        by_cases hkf : k = f
        · subst hkf
          rw [q1] at l1
          cases l1
          have : fm.partition = N := l3
          omega
        · by_cases hkm : k = m
          · subst hkm; rw [q2] at l1; cases l1; cases l2
          · rw [q3 k hkf hkm] at l1
            have := (hgo.master k nk l1 l2).2.2.1 l4
            omega
    subst hN
    have hfollow : Follows s.ix.nodes p f := ⟨fm, a1, a2, by rw [a3]; decide, a4⟩
    have halive : s.dead f = false := by
      cases hdf : s.dead f with
      | false => rfl
      | true =>
        rcases h.gone f hdf with h' | h'
        · exact absurd h' hfm
        · have := h' fm a1
          rw [a2] at this; cases this
    have hsaved : (ixStep {} s.ix (.down m)).1.saved ≠ s.ix.saved := by
      obtain ⟨M, hi⟩ := run_inv s.acts true 0 .init init_inv h.orderly
      rw [h.fresh] at hi
      obtain ⟨tt, ht⟩ := (C24_messages s.acts).2 x0 hx0
      intro he
      rw [← hix] at he
      rw [show s.ix.saved = some (x0.version, x0.nodes, tt) from ht] at he
      have e1 := ((hi'2.saved _ _ _ he).2 rfl).2.1
      rw [hx0n.1] at e1
      have : mfind s'.ix.nodes m = some n := by
        rw [← e1]; exact hn
      rw [q2] at this
      rw [← Option.some.inj this] at hrn
      cases hrn
    have hsent : sent .init s'.acts = sent .init s.acts ++ [⟨s'.ix.nodes, s'.ix.version⟩] := by
      rw [hacts, sent_append]
      have hsaved' : (ixStep {} (ixRun .init s.acts) (.down m)).1.saved ≠ (ixRun .init s.acts).saved := hsaved
      simp only [sent]
      rw [if_neg hsaved', List.append_nil, hix]
      rfl
    have hver : base ≤ s'.ix.version := by
      have := (C24_messages s'.acts).1
      rw [hsent, List.pairwise_append] at this
      have := this.2.2 x0 (List.mem_of_getLast? hx0) _ (List.mem_singleton.2 rfl)
      exact Nat.le_of_lt (Nat.lt_of_le_of_lt hb0 this)
    refine ⟨⟨ho', hf', hroles, hfed, hL, hi'2.map.good, ⟨_, by rw [hsent, List.getLast?_concat], hver⟩, ?_, ?_, ?_, ?_⟩,
      halive, ?_, hfollow⟩
    · intro x hx hb
      rw [hsent] at hx
      rcases List.mem_append.1 hx with hx | hx
      · obtain ⟨u, v, w⟩ := h.maps x hx hb
        refine ⟨u, v, fun i hi => .inl ?_⟩
        rw [hdead]
        rcases w i hi with w | w
        · exact w
        · rw [w]; exact hd
      · rw [List.mem_singleton.1 hx]
        exact ⟨hi'2.map.good, hnew, fun i hi => .inr (huniq i hi)⟩
    · rw [hgot]; exact h.heard
    · intro i hi
      rw [hdead] at hi
      right
      intro ni hni
      by_cases hif : i = f
      · subst hif; rw [halive] at hi; cases hi
      · by_cases him : i = m
        · subst him; rw [q2] at hni; cases hni; rfl
        · rw [q3 i hif him] at hni
          exact ((h.gone i hi).resolve_left him) ni hni
    · intro e he
      rw [hg] at he ⊢
      rw [hdead, hwho]
      refine ⟨(h.opens e he).1, .inl ?_⟩
      rcases (h.opens e he).2 with x | x
      · exact x
      · rw [x]; exact hd
    · rintro j ⟨nj, l1, l2, l3, l4⟩
      by_cases hjf : j = f
      · subst hjf; rw [q1] at l1; cases l1; cases l2
      · by_cases hjm : j = m
        · subst hjm; rw [q2] at l1; cases l1; cases l2
        · rw [q3 j hjf hjm] at l1
          exact ⟨nj, l1, l2, l3, l4⟩
  · rw [q] at hmem
    cases hmem

/-- The time in which `m` is in charge, as the nodes of the partition see it. -/
def reignOf (C : RealmCfg) (p : Nat) (m : NodeKey) (gap : List GEv) (s : Realm) (evs : List REv) : Era :=
  { gap := gap, master := m, slaves := (slavesOf s.ix.nodes p).map (·.1), evs := rTrace C s evs }

/-- One such time for each change of masters. -/
def erasOf (C : RealmCfg) (p : Nat) : NodeKey → Realm → List Term → List Era
  | _, _, [] => []
  | m, s, t :: ts =>
    reignOf C p t.master (rTrace C s (t.fall m)) (rRun C s (t.fall m)) t.evs ::
      erasOf C p t.master (rRun C (rRun C s (t.fall m)) t.evs) ts

theorem erasOf_events (C : RealmCfg) (p : Nat) : ∀ (ts : List Term) (m : NodeKey) (s : Realm),
    (erasOf C p m s ts).flatMap Era.events = rTrace C s (termEvents m ts)
  | [], _, _ => rfl
  | t :: ts, m, s => by
    rw [erasOf, List.flatMap_cons, erasOf_events C p ts, termEvents, rTrace_append, rTrace_append, rRun_append]
    rfl

theorem Reach.sorted (h : Reach C N p base s m) : Sorted s.ix.nodes := by
  obtain ⟨M, hi⟩ := run_inv s.acts true 0 .init init_inv h.orderly
  exact hi.map.sorted

include hr hp in
theorem Reach.takesOver (h : Reach C N p base s m) (hd : s.dead m = false) {W : Nat → Prop} (hW : W m)
    (hW' : ∀ j, Follows s.ix.nodes p j → W j) (hi : Inherits C p s m) (gap : List GEv) (evs : List REv) :
    TakesOver C.key W s.g (reignOf C p m gap s evs) := by
  have hmem : ∀ j, j ∈ (slavesOf s.ix.nodes p).map (·.1) ↔ Follows s.ix.nodes p j := mem_slaveKeys h.sorted p
  refine ⟨⟨hW, fun h => (nomatch h)⟩, fun j hj _ => hW' j ((hmem j).1 hj), ?_, fun i hi => h.others hr hp hi,
    fun j hj _ => hi.newest j ((hmem j).1 hj), ?_, ?_, fun _ h => (nomatch h), fun _ _ _ h => (nomatch h),
    fun _ _ _ h => (nomatch h)⟩
  · rw [h.roles]; exact h.role_master hr hp hi.informed hd
  · intro x hx hk hx'
    exact hi.flying x hx hk (hx'.imp_right fun h => (hmem _).1 h.1)
  · intro x hx hk hx'
    exact hi.dumps x hx hk (hx'.imp_right fun h => (hmem _).1 h.1)

theorem hush_crash : IdleFor C.rep C.key s.g (rTrace C s [.crash m]) := by
  simp only [rTrace, REv.group]
  split <;> simp [IdleFor, GEv.idleFor]

include hr hp in
/-- A change of masters. -/
theorem Reach.term (h : Reach C N p base s m) (t : Term) (h1 : Hushed C (rRun C s [.crash m]) t.pre)
    (h2 : Hushed C (rRun C (rRun C s [.crash m]) (t.pre ++ [.act (.cmd {} (.down m))])) t.post)
    (h3 : Inherits C p (rRun C s (t.fall m)) t.master) :
    IdleFor C.rep C.key s.g (rTrace C s (t.fall m)) ∧ Reach C N p base (rRun C s (t.fall m)) t.master ∧
      Orphaned C (rRun C s (t.fall m)) ∧ (rRun C s (t.fall m)).dead t.master = false ∧
      (∀ j, j = t.master ∨ Follows (rRun C s (t.fall m)).ix.nodes p j → Follows s.ix.nodes p j) := by
  obtain ⟨c1, c2, c3⟩ := h.crash
  obtain ⟨i1, i2, i3, i4, i5⟩ := c1.hushed hr hp t.pre c2 h1
  obtain ⟨s2, hs2⟩ : ∃ s2, s2 = rRun C (rStep C s (.crash m)) t.pre := ⟨_, rfl⟩
  rw [← hs2] at i2 i3 i4 i5
  have e2 : rRun C (rRun C s [.crash m]) (t.pre ++ [.act (.cmd {} (.down m))]) = rStep C s2 (.act (.cmd {} (.down m))) := by
    rw [rRun_append, hs2]; rfl
  rw [e2] at h2
  have e3 : rRun C s (t.fall m) = rRun C (rStep C s2 (.act (.cmd {} (.down m)))) t.post := by
    rw [Term.fall, rRun_cons, rRun_append, ← hs2]; rfl
  have hor : Orphaned C (rStep C s2 (.act (.cmd {} (.down m)))) := i3
  have hd2 : s2.dead m = true := by rw [i5]; exact c3
  -- the node the index server names is the one that takes over
  have hacts : (rRun C s (t.fall m)).acts = (rStep C s2 (.act (.cmd {} (.down m)))).acts := by
    rw [e3]
    have : ∀ (evs : List REv) (s : Realm), Hushed C s evs → (rRun C s evs).acts = s.acts := by
      intro evs
      induction evs with
      | nil => intro s _; rfl
      | cons ev evs ih =>
        intro s hh
        rw [rRun_cons, ih _ hh.2.2]
        have := hh.1
        cases ev with
        | act a => cases this
        | crash i => cases this
        | deliver i n => simp only [rStep]; split <;> rfl
        | data ev => cases ev <;> rfl
    exact this t.post _ h2
  have hix : (rRun C s (t.fall m)).ix = (rStep C s2 (.act (.cmd {} (.down m)))).ix := by
    simp only [Realm.ix, hacts]
  have hL := h3.leads
  rw [hix] at hL
  obtain ⟨d1, d2, d3, d4⟩ := i2.down hd2 hL
  obtain ⟨j1, j2, j3, j4, j5⟩ := d1.hushed hr hp t.post hor h2
  have hix2 : s2.ix = s.ix := by
    simp only [Realm.ix, i4]; rfl
  refine ⟨?_, by rw [e3]; exact j2, by rw [e3]; exact j3, ?_, ?_⟩
  · show IdleFor C.rep C.key s.g (rTrace C s ([.crash m] ++ (t.pre ++ ([.act (.cmd {} (.down m))] ++ t.post))))
    rw [rTrace_append]
    refine idleFor_cons_opt (hush_crash) ?_
    rw [← rRun_g, rTrace_append]
    refine idleFor_cons_opt i1 ?_
    rw [show rRun C s [.crash m] = rStep C s (.crash m) from rfl, ← rRun_g, ← hs2, rTrace_append]
    exact j1
  · rw [e3, j5]; exact d2
  · intro j hj
    rw [hix] at hj
    rw [← hix2]
    rcases hj with rfl | hj
    · exact d4
    · exact d3 j hj

include hr hp in
theorem Reach.lawful : ∀ (ts : List Term) {s : Realm} {m : NodeKey} {W : Nat → Prop}, Reach C N p base s m →
    (∀ j, j = m ∨ Follows s.ix.nodes p j → W j) → Lawful C p m s ts → Ruled C.rep C.key W s.g (erasOf C p m s ts)
  | [], _, _, _, _, _, _ => trivial
  | t :: ts, s, m, W, h, hW, hl => by
    obtain ⟨h1, h2, h3, h4, h5⟩ := hl
    obtain ⟨a1, a2, a3, a4, a5⟩ := h.term hr hp t h1 h2 h3
    obtain ⟨b1, b2, b3, b4⟩ := a2.undisturbed (since := (rRun C s (t.fall m)).g.next)
      (e := reignOf C p t.master (rTrace C s (t.fall m)) (rRun C s (t.fall m)) t.evs) hr hp rfl t.evs a4 h3.informed
      (Nat.le_refl _) (fun q hq hk => .inl (a3 q hq hk)) h4
    refine ⟨a1, ?_, ?_, ?_⟩
    · show TakesOver C.key W (gRun C.rep s.g (rTrace C s (t.fall m))) _
      rw [← rRun_g]
      exact a2.takesOver hr hp a4 (hW _ (.inr (a5 _ (.inl rfl)))) (fun j hj => hW _ (.inr (a5 j (.inr hj)))) h3 _ _
    · show SteadyIn C.rep C.key (gRun C.rep s.g (rTrace C s (t.fall m))).next _ (gRun C.rep s.g (rTrace C s (t.fall m))) _
      rw [← rRun_g]
      exact b1
    · have hg : gRun C.rep s.g (reignOf C p t.master (rTrace C s (t.fall m)) (rRun C s (t.fall m)) t.evs).events =
          (rRun C (rRun C s (t.fall m)) t.evs).g := by
        rw [rRun_g, rRun_g, Era.events, gRun_append]; rfl
      rw [hg]
      refine Reach.lawful ts b2 ?_ h5
      intro j hj
      rcases hj with hj | hj
      · exact .inl hj
      · refine .inr ⟨?_, .inl (fun h => (nomatch h))⟩
        rw [show (rRun C (rRun C s (t.fall m)) t.evs).ix = (rRun C s (t.fall m)).ix by simp only [Realm.ix, b3]] at hj
        exact (mem_slaveKeys a2.sorted p j).2 hj

include hr hp in
theorem Reach.lawful_end : ∀ (ts : List Term) {s : Realm} {m : NodeKey}, Reach C N p base s m → Lawful C p m s ts →
    Reach C N p base (rRun C s (termEvents m ts)) (lastMaster m ts)
  | [], _, _, h, _ => h
  | t :: ts, s, m, h, hl => by
    obtain ⟨h1, h2, h3, h4, h5⟩ := hl
    obtain ⟨a1, a2, a3, a4, a5⟩ := h.term hr hp t h1 h2 h3
    obtain ⟨b1, b2, b3, b4⟩ := a2.undisturbed (since := (rRun C s (t.fall m)).g.next)
      (e := reignOf C p t.master (rTrace C s (t.fall m)) (rRun C s (t.fall m)) t.evs) hr hp rfl t.evs a4 h3.informed
      (Nat.le_refl _) (fun q hq hk => .inl (a3 q hq hk)) h4
    rw [termEvents, rRun_append, rRun_append]
    exact Reach.lawful_end ts b2 h5

end

end Flare
