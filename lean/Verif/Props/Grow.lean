import Verif.Model.Grow
import Verif.Props.Rebuild
import Verif.Lemmas.Dump
import Verif.Props.KeyResolver

/-! C86: a new partition starts with the values of all keys that move to it. -/
namespace Flare

/-- The events that master `i` has executed. -/
def growAt (kr : Resolver) (hash : Bytes → Int32) (n i : Nat) (evs : List GrowEv) : List MEvent :=
  evs.filterMap fun
    | .at j ev => if j = i ∧ growTakes kr hash n i ev then some ev else none
    | .told _ => none

/-- What arrives at the new master has been sent by one of the masters. -/
def Arrival.fromSome (xs : List (Nat × Sent)) : Arrival → Prop
  | .copy c => ∃ i, (i, .copy c) ∈ xs
  | .dump e => ∃ i, (i, .dump e) ∈ xs
  | .read _ => True

/-- The time of an event. -/
def GrowEv.doneBy (t : Int64) : GrowEv → Prop
  | .at _ ev => ev.now ≤ t
  | .told _ => True

/-- Writes are clients' writes. -/
def GrowEv.clientWrite : GrowEv → Prop
  | .at _ ev => ev.clientWrite
  | .told _ => True

theorem growRun_stores (kr : Resolver) (hash : Bytes → Int32) (n i : Nat) (evs : List GrowEv) : ∀ g : GrowSys,
    (growRun kr hash n g evs).1.stores i = (masterRun (g.stores i) (growAt kr hash n i evs)).1 := by
  induction evs with
  | nil => intro g; rfl
  | cons ev evs ih =>
    intro g
    simp only [growRun]
    rw [ih]
    cases ev with
    | told j => rfl
    | «at» j ev =>
      simp only [GrowEv.apply]
      by_cases ht : growTakes kr hash n j ev = true
      · rw [if_pos ht]
        by_cases hj : j = i
        · subst hj
          simp [growAt, ht, masterRun]
        · simp [growAt, hj, Ne.symm hj]
      · rw [if_neg ht]
        by_cases hj : j = i
        · subst hj; simp [growAt, ht]
        · simp [growAt, hj]

theorem growRun_sent (kr : Resolver) (hash : Bytes → Int32) (n i : Nat) (evs : List GrowEv) : ∀ (g : GrowSys) (x : Sent),
    (i, x) ∈ (growRun kr hash n g evs).2 → x ∈ (masterRun (g.stores i) (growAt kr hash n i evs)).2 := by
  induction evs with
  | nil => intro g x h; cases h
  | cons ev evs ih =>
    intro g x h
    simp only [growRun, List.mem_append] at h
    cases ev with
    | told j =>
      rcases h with h | h
      · cases h
      · exact ih { g with told := fun l => if l = j then true else g.told l } x h
    | «at» j ev =>
      simp only [GrowEv.apply] at h
      by_cases ht : growTakes kr hash n j ev = true
      · rw [if_pos ht] at h
        by_cases hj : j = i
        · subst hj
          have hg : growAt kr hash n j (.at j ev :: evs) = ev :: growAt kr hash n j evs := by simp [growAt, ht]
          rw [hg]
          simp only [masterRun]
          rcases h with h | h
          · simp only [List.mem_map, List.mem_filter, Option.mem_toList] at h
            obtain ⟨y, ⟨hy, -⟩, e⟩ := h
            cases e
            rw [Option.mem_def.1 hy]
            exact List.mem_cons_self
          · have := ih _ x h
            simp only [if_true] at this
            cases (ev.apply (g.stores j)).2 with
            | none => exact this
            | some y => exact List.mem_cons_of_mem _ this
        · have hg : growAt kr hash n i (.at j ev :: evs) = growAt kr hash n i evs := by simp [growAt, hj]
          rw [hg]
          rcases h with h | h
          · simp only [List.mem_map] at h
            obtain ⟨y, -, e⟩ := h
            exact absurd (Prod.mk.inj e).1 hj
          · have := ih _ x h
            simpa only [if_neg (Ne.symm hj)] using this
      · rw [if_neg ht] at h
        have hg : growAt kr hash n i (.at j ev :: evs) = growAt kr hash n i evs := by
          by_cases hj : j = i
          · subst hj; simp [growAt, ht]
          · simp [growAt, hj]
        rw [hg]
        rcases h with h | h
        · cases h
        · exact ih _ x h

theorem growApply_ok {kr : Resolver} {hash : Bytes → Int32} {n : Nat} {g : GrowSys} {ev : GrowEv}
    (hg : ∀ i, (g.stores i).Ok ∧ AbsoluteStore (g.stores i)) (hc : ev.clientWrite) (i : Nat) :
    ((ev.apply kr hash n g).1.stores i).Ok ∧ AbsoluteStore ((ev.apply kr hash n g).1.stores i) := by
  cases ev with
  | told j => exact hg i
  | «at» j ev =>
    simp only [GrowEv.apply]
    split
    · simp only
      split
      · have := event_facts (hg j).1 (hg j).2 [] hc
        exact ⟨this.ok, this.absolute⟩
      · exact hg i
    · exact hg i

theorem growRun_copies (kr : Resolver) (hash : Bytes → Int32) (n p : Nat) (k : Bytes)
    (hp : resolve kr (hash k).toInt n = some p) (hq : resolve kr (hash k).toInt (n + 1) = some n)
    (evs : List GrowEv) : ∀ g : GrowSys, (∀ i, (g.stores i).Ok ∧ AbsoluteStore (g.stores i)) →
    (∀ ev ∈ evs, ev.clientWrite) → g.told p = true →
    sentCopies k ((growRun kr hash n g evs).2.map Prod.snd) =
      sentCopies k (masterRun (g.stores p) (growAt kr hash n p evs)).2 := by
  induction evs with
  | nil => intro g _ _ _; rfl
  | cons ev evs ih =>
    intro g hg hev ht
    have hok := growApply_ok (kr := kr) (hash := hash) (n := n) (g := g) hg (hev ev List.mem_cons_self)
    have hev' := fun e h => hev e (List.mem_cons_of_mem _ h)
    cases ev with
    | told j =>
      have := ih _ hok hev' (by simp only [GrowEv.apply]; split <;> first | rfl | exact ht)
      simp only [growRun, GrowEv.apply, List.nil_append] at this ⊢
      exact this
    | «at» j ev =>
      have ih := ih _ hok hev' (by simp only [GrowEv.apply]; split <;> exact ht)
      simp only [growRun, List.map_append]
      rw [show ∀ a b, sentCopies k (a ++ b) = sentCopies k a ++ sentCopies k b from
        fun a b => by simp only [sentCopies, List.filterMap_append], ih]
      by_cases htk : growTakes kr hash n j ev = true
      · have hcl : ev.clientWrite := hev _ List.mem_cons_self
        have key : ∀ c, (ev.apply (g.stores j)).2 = some (.copy c) → ∃ env path r, ev = .write env path r ∧
            c.entry.key = r.entry.key := by
          intro c hc
          cases ev with
          | write env path r =>
            refine ⟨env, path, r, rfl, ?_⟩
            simp only [MEvent.apply, Option.map_eq_some_iff] at hc
            obtain ⟨c', hc', e⟩ := hc
            cases e
            exact (master_copy (hg j).1 hcl.1.2.2.2 hc').1.key
          | read env e => cases hc
          | dump env k =>
            simp only [MEvent.apply] at hc
            split at hc <;> cases hc
        have one : sentCopies k (((ev.apply (g.stores j)).2.toList.filter (growSends kr hash n (g.told j))).map (j, ·)
            |>.map Prod.snd) = if j = p then sentCopies k (ev.apply (g.stores j)).2.toList else [] := by
          cases hx : (ev.apply (g.stores j)).2 with
          | none => simp [sentCopies]
          | some x =>
            cases x with
            | dump e => simp [sentCopies, growSends]
            | copy c =>
              obtain ⟨env, path, r, rfl, hkey⟩ := key c hx
              by_cases hck : c.entry.key = k
              · have hj : j = p := by
                  simp only [growTakes, beq_iff_eq] at htk
                  rw [← hkey, hck, hp] at htk
                  exact (Option.some.inj htk).symm
                subst hj
                simp [sentCopies, growSends, hck, ht, hq]
              · by_cases hs : growSends kr hash n (g.told j) (.copy c) = true
                · simp [sentCopies, hs, hck]
                · simp [sentCopies, hs, hck]
        simp only [GrowEv.apply, if_pos htk]
        rw [one]
        by_cases hj : j = p
        · subst hj
          have hga : growAt kr hash n j (.at j ev :: evs) = ev :: growAt kr hash n j evs := by simp [growAt, htk]
          rw [hga, if_pos rfl]
          simp only [masterRun, if_true]
          cases (ev.apply (g.stores j)).2 with
          | none => rfl
          | some x => exact (List.filterMap_append (l := [x])).symm
        · have hga : growAt kr hash n p (.at j ev :: evs) = growAt kr hash n p evs := by simp [growAt, hj]
          rw [hga, if_neg hj, if_neg (Ne.symm hj)]
          rfl
      · have hga : growAt kr hash n p (.at j ev :: evs) = growAt kr hash n p evs := by
          by_cases hj : j = p
          · subst hj; simp [growAt, htk]
          · simp [growAt, hj]
        simp only [GrowEv.apply, if_neg htk, hga]
        rfl

/-- Masters send no copies of keys that are not theirs. -/
theorem growAt_foreign {kr : Resolver} {hash : Bytes → Int32} {n i p : Nat} {k : Bytes}
    (hp : resolve kr (hash k).toInt n = some p) (hi : i ≠ p) (evs : List GrowEv) (hev : ∀ ev ∈ evs, ev.clientWrite) :
    ∀ m : Store, m.Ok → AbsoluteStore m → sentCopies k (masterRun m (growAt kr hash n i evs)).2 = [] := by
  have hall : ∀ ev ∈ growAt kr hash n i evs, ev.clientWrite ∧ ∀ env path r, ev = .write env path r → r.entry.key ≠ k := by
    intro ev h
    simp only [growAt, List.mem_filterMap] at h
    obtain ⟨x, hx, h⟩ := h
    cases x with
    | told j => cases h
    | «at» j ev' =>
      simp only at h
      split at h
      · rename_i hj
        cases h
        refine ⟨hev _ hx, ?_⟩
        rintro env path r rfl e
        have := hj.2
        simp only [growTakes, beq_iff_eq] at this
        rw [e, hp] at this
        exact hi (Option.some.inj this).symm
      · cases h
  generalize growAt kr hash n i evs = l at hall
  induction l with
  | nil => intro m _ _; rfl
  | cons ev l ih =>
    intro m hm ha
    have hf := event_facts hm ha k (hall ev List.mem_cons_self).1
    have h2 := ih (fun e h => hall e (List.mem_cons_of_mem _ h)) _ hf.ok hf.absolute
    simp only [masterRun]
    cases hx : (ev.apply m).2 with
    | none => exact h2
    | some x =>
      simp only
      cases x with
      | dump e => exact h2
      | copy c =>
        cases ev with
        | write env path r =>
          simp only [MEvent.apply, Option.map_eq_some_iff] at hx
          obtain ⟨c', hc', e⟩ := hx
          cases e
          have hne : c.entry.key ≠ k := by
            rw [(master_copy hm (hall _ List.mem_cons_self).1.1.2.2.2 hc').1.key]
            exact (hall _ List.mem_cons_self).2 env path r rfl
          rw [show sentCopies k (.copy c :: _) = _ from List.filterMap_cons_none (by simp [hne])]
          exact h2
        | read env e => cases hx
        | dump env k =>
          simp only [MEvent.apply] at hx
          split at hx <;> cases hx

/-- What can be said of a key that moves from partition `p` to the new one: the master of `p` knows of the new partition when
this begins; whatever the other masters and the new one still have of the key is older than what the master of `p` has; its
writes are not touches, get growing versions and all reach the new master in order; and its record does by a dump, if there
were no writes. -/
structure MovesWell (kr : Resolver) (hash : Bytes → Int32) (n p : Nat) (g : GrowSys) (evs : List GrowEv) (s : Store)
    (as : List (Env × Arrival)) (t : Int64) (k : Bytes) : Prop where
  told : g.told p = true
  nonzero : ∀ it, lookup (g.stores p) Int64.minValue k = some it → it.version ≠ 0
  older : ∀ i, i ≠ p → ∀ it, lookup (g.stores i) Int64.minValue k = some it → it.version ≠ 0 ∧
    it.version < recordVersion (g.stores p) k
  before : ∀ it, lookup s Int64.minValue k = some it → it.version ≠ 0 ∧ it.version < recordVersion (g.stores p) k
  gone : lookup s Int64.minValue k = none → Remembered s k → lastVersion s k < recordVersion (g.stores p) k
  fits : ∀ c ∈ sentCopies k ((growRun kr hash n g evs).2.map Prod.snd), c.cmd ≠ .touch ∧ (encodeWrite c).isSome
  grow : Growing (recordVersion (g.stores p) k) (sentCopies k ((growRun kr hash n g evs).2.map Prod.snd))
  copies : arrivedCopies k as = sentCopies k ((growRun kr hash n g evs).2.map Prod.snd)
  dump : sentCopies k ((growRun kr hash n g evs).2.map Prod.snd) = [] →
    (∃ e ∈ arrivedDumps k as, lookup (g.stores p) Int64.minValue k = some ⟨e.data, e.flag, e.expire, e.version⟩) ∨
    (¬ Remembered s k ∧ arrivedDumps k as = [] ∧ lookup ((growRun kr hash n g evs).1.stores p) t k = none)
  knows : StillKnows k s as

/-- **C86, one key.**  Whatever happens at all the masters meanwhile, and in whatever order dumps and copies arrive: when the
new master takes over, it answers for the key as the old one does. -/
theorem C86_moved_partial (kr : Resolver) (hash : Bytes → Int32) (n p : Nat) (g : GrowSys)
    (hg : ∀ i, (g.stores i).Ok ∧ AbsoluteStore (g.stores i)) (evs : List GrowEv) (hev : ∀ ev ∈ evs, ev.clientWrite)
    (s : Store) (hs : s.Ok) (hz : 0 < s.cacheSize) (as : List (Env × Arrival)) (t : Int64)
    (hfrom : ∀ x ∈ as, x.2.fromSome (growRun kr hash n g evs).2) (htm : ∀ ev ∈ evs, ev.doneBy t)
    (hts : ∀ x ∈ as, x.1.now ≤ t ∧ x.1.putOk = true ∧ x.1.outOk = true) (k : Bytes)
    (hp : resolve kr (hash k).toInt n = some p) (hq : resolve kr (hash k).toInt (n + 1) = some n)
    (h : MovesWell kr hash n p g evs s as t k) :
    lookup (replicaRun s as) t k = lookup ((growRun kr hash n g evs).1.stores p) t k := by
  have hcop := growRun_copies kr hash n p k hp hq evs g hg hev h.told
  have hst := growRun_stores kr hash n p evs g
  have hmev : ∀ i, ∀ ev ∈ growAt kr hash n i evs, ev.clientWrite ∧ ev.now ≤ t := by
    intro i ev hx
    simp only [growAt, List.mem_filterMap] at hx
    obtain ⟨x, hx, hy⟩ := hx
    cases x with
    | told j => cases hy
    | «at» j ev' =>
      simp only at hy
      split at hy
      · cases hy; exact ⟨hev _ hx, htm _ hx⟩
      · cases hy
  have hfits := h.fits; have hgrow := h.grow; have hcopies := h.copies; have hdump := h.dump
  rw [hcop] at hfits hgrow hcopies hdump
  rw [hst] at hdump ⊢
  refine C12_replica_rebuilt_partial (old := fun it => it.version ≠ 0 ∧ it.version < recordVersion (g.stores p) k)
    (hg p).1 (hg p).2 hs hz h.nonzero (fun it hi => ⟨hi.1, .inl hi.2⟩) h.before h.gone (fun ev hx => (hmev p ev hx).1)
    hfits hgrow ?_ hcopies (fun ev hx => (hmev p ev hx).2) hdump hts h.knows
  rintro ⟨env, a⟩ hx
  have hfr := hfrom _ hx
  have facts : ∀ i, MasterFacts k (g.stores i) (growAt kr hash n i evs) := by
    intro i
    refine master_facts k _ (hg i).1 (hg i).2 (fun ev hx => (hmev i ev hx).1) ?_
    by_cases hi : i = p
    · subst hi; exact fun c hc => (hfits c hc).1
    · rw [growAt_foreign hp hi evs hev _ (hg i).1 (hg i).2]
      intro c hc; cases hc
  cases a with
  | copy c =>
    obtain ⟨i, hi⟩ := hfr
    have hm := growRun_sent kr hash n i evs g _ hi
    simp only [Arrival.expected]
    split
    · rename_i hck
      by_cases hip : i = p
      · subst hip; exact hm
      · exfalso
        have := growAt_foreign hp hip evs hev _ (hg i).1 (hg i).2
        have hc : c ∈ sentCopies k (masterRun (g.stores i) (growAt kr hash n i evs)).2 := by
          simp only [sentCopies, List.mem_filterMap]
          exact ⟨.copy c, hm, by simp [hck]⟩
        rw [this] at hc; cases hc
    · exact ((facts i).copies c hm).1
  | dump e =>
    obtain ⟨i, hi⟩ := hfr
    intro hek
    have hm := growRun_sent kr hash n i evs g _ hi
    by_cases hip : i = p
    · subst hip; exact .inl hm
    · right
      obtain ⟨h1, h2⟩ := (facts i).dumps e hm hek
      refine ⟨h1, ?_⟩
      rcases h2 with h2 | ⟨c, hc, -⟩
      · exact h.older i hip _ h2
      · rw [growAt_foreign hp hip evs hev _ (hg i).1 (hg i).2] at hc; cases hc
  | read e => trivial

/-- **C86, all keys.**  When the new partition becomes active, the master of a key by the new table - the new one or the one
that has had it - answers for it as its master by the old table. -/
theorem C86_grown_partial (kr : Resolver) (hash : Bytes → Int32) (n : Nat) (hh : kr.hint ≤ n) (hn : n + 1 < kr.size)
    (g : GrowSys) (hg : ∀ i, (g.stores i).Ok ∧ AbsoluteStore (g.stores i)) (evs : List GrowEv)
    (hev : ∀ ev ∈ evs, ev.clientWrite) (s : Store) (hs : s.Ok) (hz : 0 < s.cacheSize) (as : List (Env × Arrival))
    (t : Int64) (hfrom : ∀ x ∈ as, x.2.fromSome (growRun kr hash n g evs).2) (htm : ∀ ev ∈ evs, ev.doneBy t)
    (hts : ∀ x ∈ as, x.1.now ≤ t ∧ x.1.putOk = true ∧ x.1.outOk = true)
    (hw : ∀ k p, resolve kr (hash k).toInt n = some p → resolve kr (hash k).toInt (n + 1) = some n →
      MovesWell kr hash n p g evs s as t k)
    (k : Bytes) (p q : Nat) (hp : resolve kr (hash k).toInt n = some p) (hq : resolve kr (hash k).toInt (n + 1) = some q) :
    lookup ((growRun kr hash n g evs).1.grown n (replicaRun s as) q) t k =
      lookup ((growRun kr hash n g evs).1.stores p) t k := by
  by_cases hqn : q = n
  · subst hqn
    rw [GrowSys.grown, if_pos rfl]
    exact C86_moved_partial kr hash q p g hg evs hev s hs hz as t hfrom htm hts k hp hq (hw k p hp hq)
  · rw [GrowSys.grown, if_neg hqn]
    rcases C19_minimal_movement hh hn hp hq with rfl | h
    · rfl
    · exact absurd h hqn

/-! ### An example, and where it fails -/

/-- A table in which the keys of the examples are in partition 0 of one, 1 of two and 2 of three. -/
def growTable : Resolver := { size := 8, hint := 1, virtual_ := 12 }

/-- The masters `l`, the others being empty. -/
def growStart (l : List Store) (told : Bool) : GrowSys :=
  { stores := fun i => l.getD i { cacheSize := 10 }, told := fun _ => told }

def growExEvents : List GrowEv := [.at 0 (.dump { now := 3000000 } [97]), .at 0 (.write { now := 3000001 } [[109]]
  { cmd := .set, entry := { key := [97], size := 1, data := [56] } })]

def growExArrivals : List (Env × Arrival) := [({ now := 3000002 }, .copy { cmd := .set, path := [[109]], entry :=
    { key := [97], size := 1, version := 4, data := [56] } }), ({ now := 3000003 }, .dump
    { key := [97], flag := 5, size := 1, expire := 3000100, version := 3, data := [55] })]

/-- The second partition is added: the dumped record arrives after the copy of a later write, and the new master has the
later value. -/
example : (growRun growTable (fun _ => 2) 1 (growStart [repStore] true) growExEvents).2 = [(0, .dump
        { key := [97], flag := 5, size := 1, expire := 3000100, version := 3, data := [55] }),
      (0, .copy { cmd := .set, path := [[109]], entry := { key := [97], size := 1, version := 4, data := [56] } })] ∧
    lookup (replicaRun { cacheSize := 10 } growExArrivals) 3000010 [97] = some ⟨[56], 0, 0, 4⟩ := by
  decide +kernel

/-- It is one to which the theorem applies. -/
example : MovesWell growTable (fun _ => 2) 1 0 (growStart [repStore] true) growExEvents { cacheSize := 10 } growExArrivals
    3000010 [97] := by
  constructor
  · rfl
  · intro it h
    have e : lookup ((growStart [repStore] true).stores 0) Int64.minValue [97] = some ⟨[55], 5, 3000100, 3⟩ := by
      decide +kernel
    rw [e] at h; cases h; decide
  · intro i hi it h
    cases i with
    | zero => exact absurd rfl hi
    | succ i => cases h
  · intro it h; cases h
  · intro _ h; exact absurd h (by decide +kernel)
  · decide +kernel
  · decide +kernel
  · decide +kernel
  · intro h; exact absurd h (by decide +kernel)
  · decide +kernel

/-- **C86, defect**: nothing is removed from the master that a key moves away from, and the next new master asks all masters
for the key.  Here a key is in partition 0, moves to 1 when the second partition is added, and is deleted there.  Then a third
partition is added, to which the key belongs: it has the old value from master 0.  Everything that was sent has arrived, and
nothing has failed. -/
theorem C86_deleted_returns :
    let one := growRun growTable (fun _ => 2) 1 (growStart [repStore] true) [.at 0 (.dump { now := 3000000 } [97])]
    let first := replicaRun { cacheSize := 10 } [({ now := 3000001 }, .dump
      { key := [97], flag := 5, size := 1, expire := 3000100, version := 3, data := [55] })]
    let two := growRun growTable (fun _ => 2) 2 (growStart [one.1.stores 0, first] false)
      [.at 1 (.write { now := 3000002 } [[109]] { cmd := .delete, entry := { key := [97] } }), .told 0, .told 1,
        .at 0 (.dump { now := 3000003 } [97]), .at 1 (.dump { now := 3000004 } [97])]
    let second := replicaRun { cacheSize := 10 } [({ now := 3000005 }, .dump
      { key := [97], flag := 5, size := 1, expire := 3000100, version := 3, data := [55] })]
    one.2 = [(0, .dump { key := [97], flag := 5, size := 1, expire := 3000100, version := 3, data := [55] })] ∧
    two.2 = [(0, .dump { key := [97], flag := 5, size := 1, expire := 3000100, version := 3, data := [55] })] ∧
    resolve growTable 2 2 = some 1 ∧ resolve growTable 2 3 = some 2 ∧
    lookup (two.1.stores 1) 3000010 [97] = none ∧
    lookup (two.1.grown 2 second 2) 3000010 [97] = some ⟨[55], 5, 3000100, 3⟩ := by
  decide +kernel

/-- **C86, defect**: the new master begins when the map has reached it, which may be before it has reached the others.  Here
a master dumps a key and changes it before it knows of the new partition: the change never gets to the new master. -/
theorem C86_map_late :
    let evs : List GrowEv := [.at 0 (.dump { now := 3000000 } [97]), .at 0 (.write { now := 3000001 } [[109]]
      { cmd := .set, entry := { key := [97], size := 1, data := [56] } }), .told 0]
    let g := growRun growTable (fun _ => 2) 1 (growStart [repStore] false) evs
    let new := replicaRun { cacheSize := 10 } [({ now := 3000002 }, .dump
        { key := [97], flag := 5, size := 1, expire := 3000100, version := 3, data := [55] })]
    g.2 = [(0, .dump { key := [97], flag := 5, size := 1, expire := 3000100, version := 3, data := [55] })] ∧
    lookup (g.1.stores 0) 3000010 [97] = some ⟨[56], 0, 0, 4⟩ ∧
    resolve growTable 2 2 = some 1 ∧
    lookup (g.1.grown 1 new 1) 3000010 [97] = some ⟨[55], 5, 3000100, 3⟩ := by
  decide +kernel

/-- The key of what is sent. -/
def Sent.key : Sent → Bytes
  | .copy c => c.entry.key
  | .dump e => e.key

/-- Nothing is sent to the new master but what belongs to the new partition. -/
theorem C86_only_new_keys (kr : Resolver) (hash : Bytes → Int32) (n : Nat) (evs : List GrowEv) :
    ∀ (g : GrowSys) (i : Nat) (x : Sent), (∀ i, (g.stores i).Ok ∧ AbsoluteStore (g.stores i)) →
      (∀ ev ∈ evs, ev.clientWrite) → (i, x) ∈ (growRun kr hash n g evs).2 →
      resolve kr (hash x.key).toInt (n + 1) = some n := by
  induction evs with
  | nil => intro g i x _ _ h; cases h
  | cons ev evs ih =>
    intro g i x hg hev h
    simp only [growRun, List.mem_append] at h
    rcases h with h | h
    · cases ev with
      | told j => cases h
      | «at» j ev =>
        simp only [GrowEv.apply] at h
        split at h
        next ht =>
          simp only [List.mem_map, List.mem_filter, Option.mem_toList] at h
          obtain ⟨y, ⟨hy, hs⟩, e⟩ := h
          cases e
          cases x with
          | copy c =>
            simp only [growSends, Bool.and_eq_true, beq_iff_eq] at hs
            exact hs.2
          | dump e =>
            cases ev with
            | write env path r => simp [MEvent.apply] at hy
            | read env e => cases hy
            | dump env k =>
              have hk := (get_reused (hg i).1 env { key := k } k).2.2.2.1
              have he : e.key = k := by
                simp only [MEvent.apply] at hy
                split at hy
                · cases hy; exact hk
                · cases hy
              simp only [growTakes, beq_iff_eq, inPartition] at ht
              rw [if_pos (by omega)] at ht
              simp only [Sent.key, he]
              cases hr : resolve kr (hash k).toInt (n + 1) with
              | none => rw [hr] at ht; cases ht
              | some p =>
                rw [hr] at ht
                simp only [Option.some.injEq, beq_iff_eq] at ht
                rw [show p = n by omega]
        next => cases h
    · exact ih _ i x (fun i => growApply_ok hg (hev _ List.mem_cons_self) i)
        (fun e he => hev e (List.mem_cons_of_mem _ he)) h

/-- Of two keys only the one that moves is dumped. -/
example : (growRun growTable (fun k => if k = [97] then 2 else 0) 1 (growStart [repStore] true)
    [.at 0 (.dump { now := 3000000 } [97]), .at 0 (.dump { now := 3000000 } [98])]).2.map (fun x => x.2.key) = [[97]] := by
  decide +kernel

end Flare
