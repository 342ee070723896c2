import Verif.Lemmas.RebuildMaster

/-! C12: a replica built from a dump, while writes go on, ends equal to its master. -/
namespace Flare

theorem lastVersion_known {s : Store} (hs : s.Ok) (k : Bytes) : lastVersion s k = known s k := by
  simp only [lastVersion, known]
  cases h : dbGet s.db k with
  | some raw =>
    have : lookup s Int64.minValue k = some (itemOf raw) := by
      rw [lookup_min hs]; simp only [kstate, h]
    rw [this]
  | none => rw [lookup_none_of_absent h]; rfl

theorem recordVersion_le {s : Store} (k : Bytes) : recordVersion s k ≤ lastVersion s k := by
  simp only [recordVersion, lastVersion]
  cases lookup s Int64.minValue k with
  | some it => exact UInt64.le_refl _
  | none => simp [UInt64.le_iff_toNat_le]

/-- C12, general form.  The master executes writes and reads and dumps records, in any order.  The new replica
receives every copy of a write of `k`, in order; it receives some of the dumped records, in any order, any number of
times, between the copies or after them; anything may arrive and be read for other keys.  The replica need not be empty,
and others may send records of `k` to it as well (`old`), as long as all of these are older than the record the master
has.  Then, for every time not earlier than all these events, both answer the same for `k`.

`hdump`: if no write of `k` was copied, then the record of `k` has arrived by a dump, or there is none to be had and
nothing else of `k` is at the replica or arrives.  `hgrow`: the versions the master gave grow (C12_growing).  `hk`: the
replica's deletion cache does not lose `k`.  Clocks of the two nodes need not agree.

Partial: `k` is not touched meanwhile (C12_touch_overtakes_dump), and what is older has smaller versions (C12_leftover). -/
theorem C12_replica_rebuilt_partial {m s : Store} (hm : m.Ok) (ha : AbsoluteStore m) (hs : s.Ok)
    (hz : 0 < s.cacheSize) {k : Bytes}
    (h0 : ∀ it, lookup m Int64.minValue k = some it → it.version ≠ 0) {old : Item → Prop}
    (hold : ∀ it, old it → it.version ≠ 0 ∧
      (it.version < recordVersion m k ∨ lookup m Int64.minValue k = some it))
    (hhas : ∀ it, lookup s Int64.minValue k = some it → old it)
    (hgone : lookup s Int64.minValue k = none → Remembered s k → lastVersion s k < recordVersion m k)
    {evs : List MEvent} (hev : ∀ ev ∈ evs, ev.clientWrite)
    (hnt : ∀ c ∈ sentCopies k (masterRun m evs).2, c.cmd ≠ .touch ∧ (encodeWrite c).isSome)
    (hgrow : Growing (recordVersion m k) (sentCopies k (masterRun m evs).2))
    {as : List (Env × Arrival)}
    (hfrom : ∀ x ∈ as, x.2.expected k old (masterRun m evs).2)
    (hcopies : arrivedCopies k as = sentCopies k (masterRun m evs).2)
    {t : Int64} (htm : ∀ ev ∈ evs, ev.now ≤ t)
    (hdump : sentCopies k (masterRun m evs).2 = [] →
      (∃ e ∈ arrivedDumps k as, lookup m Int64.minValue k = some ⟨e.data, e.flag, e.expire, e.version⟩) ∨
      (¬ Remembered s k ∧ arrivedDumps k as = [] ∧ lookup (masterRun m evs).1 t k = none))
    (hts : ∀ x ∈ as, x.1.now ≤ t ∧ x.1.putOk = true ∧ x.1.outOk = true)
    (hk : StillKnows k s as) :
    lookup (replicaRun s as) t k = lookup (masterRun m evs).1 t k := by
  obtain ⟨f1, f2, f3, f4, f5⟩ := master_facts k evs hm ha hev (fun c hc => (hnt c hc).1)
  generalize hsent : masterRun m evs = run at *
  obtain ⟨m', sent⟩ := run
  simp only at *
  have hmem : ∀ c, .copy c ∈ sent → c.entry.key = k → c ∈ sentCopies k sent := by
    intro c hc hk
    simp only [sentCopies, List.mem_filterMap]
    exact ⟨.copy c, hc, by simp [hk]⟩
  have hcop : ∀ {env c}, (env, Arrival.copy c) ∈ as → c.entry.key = k → .copy c ∈ sent := by
    intro env c hx hkk
    have := hfrom _ hx
    simpa only [Arrival.expected, if_pos hkk] using this
  -- the items the replica may meet
  let P : Item → Prop := fun it => (lookup m Int64.minValue k = some it ∨
    ∃ d ∈ sentCopies k sent, d.cmd = .set ∧ d.entry.item = it) ∨ old it
  have hdmp : ∀ {env e}, (env, Arrival.dump e) ∈ as → e.key = k → e.Ok ∧ e.version ≠ 0 ∧ P e.item := by
    intro env e hx hkk
    rcases hfrom _ hx hkk with h | ⟨h1, h2⟩
    · obtain ⟨g1, g2⟩ := f3 e h hkk
      refine ⟨g1, ?_, .inl g2⟩
      rcases g2 with g2 | ⟨c, hc, -, g2⟩
      · exact h0 _ g2
      · rw [show e.version = e.item.version from rfl, ← g2]
        exact growing_ne_zero hgrow c hc
    · exact ⟨h1, (hold _ h2).1, .inr h2⟩
  have hgood : ∀ x ∈ as, GoodArrival k t x := by
    rintro ⟨env, a⟩ hx
    obtain ⟨h1, h2, h3⟩ := hts _ hx
    refine ⟨h1, h2, h3, ?_⟩
    cases a with
    | copy c =>
      by_cases hkk : c.entry.key = k
      · have hfr := hcop hx hkk
        obtain ⟨g1, g2, g3, g4, g5⟩ := f2 c hfr
        refine ⟨g1, fun _ => ?_⟩
        have hc := hmem c hfr hkk
        refine ⟨(hnt c hc).2, ?_, growing_ne_zero hgrow c hc, g2, g3, g4⟩
        rcases g5 with h | h | h
        · exact Or.inl h
        · exact Or.inr h
        · exact absurd h (hnt c hc).1
      · have := hfrom _ hx
        simp only [Arrival.expected, if_neg hkk] at this
        exact ⟨this, fun h => absurd h hkk⟩
    | dump e => exact fun hkk => ⟨(hdmp hx hkk).1, (hdmp hx hkk).2.1⟩
    | read e => trivial
  obtain ⟨hok, hrun⟩ := replica_krun as hs hz hgood hk
  have hstart : (∃ it, kstate s k = .record it ∧ old it) ∨
      (∃ w, kstate s k = .gone w ∧ w < recordVersion m k) ∨ kstate s k = .nothing := by
    cases hst : kstate s k with
    | record it => exact .inl ⟨it, rfl, hhas it ((lookup_min hs).2 hst)⟩
    | nothing => exact .inr (.inr rfl)
    | gone w =>
      refine .inr (.inl ⟨w, rfl, ?_⟩)
      have hn : lookup s Int64.minValue k = none := by
        cases hl : lookup s Int64.minValue k with
        | none => rfl
        | some it => rw [(lookup_min hs).1 hl] at hst; cases hst
      have := hgone hn (kstate_remembered.2 (by rw [hst]; simp))
      rw [lastVersion_known hs, ← kstate_known, hst] at this
      exact this
  rw [kstate_lookup hok]
  by_cases hcs : sentCopies k sent = []
  · -- no copies
    have hcl : ∀ c env, (env, Arrival.copy c) ∈ as → c.entry.key ≠ k := by
      intro c env hx hkk
      have := hmem c (hcop hx hkk) hkk
      rw [hcs] at this; cases this
    rcases hdump hcs with ⟨e, he, hx0⟩ | ⟨hn, hnd, hnone⟩
    · rw [f4 hcs t htm]
      have hml : lookup m t k = KState.visible t (.record e.item) := by
        rw [kstate_lookup hm, (lookup_min hm).1 hx0]; rfl
      have hver : recordVersion m k = e.item.version := by simp [recordVersion, hx0]; rfl
      rw [hml]
      have hPv : ∀ it, P it → it.version < e.item.version ∨ it = e.item := by
        rintro it ((h | ⟨d, hd, -⟩) | h)
        · rw [hx0] at h; cases h; exact .inr rfl
        · rw [hcs] at hd; cases hd
        · rcases (hold it h).2 with h | h
          · rw [hver] at h; exact .inl h
          · rw [hx0] at h; cases h; exact .inr rfl
      refine (run_newest (P := P) (x := e.item) (h0 _ hx0) hPv hrun ?_ ?_ ?_).visible
      · intro l hl
        rw [List.mem_map] at hl
        obtain ⟨⟨env, a⟩, hx, rfl⟩ := hl
        cases a with
        | copy c => left; simp [Arrival.label, hcl c env hx]
        | dump e' =>
          by_cases hkk : e'.key = k
          · exact .inr ⟨_, (hdmp hx hkk).2.2, by simp [Arrival.label, hkk]⟩
          · left; simp [Arrival.label, hkk]
        | read e' => exact Or.inl rfl
      · simp only [arrivedDumps, List.mem_filterMap] at he
        obtain ⟨⟨env, a⟩, hx, hy⟩ := he
        refine List.mem_map.2 ⟨_, hx, ?_⟩
        cases a with
        | copy c => cases hy
        | read e' => cases hy
        | dump e' =>
          simp only at hy
          split at hy
          · rename_i hkk
            cases hy
            simp [Arrival.label, hkk]
          · cases hy
      · rw [← hver]
        rcases hstart with ⟨it, h1, h2⟩ | h | h
        · exact .inl ⟨it, h1, .inr h2⟩
        · exact .inr (.inl h)
        · exact .inr (.inr h)
    · rw [hnone]
      have hst0 : kstate s k = .nothing := by
        rw [kstate_remembered] at hn
        exact Classical.byContradiction hn
      have hall : ∀ l ∈ as.map (fun x => x.2.label k), l = .tau := by
        intro l hl
        rw [List.mem_map] at hl
        obtain ⟨⟨env, a⟩, hx, rfl⟩ := hl
        cases a with
        | copy c => simp [Arrival.label, hcl c env hx]
        | dump e =>
          by_cases hkk : e.key = k
          · exfalso
            simp only [arrivedDumps, List.filterMap_eq_nil_iff] at hnd
            have := hnd _ hx
            simp [hkk] at this
          · simp [Arrival.label, hkk]
        | read e => rfl
      have : ∀ {st st' ls}, KRun t st ls st' → (∀ l ∈ ls, l = .tau) → st = .nothing →
          st' = .nothing := by
        intro st st' ls hr
        induction hr with
        | nil => intro _ h; exact h
        | @cons st st1 st2 l ls hstep _ ih =>
          intro hl h
          refine ih (fun l h => hl l (by simp [h])) ?_
          have := hl l (by simp)
          subst this
          rcases hstep with h1 | ⟨it, h1, -⟩
          · rw [h1, h]
          · rw [h] at h1; cases h1
      rw [this hrun hall hst0]
      rfl
  · -- the last copy decides
    obtain ⟨cs, c, hc⟩ : ∃ cs c, sentCopies k sent = cs ++ [c] :=
      ⟨_, _, (List.dropLast_concat_getLast hcs).symm⟩
    rw [f5 cs c hc t htm]
    rw [hc] at hgrow hcopies
    obtain ⟨hg1, hg2⟩ := growing_last cs hgrow
    simp only [arrivedCopies] at hcopies
    obtain ⟨as1, ⟨env, a⟩, as2, rfl, ha1, ha2, ha3⟩ := filterMap_concat hcopies
    have haa : a = .copy c ∧ c.entry.key = k := by
      cases a with
      | copy c' =>
        simp only at ha1
        split at ha1
        · cases ha1; rename_i h; exact ⟨rfl, h⟩
        · cases ha1
      | dump e => cases ha1
      | read e => cases ha1
    obtain ⟨rfl, hck⟩ := haa
    simp only [List.map_append, List.map_cons] at hrun
    have hle : recordVersion m k ≤ c.entry.version := by
      split at hg1
      · exact UInt64.le_of_lt hg1
      · exact hg1
    have hbase : ∀ it, lookup m Int64.minValue k = some it → it.version ≤ c.entry.version ∧
        (c.cmd = .set → it.version < c.entry.version ∨ it = c.entry.item) := by
      intro it h
      have : recordVersion m k = it.version := by simp [recordVersion, h]
      rw [this] at hg1
      split at hg1
      · exact ⟨UInt64.le_of_lt hg1, fun _ => Or.inl hg1⟩
      · rename_i hn; exact ⟨hg1, fun h => absurd h hn⟩
    have hPle : ∀ it, P it → it.version ≤ c.entry.version ∧
        (c.cmd = .set → it.version < c.entry.version ∨ it = c.entry.item) := by
      rintro it ((h | ⟨d, hd, hdc, rfl⟩) | h)
      · exact hbase it h
      · rw [hc] at hd
        rcases List.mem_append.1 hd with hd | hd
        · have := hg2 d hd
          split at this
          · exact ⟨UInt64.le_of_lt this, fun _ => Or.inl this⟩
          · rename_i hn; exact ⟨this, fun h => absurd h hn⟩
        · simp only [List.mem_singleton] at hd
          subst hd
          exact ⟨UInt64.le_refl _, fun _ => Or.inr rfl⟩
      · rcases (hold it h).2 with h | h
        · have := UInt64.lt_of_lt_of_le h hle
          exact ⟨UInt64.le_of_lt this, fun _ => .inl this⟩
        · exact hbase it h
    have hw : Within P c.entry.version (kstate s k) := by
      rcases hstart with ⟨it, h1, h2⟩ | ⟨w, h1, h2⟩ | h
      · rw [h1]; exact .inr h2
      · rw [h1]; exact UInt64.le_of_lt (UInt64.lt_of_lt_of_le h2 hle)
      · rw [h]; trivial
    have hl1 : ∀ l ∈ as1.map (fun x => x.2.label k), l.within P c.entry.version := by
      intro l hl
      rw [List.mem_map] at hl
      obtain ⟨⟨env', a⟩, hx, rfl⟩ := hl
      have hx' := List.mem_append.2 (Or.inl hx (b := (env', a) ∈ (env, Arrival.copy c) :: as2))
      cases a with
      | copy d =>
        by_cases hkk : d.entry.key = k
        · have hds := hcop hx' hkk
          have hd := hmem d hds hkk
          by_cases hdel : d.cmd = .delete
          · simp only [Arrival.label, hkk, if_true, hdel, KLabel.within]
            rw [hc] at hd
            rcases List.mem_append.1 hd with hd | hd
            · have := hg2 d hd
              split at this
              · exact UInt64.le_of_lt this
              · exact this
            · simp only [List.mem_singleton] at hd
              subst hd; exact UInt64.le_refl _
          · simp only [Arrival.label, hkk, if_true, if_neg hdel, KLabel.within]
            left; right
            refine ⟨d, hd, ?_, rfl⟩
            rcases (f2 d hds).2.2.2.2 with h | h | h
            · exact h
            · exact absurd h hdel
            · exact absurd h (hnt d hd).1
        · simp [Arrival.label, hkk, KLabel.within]
      | dump e =>
        by_cases hkk : e.key = k
        · simp only [Arrival.label, hkk, if_true, KLabel.within]
          exact (hdmp hx' hkk).2.2
        · simp [Arrival.label, hkk, KLabel.within]
      | read e => trivial
    have hl2 : ∀ l ∈ as2.map (fun x => x.2.label k), l.quiet c.entry.version := by
      intro l hl
      rw [List.mem_map] at hl
      obtain ⟨⟨env', a⟩, hx, rfl⟩ := hl
      cases a with
      | copy d =>
        have := ha3 _ hx
        simp only at this
        split at this
        · cases this
        · rename_i hne; simp [Arrival.label, hne, KLabel.quiet]
      | dump e =>
        by_cases hkk : e.key = k
        · simp only [Arrival.label, hkk, if_true, KLabel.quiet]
          exact (hPle _ (hdmp (List.mem_append.2 (Or.inr (List.mem_cons_of_mem _ hx))) hkk).2.2).1
        · simp [Arrival.label, hkk, KLabel.quiet]
      | read e => trivial
    by_cases hset : c.cmd = .set
    · rw [if_pos hset]
      have hlab : (Arrival.copy c).label k = .put c.entry.item := by
        simp [Arrival.label, hck, hset]
      rw [hlab] at hrun
      exact (run_put (P := P) (fun it hit => (hPle it hit).2 hset) hrun hl1 hl2 hw).visible
    · rw [if_neg hset]
      have hdel : c.cmd = .delete := by
        have hcm : c ∈ sentCopies k sent := by rw [hc]; simp
        rcases (f2 c (hcop (List.mem_append.2 (Or.inr (List.mem_cons_self ..))) hck)).2.2.2.2 with h | h | h
        · exact absurd h hset
        · exact h
        · exact absurd h (hnt c hcm).1
      have hlab : (Arrival.copy c).label k = .del c.entry.version := by
        simp [Arrival.label, hck, hdel]
      rw [hlab] at hrun
      exact (run_del (P := P) (fun it hit => (hPle it hit).1) hrun hl1 hl2 hw).visible

/-- C12.  The master executes writes and reads and dumps records, in any order.  The new replica
knows nothing about key `k`.  It receives every copy of a write of `k`, in order; it receives
some of the dumped records, in any order, any number of times, between the copies or after
them; anything may arrive and be read for other keys.  Then, for every time not earlier
than all these events, both answer the same for `k`.

`hdump`: if no write of `k` was copied and the master still holds `k`, then at least one dump of `k`
has arrived.  `hgrow`: the versions the master gave grow (C12_growing).  `hk`: the replica's
deletion cache does not lose `k`.  Clocks of the two nodes need not agree.

Partial: `k` is not touched meanwhile (C12_touch_overtakes_dump), and the replica knows nothing
about `k` before (C12_leftover). -/
theorem C12_replica_built_partial {m s : Store} (hm : m.Ok) (ha : AbsoluteStore m) (hs : s.Ok)
    (hz : 0 < s.cacheSize) {k : Bytes} (hnew : ¬ Remembered s k)
    (h0 : ∀ it, lookup m Int64.minValue k = some it → it.version ≠ 0)
    {evs : List MEvent} (hev : ∀ ev ∈ evs, ev.clientWrite)
    (hnt : ∀ c ∈ sentCopies k (masterRun m evs).2, c.cmd ≠ .touch ∧ (encodeWrite c).isSome)
    (hgrow : Growing (recordVersion m k) (sentCopies k (masterRun m evs).2))
    {as : List (Env × Arrival)}
    (hfrom : ∀ x ∈ as, x.2.fromMaster (masterRun m evs).2)
    (hcopies : arrivedCopies k as = sentCopies k (masterRun m evs).2)
    {t : Int64} (htm : ∀ ev ∈ evs, ev.now ≤ t)
    (hdump : sentCopies k (masterRun m evs).2 = [] → lookup (masterRun m evs).1 t k ≠ none →
      arrivedDumps k as ≠ [])
    (hts : ∀ x ∈ as, x.1.now ≤ t ∧ x.1.putOk = true ∧ x.1.outOk = true)
    (hk : StillKnows k s as) :
    lookup (replicaRun s as) t k = lookup (masterRun m evs).1 t k := by
  obtain ⟨f1, f2, f3, f4, f5⟩ := master_facts k evs hm ha hev (fun c hc => (hnt c hc).1)
  have hnone : lookup s Int64.minValue k = none := by
    cases hl : lookup s Int64.minValue k with
    | none => rfl
    | some it =>
      refine absurd (kstate_remembered.2 ?_) hnew
      rw [(lookup_min hs).1 hl]; simp
  refine C12_replica_rebuilt_partial (old := fun _ => False) hm ha hs hz h0 (fun _ h => h.elim)
    (fun it h => by rw [hnone] at h; cases h) (fun _ h => absurd h hnew) hev hnt hgrow ?_ hcopies htm ?_ hts hk
  · rintro ⟨env, a⟩ hx
    have hfr := hfrom _ hx
    cases a with
    | copy c =>
      simp only [Arrival.expected]
      split
      · exact hfr
      · exact (f2 c hfr).1
    | dump e => exact fun _ => .inl hfr
    | read e => trivial
  · intro hcs
    cases hd : arrivedDumps k as with
    | nil =>
      refine .inr ⟨hnew, rfl, ?_⟩
      exact Classical.byContradiction fun h => hdump hcs h hd
    | cons e es =>
      refine .inl ⟨e, List.mem_cons_self, ?_⟩
      have he : e ∈ arrivedDumps k as := by rw [hd]; exact List.mem_cons_self
      simp only [arrivedDumps, List.mem_filterMap] at he
      obtain ⟨⟨env, a⟩, hx, hy⟩ := he
      cases a with
      | copy c => cases hy
      | read e' => cases hy
      | dump e' =>
        simp only at hy
        split at hy
        · rename_i hkk
          cases hy
          rcases (f3 _ (hfrom _ hx) hkk).2 with h | ⟨c, hc, -⟩
          · exact h
          · rw [hcs] at hc; cases hc
        · cases hy

/-! #### Versions grow -/

theorem Growing.mono {v w : UInt64} (h : v ≤ w) {cs : List WriteReq} (hg : Growing w cs) :
    Growing v cs := by
  cases cs with
  | nil => trivial
  | cons c cs =>
    obtain ⟨h1, h2, h3⟩ := hg
    refine ⟨?_, h2, h3⟩
    split at h1
    · rename_i hc; rw [if_pos hc]; exact UInt64.lt_of_le_of_lt h h1
    · rename_i hc; rw [if_neg hc]; exact UInt64.le_trans h h1

theorem get_not_stored {s : Store} {env : Env} {e : Entry} :
    (step s env (.get e {})).2.r ≠ some .stored := by
  simp only [step, get, getRead]
  repeat' split
  all_goals simp_all
  all_goals (rename_i h; revert h; repeat' split)
  all_goals (intro h; simp_all)
  all_goals first | (cases h; simp) | (rw [← h.1]; simp) | skip

/-- A copied write other than a touch was answered STORED or DELETED. -/
theorem copied_result {m : Store} {env : Env} {path : List Bytes} {r c : WriteReq}
    (h : (atMaster m env path r).2 = some c) :
    c.entry = (step m env r.call).2.e ∧
    (c.cmd = .set → (step m env r.call).2.r = some .stored) ∧
    (c.cmd = .delete → r.call = .remove r.entry {} ∧
      (step m env r.call).2.r = some .deleted) := by
  simp only [atMaster, copyOf] at h
  split at h
  next hcop =>
    cases h
    refine ⟨rfl, fun hc => ?_, fun hc => ?_⟩
    · have hset : ∀ e b, b.touch = false →
          ((set m env e b).2.r == some .stored || (set m env e b).2.r == some .touched) = true →
          (set m env e b).2.r = some .stored := by
        intro e b hb h
        simp only [Bool.or_eq_true, beq_iff_eq] at h
        rcases set_cases m env e b with ⟨-, h1, h2⟩ | ⟨e', ho, -⟩
        · rcases h with h | h
          · exact absurd h h1
          · exact absurd h h2
        · rw [ho, hb]; rfl
      obtain ⟨cmd, p, e, v⟩ := r
      cases cmd <;> simp only [WriteCmd.copy, reduceCtorEq] at hc <;>
        simp only [WriteReq.call, step, WriteCmd.copies] at hcop ⊢
      all_goals first
        | exact hset _ _ rfl hcop
        | simpa using hcop
    · obtain ⟨cmd, p, e, v⟩ := r
      cases cmd <;> simp only [WriteCmd.copy, reduceCtorEq] at hc
      simp only [WriteReq.call, step, WriteCmd.copies, beq_iff_eq] at hcop ⊢
      exact ⟨trivial, hcop⟩
  next => cases h

theorem removed_version {s : Store} (hs : s.Ok) {env : Env} {e : Entry} (h0 : e.version = 0)
    (h : (remove s env e {}).2.r = some .deleted) :
    (remove s env e {}).2.e.version = known s e.key ∧ dbGet s.db e.key ≠ none := by
  obtain ⟨-, -, -, -, it, hl, -⟩ := remove_done hs h
  obtain ⟨raw, hd, rfl, -⟩ := (lookup_eq_some hs).1 hl
  refine ⟨?_, by simp [hd]⟩
  rw [known_of_raw hd]
  have hver : (fill raw { key := [] }).version = (itemOf raw).version := rfl
  revert h
  simp only [remove, getHeader_present hs hd, fill_take, hver, h0]
  repeat' split
  all_goals simp_all

/-- The versions of the copies of a key grow when the master executes clients' requests, has not
forgotten the deletion of the key, and fewer than 2^64 versions are needed. -/
theorem C12_growing {k : Bytes} : ∀ (evs : List MEvent) {m : Store}, m.Ok → AbsoluteStore m →
    (∀ it, lookup m Int64.minValue k = some it → it.version ≠ 0) →
    (∀ ev ∈ evs, ev.clientWrite ∧ ev.unversioned) → MasterKnows k m evs →
    (∀ c ∈ sentCopies k (masterRun m evs).2, c.cmd ≠ .touch) →
    (lastVersion m k).toNat + evs.length < 2 ^ 64 →
    Growing (recordVersion m k) (sentCopies k (masterRun m evs).2) := by
  intro evs m hm ha h0 hev hk hnt hlen
  refine Growing.mono (recordVersion_le k) ?_
  induction evs generalizing m with
  | nil => trivial
  | cons ev evs ih =>
    have hf := event_facts hm ha k (hev ev (by simp)).1
    obtain ⟨hk1, hk2⟩ := hk
    obtain ⟨m1, x, hap⟩ : ∃ m1 x, ev.apply m = (m1, x) := ⟨_, _, rfl⟩
    obtain ⟨m2, xs, hrun⟩ : ∃ m2 xs, masterRun m1 evs = (m2, xs) := ⟨_, _, rfl⟩
    have hrun' : masterRun m (ev :: evs) = (m2, x.toList ++ xs) := by
      simp only [masterRun, hap, hrun]
      cases x <;> rfl
    have hsplit : sentCopies k (x.toList ++ xs) = sentCopies k x.toList ++ sentCopies k xs := by
      simp only [sentCopies, List.filterMap_append]
    rw [hap] at hk1 hk2
    rw [hrun', hsplit] at hnt ⊢
    simp only at hk1 hk2 hnt ⊢
    obtain ⟨e1, e2, e3, e4, e5, e6⟩ := hf
    rw [hap] at e1 e2 e3 e4 e5 e6
    simp only at e1 e2 e3 e4 e5 e6
    rw [lastVersion_known hm] at hlen ⊢
    simp only [List.length_cons] at hlen
    -- what the event does to the version
    have hkn : (∀ c, x = some (.copy c) → c.entry.key ≠ k) ∧ known m1 k = known m k ∨
        ∃ c, x = some (.copy c) ∧ c.entry.key = k ∧ known m1 k = c.entry.version ∧
          ((c.cmd = .set ∧ c.entry.version = known m k + 1) ∨
            (c.cmd = .delete ∧ c.entry.version = known m k ∧ dbGet m.db k ≠ none)) := by
      cases ev with
      | write env path r =>
        obtain ⟨hcw, hun⟩ := hev (.write env path r) (by simp)
        obtain ⟨m', c, hmc⟩ : ∃ m' c, atMaster m env path r = (m', c) := ⟨_, _, rfl⟩
        have hap' : (MEvent.write env path r).apply m = (m', c.map .copy) := by
          simp only [MEvent.apply, hmc]
        rw [hap'] at hap
        simp only [Prod.mk.injEq] at hap
        obtain ⟨rfl, rfl⟩ := hap
        have hm' : m' = (step m env r.call).1 := by
          have := congrArg Prod.fst hmc
          simpa [atMaster] using this.symm
        have hck := client_known hm env (c := r.call) hun (k := k) (by rw [← hm']; exact hk1)
        rw [← hm', call_key] at hck
        cases c with
        | none =>
          left
          refine ⟨fun c h => by simp at h, ?_⟩
          split at hck
          next hst =>
            exfalso
            have : (atMaster m env path r).2 = none := by rw [hmc]
            simp only [atMaster, copyOf] at this
            split at this
            · cases this
            · rename_i hn
              apply hn
              obtain ⟨cmd, p, e, v⟩ := r
              have h1 := hst.2
              cases cmd <;> simp only [WriteReq.call] at h1 <;>
                simp [WriteCmd.copies, WriteReq.call, h1]
              simp only [step] at h1
              revert h1
              simp only [remove]
              repeat' split
              all_goals simp
          · exact hck
        | some c =>
          have hmc2 : (atMaster m env path r).2 = some c := by rw [hmc]
          obtain ⟨hce, hst, hdl⟩ := copied_result hmc2
          have hkey : c.entry.key = r.entry.key := (master_copy hm hcw.1.2.2.2 hmc2).1.key
          by_cases hkk : c.entry.key = k
          · right
            have hnt' : c.cmd ≠ .touch := hnt c (by simp [sentCopies, hkk])
            have hkr : r.entry.key = k := by rw [← hkey]; exact hkk
            refine ⟨c, rfl, hkk, ?_⟩
            rcases (e3 c rfl).2.2.2.2 with hc | hc | hc
            · rw [if_pos ⟨by rw [hkr], hst hc⟩] at hck
              rw [← hce] at hck
              exact ⟨by rw [hck.1, hck.2], Or.inl ⟨hc, hck.2⟩⟩
            · obtain ⟨hcall, hd⟩ := hdl hc
              rw [if_neg (by rw [hd]; simp)] at hck
              simp only [MEvent.unversioned] at hun
              rw [hcall] at hd hce hun
              obtain ⟨hv, hdb⟩ := removed_version hm hun.1 hd
              simp only [step] at hce
              rw [← hce, hkr] at hv
              rw [hkr] at hdb
              exact ⟨by rw [hck, hv], Or.inr ⟨hc, hv, hdb⟩⟩
            · exact absurd hc hnt'
          · left
            refine ⟨fun c' h => by cases h; exact hkk, ?_⟩
            rw [if_neg] at hck
            · exact hck
            · intro h
              rw [← hkey] at h
              exact hkk (Option.some.inj h.1)
      | read env e =>
        left
        have hck := client_known hm env (c := .get e {}) rfl (k := k) (by
          have : (step m env (.get e {})).1 = m1 := by
            have := congrArg Prod.fst hap; simpa only [MEvent.apply, step] using this
          rw [this]; exact hk1)
        have h1 : (step m env (.get e {})).1 = m1 := by
          have := congrArg Prod.fst hap; simpa only [MEvent.apply, step] using this
        have h2 : x = none := by
          have := congrArg Prod.snd hap; simpa [MEvent.apply] using this.symm
        rw [h1] at hck
        rw [if_neg (by intro h; exact get_not_stored h.2)] at hck
        exact ⟨fun c h => (by rw [h2] at h; cases h), hck⟩
      | dump env k' =>
        left
        have h1 : (step m env (.get { key := k' } {})).1 = m1 := by
          have := congrArg Prod.fst hap; simpa only [MEvent.apply, step] using this
        have hck := client_known hm env (c := .get { key := k' } {}) rfl (k := k) (by
          rw [h1]; exact hk1)
        rw [h1] at hck
        rw [if_neg (by intro h; exact get_not_stored h.2)] at hck
        refine ⟨fun c h => ?_, hck⟩
        have := congrArg Prod.snd hap
        rw [h] at this
        simp only [MEvent.apply] at this
        split at this <;> cases this
    have h0' : ∀ it, lookup m1 Int64.minValue k = some it → it.version ≠ 0 := by
      intro it hit
      rcases hkn with ⟨hno, hkeq⟩ | ⟨c, hx, hck, hv, hc⟩
      · rcases (e6 hno).2 Int64.minValue with h | h
        · rw [h] at hit; exact h0 it hit
        · rw [h] at hit; cases hit
      · rcases hc with ⟨hc, hv2⟩ | ⟨hc, -, -⟩
        · rw [e5 c hx hck (by rw [hc]; decide), if_pos hc] at hit
          simp only [KState.visible, if_neg (not_expired_min _), Option.some.injEq] at hit
          subst hit
          show c.entry.version ≠ 0
          rw [hv2]
          intro hz
          have : (known m k + 1).toNat = 0 := by rw [hz]; rfl
          rw [UInt64.toNat_add] at this
          have h1 : (1 : UInt64).toNat = 1 := rfl
          omega
        · rw [e5 c hx hck (by rw [hc]; decide), if_neg (by rw [hc]; decide)] at hit
          cases hit
    have hrec := fun hl => ih (m := m1) e1 e2 h0' (fun e he => hev e (by simp [he])) hk2
      (by rw [hrun]; exact fun c hc => hnt c (List.mem_append.2 (Or.inr hc))) hl
    rw [hrun, lastVersion_known e1] at hrec
    simp only at hrec
    rcases hkn with ⟨hno, hkeq⟩ | ⟨c, rfl, hck, hv, hc⟩
    · have hxe : sentCopies k x.toList = [] := by
        cases x with
        | none => rfl
        | some y =>
          cases y with
          | dump e => rfl
          | copy c => simp [sentCopies, hno c rfl]
      rw [hxe, List.nil_append]
      rw [hkeq] at hrec
      exact hrec (by omega)
    · have hxe : sentCopies k (some (Sent.copy c)).toList = [c] := by simp [sentCopies, hck]
      rw [hxe]
      rw [hv] at hrec
      rcases hc with ⟨hc, hv2⟩ | ⟨hc, hv2, hdb⟩
      · have h1 : (1 : UInt64).toNat = 1 := rfl
        have hn : (known m k + 1).toNat = (known m k).toNat + 1 := by
          rw [UInt64.toNat_add]; omega
        refine ⟨?_, ?_, ?_⟩
        · rw [if_pos hc, hv2, UInt64.lt_iff_toNat_lt]; omega
        · rw [hv2]; intro hz; rw [hz] at hn; simp at hn
        · exact hrec (by rw [hv2]; omega)
      · refine ⟨?_, ?_, ?_⟩
        · rw [if_neg (by rw [hc]; decide), hv2]; exact UInt64.le_refl _
        · rw [hv2]
          cases hd : dbGet m.db k with
          | none => exact absurd hd hdb
          | some raw =>
            rw [known_of_raw hd]
            apply h0
            rw [lookup_min hm]; simp only [kstate, hd]
        · exact hrec (by rw [hv2]; omega)

/-! #### An instance -/

/-- Key "a" is dumped, then set, deleted and added; key "b" is only dumped; reads in between. -/
def buildEvents : List MEvent :=
  [.dump { now := 3000000 } [97],
   .write { now := 3000001 } [[109]] { cmd := .set, entry := { key := [97], size := 1, data := [56] } },
   .dump { now := 3000002 } [97],
   .write { now := 3000003 } [[109]] { cmd := .delete, entry := { key := [97] } },
   .read { now := 3000004 } { key := [97] },
   .write { now := 3000005 } [[109]] { cmd := .add, entry := { key := [97], size := 2, data := [57, 57] } },
   .dump { now := 3000006 } [97]]

/-- The copies arrive in order; dumped records arrive too early, too late and twice. -/
def buildArrivals : List (Env × Arrival) :=
  let e (v : UInt64) (x : Int64) (f : UInt32) (d : Bytes) : Entry :=
    { key := [97], flag := f, expire := x, size := UInt64.ofNat d.length, version := v, data := d }
  [({ now := 2999000 }, .dump (e 5 0 0 [57, 57])),
   ({ now := 2999001 }, .copy { cmd := .set, path := [[109]], entry := e 4 0 0 [56] }),
   ({ now := 2999002 }, .read { key := [97] }),
   ({ now := 2999003 }, .copy
      { cmd := .delete, path := [[109]], entry := { key := [97], version := 4 } }),
   ({ now := 2999004 }, .dump (e 3 3000100 5 [55])),
   ({ now := 2999005 }, .dump (e 4 0 0 [56])),
   ({ now := 2999006 }, .copy { cmd := .set, path := [[109]], entry := e 5 0 0 [57, 57] }),
   ({ now := 2999007 }, .dump (e 3 3000100 5 [55])),
   ({ now := 2999008 }, .dump (e 5 0 0 [57, 57]))]

example :
    sentCopies [97] (masterRun repStore buildEvents).2 = arrivedCopies [97] buildArrivals ∧
    sentCopies [97] (masterRun repStore buildEvents).2 ≠ [] ∧
    (∀ x ∈ buildArrivals, x.2.fromMaster (masterRun repStore buildEvents).2) ∧
    Growing (recordVersion repStore [97]) (sentCopies [97] (masterRun repStore buildEvents).2) ∧
    (∀ c ∈ sentCopies [97] (masterRun repStore buildEvents).2,
      c.cmd ≠ .touch ∧ (encodeWrite c).isSome) ∧
    ¬ Remembered { cacheSize := 10 } [97] ∧ StillKnows [97] { cacheSize := 10 } buildArrivals ∧
    (∀ ev ∈ buildEvents, ev.now ≤ 3000010) ∧
    (∀ x ∈ buildArrivals, x.1.now ≤ 3000010 ∧ x.1.putOk = true ∧ x.1.outOk = true) ∧
    lookup (masterRun repStore buildEvents).1 3000010 [97] = some ⟨[57, 57], 0, 0, 5⟩ ∧
    lookup (replicaRun { cacheSize := 10 } buildArrivals) 3000010 [97] =
      some ⟨[57, 57], 0, 0, 5⟩ := by
  decide +kernel

/-- A replica that has an older record of the key is brought up to date by the dump. -/
example :
    let m : Store := { db := [([97], serializeHeader { key := [97], size := 1, version := 2 } ++ [54])], cacheSize := 10 }
    lookup m 3000010 [97] = some ⟨[54], 0, 0, 2⟩ ∧
    lookup (replicaRun m [({ now := 3000003 }, .dump
      { key := [97], flag := 5, size := 1, expire := 3000100, version := 3, data := [55] })]) 3000010 [97] =
        some ⟨[55], 5, 3000100, 3⟩ := by
  decide +kernel

/-! #### Where it fails -/

/-- A touch is copied without a version.  Here it arrives before the dumped record it was meant
for: the replica has nothing to touch, and keeps the old expiry for ever. -/
theorem C12_touch_overtakes_dump :
    let evs : List MEvent := [.dump { now := 3000000 } [97],
      .write { now := 3000001 } [[109]] { cmd := .touch, entry := { key := [97], expire := 4000000 } }]
    let as : List (Env × Arrival) := [
      ({ now := 3000002 }, .copy { cmd := .touch, path := [[109]], entry :=
        { key := [97], flag := 5, size := 1, expire := 4000000, version := 3, data := [55] } }),
      ({ now := 3000003 }, .dump
        { key := [97], flag := 5, size := 1, expire := 3000100, version := 3, data := [55] })]
    (∀ x ∈ as, x.2.fromMaster (masterRun repStore evs).2) ∧
    arrivedCopies [97] as = sentCopies [97] (masterRun repStore evs).2 ∧
    arrivedDumps [97] as = sentDumps [97] (masterRun repStore evs).2 ∧
    lookup (masterRun repStore evs).1 3500000 [97] = some ⟨[55], 5, 4000000, 3⟩ ∧
    lookup (replicaRun { cacheSize := 10 } as) 3500000 [97] = none := by
  decide +kernel

/-- A replica that is not empty keeps what the master no longer has: nothing in a reconstruction
removes a key, the dump only adds. -/
theorem C12_leftover :
    let m : Store := { cacheSize := 10 }
    (masterRun m [.dump { now := 3000000 } [97]]).2 = [] ∧
    lookup (masterRun m [.dump { now := 3000000 } [97]]).1 3000010 [97] = none ∧
    lookup (replicaRun repStore []) 3000010 [97] = some ⟨[55], 5, 3000100, 3⟩ := by
  decide +kernel

/-- A deleted key comes back when the replica has forgotten the deletion before the dumped record
arrives: here its cache has room for one deletion, and another key is deleted in between. -/
theorem C12_forgotten_deletion :
    let m : Store := { db := [([98], serializeHeader { key := [98], size := 0, version := 7 }),
      ([97], serializeHeader { key := [97], size := 1, version := 3 } ++ [55])], cacheSize := 1 }
    let evs : List MEvent := [.dump { now := 3000000 } [97],
      .write { now := 3000001 } [[109]] { cmd := .delete, entry := { key := [97] } },
      .write { now := 3000002 } [[109]] { cmd := .delete, entry := { key := [98] } }]
    let as : List (Env × Arrival) := [
      ({ now := 3000003 }, .copy { cmd := .delete, path := [[109]], entry := { key := [97], version := 3 } }),
      ({ now := 3000004 }, .copy { cmd := .delete, path := [[109]], entry := { key := [98], version := 7 } }),
      ({ now := 3000005 }, .dump { key := [97], size := 1, version := 3, data := [55] })]
    (∀ x ∈ as, x.2.fromMaster (masterRun m evs).2) ∧
    arrivedCopies [97] as = sentCopies [97] (masterRun m evs).2 ∧
    lookup (masterRun m evs).1 3000010 [97] = none ∧
    lookup (replicaRun { cacheSize := 1 } as) 3000010 [97] = some ⟨[55], 0, 0, 3⟩ := by
  decide +kernel

end Flare
