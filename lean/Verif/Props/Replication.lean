import Verif.Lemmas.Replication

/-! C11: a replica that receives the master's copies in order holds what the master holds. -/
namespace Flare

theorem lookup_earlier {m : Store} (hm : m.Ok) {t t' : Int64} (ht : t ≤ t') {k : Bytes}
    {it : Item} (h : lookup m t' k = some it) : lookup m t k = some it := by
  obtain ⟨raw, hraw, rfl, hx⟩ := (lookup_eq_some hm).1 h
  rw [lookup_eq_some hm]
  exact ⟨raw, hraw, rfl, fun hx2 => hx ⟨hx2.1, Int64.le_trans hx2.2 ht⟩⟩

theorem master_ok {m : Store} (hm : m.Ok) (env : Env) (path : List Bytes) (r : WriteReq) :
    (atMaster m env path r).1.Ok := by
  simp only [atMaster]
  exact step_ok hm ..

theorem copy_absolute {m : Store} (ha : AbsoluteStore m) {m' : Store} {now : Int64}
    {r c : WriteReq} (hr : Absolute r.entry.expire) (hf : CopyFacts m m' now r c) :
    Absolute c.entry.expire ∧ AbsoluteStore m' := by
  have hc : Absolute c.entry.expire := by
    rcases hf.expire with h | ⟨it, hl, h⟩ <;> rw [h]
    · exact hr
    · exact ha _ _ _ hl
  refine ⟨hc, fun t k it hl => ?_⟩
  by_cases hk : k = r.entry.key
  · subst hk
    rcases hf.kinds with h | h | h
    · rw [(hf.ofSet h).2.1] at hl
      split at hl
      · cases hl
      · cases hl; exact hc
    · rw [(hf.ofDelete h).1] at hl; cases hl
    · obtain ⟨it2, -, h2⟩ := hf.ofTouch h
      rw [h2] at hl
      split at hl
      · cases hl
      · cases hl; exact hc
  · rw [lookup_congr_db k (hf.others k hk) t] at hl
    exact ha _ _ _ hl

/-- One write and its copy. -/
theorem write_same {m s : Store} (hm : m.Ok) (hs : s.Ok) (ha : AbsoluteStore m) {env : Env}
    {path : List Bytes} {r : WriteReq} {arrival : Env} (hr : ClientWrite r) (hpath : PlainPath path)
    (hp : arrival.putOk = true) (ho : arrival.outOk = true)
    (hca : ∀ c, (atMaster m env path r).2 = some c → CopyArrives m arrival.now c)
    (hnow : env.now ≤ arrival.now) (h : SameFrom arrival.now m s) :
    (Event.apply (m, s) (.write env path r arrival)).1.Ok ∧
    (Event.apply (m, s) (.write env path r arrival)).2.Ok ∧
    AbsoluteStore (Event.apply (m, s) (.write env path r arrival)).1 ∧
    SameFrom arrival.now (Event.apply (m, s) (.write env path r arrival)).1
      (Event.apply (m, s) (.write env path r arrival)).2 := by
  simp only [Event.apply]
  obtain ⟨m', c, hmc⟩ : ∃ m' c, atMaster m env path r = (m', c) := ⟨_, _, rfl⟩
  have hm' : m'.Ok := by have := master_ok hm env path r; rwa [hmc] at this
  cases c with
  | none =>
    have hn := master_no_copy hm (env := env) (path := path) (r := r) (by rw [hmc])
    rw [hmc] at hn ⊢
    refine ⟨hm', hs, fun t k it hl => ?_, fun t ht k => ?_⟩
    · rcases hn.2 t k with h1 | h1
      · exact ha t k it (by rw [← h1]; exact hl)
      · exact absurd (h1.symm.trans hl) (by simp)
    · simp only at hn ⊢
      rw [hn.1 t k (Int64.le_trans hnow ht), h t ht k]
  | some c =>
    have hf := master_copy hm (env := env) (path := path) hr.2.2.2 (by rw [hmc])
    have hca := hca c (by rw [hmc])
    rw [hmc] at hf ⊢
    obtain ⟨hf, hcp⟩ := hf
    obtain ⟨hc, ha'⟩ := copy_absolute ha hr.2.2.1 hf
    refine ⟨hm', slave_ok hs .., ha', ?_⟩
    refine copy_same hs hf ⟨?_, ?_, ?_, absolute_nonneg hc⟩ hc hca hp ho hnow
      (fun it hl => lookup_earlier hm hnow hl) h
    · rw [hf.key]; exact hr.1
    · rw [hcp]; exact hpath
    · rw [hf.option]; exact hr.2.1

/-- C11.  A slave that holds what its master holds at the beginning, and executes the copies of the
master's writes in order - however late - holds the same afterwards: whoever reads any key, at
any time after the last event, gets the same answer (value, flag, expiry, version) from both. -/
theorem C11_replica_equal_partial {m s : Store} (hm : m.Ok) (hs : s.Ok) (ha : AbsoluteStore m)
    {t0 : Int64} (h : SameFrom t0 m s) {evs : List Event} (htime : Timely t0 t0 evs)
    (hfair : Fair (m, s) evs) {t : Int64} (ht0 : t0 ≤ t) (ht : ∀ ev ∈ evs, ev.doneBy t)
    (k : Bytes) :
    lookup (replicate (m, s) evs).2 t k = lookup (replicate (m, s) evs).1 t k := by
  have main : ∀ (evs : List Event) (m s : Store) (tm ts : Int64), m.Ok → s.Ok → AbsoluteStore m →
      (∀ t, tm ≤ t → ts ≤ t → ∀ k, lookup s t k = lookup m t k) → Timely tm ts evs →
      Fair (m, s) evs → tm ≤ t → ts ≤ t → (∀ ev ∈ evs, ev.doneBy t) →
      lookup (replicate (m, s) evs).2 t k = lookup (replicate (m, s) evs).1 t k := by
    intro evs
    induction evs with
    | nil => intro m s tm ts _ _ _ h _ _ h1 h2 _; exact h t h1 h2 k
    | cons ev evs ih =>
      intro m s tm ts hm hs ha h htime hfair h1 h2 hd
      have hd' := hd ev (by simp)
      have hds : ∀ ev ∈ evs, ev.doneBy t := fun e he => hd e (by simp [he])
      obtain ⟨hf, hfair⟩ := hfair
      have hstep : replicate (m, s) (ev :: evs) = replicate (ev.apply (m, s)) evs := rfl
      rw [hstep]
      cases ev with
      | write env path r arrival =>
        obtain ⟨g1, g2, g3, g4⟩ := htime
        obtain ⟨f1, f2, f3, f4, f5⟩ := hf
        obtain ⟨w1, w2, w3, w4⟩ := write_same hm hs ha f1 f2 f3 f4 f5 g3
          (fun t' ht' k => h t' (Int64.le_trans g1 (Int64.le_trans g3 ht'))
            (Int64.le_trans g2 ht') k)
        exact ih _ _ env.now arrival.now w1 w2 w3 (fun t' _ ht' k => w4 t' ht' k) g4 hfair
          hd'.1 hd'.2 hds
      | readMaster env e =>
        obtain ⟨g1, g2⟩ := htime
        refine ih _ _ env.now ts (get_ok hm ..) hs ?_ ?_ g2 hfair hd' h2 hds
        · intro t' k it hl
          rcases get_lookup_or (s := m) env e {} t' k with h3 | h3
          · exact ha t' k it (by rw [← h3]; exact hl)
          · exact absurd (h3.symm.trans hl) (by simp)
        · intro t' ht1 ht2 k
          rw [get_lookup hm env e {} ht1 k]
          exact h t' (Int64.le_trans g1 ht1) ht2 k
      | readSlave env e =>
        obtain ⟨g1, g2⟩ := htime
        refine ih _ _ tm env.now hm (get_ok hs ..) ha ?_ g2 hfair h1 hd' hds
        intro t' ht1 ht2 k
        rw [get_lookup hs env e {} ht2 k]
        exact h t' ht1 (Int64.le_trans g1 ht2) k
      | flushMaster env => exact hf.elim
  exact main evs m s t0 t0 hm hs ha (fun t' ht' _ k => h t' ht' k) htime hfair ht0 ht0 ht

/-! #### An instance -/

/-- Key "a" holds "7" with flag 5, version 3, until 3000100. -/
def repStore : Store :=
  { db := [([97], serializeHeader
      { key := [97], flag := 5, expire := 3000100, size := 1, version := 3 } ++ [55])]
    cacheSize := 10 }

theorem repStore_ok : repStore.Ok := by
  refine ⟨fun k raw h => ?_, by decide, by decide⟩
  simp only [repStore, dbGet] at h
  split at h
  · cases h
    exact rawOk_serialize (by decide) (by decide)
  · cases h

theorem repStore_absolute : AbsoluteStore repStore := by
  intro t k it h
  obtain ⟨raw, hraw, rfl, -⟩ := (lookup_eq_some repStore_ok).1 h
  simp only [repStore, dbGet] at hraw
  split at hraw
  · cases hraw
    rw [itemOf_serialize]
    right; decide
  · cases hraw

/-- incr a 5, append a "x", set b with expiry, a read at the slave, touch a, delete b, add b;
copies arrive 10 to 40 seconds later. -/
def repEvents : List Event :=
  [.write { now := 3000000 } [[109]] { cmd := .incr, entry := { key := [97] }, value := 5 }
      { now := 3000010 },
   .write { now := 3000001 } [[109]]
      { cmd := .append, entry := { key := [97], size := 1, data := [120] } } { now := 3000040 },
   .write { now := 3000002 } [[109]]
      { cmd := .set, entry := { key := [98], expire := 3000045, size := 1, data := [121] } }
      { now := 3000040 },
   .readSlave { now := 3000050 } { key := [98] },
   .write { now := 3000030 } [[109]] { cmd := .touch, entry := { key := [97], expire := 3000500 } }
      { now := 3000070 },
   .write { now := 3000040 } [[109]] { cmd := .delete, entry := { key := [98] } } { now := 3000070 },
   .write { now := 3000041 } [[109]]
      { cmd := .add, entry := { key := [98], size := 2, data := [122, 122] } } { now := 3000071 }]

theorem repEvents_fair : Fair (repStore, repStore) repEvents := by
  have hpk : ∀ c : UInt8, c ≠ 0 → c ≠ chSpace → c ≠ chNl → PlainKey [c] 8192 := by
    intro c h1 h2 h3
    exact ⟨by simp, by simp [h1, h2, h3], by simp⟩
  have hpp : PlainPath [[109]] := by
    intro n hn
    simp only [List.mem_singleton] at hn
    subst hn
    decide
  have hca : ∀ c? : Option WriteReq, ∀ m t,
      (match c? with
        | none => true
        | some c => (encodeWrite c).isSome && (c.cmd != .set || c.entry.version != 0) &&
          (c.cmd != .touch || (lookup m t c.entry.key).isSome)) = true →
      ∀ c, c? = some c → CopyArrives m t c := by
    intro c? m t h c hc
    subst hc
    simp only [Bool.and_eq_true, Bool.or_eq_true, bne_iff_ne, ne_eq] at h
    refine ⟨h.1.1, fun h1 => (h.1.2).resolve_left (by simp [h1]), fun h1 => Or.inl ?_⟩
    have := h.2.resolve_left (by simp [h1])
    intro h2; rw [h2] at this; cases this
  have hab0 : Absolute 0 := Or.inl rfl
  refine ⟨⟨⟨hpk 97 (by decide) (by decide) (by decide), by decide, hab0, by decide, by decide⟩,
      hpp, rfl, rfl, hca _ _ _ (by decide +kernel)⟩,
    ⟨⟨hpk 97 (by decide) (by decide) (by decide), by decide, hab0, by decide, by decide⟩,
      hpp, rfl, rfl, hca _ _ _ (by decide +kernel)⟩,
    ⟨⟨hpk 98 (by decide) (by decide) (by decide), by decide, Or.inr (by decide), by decide,
      by decide⟩, hpp, rfl, rfl, hca _ _ _ (by decide +kernel)⟩,
    trivial,
    ⟨⟨hpk 97 (by decide) (by decide) (by decide), by decide, Or.inr (by decide), by decide,
      by decide⟩, hpp, rfl, rfl, hca _ _ _ (by decide +kernel)⟩,
    ⟨⟨hpk 98 (by decide) (by decide) (by decide), by decide, hab0, by decide, by decide⟩,
      hpp, rfl, rfl, hca _ _ _ (by decide +kernel)⟩,
    ⟨⟨hpk 98 (by decide) (by decide) (by decide), by decide, hab0, by decide, by decide⟩,
      hpp, rfl, rfl, hca _ _ _ (by decide +kernel)⟩, trivial⟩

example : repStore.Ok ∧ AbsoluteStore repStore ∧ SameFrom 2999999 repStore repStore ∧
    Timely 2999999 2999999 repEvents ∧ Fair (repStore, repStore) repEvents ∧
    (∀ ev ∈ repEvents, ev.doneBy 3000080) ∧
    lookup (replicate (repStore, repStore) repEvents).2 3000080 [97] =
      some ⟨[49, 50, 120], 5, 3000500, 5⟩ ∧
    lookup (replicate (repStore, repStore) repEvents).2 3000080 [98] =
      some ⟨[122, 122], 0, 0, 2⟩ := by
  refine ⟨repStore_ok, repStore_absolute, fun _ _ _ => rfl, ?_, repEvents_fair, ?_,
    by decide +kernel, by decide +kernel⟩
  · simp only [repEvents, Timely]; decide
  · simp only [repEvents, List.forall_mem_cons, Event.doneBy]
    exact ⟨by decide, by decide, by decide, by decide, by decide, by decide, by decide,
      fun _ h => nomatch h⟩

/-! #### Where it fails -/

/-- A touch that arrives after the old expiry is lost: the master answered TOUCHED and keeps the
key, the slave finds nothing to touch.  Both stores are equal at the beginning, nothing fails, no
clock is wrong. -/
theorem C11_late_touch :
    let evs := [Event.write { now := 3000050 } [[109]]
      { cmd := .touch, entry := { key := [97], expire := 3000500 } } { now := 3000150 }]
    Timely 3000000 3000000 evs ∧
    (step repStore { now := 3000050 } (WriteReq.call
      { cmd := .touch, entry := { key := [97], expire := 3000500 } })).2.r = some .touched ∧
    lookup (replicate (repStore, repStore) evs).1 3000200 [97] =
      some ⟨[55], 5, 3000500, 3⟩ ∧
    lookup (replicate (repStore, repStore) evs).2 3000200 [97] = none := by
  refine ⟨?_, by decide, by decide +kernel, by decide +kernel⟩
  simp only [Timely]; decide

/-- If the slave's clock is behind, a write that names its version can be lost: at the master
the record has expired and any version is accepted, the slave still sees it and finds the version
too old. -/
theorem C11_clock_skew :
    let evs := [Event.write { now := 3000110 } [[109]]
      { cmd := .set, entry := { key := [97], size := 1, version := 2, data := [57] } }
      { now := 3000090 }]
    lookup (replicate (repStore, repStore) evs).1 3000200 [97] = some ⟨[57], 0, 0, 2⟩ ∧
    lookup (replicate (repStore, repStore) evs).2 3000200 [97] = none := by
  decide +kernel

/-- flush_all empties the master only. -/
theorem C11_flush_not_replicated :
    let evs := [Event.flushMaster { now := 3000010 }]
    lookup (replicate (repStore, repStore) evs).1 3000050 [97] = none ∧
    lookup (replicate (repStore, repStore) evs).2 3000050 [97] = some ⟨[55], 5, 3000100, 3⟩ := by
  decide +kernel

end Flare
