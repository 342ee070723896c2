import Verif.Model.CrossCluster
import Verif.Lemmas.RebuildMaster
import Verif.Props.Rebuild

/-! C67: the replication to another cluster. -/
namespace Flare

/-- Nothing arrives at the other cluster that has not been sent; clients there only read. -/
def Arrival.crossedFrom (xs : List Sent) : Arrival → Prop
  | .copy c => ∃ x ∈ xs, c = x.crossed
  | .dump _ => False
  | .read _ => True

/-- The items that arrive for key `k`, in order. -/
def crossItems (k : Bytes) (as : List (Env × Arrival)) : List Item :=
  as.filterMap fun
    | (_, .copy c) => if c.entry.key = k then some c.entry.item else none
    | _ => none

/-! ### Lemmas -/

theorem master_dumped {evs : List MEvent} : ∀ {m : Store}, m.Ok → AbsoluteStore m →
    (∀ ev ∈ evs, ev.clientWrite) → ∀ e, .dump e ∈ (masterRun m evs).2 →
    (∃ env, .dump env e.key ∈ evs) ∧ e.option = 0 ∧ Absolute e.expire ∧ e.Ok := by
  induction evs with
  | nil => intro m _ _ _ e h; cases h
  | cons ev evs ih =>
    intro m hm ha hev e he
    have hf := event_facts hm ha [] (hev ev (by simp))
    obtain ⟨m1, x, hap⟩ : ∃ m1 x, ev.apply m = (m1, x) := ⟨_, _, rfl⟩
    obtain ⟨m2, xs, hrun⟩ : ∃ m2 xs, masterRun m1 evs = (m2, xs) := ⟨_, _, rfl⟩
    have hrun' : masterRun m (ev :: evs) = (m2, x.toList ++ xs) := by
      simp only [masterRun, hap, hrun]
      cases x <;> rfl
    rw [hrun'] at he
    rcases List.mem_append.1 he with h | h
    · have hx : (ev.apply m).2 = some (.dump e) := by rw [hap]; simpa using h
      obtain ⟨h1, h2⟩ := hf.dumps e hx
      have : (∃ env, ev = .dump env e.key) ∧ e.option = 0 := by
       cases ev with
       | write env path r =>
         simp only [MEvent.apply] at hx
         cases hc : (atMaster m env path r).2 <;> simp [hc] at hx
       | read env e => cases hx
       | dump env k =>
         simp only [MEvent.apply] at hx
         split at hx
         next hg =>
           cases hx
           obtain ⟨g1, -, g2, -⟩ := dumped hm hg
           exact ⟨⟨env, by rw [g1]⟩, g2⟩
         · cases hx
      obtain ⟨⟨env, rfl⟩, ho⟩ := this
      exact ⟨⟨env, List.mem_cons_self⟩, ho, ha _ _ _ h2, h1⟩
    · have := ih (m := m1) ?_ ?_ (fun e he => hev e (by simp [he])) e (by rw [hrun]; exact h)
      · obtain ⟨⟨env, g1⟩, g2⟩ := this
        exact ⟨⟨env, List.mem_cons_of_mem _ g1⟩, g2⟩
      · rw [← show (ev.apply m).1 = m1 by rw [hap]]; exact hf.ok
      · rw [← show (ev.apply m).1 = m1 by rw [hap]]; exact hf.absolute

/-- An older value does not replace a record that has not expired. -/
theorem kstate_set_old {s : Store} (hs : s.Ok) {env : Env} {e : Entry} (he : e.Ok) (hp : env.putOk = true)
    (h0 : e.version ≠ 0) {it : Item} (hk : kstate s e.key = .record it) (hx : ¬ 0 < it.expire)
    (hv : e.version ≤ it.version) : kstate (set s env e .ofSet).1 e.key = .record it := by
  have hl : lookup s env.now e.key = some it := by
    rw [kstate_lookup hs, hk]
    simp [KState.visible, hx]
  obtain ⟨cur, hc, hst, hv', -⟩ := setCurrent_visible (b := .ofSet) hs hl
  rw [set_eval_plain hc hst rfl he hp]
  have : setCheck .alive .ofSet e.version cur.version = .error .notStored := by
    simp [setCheck, Beh.ofSet, h0, hv', hv]
  rw [this]
  exact hk

/-- What an arrival of the other cluster has to be. -/
def GoodCross (k : Bytes) (x : Env × Arrival) : Prop :=
  x.1.putOk = true ∧ match x.2 with
    | .copy c => Sendable c 8192 ∧ (c.entry.key = k → c.cmd = .set ∧ (encodeWrite c).isSome ∧
        c.entry.version ≠ 0 ∧ Absolute c.entry.expire ∧ c.value = 0 ∧ c.entry.Ok ∧ ¬ 0 < c.entry.expire)
    | .dump _ => False
    | .read _ => True

/-- The store knows the newest of the items that have arrived. -/
def Newest (l : List Item) (st : KState) : Prop :=
  (l = [] ∧ st = .nothing) ∨ ∃ x ∈ l, st = .record x ∧ ¬ 0 < x.expire ∧ ∀ y ∈ l, y.version ≤ x.version

theorem newest_step {s : Store} (hs : s.Ok) (hz : 0 < s.cacheSize) {k : Bytes} {l : List Item} {env : Env}
    {a : Arrival} (hg : GoodCross k (env, a)) (h : Newest l (kstate s k)) :
    Newest (l ++ crossItems k [(env, a)]) (kstate (a.apply s env) k) := by
  obtain ⟨hp, hg⟩ := hg
  have hkeep : ∀ c : Cmd, c ≠ .flush → c.key? ≠ some k →
      kstate (step s env c).1 k = kstate s k := by
    intro c hf hk
    refine kstate_other hs hf hk fun hr => ?_
    rcases h with ⟨-, h⟩ | ⟨x, -, h, -⟩
    · exact absurd h (kstate_remembered.1 hr)
    · left
      rw [step_db_ne hf hk]
      intro hd
      simp only [kstate, hd] at h
      revert h
      cases tombGet s.cache k <;> simp
  cases a with
  | copy c =>
    simp only at hg
    obtain ⟨hsend, hg⟩ := hg
    by_cases hk : c.entry.key = k
    · obtain ⟨hc, hen, h0, habs, hval, hok, hnx⟩ := hg hk
      have hdel := deliver_arrives hsend hen env.now
      have harr : arrives env.now c = c :=
        C35_store_unchanged env.now c (by simp [hc]) habs hok.1 hval
      have hit : crossItems k [(env, Arrival.copy c)] = [c.entry.item] := by
        simp [crossItems, hk]
      rw [hit]
      subst hk
      simp only [Arrival.apply, atSlave, hdel, harr, WriteReq.call, hc, step]
      rcases h with ⟨rfl, h⟩ | ⟨x, hx, h, hxe, hmax⟩
      · right
        rcases kstate_set hs hok hp h0 (env := env) with h1 | ⟨it, h1, -⟩
        · exact ⟨_, by simp, h1, hnx, by simp⟩
        · rw [h] at h1; cases h1
      · right
        by_cases hv : c.entry.version ≤ x.version
        · refine ⟨x, by simp [hx], kstate_set_old hs hok hp h0 h hxe hv, hxe, ?_⟩
          intro y hy
          rcases List.mem_append.1 hy with hy | hy
          · exact hmax y hy
          · rw [List.mem_singleton.1 hy]; exact hv
        · rcases kstate_set hs hok hp h0 (env := env) with h1 | ⟨it, h1, h2, -⟩
          · refine ⟨_, by simp, h1, hnx, ?_⟩
            intro y hy
            have hlt : x.version < c.entry.version := UInt64.not_le.1 hv
            rcases List.mem_append.1 hy with hy | hy
            · exact UInt64.le_of_lt (UInt64.lt_of_le_of_lt (hmax y hy) hlt)
            · rw [List.mem_singleton.1 hy]; exact UInt64.le_refl _
          · rw [h] at h1; cases h1
            exact absurd h2 hv
    · have hit : crossItems k [(env, Arrival.copy c)] = [] := by simp [crossItems, hk]
      rw [hit, List.append_nil]
      simp only [Arrival.apply, atSlave]
      cases hd : deliver env.now c with
      | none => exact h
      | some r =>
        have hen : (encodeWrite c).isSome := by
          simp only [deliver] at hd
          split at hd
          · cases hd
          · rename_i h; simp [h]
        rw [deliver_arrives hsend hen] at hd
        cases hd
        simp only
        rw [hkeep _ (call_not_flush _) (by rw [call_key, arrives_key]; simpa using hk)]
        exact h
  | dump e => exact hg.elim
  | read e =>
    have hit : crossItems k [(env, Arrival.read e)] = [] := by simp [crossItems]
    rw [hit, List.append_nil]
    by_cases hk : e.key = k
    · subst hk
      simp only [Arrival.apply]
      rcases kstate_get hs hz (env := env) (e := e) with h1 | ⟨it, h1, h2, h3⟩
      · rw [h1]; exact h
      · rcases h with ⟨-, h⟩ | ⟨x, -, h, hxe, -⟩
        · rw [h] at h1; cases h1
        · rw [h] at h1; cases h1
          exact absurd h2.1 hxe
    · rw [show kstate (Arrival.apply s env (.read e)) k = kstate s k from
        hkeep (.get e {}) (by simp) (by simpa [Cmd.key?] using hk)]
      exact h

theorem newest_run {k : Bytes} (as : List (Env × Arrival)) : ∀ {s : Store} {l : List Item}, s.Ok →
    0 < s.cacheSize → (∀ x ∈ as, GoodCross k x) → Newest l (kstate s k) →
    (replicaRun s as).Ok ∧ Newest (l ++ crossItems k as) (kstate (replicaRun s as) k) := by
  induction as with
  | nil => intro s l hs _ _ h; simpa [crossItems, replicaRun] using ⟨hs, h⟩
  | cons x as ih =>
    intro s l hs hz hg h
    obtain ⟨env, a⟩ := x
    have h1 := newest_step hs hz (hg _ List.mem_cons_self) h
    have h2 := ih (s := a.apply s env) (arrival_ok hs env a) (by rw [arrival_cacheSize]; exact hz)
      (fun x hx => hg x (List.mem_cons_of_mem _ hx)) h1
    have hsplit : crossItems k ((env, a) :: as) = crossItems k [(env, a)] ++ crossItems k as := by
      simp only [crossItems]
      rw [← List.filterMap_append]
      rfl
    rw [hsplit, ← List.append_assoc]
    exact h2

/-! ### C67 -/

theorem plainPath_nil : PlainPath [] := by
  intro n h
  cases h

/-- What is sent for key `k` comes from the record the master had, or from one of its copies. -/
theorem crossed_from {m : Store} {k : Bytes} {evs : List MEvent}
    (hm : m.Ok) (ha : AbsoluteStore m) (hev : ∀ ev ∈ evs, ev.clientWrite)
    (hkey : ∀ env k', .dump env k' ∈ evs → PlainKey k' 8192)
    (hnt : ∀ c ∈ sentCopies k (masterRun m evs).2, c.cmd ≠ .touch)
    {x : Sent} (hx : x ∈ (masterRun m evs).2) :
    Sendable x.crossed 8192 ∧ Absolute x.crossed.entry.expire ∧ x.crossed.value = 0 ∧
    (x.crossed.cmd = .set → x.crossed.entry.Ok) ∧
    (x.crossed.entry.key = k → x.crossed ∈ sentCopies k (masterRun m evs).2 ∨
      x.crossed.cmd = .set ∧ (lookup m Int64.minValue k = some x.crossed.entry.item ∨
        ∃ d ∈ sentCopies k (masterRun m evs).2, d.cmd = .set ∧ d.entry.item = x.crossed.entry.item)) := by
  obtain ⟨f1, f2, f3, f4, f5⟩ := master_facts k evs hm ha hev hnt
  cases x with
  | copy c =>
    obtain ⟨g1, g2, g3, g4, -⟩ := f2 c hx
    refine ⟨g1, g2, g3, g4, fun hk => Or.inl ?_⟩
    simp only [sentCopies, List.mem_filterMap]
    exact ⟨.copy c, hx, by simpa [Sent.crossed] using hk⟩
  | dump e =>
    obtain ⟨⟨env, g1⟩, g2, g3, g4⟩ := master_dumped hm ha hev e hx
    refine ⟨⟨hkey env _ g1, plainPath_nil, ?_, absolute_nonneg g3⟩, g3, rfl, fun _ => g4,
      fun hk => Or.inr ⟨rfl, (f3 e hx hk).2⟩⟩
    show e.option < 8
    rw [g2]; decide

/-- C67.  A master sends copies of its writes and its records, as sets, to another cluster, which knows
nothing about key `k`.  All this arrives there in any order, mixed, with repetitions and with reads in
between; at least the last copy of `k` arrives, or, if there is none, one of the records (if there is
still one).  Then both answer the same for `k` at every time not earlier than all these events.

Partial: `k` is only given values, is not deleted or touched, and does not expire (C67_resurrected,
C67_old_value).  `hgrow`: C12_growing. -/
theorem C67_any_order_partial {m s : Store} (hm : m.Ok) (ha : AbsoluteStore m) (hs : s.Ok)
    (hz : 0 < s.cacheSize) {k : Bytes} (hnew : ¬ Remembered s k)
    (h0 : ∀ it, lookup m Int64.minValue k = some it → it.version ≠ 0 ∧ ¬ 0 < it.expire)
    {evs : List MEvent} (hev : ∀ ev ∈ evs, ev.clientWrite)
    (hkey : ∀ env k', .dump env k' ∈ evs → PlainKey k' 8192)
    (hset : ∀ c ∈ sentCopies k (masterRun m evs).2, c.cmd = .set ∧ ¬ 0 < c.entry.expire)
    (hgrow : Growing (recordVersion m k) (sentCopies k (masterRun m evs).2))
    {as : List (Env × Arrival)}
    (hfrom : ∀ x ∈ as, x.2.crossedFrom (masterRun m evs).2)
    (hfit : ∀ env c, (env, Arrival.copy c) ∈ as → c.entry.key = k → (encodeWrite c).isSome)
    (hput : ∀ x ∈ as, x.1.putOk = true)
    {t : Int64} (htm : ∀ ev ∈ evs, ev.now ≤ t)
    (hlast : ∀ c, (sentCopies k (masterRun m evs).2).getLast? = some c →
      ∃ env, (env, Arrival.copy c) ∈ as)
    (hdump : sentCopies k (masterRun m evs).2 = [] → lookup (masterRun m evs).1 t k ≠ none →
      crossItems k as ≠ []) :
    lookup (replicaRun s as) t k = lookup (masterRun m evs).1 t k := by
  have hnt : ∀ c ∈ sentCopies k (masterRun m evs).2, c.cmd ≠ .touch :=
    fun c hc => by rw [(hset c hc).1]; decide
  have hcf := fun x hx => crossed_from (x := x) hm ha hev hkey hnt hx
  obtain ⟨-, -, -, f4, f5⟩ := master_facts k evs hm ha hev hnt
  generalize hsent : masterRun m evs = run at *
  obtain ⟨m', sent⟩ := run
  simp only at *
  let P : Item → Prop := fun it => lookup m Int64.minValue k = some it ∨
    ∃ d ∈ sentCopies k sent, d.cmd = .set ∧ d.entry.item = it
  have hP : ∀ env c, (env, Arrival.copy c) ∈ as → c.entry.key = k → c.cmd = .set ∧ P c.entry.item := by
    intro env c hx hk
    obtain ⟨y, hy, rfl⟩ := hfrom _ hx
    rcases (hcf y hy).2.2.2.2 hk with h | h
    · exact ⟨(hset _ h).1, Or.inr ⟨_, h, (hset _ h).1, rfl⟩⟩
    · exact h
  have hPx : ∀ it, P it → it.version ≠ 0 ∧ ¬ 0 < it.expire := by
    rintro it (h | ⟨d, hd, -, rfl⟩)
    · exact h0 it h
    · exact ⟨growing_ne_zero hgrow d hd, (hset d hd).2⟩
  have hgood : ∀ x ∈ as, GoodCross k x := by
    rintro ⟨env, a⟩ hx
    refine ⟨hput _ hx, ?_⟩
    have hfr := hfrom _ hx
    cases a with
    | copy c =>
      obtain ⟨y, hy, hc⟩ := hfr
      obtain ⟨g1, g2, g3, g4, -⟩ := hcf y hy
      rw [← hc] at g1 g2 g3 g4
      refine ⟨g1, fun hk => ?_⟩
      obtain ⟨p1, p2⟩ := hP env c hx hk
      exact ⟨p1, hfit env c hx hk, (hPx _ p2).1, g2, g3, g4 p1, (hPx _ p2).2⟩
    | dump e => exact hfr
    | read e => trivial
  have hstart : kstate s k = .nothing := by
    rw [kstate_remembered] at hnew
    exact Classical.byContradiction hnew
  obtain ⟨hok, hN⟩ := newest_run as hs hz hgood (l := []) (Or.inl ⟨rfl, hstart⟩)
  rw [List.nil_append] at hN
  have hIt : ∀ it ∈ crossItems k as, P it := by
    intro it hit
    simp only [crossItems, List.mem_filterMap] at hit
    obtain ⟨⟨env, a⟩, hx, hit⟩ := hit
    cases a with
    | copy c =>
      simp only at hit
      split at hit
      next hk => cases hit; exact (hP env c hx hk).2
      · cases hit
    | dump e => cases hit
    | read e => cases hit
  rw [kstate_lookup hok]
  by_cases hcs : sentCopies k sent = []
  · rw [f4 hcs t htm]
    have hP' : ∀ it, P it → lookup m Int64.minValue k = some it := by
      rintro it (h | ⟨d, hd, -⟩)
      · exact h
      · rw [hcs] at hd; cases hd
    rcases hN with ⟨hn, hst⟩ | ⟨x, hx, hst, -⟩
    · rw [hst]
      have hl : lookup m' t k = none :=
        Classical.byContradiction fun h => hdump hcs h hn
      rw [← f4 hcs t htm, hl]; rfl
    · rw [hst, ← (lookup_min hm).1 (hP' x (hIt x hx)), ← kstate_lookup hm]
  · obtain ⟨cs, c, hc⟩ : ∃ cs c, sentCopies k sent = cs ++ [c] :=
      ⟨_, _, (List.dropLast_concat_getLast hcs).symm⟩
    have hcm : c ∈ sentCopies k sent := by rw [hc]; simp
    have hcset := (hset c hcm).1
    rw [f5 cs c hc t htm, if_pos hcset]
    rw [hc] at hgrow
    obtain ⟨hg1, hg2⟩ := growing_last cs hgrow
    rw [if_pos hcset] at hg1
    simp only [if_pos hcset] at hg2
    obtain ⟨env, hx⟩ := hlast c (by rw [hc]; simp)
    have hck : c.entry.key = k := by
      simp only [sentCopies, List.mem_filterMap] at hcm
      obtain ⟨y, -, hy⟩ := hcm
      cases y with
      | copy c' =>
        simp only at hy
        split at hy
        next h => cases hy; exact h
        · cases hy
      | dump e => cases hy
    have hci : c.entry.item ∈ crossItems k as := by
      simp only [crossItems, List.mem_filterMap]
      exact ⟨_, hx, by simp [hck]⟩
    rcases hN with ⟨hn, -⟩ | ⟨x, hx, hst, -, hmax⟩
    · rw [hn] at hci; cases hci
    · have hle := hmax _ hci
      have : x = c.entry.item := by
        rcases hIt x hx with h | ⟨d, hd, -, rfl⟩
        · have : recordVersion m k = x.version := by simp [recordVersion, h]
          rw [this] at hg1
          exact absurd (UInt64.lt_of_lt_of_le hg1 hle) (UInt64.lt_irrefl _)
        · rw [hc] at hd
          rcases List.mem_append.1 hd with hd | hd
          · exact absurd (UInt64.lt_of_lt_of_le (hg2 d hd) hle) (UInt64.lt_irrefl _)
          · rw [List.mem_singleton.1 hd]
      rw [hst, this]

/-- C67.  With deletions and expiring values: both answer the same for `k` if the last copy of `k` is the
last thing of `k` that arrives.  What arrives before it may come in any order, or not at all.

Partial: not touched, and no record of `k` from the dump may come later (C67_resurrected). -/
theorem C67_last_copy_partial {m s : Store} (hm : m.Ok) (ha : AbsoluteStore m) (hs : s.Ok)
    (hz : 0 < s.cacheSize) {k : Bytes} (hnew : ¬ Remembered s k)
    (h0 : ∀ it, lookup m Int64.minValue k = some it → it.version ≠ 0)
    {evs : List MEvent} (hev : ∀ ev ∈ evs, ev.clientWrite)
    (hkey : ∀ env k', .dump env k' ∈ evs → PlainKey k' 8192)
    (hnt : ∀ c ∈ sentCopies k (masterRun m evs).2, c.cmd ≠ .touch)
    (hgrow : Growing (recordVersion m k) (sentCopies k (masterRun m evs).2))
    {as1 as2 : List (Env × Arrival)} {env : Env} {c : WriteReq}
    (hc : (sentCopies k (masterRun m evs).2).getLast? = some c)
    (hfrom : ∀ x ∈ as1 ++ (env, .copy c) :: as2, x.2.crossedFrom (masterRun m evs).2)
    (hfit : ∀ env' c', (env', Arrival.copy c') ∈ as1 ++ (env, .copy c) :: as2 → c'.entry.key = k →
      (encodeWrite c').isSome)
    (hlater : crossItems k as2 = [])
    {t : Int64} (htm : ∀ ev ∈ evs, ev.now ≤ t)
    (hts : ∀ x ∈ as1 ++ (env, .copy c) :: as2, x.1.now ≤ t ∧ x.1.putOk = true ∧ x.1.outOk = true)
    (hk : StillKnows k s (as1 ++ (env, .copy c) :: as2)) :
    lookup (replicaRun s (as1 ++ (env, .copy c) :: as2)) t k = lookup (masterRun m evs).1 t k := by
  have hcf := fun x hx => crossed_from (x := x) hm ha hev hkey hnt hx
  obtain ⟨-, f2, -, -, f5⟩ := master_facts k evs hm ha hev hnt
  generalize hsent : masterRun m evs = run at *
  obtain ⟨m', sent⟩ := run
  simp only at *
  obtain ⟨cs, hc⟩ : ∃ cs, sentCopies k sent = cs ++ [c] := by
    rw [List.getLast?_eq_some_iff] at hc
    exact hc
  have hcmd : ∀ d ∈ sentCopies k sent, d.entry.key = k ∧ (d.cmd = .set ∨ d.cmd = .delete) := by
    intro d hd
    have hd' := hd
    simp only [sentCopies, List.mem_filterMap] at hd'
    obtain ⟨y, hy, he⟩ := hd'
    cases y with
    | copy c' =>
      simp only at he
      split at he
      next h =>
        cases he
        refine ⟨h, ?_⟩
        rcases (f2 d hy).2.2.2.2 with g | g | g
        · exact Or.inl g
        · exact Or.inr g
        · exact absurd g (hnt d hd)
      · cases he
    | dump e => cases he
  let P : Item → Prop := fun it => lookup m Int64.minValue k = some it ∨
    ∃ d ∈ sentCopies k sent, d.cmd = .set ∧ d.entry.item = it
  have hP : ∀ env' d, (env', Arrival.copy d) ∈ as1 ++ (env, .copy c) :: as2 → d.entry.key = k →
      d ∈ sentCopies k sent ∨ d.cmd = .set ∧ P d.entry.item := by
    intro env' d hx hk
    obtain ⟨y, hy, rfl⟩ := hfrom _ hx
    exact (hcf y hy).2.2.2.2 hk
  have hP0 : ∀ it, P it → it.version ≠ 0 := by
    rintro it (h | ⟨d, hd, -, rfl⟩)
    · exact h0 it h
    · exact growing_ne_zero hgrow d hd
  have hgood : ∀ x ∈ as1 ++ (env, .copy c) :: as2, GoodArrival k t x := by
    rintro ⟨env', a⟩ hx
    obtain ⟨h1, h2, h3⟩ := hts _ hx
    refine ⟨h1, h2, h3, ?_⟩
    have hfr := hfrom _ hx
    cases a with
    | copy d =>
      obtain ⟨y, hy, hd⟩ := hfr
      obtain ⟨g1, g2, g3, g4, -⟩ := hcf y hy
      rw [← hd] at g1 g2 g3 g4
      refine ⟨g1, fun hk => ?_⟩
      rcases hP env' d hx hk with p | ⟨p1, p2⟩
      · exact ⟨hfit env' d hx hk, (hcmd d p).2, growing_ne_zero hgrow d p, g2, g3, g4⟩
      · exact ⟨hfit env' d hx hk, Or.inl p1, hP0 _ p2, g2, g3, g4⟩
    | dump e => exact hfr.elim
    | read e => trivial
  have hstart : kstate s k = .nothing := by
    rw [kstate_remembered] at hnew
    exact Classical.byContradiction hnew
  obtain ⟨hok, hrun⟩ := replica_krun _ hs hz hgood hk
  rw [hstart] at hrun
  rw [kstate_lookup hok, f5 cs c hc t htm]
  have hcm : c ∈ sentCopies k sent := by rw [hc]; simp
  have hcs := hc
  rw [hc] at hgrow
  obtain ⟨hg1, hg2⟩ := growing_last cs hgrow
  have hck := (hcmd c hcm).1
  have hPle : ∀ it, P it → it.version ≤ c.entry.version ∧
      (c.cmd = .set → it.version < c.entry.version ∨ it = c.entry.item) := by
    rintro it (h | ⟨d, hd, hdc, rfl⟩)
    · have : recordVersion m k = it.version := by simp [recordVersion, h]
      rw [this] at hg1
      split at hg1
      · exact ⟨UInt64.le_of_lt hg1, fun _ => Or.inl hg1⟩
      · rename_i hn; exact ⟨hg1, fun h => absurd h hn⟩
    · rw [hcs] at hd
      rcases List.mem_append.1 hd with hd | hd
      · have := hg2 d hd
        split at this
        · exact ⟨UInt64.le_of_lt this, fun _ => Or.inl this⟩
        · rename_i hn; exact ⟨this, fun h => absurd h hn⟩
      · rw [List.mem_singleton.1 hd]
        exact ⟨UInt64.le_refl _, fun _ => Or.inr rfl⟩
  have hl1 : ∀ l ∈ as1.map (fun x => x.2.label k), l.within P c.entry.version := by
    intro l hl
    rw [List.mem_map] at hl
    obtain ⟨⟨env', a⟩, hx, rfl⟩ := hl
    have hx' : (env', a) ∈ as1 ++ (env, .copy c) :: as2 := List.mem_append.2 (Or.inl hx)
    cases a with
    | copy d =>
      by_cases hkk : d.entry.key = k
      · by_cases hdel : d.cmd = .delete
        · simp only [Arrival.label, hkk, if_true, hdel, KLabel.within]
          rcases hP env' d hx' hkk with hd | ⟨hd, -⟩
          · rw [hcs] at hd
            rcases List.mem_append.1 hd with hd | hd
            · have := hg2 d hd
              split at this
              · exact UInt64.le_of_lt this
              · exact this
            · rw [List.mem_singleton.1 hd]; exact UInt64.le_refl _
          · rw [hdel] at hd; cases hd
        · simp only [Arrival.label, hkk, if_true, if_neg hdel, KLabel.within]
          rcases hP env' d hx' hkk with hd | ⟨-, hd⟩
          · right
            refine ⟨d, hd, ?_, rfl⟩
            rcases (hcmd d hd).2 with h | h
            · exact h
            · exact absurd h hdel
          · exact hd
      · simp [Arrival.label, hkk, KLabel.within]
    | dump e => exact (hfrom _ hx').elim
    | read e => trivial
  have hl2 : ∀ l ∈ as2.map (fun x => x.2.label k), l.quiet c.entry.version := by
    intro l hl
    rw [List.mem_map] at hl
    obtain ⟨⟨env', a⟩, hx, rfl⟩ := hl
    cases a with
    | copy d =>
      simp only [crossItems, List.filterMap_eq_nil_iff] at hlater
      have := hlater _ hx
      simp only at this
      split at this
      · cases this
      · rename_i hne; simp [Arrival.label, hne, KLabel.quiet]
    | dump e =>
      exact (hfrom _ (List.mem_append.2 (Or.inr (List.mem_cons_of_mem _ hx)))).elim
    | read e => trivial
  simp only [List.map_append, List.map_cons] at hrun
  by_cases hset : c.cmd = .set
  · rw [if_pos hset]
    have hlab : (Arrival.copy c).label k = .put c.entry.item := by
      simp [Arrival.label, hck, hset]
    rw [hlab] at hrun
    exact (run_put (P := P) (fun it hit => (hPle it hit).2 hset) hrun hl1 hl2 trivial).visible
  · rw [if_neg hset]
    have hdel : c.cmd = .delete := by
      rcases (hcmd c hcm).2 with h | h
      · exact absurd h hset
      · exact h
    have hlab : (Arrival.copy c).label k = .del c.entry.version := by
      simp [Arrival.label, hck, hdel]
    rw [hlab] at hrun
    exact (run_del (P := P) (fun it hit => (hPle it hit).1) hrun hl1 hl2 trivial).visible

/-! ### Where it fails -/

/-- Whatever the other cluster remembers of the deletion or the expiry of a key: a record of the dump,
however old, is stored again when it arrives.  The same record in a reconstruction (C12) is refused
while the deletion is remembered. -/
theorem C67_comes_back {s : Store} (hs : s.Ok) {env : Env} {e : Entry} (he : e.Ok)
    (hplain : PlainKey e.key 8192) (ho : e.option = 0) (hx : Absolute e.expire) (h0 : e.version ≠ 0)
    (hfit : (encodeWrite (dumpSet e)).isSome) (hp : env.putOk = true)
    (hgone : lookup s env.now e.key = none) :
    lookup (Arrival.apply s env (.copy (dumpSet e))) Int64.minValue e.key = some e.item ∧
    (lookup s Int64.minValue e.key = none → e.version ≤ lastVersion s e.key →
      lookup (Arrival.apply s env (.dump e)) Int64.minValue e.key = none) := by
  refine ⟨?_, fun hl hv => ?_⟩
  · have hsend : Sendable (dumpSet e) 8192 := by
      refine ⟨hplain, plainPath_nil, ?_, absolute_nonneg hx⟩
      show e.option < 8
      rw [ho]; decide
    have hdel := deliver_arrives hsend hfit env.now
    have harr : arrives env.now (dumpSet e) = dumpSet e :=
      C35_store_unchanged env.now (dumpSet e) (by simp [dumpSet]) hx he.1 rfl
    have hap : Arrival.apply s env (.copy (dumpSet e)) = (set s env e .ofSet).1 := by
      simp only [Arrival.apply, atSlave, hdel, harr]
      rfl
    have hok := arrival_ok hs env (.copy (dumpSet e))
    rw [lookup_min hok, hap]
    obtain ⟨cur, ex, hcur⟩ : ∃ cur ex, getHeader s e.key { key := [] } = (cur, ex) := ⟨_, _, rfl⟩
    have hc : setCurrent s env e .ofSet = (s, cur, ex) := by
      rw [setCurrent_plain rfl, hcur]
    have hst : setState env.now .ofSet cur ex ≠ .alive := by
      rcases (lookup_eq_none hs).1 hgone with hd | ⟨raw, hd, hex⟩
      · simp only [getHeader, hd] at hcur
        cases hcur
        simp only [setState, Bool.false_eq_true, if_false]
        split <;> decide
      · rw [getHeader_present hs hd] at hcur
        cases hcur
        have : isExpired Beh.ofSet.skipTimestamp (fill (raw.take headerSize) { key := [] }).expire env.now
            = true := by
          rw [fill_take]
          have hex' : 0 < (fill raw { key := [] }).expire ∧ (fill raw { key := [] }).expire ≤ env.now := hex
          simp [isExpired, Beh.ofSet, hex']
        simp [setState, this]
    have hch : setCheck (setState env.now .ofSet cur ex) .ofSet e.version cur.version = .ok e.version := by
      simp [setCheck, Beh.ofSet, h0] at hst ⊢
      simp [hst]
    rw [set_eval_plain hc rfl rfl he hp, hch]
    exact kstate_put _ _ _ _
  · have hok := arrival_ok hs env (.dump e)
    cases hl' : lookup (Arrival.apply s env (.dump e)) Int64.minValue e.key with
    | none => rfl
    | some it =>
      rw [lookup_min hok] at hl'
      rcases kstate_dump hs he hp h0 (env := env) with ⟨h1, h2⟩ | ⟨h1, h2⟩
      · rw [show Arrival.apply s env (.dump e) = (set s env e .ofDump).1 from rfl, h2, ← lookup_min hs,
          hl] at hl'
        cases hl'
      · rw [kstate_known, ← lastVersion_known hs] at h1
        exact absurd (UInt64.lt_of_lt_of_le h1 hv) (UInt64.lt_irrefl _)

/-- Key "a" has the value "7", version 3, and does not expire. -/
def crossStore : Store :=
  { db := [([97], serializeHeader { key := [97], size := 1, version := 3 } ++ [55])], cacheSize := 10 }

/-- A key is dumped, then deleted; the copy of the deletion is faster than the record. -/
theorem C67_resurrected :
    let evs : List MEvent := [.dump { now := 3000000 } [97],
      .write { now := 3000001 } [[109]] { cmd := .delete, entry := { key := [97] } }]
    let e : Entry := { key := [97], flag := 5, size := 1, expire := 3000100, version := 3, data := [55] }
    let as : List (Env × Arrival) := [
      ({ now := 3000002 }, .copy { cmd := .delete, path := [[109]], entry := { key := [97], version := 3 } }),
      ({ now := 3000003 }, .copy (dumpSet e))]
    (masterRun repStore evs).2.map Sent.crossed = [dumpSet e,
      { cmd := .delete, path := [[109]], entry := { key := [97], version := 3 } }] ∧
    lookup (masterRun repStore evs).1 3000010 [97] = none ∧
    lookup (replicaRun { cacheSize := 10 } as) 3000010 [97] = some ⟨[55], 5, 3000100, 3⟩ := by
  decide +kernel

/-- A key is dumped, then gets a new value for ten seconds; the record arrives after these. -/
theorem C67_old_value :
    let m := crossStore
    let evs : List MEvent := [.dump { now := 3000000 } [97],
      .write { now := 3000001 } [[109]]
        { cmd := .set, entry := { key := [97], size := 1, expire := 3000010, data := [56] } }]
    let e : Entry := { key := [97], size := 1, version := 3, data := [55] }
    let c : WriteReq := { cmd := .set, path := [[109]], entry :=
      { key := [97], size := 1, expire := 3000010, version := 4, data := [56] } }
    let as : List (Env × Arrival) := [({ now := 3000002 }, .copy c), ({ now := 3000011 }, .copy (dumpSet e))]
    (masterRun m evs).2.map Sent.crossed = [dumpSet e, c] ∧
    lookup (masterRun m evs).1 3000011 [97] = none ∧
    lookup (replicaRun { cacheSize := 10 } as) 3000011 [97] = some ⟨[55], 0, 0, 3⟩ := by
  decide +kernel

/-! ### The threads that send copies -/

theorem crossThread_lt {h : Int32} {n i : Nat} (hi : crossThread h n = some i) : i < n := by
  simp only [crossThread] at hi
  split at hi
  · cases hi
  · cases hi
    exact Nat.mod_lt _ (by omega)

/-- As long as the threads stay the same, all copies of a key are sent by one of them, in the order of
the writes. -/
theorem C67_one_thread (hash : Bytes → Int32) {n : Nat} (hn : 0 < n) (cs : List WriteReq) (k : Bytes) :
    ∃ i < n, ∀ j, ((cs.foldl (crossEnqueue hash) (List.replicate n []))[j]?.getD []).filter
        (fun c => c.entry.key = k) =
      if j = i then cs.filter (fun c => c.entry.key = k) else [] := by
  obtain ⟨i, hi⟩ : ∃ i, crossThread (hash k) n = some i := by
    simp only [crossThread]
    rw [if_neg (by omega)]
    exact ⟨_, rfl⟩
  refine ⟨i, crossThread_lt hi, fun j => ?_⟩
  have key : ∀ (cs done : List WriteReq) (qs : List (List WriteReq)), qs.length = n →
      ((qs[j]?.getD []).filter (fun c => c.entry.key = k) =
        if j = i then done.filter (fun c => c.entry.key = k) else []) →
      ((cs.foldl (crossEnqueue hash) qs)[j]?.getD []).filter (fun c => c.entry.key = k) =
        if j = i then (done ++ cs).filter (fun c => c.entry.key = k) else [] := by
    intro cs
    induction cs with
    | nil => intro done qs _ h; simpa using h
    | cons c cs ih =>
      intro done qs hl h
      rw [List.foldl_cons, show done ++ c :: cs = (done ++ [c]) ++ cs by simp]
      obtain ⟨a, hca⟩ : ∃ a, crossThread (hash c.entry.key) n = some a := by
        simp only [crossThread]
        rw [if_neg (by omega)]
        exact ⟨_, rfl⟩
      have hstep : crossEnqueue hash qs c = qs.modify a (· ++ [c]) := by
        simp only [crossEnqueue, hl, hca]
      have ha := crossThread_lt hca
      refine ih (done ++ [c]) _ (by rw [hstep, List.length_modify, hl]) ?_
      rw [hstep, List.getElem?_modify]
      by_cases hja : a = j
      · subst hja
        obtain ⟨q, hq⟩ : ∃ q, qs[a]? = some q := ⟨_, List.getElem?_eq_getElem (by omega)⟩
        rw [hq] at h ⊢
        simp only [if_true, Option.map_eq_map, Option.map_some, Option.getD_some, List.filter_append] at h ⊢
        rw [h]
        by_cases hk : c.entry.key = k
        · have : a = i := by
            rw [hk, hi] at hca
            exact (Option.some.inj hca).symm
          rw [if_pos this, if_pos this]
        · split
          · rfl
          · simp [hk]
      · simp only [if_neg hja]
        rw [show ((fun a => a) <$> qs[j]?) = qs[j]? by simp]
        rw [h]
        split
        next hji =>
          have hk : c.entry.key ≠ k := by
            intro hk
            rw [hk, hi] at hca
            exact hja ((Option.some.inj hca).symm.trans hji.symm)
          simp [hk]
        · rfl
  have := key cs [] (List.replicate n []) (by simp) (by
    rw [List.getElem?_replicate]
    split <;> simp)
  simpa using this

/-- Without a thread the copies are dropped. -/
theorem C67_no_thread (hash : Bytes → Int32) (cs : List WriteReq) :
    cs.foldl (crossEnqueue hash) [] = [] := by
  induction cs with
  | nil => rfl
  | cons c cs ih => exact ih

/-! ### Instances -/

/-- Set, set, dumped, set; at the other cluster the last copy comes first, then the record, then the
first copy; the second is lost. -/
example :
    let m := crossStore
    let w (t : Int64) (d : Bytes) : MEvent :=
      .write { now := t } [[109]]
        { cmd := .set, entry := { key := [97], size := UInt64.ofNat d.length, data := d } }
    let evs : List MEvent := [w 3000000 [56], w 3000001 [57, 57], .dump { now := 3000002 } [97], w 3000003 []]
    let e (v : UInt64) (d : Bytes) : Entry :=
      { key := [97], size := UInt64.ofNat d.length, version := v, data := d }
    let c (v : UInt64) (d : Bytes) : WriteReq := { cmd := .set, path := [[109]], entry := e v d }
    let as : List (Env × Arrival) := [({ now := 3000004 }, .copy (c 6 [])),
      ({ now := 3000005 }, .copy (dumpSet (e 5 [57, 57]))), ({ now := 3000006 }, .read { key := [97] }),
      ({ now := 3000007 }, .copy (c 4 [56]))]
    (masterRun m evs).2.map Sent.crossed =
      [c 4 [56], c 5 [57, 57], dumpSet (e 5 [57, 57]), c 6 []] ∧
    Growing (recordVersion m [97]) (sentCopies [97] (masterRun m evs).2) ∧
    (sentCopies [97] (masterRun m evs).2).getLast? = some (c 6 []) ∧
    (∀ d ∈ sentCopies [97] (masterRun m evs).2, d.cmd = .set ∧ ¬ 0 < d.entry.expire) ∧
    lookup (masterRun m evs).1 3000010 [97] = some ⟨[], 0, 0, 6⟩ ∧
    lookup (replicaRun { cacheSize := 10 } as) 3000010 [97] = some ⟨[], 0, 0, 6⟩ := by
  decide +kernel

/-- Dumped, then deleted, and the record arrives first. -/
example :
    let evs : List MEvent := [.dump { now := 3000000 } [97],
      .write { now := 3000001 } [[109]] { cmd := .delete, entry := { key := [97] } }]
    let e : Entry := { key := [97], flag := 5, size := 1, expire := 3000100, version := 3, data := [55] }
    let c : WriteReq := { cmd := .delete, path := [[109]], entry := { key := [97], version := 3 } }
    let as : List (Env × Arrival) := [({ now := 3000002 }, .copy (dumpSet e)),
      ({ now := 3000003 }, .copy c), ({ now := 3000004 }, .read { key := [97] })]
    (masterRun repStore evs).2.map Sent.crossed = [dumpSet e, c] ∧
    StillKnows [97] { cacheSize := 10 } as ∧
    Growing (recordVersion repStore [97]) (sentCopies [97] (masterRun repStore evs).2) ∧
    lookup (replicaRun { cacheSize := 10 } as) 3000010 [97] = none := by
  decide +kernel

example :
    let hash : Bytes → Int32 := fun k => match k with | [97] => -3 | _ => 4
    let c (k d : Bytes) : WriteReq := { cmd := .set, entry := { key := k, data := d } }
    [c [97] [1], c [98] [2], c [97] [3]].foldl (crossEnqueue hash) (List.replicate 3 []) =
      [[], [c [97] [1], c [98] [2], c [97] [3]], []] ∧
    [c [97] [1], c [98] [2], c [97] [3]].foldl (crossEnqueue hash) (List.replicate 2 []) =
      [[c [98] [2]], [c [97] [1], c [97] [3]]] := by
  decide +kernel

end Flare
