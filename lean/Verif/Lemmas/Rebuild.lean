import Verif.Spec.Rebuild
import Verif.Lemmas.Replication
import Verif.Lemmas.StorageHist

set_option linter.unusedSimpArgs false

namespace Flare

/-! ### What a store knows about one key -/

/-- A record, a remembered deletion, or nothing. -/
inductive KState where
  | record (it : Item)
  | gone (v : UInt64)
  | nothing

def kstate (s : Store) (k : Bytes) : KState :=
  match dbGet s.db k with
  | some raw => .record (itemOf raw)
  | none =>
    match tombGet s.cache k with
    | some t => .gone t.version
    | none => .nothing

def KState.version : KState → UInt64
  | .record it => it.version
  | .gone v => v
  | .nothing => 0

def KState.visible (t : Int64) : KState → Option Item
  | .record it => if 0 < it.expire ∧ it.expire ≤ t then none else some it
  | _ => none

theorem kstate_known (s : Store) (k : Bytes) : (kstate s k).version = known s k := by
  simp only [kstate, known]
  cases dbGet s.db k with
  | some raw => rfl
  | none => cases tombGet s.cache k <;> rfl

theorem kstate_lookup {s : Store} (hs : s.Ok) (t : Int64) (k : Bytes) :
    lookup s t k = (kstate s k).visible t := by
  simp only [kstate]
  cases h : dbGet s.db k with
  | none =>
    rw [lookup_none_of_absent h]
    cases tombGet s.cache k <;> rfl
  | some raw =>
    rw [lookup_of_raw h (hs.1 _ _ h)]
    simp [KState.visible, isExpired_false_iff]

theorem kstate_remembered {s : Store} {k : Bytes} : Remembered s k ↔ kstate s k ≠ .nothing := by
  simp only [Remembered, kstate]
  cases dbGet s.db k with
  | some raw => simp
  | none => cases tombGet s.cache k <;> simp

theorem not_expired_min (it : Item) : ¬ (0 < it.expire ∧ it.expire ≤ Int64.minValue) := by
  rintro ⟨h1, h2⟩
  have := Int64.lt_of_lt_of_le h1 h2
  exact absurd this (by decide)

theorem lookup_min {s : Store} (hs : s.Ok) {k : Bytes} {it : Item} :
    lookup s Int64.minValue k = some it ↔ kstate s k = .record it := by
  rw [kstate_lookup hs]
  cases h : kstate s k with
  | record it' => simp only [KState.visible, if_neg (not_expired_min it'), Option.some.injEq, KState.record.injEq]
  | gone v => simp [KState.visible]
  | nothing => simp [KState.visible]

theorem kstate_congr {s s' : Store} {k : Bytes} (h1 : dbGet s'.db k = dbGet s.db k)
    (h2 : tombGet s'.cache k = tombGet s.cache k) : kstate s' k = kstate s k := by
  simp only [kstate, h1, h2]

theorem kstate_put (s : Store) (k : Bytes) (e : Entry) (d : Bytes) :
    kstate { s with db := dbPut s.db k (serializeHeader e ++ d) } k =
      .record ⟨d, e.flag, e.expire, e.version⟩ := by
  simp only [kstate, dbGet_dbPut_self, itemOf_serialize]

theorem getHeader_version {s : Store} (hs : s.Ok) (k : Bytes) :
    (getHeader s k { key := [] }).1.version = (kstate s k).version := by
  rw [header_known hs, kstate_known]

/-- A replicated set. -/
theorem kstate_set {s : Store} (hs : s.Ok) {env : Env} {e : Entry} (he : e.Ok)
    (hp : env.putOk = true) (h0 : e.version ≠ 0) :
    kstate (set s env e .ofSet).1 e.key = .record e.item ∨
    (∃ it, kstate s e.key = .record it ∧ e.version ≤ it.version ∧
      kstate (set s env e .ofSet).1 e.key = .record it) := by
  obtain ⟨s1, cur, ex, hc⟩ : ∃ s1 cur ex, setCurrent s env e .ofSet = (s1, cur, ex) :=
    ⟨_, _, _, rfl⟩
  rw [set_eval_plain hc rfl rfl he hp]
  have hs1 : s1 = s := by
    have := setCurrent_same (s := s) (env := env) (e := e) (b := .ofSet) rfl
    rw [hc] at this; exact this
  subst hs1
  cases hl : lookup s1 env.now e.key with
  | none =>
    have hna := setState_not_visible (b := .ofSet) hs rfl hl
    rw [hc] at hna
    have : setCheck (setState env.now .ofSet cur ex) .ofSet e.version cur.version =
        .ok e.version := by
      revert hna
      cases setState env.now .ofSet cur ex <;> simp [setCheck, Beh.ofSet, h0]
    rw [this]
    left
    exact kstate_put ..
  | some it =>
    obtain ⟨cur', hc', hst, hv, -⟩ := setCurrent_visible (b := .ofSet) hs hl
    rw [hc] at hc'
    simp only [Prod.mk.injEq, true_and] at hc'
    obtain ⟨rfl, rfl⟩ := hc'
    have hk : kstate s1 e.key = .record it := by
      rw [kstate_lookup hs] at hl
      revert hl
      cases kstate s1 e.key <;> simp [KState.visible]
    by_cases hle : e.version ≤ it.version
    · right
      have : setCheck (setState env.now .ofSet cur true) .ofSet e.version cur.version =
          .error .notStored := by
        rw [hst]; simp [setCheck, Beh.ofSet, h0, hv, hle]
      rw [this]
      exact ⟨it, hk, hle, hk⟩
    · left
      have : setCheck (setState env.now .ofSet cur true) .ofSet e.version cur.version =
          .ok e.version := by
        rw [hst]; simp [setCheck, Beh.ofSet, h0, hv, hle]
      rw [this]
      exact kstate_put ..

/-- A dumped record. -/
theorem kstate_dump {s : Store} (hs : s.Ok) {env : Env} {e : Entry} (he : e.Ok)
    (hp : env.putOk = true) (h0 : e.version ≠ 0) :
    (e.version ≤ (kstate s e.key).version ∧ (set s env e .ofDump).1 = s) ∨
    ((kstate s e.key).version < e.version ∧
      kstate (set s env e .ofDump).1 e.key = .record e.item) := by
  obtain ⟨s1, cur, ex, hc⟩ : ∃ s1 cur ex, setCurrent s env e .ofDump = (s1, cur, ex) :=
    ⟨_, _, _, rfl⟩
  rw [set_eval_plain hc rfl rfl he hp]
  have hc' := hc
  rw [setCurrent_plain rfl] at hc'
  simp only [Prod.mk.injEq] at hc'
  obtain ⟨rfl, hcur⟩ := hc'
  have hv : cur.version = (kstate s e.key).version := by
    rw [← getHeader_version hs, hcur]
  by_cases hle : e.version ≤ cur.version
  · left
    have : setCheck (setState env.now .ofDump cur ex) .ofDump e.version cur.version =
        .error .notStored := by
      simp [setCheck, Beh.ofDump, h0, hle]
    rw [this]
    exact ⟨hv ▸ hle, rfl⟩
  · right
    have : setCheck (setState env.now .ofDump cur ex) .ofDump e.version cur.version =
        .ok e.version := by
      simp [setCheck, Beh.ofDump, h0, hle]
    rw [this]
    exact ⟨by rw [← hv]; exact UInt64.not_le.1 hle, kstate_put ..⟩

/-- `remove` with a version. -/
theorem kstate_remove {s : Store} (hs : s.Ok) (hz : 0 < s.cacheSize) {env : Env} {e : Entry}
    {b : Beh} (hb : b.skipVersion = false) (ho : env.outOk = true) (h0 : e.version ≠ 0) :
    (((b.versionEqual = false ∧ e.version < (kstate s e.key).version) ∨
        (b.versionEqual = true ∧ e.version ≠ (kstate s e.key).version)) ∧
      (remove s env e b).1 = s) ∨
    ((b.versionEqual = false → (kstate s e.key).version ≤ e.version) ∧
      kstate (remove s env e b).1 e.key = .gone e.version) := by
  have hv := getHeader_version hs e.key
  obtain ⟨cur, ex, hg⟩ : ∃ cur ex, getHeader s e.key { key := [] } = (cur, ex) := ⟨_, _, rfl⟩
  rw [hg] at hv
  simp only at hv
  simp only [remove, hg, hb, ho, ← hv]
  split
  next h =>
    left
    refine ⟨?_, rfl⟩
    cases hve : b.versionEqual <;> simp_all
  next h =>
    right
    refine ⟨?_, ?_⟩
    · intro hve
      simp [h0, hve] at h
      exact h
    · cases hd : dbGet s.db e.key with
      | none =>
        have hex : ex = false := by
          simp only [getHeader, hd, Prod.mk.injEq] at hg
          exact hg.2.symm
        simp only [hex, Bool.not_false, if_true, bne_iff_ne, ne_eq, h0, not_false_eq_true]
        simp only [kstate, setHeaderCache_db, hd, setHeaderCache_get_self hs.2.1 hz]
      | some raw =>
        have hex : ex = true := by
          rw [getHeader_present hs hd] at hg
          simp only [Prod.mk.injEq] at hg
          exact hg.2.symm
        simp only [hex, Bool.not_true, Bool.false_eq_true, if_false, h0]
        have hself := setHeaderCache_get_self (s := { s with db := dbOut s.db e.key })
          hs.2.1 hz env.now e
        simp only [kstate, setHeaderCache_db, dbGet_dbOut_self, hself]

/-- A read of the key. -/
theorem kstate_get {s : Store} (hs : s.Ok) (hz : 0 < s.cacheSize) {env : Env} {e : Entry} :
    kstate (get s env e {}).1 e.key = kstate s e.key ∨
    ∃ it, kstate s e.key = .record it ∧ it.expiredAt env.now ∧
      kstate (get s env e {}).1 e.key = .gone it.version := by
  cases hd : dbGet s.db e.key with
  | none => rw [get_absent hd]; exact Or.inl rfl
  | some raw =>
    have hk : kstate s e.key = .record (itemOf raw) := by simp only [kstate, hd]
    cases hx : isExpired false (itemOf raw).expire env.now
    · rw [get_live hs hd hx]; exact Or.inl rfl
    · cases ho : env.outOk
      · left
        simp only [get, getRead_some hd (hs.1 _ _ hd), hx, if_true, removeExpired]
        apply kstate_congr
        all_goals
          simp only [remove, getHeader_present hs (e := { key := [] }) (k := (fill raw e).key) hd, ho]
          split
          · rfl
          · simp
      · right
        rw [get_expired hs hd ho hx]
        refine ⟨itemOf raw, hk, (isExpired_false_iff _ _).1 hx, ?_⟩
        have hself := setHeaderCache_get_self (s := { s with db := dbOut s.db e.key })
          hs.2.1 hz env.now (fill raw { key := e.key })
        have hkey : (fill raw { key := e.key }).key = e.key := rfl
        rw [hkey] at hself
        simp only [kstate, dropRecord, setHeaderCache_db, dbGet_dbOut_self, hself]
        rfl

/-! ### One arrival, seen from one key -/

inductive KLabel where
  | put (it : Item)
  | del (v : UInt64)
  | dump (it : Item)
  | tau

def KStep (t : Int64) (st : KState) : KLabel → KState → Prop
  | .put x, st' => st' = .record x ∨ ∃ it, st = .record it ∧ x.version ≤ it.version ∧ st' = st
  | .del v, st' => (v < st.version ∧ st' = st) ∨ (st.version ≤ v ∧ st' = .gone v)
  | .dump x, st' => (x.version ≤ st.version ∧ st' = st) ∨ (st.version < x.version ∧ st' = .record x)
  | .tau, st' => st' = st ∨ ∃ it, st = .record it ∧ it.expiredAt t ∧ st' = .gone it.version

def Arrival.label (k : Bytes) : Arrival → KLabel
  | .copy c =>
    if c.entry.key = k then
      if c.cmd = .delete then .del c.entry.version else .put c.entry.item
    else .tau
  | .dump e => if e.key = k then .dump e.item else .tau
  | .read _ => .tau

/-- What the master side guarantees of a copy. -/
def GoodCopy (k : Bytes) (c : WriteReq) : Prop :=
  Sendable c 8192 ∧ (c.entry.key = k → (encodeWrite c).isSome ∧ (c.cmd = .set ∨ c.cmd = .delete) ∧
    c.entry.version ≠ 0 ∧ Absolute c.entry.expire ∧ c.value = 0 ∧ (c.cmd = .set → c.entry.Ok))

def GoodDump (k : Bytes) (e : Entry) : Prop := e.key = k → e.Ok ∧ e.version ≠ 0

def GoodArrival (k : Bytes) (t : Int64) (x : Env × Arrival) : Prop :=
  x.1.now ≤ t ∧ x.1.putOk = true ∧ x.1.outOk = true ∧
    match x.2 with
    | .copy c => GoodCopy k c
    | .dump e => GoodDump k e
    | .read _ => True

theorem arrives_key (now : Int64) (c : WriteReq) :
    (arrives now c).entry.key = c.entry.key := by
  simp only [arrives]; split <;> rfl

theorem arrival_ok {s : Store} (hs : s.Ok) (env : Env) (a : Arrival) : (a.apply s env).Ok := by
  cases a with
  | copy c => exact slave_ok hs env c
  | dump e => exact step_ok hs env (.set e .ofDump)
  | read e => exact get_ok hs ..

theorem arrival_cacheSize (s : Store) (env : Env) (a : Arrival) :
    (a.apply s env).cacheSize = s.cacheSize := by
  have h : ∀ c, (step s env c).1.cacheSize = s.cacheSize := fun c => step_cacheSize s env c
  cases a with
  | copy c =>
    simp only [Arrival.apply, atSlave]
    split
    · exact h _
    · rfl
  | dump e => exact h (.set e .ofDump)
  | read e => exact h (.get e {})

/-- A storage call for another key. -/
theorem kstate_other {s : Store} (hs : s.Ok) {env : Env} {c : Cmd} {k : Bytes} (hf : c ≠ .flush)
    (hk : c.key? ≠ some k) (hr : Remembered s k → Remembered (step s env c).1 k) :
    kstate (step s env c).1 k = kstate s k := by
  have hd := step_db_ne (s := s) (env := env) hf hk
  by_cases hrem : Remembered s k
  · have hr := hr hrem
    rcases step_tomb_ne hs env hf hk with ht | ht
    · exact kstate_congr hd ht
    · rw [kstate_remembered] at hr
      simp only [kstate, hd, ht] at hr ⊢
      cases h : dbGet s.db k with
      | some raw => rfl
      | none => rw [h] at hr; exact absurd rfl hr
  · have hn := not_remembered.1 hrem
    refine kstate_congr hd ?_
    rcases step_tomb_ne hs env hf hk with ht | ht
    · exact ht
    · rw [ht, hn.2]

theorem arrival_step {s : Store} (hs : s.Ok) (hz : 0 < s.cacheSize) {k : Bytes} {t : Int64}
    {env : Env} {a : Arrival} (hg : GoodArrival k t (env, a))
    (hr : Remembered s k → Remembered (a.apply s env) k) :
    KStep t (kstate s k) (a.label k) (kstate (a.apply s env) k) := by
  obtain ⟨ht, hp, ho, hg⟩ := hg
  cases a with
  | copy c =>
    simp only at hg
    obtain ⟨hsend, hg⟩ := hg
    by_cases hk : c.entry.key = k
    · obtain ⟨hen, hcmd, h0, habs, hval, hok⟩ := hg hk
      have hdel := deliver_arrives hsend hen env.now
      subst hk
      rcases hcmd with hc | hc
      · have he := hok hc
        have harr : arrives env.now c = c :=
          C35_store_unchanged env.now c (by simp [hc]) habs he.1 hval
        simp only [Arrival.label, if_true, hc, Arrival.apply, atSlave, hdel, harr, WriteReq.call,
          step, reduceCtorEq, if_false, KStep]
        rcases kstate_set hs he hp h0 (env := env) with h | ⟨it, h1, h2, h3⟩
        · exact Or.inl h
        · exact Or.inr ⟨it, h1, h2, by rw [h3, h1]⟩
      · have harr : (arrives env.now c).call = .remove (arrives env.now c).entry {} ∧
            (arrives env.now c).entry.key = c.entry.key ∧
            (arrives env.now c).entry.version = c.entry.version := by
          simp [arrives, WriteReq.call, hc]
        obtain ⟨a1, a2, a3⟩ := harr
        generalize hae : (arrives env.now c).entry = ae at a1 a2 a3
        simp only [Arrival.label, if_true, hc, Arrival.apply, atSlave, hdel, a1, step, KStep]
        rw [← a2, ← a3]
        rcases kstate_remove hs hz (e := ae) (b := {}) rfl ho (by rw [a3]; exact h0) with
          ⟨h1, h2⟩ | ⟨h1, h2⟩
        · left
          refine ⟨?_, by rw [h2]⟩
          rcases h1 with h1 | h1
          · exact h1.2
          · exact absurd h1.1 (by decide)
        · exact Or.inr ⟨h1 rfl, h2⟩
    · simp only [Arrival.label, if_neg hk, KStep]
      left
      simp only [Arrival.apply] at hr ⊢
      revert hr
      simp only [atSlave]
      cases hd : deliver env.now c with
      | none => intro _; rfl
      | some r =>
        intro hr
        have hen : (encodeWrite c).isSome := by
          simp only [deliver] at hd
          split at hd
          · cases hd
          · rename_i h; simp [h]
        rw [deliver_arrives hsend hen] at hd
        cases hd
        refine kstate_other hs (call_not_flush _) ?_ hr
        rw [call_key, arrives_key]
        simpa using hk
  | dump e =>
    simp only at hg
    by_cases hk : e.key = k
    · obtain ⟨he, h0⟩ := hg hk
      subst hk
      simp only [Arrival.label, if_true, Arrival.apply, KStep]
      rcases kstate_dump hs he hp h0 (env := env) with ⟨h1, h2⟩ | ⟨h1, h2⟩
      · exact Or.inl ⟨h1, by rw [h2]⟩
      · exact Or.inr ⟨h1, h2⟩
    · simp only [Arrival.label, if_neg hk, KStep]
      left
      exact kstate_other hs (c := .set e .ofDump) (by simp) (by simpa [Cmd.key?] using hk) hr
  | read e =>
    simp only [Arrival.label, KStep, Arrival.apply]
    by_cases hk : e.key = k
    · subst hk
      rcases kstate_get hs hz (env := env) (e := e) with h | ⟨it, h1, h2, h3⟩
      · exact Or.inl h
      · exact Or.inr ⟨it, h1, ⟨h2.1, Int64.le_trans h2.2 ht⟩, h3⟩
    · left
      exact kstate_other hs (c := .get e {}) (by simp) (by simpa [Cmd.key?] using hk) hr

inductive KRun (t : Int64) : KState → List KLabel → KState → Prop
  | nil (st) : KRun t st [] st
  | cons {st st1 st2 l ls} (h : KStep t st l st1) (hs : KRun t st1 ls st2) : KRun t st (l :: ls) st2

theorem replica_krun {k : Bytes} {t : Int64} (as : List (Env × Arrival)) :
    ∀ {s : Store}, s.Ok → 0 < s.cacheSize → (∀ x ∈ as, GoodArrival k t x) → StillKnows k s as →
    (replicaRun s as).Ok ∧
      KRun t (kstate s k) (as.map fun x => x.2.label k) (kstate (replicaRun s as) k) := by
  induction as with
  | nil => intro s hs _ _ _; exact ⟨hs, .nil _⟩
  | cons x as ih =>
    intro s hs hz hg hk
    obtain ⟨env, a⟩ := x
    obtain ⟨hk1, hk2⟩ := hk
    have := ih (arrival_ok hs env a) (by rw [arrival_cacheSize]; exact hz)
      (fun x hx => hg x (by simp [hx])) hk2
    exact ⟨this.1, .cons (arrival_step hs hz (hg _ (by simp)) hk1) this.2⟩

/-! ### The end of such a run -/

/-- `f`, or `f` dropped because it has expired. -/
def Settled (t : Int64) (f st : KState) : Prop :=
  st = f ∨ ∃ it, f = .record it ∧ it.expiredAt t ∧ st = .gone it.version

theorem Settled.version {t : Int64} {f st : KState} (h : Settled t f st) :
    st.version = f.version := by
  rcases h with rfl | ⟨it, rfl, -, rfl⟩ <;> rfl

theorem Settled.visible {t : Int64} {f st : KState} (h : Settled t f st) :
    st.visible t = f.visible t := by
  rcases h with rfl | ⟨it, rfl, h, rfl⟩
  · rfl
  · simp only [KState.visible]
    rw [if_pos (show 0 < it.expire ∧ it.expire ≤ t from h)]

def KLabel.quiet (v : UInt64) : KLabel → Prop
  | .tau => True
  | .dump x => x.version ≤ v
  | _ => False

theorem settled_run {t : Int64} {f st st' : KState} {ls : List KLabel} (hr : KRun t st ls st')
    (hq : ∀ l ∈ ls, l.quiet f.version) (h : Settled t f st) : Settled t f st' := by
  induction hr with
  | nil => exact h
  | @cons st st1 st2 l ls hstep _ ih =>
    refine ih (fun l hl => hq l (by simp [hl])) ?_
    have hl := hq l (by simp)
    cases l with
    | put x => exact hl.elim
    | del v => exact hl.elim
    | dump x =>
      rcases hstep with ⟨-, h2⟩ | ⟨h1, -⟩
      · rw [h2]; exact h
      · rw [h.version] at h1
        exact absurd (UInt64.lt_of_lt_of_le h1 hl) (UInt64.lt_irrefl _)
    | tau =>
      rcases hstep with h1 | ⟨it, h1, h2, h3⟩
      · rw [h1]; exact h
      · rcases h with rfl | ⟨it', rfl, h4, rfl⟩
        · exact Or.inr ⟨it, h1, h2, h3⟩
        · cases h1

/-- Everything so far is one of the items of `P`, or a deletion no later than `v`. -/
def Within (P : Item → Prop) (v : UInt64) : KState → Prop
  | .record it => P it
  | .gone w => w ≤ v
  | .nothing => True

def KLabel.within (P : Item → Prop) (v : UInt64) : KLabel → Prop
  | .tau => True
  | .dump x => P x
  | .put x => P x
  | .del w => w ≤ v

theorem within_run {t : Int64} {P : Item → Prop} {v : UInt64} (hP : ∀ it, P it → it.version ≤ v)
    {st st' : KState} {ls : List KLabel} (hr : KRun t st ls st') (hl : ∀ l ∈ ls, l.within P v)
    (h : Within P v st) : Within P v st' := by
  induction hr with
  | nil => exact h
  | @cons st st1 st2 l ls hstep _ ih =>
    refine ih (fun l h => hl l (by simp [h])) ?_
    have hl := hl l (by simp)
    cases l with
    | put x =>
      rcases hstep with h1 | ⟨it, h1, -, h2⟩
      · rw [h1]; exact hl
      · rw [h2]; exact h
    | del w =>
      rcases hstep with ⟨-, h2⟩ | ⟨-, h2⟩
      · rw [h2]; exact h
      · rw [h2]; exact hl
    | dump x =>
      rcases hstep with ⟨-, h2⟩ | ⟨-, h2⟩
      · rw [h2]; exact h
      · rw [h2]; exact hl
    | tau =>
      rcases hstep with h1 | ⟨it, h1, -, h3⟩
      · rw [h1]; exact h
      · rw [h3]; rw [h1] at h; exact hP it h

theorem KRun.append {t : Int64} {l1 l2 : List KLabel} {st st' : KState}
    (h : KRun t st (l1 ++ l2) st') : ∃ st1, KRun t st l1 st1 ∧ KRun t st1 l2 st' := by
  induction l1 generalizing st with
  | nil => exact ⟨st, .nil _, h⟩
  | cons l l1 ih =>
    cases h with
    | cons h1 h2 =>
      obtain ⟨st1, h3, h4⟩ := ih h2
      exact ⟨st1, .cons h1 h3, h4⟩

/-- A run whose last value is `x`. -/
theorem run_put {t : Int64} {P : Item → Prop} {x : Item}
    (hP : ∀ it, P it → it.version < x.version ∨ it = x) {st st' : KState} {l1 l2 : List KLabel}
    (hr : KRun t st (l1 ++ .put x :: l2) st') (h1 : ∀ l ∈ l1, l.within P x.version)
    (h2 : ∀ l ∈ l2, l.quiet x.version) (h : Within P x.version st) :
    Settled t (.record x) st' := by
  have hP' : ∀ it, P it → it.version ≤ x.version := by
    intro it hit
    rcases hP it hit with h | h
    · exact UInt64.le_of_lt h
    · rw [h]; exact UInt64.le_refl _
  obtain ⟨st1, r1, r2⟩ := hr.append
  have hw := within_run hP' r1 h1 h
  cases r2 with
  | cons hstep r3 =>
    refine settled_run r3 h2 (Or.inl ?_)
    rcases hstep with h3 | ⟨it, h3, h4, h5⟩
    · exact h3
    · rw [h3] at hw
      rcases hP it hw with h6 | h6
      · exact absurd (UInt64.lt_of_lt_of_le h6 h4) (UInt64.lt_irrefl _)
      · rw [h5, h3, h6]

/-- A run whose last change is a deletion. -/
theorem run_del {t : Int64} {P : Item → Prop} {v : UInt64} (hP : ∀ it, P it → it.version ≤ v)
    {st st' : KState} {l1 l2 : List KLabel}
    (hr : KRun t st (l1 ++ .del v :: l2) st') (h1 : ∀ l ∈ l1, l.within P v)
    (h2 : ∀ l ∈ l2, l.quiet v) (h : Within P v st) :
    Settled t (.gone v) st' := by
  obtain ⟨st1, r1, r2⟩ := hr.append
  have hw := within_run hP r1 h1 h
  have hv : st1.version ≤ v := by
    cases st1 with
    | record it => exact hP it hw
    | gone w => exact hw
    | nothing => simp [KState.version, UInt64.le_iff_toNat_le]
  cases r2 with
  | cons hstep r3 =>
    refine settled_run r3 h2 (Or.inl ?_)
    rcases hstep with ⟨h3, -⟩ | ⟨-, h3⟩
    · exact absurd (UInt64.lt_of_le_of_lt hv h3) (UInt64.lt_irrefl _)
    · exact h3

/-- A run with nothing but dumps of `x`. -/
theorem run_dump {t : Int64} {x : Item} (h0 : x.version ≠ 0) {st' : KState} {ls : List KLabel}
    (hr : KRun t .nothing ls st') (hl : ∀ l ∈ ls, l = .tau ∨ l = .dump x) :
    (st' = .nothing ∧ ∀ l ∈ ls, l = .tau) ∨ Settled t (.record x) st' := by
  have main : ∀ {st : KState}, KRun t st ls st' → st = .nothing →
      (st' = .nothing ∧ ∀ l ∈ ls, l = .tau) ∨ Settled t (.record x) st' := by
    intro st hr
    induction hr with
    | nil => intro h; exact Or.inl ⟨h, fun _ h => nomatch h⟩
    | @cons st st1 st2 l ls hstep hrest ih =>
      intro h
      subst h
      rcases hl l (by simp) with rfl | rfl
      · have : st1 = .nothing := by
          rcases hstep with h1 | ⟨it, h1, -⟩
          · exact h1
          · cases h1
        rcases ih (by subst this; exact hrest) (fun l h => hl l (by simp [h])) this with h | h
        · refine Or.inl ⟨h.1, ?_⟩
          intro l' hl'
          rcases List.mem_cons.1 hl' with rfl | hl'
          · rfl
          · exact h.2 _ hl'
        · exact Or.inr h
      · right
        have : st1 = .record x := by
          rcases hstep with ⟨h1, -⟩ | ⟨-, h2⟩
          · exfalso
            apply h0
            simp only [KState.version, UInt64.le_iff_toNat_le] at h1
            apply UInt64.toNat_inj.1
            have h2 : (0 : UInt64).toNat = 0 := rfl
            omega
          · exact h2
        refine settled_run hrest ?_ (Or.inl this)
        intro l hl'
        rcases hl l (by simp [hl']) with rfl | rfl
        · trivial
        · exact UInt64.le_refl _
  exact main hr rfl

/-- Splitting at the last element a `filterMap` keeps. -/
theorem filterMap_concat {α β : Type} {f : α → Option β} {l : List α} {bs : List β} {b : β}
    (h : l.filterMap f = bs ++ [b]) :
    ∃ l1 a l2, l = l1 ++ a :: l2 ∧ f a = some b ∧ l1.filterMap f = bs ∧
      ∀ x ∈ l2, f x = none := by
  induction l generalizing bs with
  | nil => simp at h
  | cons a l ih =>
    simp only [List.filterMap_cons] at h
    split at h
    next hn =>
      obtain ⟨l1, a', l2, rfl, h2, h3, h4⟩ := ih h
      exact ⟨a :: l1, a', l2, rfl, h2, by simp [hn, h3], h4⟩
    next b' hb =>
      cases bs with
      | nil =>
        simp only [List.nil_append, List.cons.injEq] at h
        obtain ⟨rfl, h⟩ := h
        exact ⟨[], a, l, rfl, hb, rfl, by simpa using h⟩
      | cons b2 bs =>
        simp only [List.cons_append, List.cons.injEq] at h
        obtain ⟨rfl, h⟩ := h
        obtain ⟨l1, a', l2, rfl, h2, h3, h4⟩ := ih h
        exact ⟨a :: l1, a', l2, rfl, h2, by simp [hb, h3], h4⟩

/-- With growing versions the last one is the greatest, and if it belongs to a value no other
change has it. -/
theorem growing_last {c : WriteReq} (cs : List WriteReq) : ∀ {v : UInt64}, Growing v (cs ++ [c]) →
    (if c.cmd = .set then v < c.entry.version else v ≤ c.entry.version) ∧
    (∀ d ∈ cs, if c.cmd = .set then d.entry.version < c.entry.version
      else d.entry.version ≤ c.entry.version) := by
  induction cs with
  | nil => intro v h; exact ⟨h.1, fun _ h => nomatch h⟩
  | cons d cs ih =>
    intro v h
    obtain ⟨h1, -, h3⟩ := h
    obtain ⟨h4, h5⟩ := ih h3
    have hvd : v ≤ d.entry.version := by
      split at h1
      · exact UInt64.le_of_lt h1
      · exact h1
    refine ⟨?_, ?_⟩
    · split at h4
      · rename_i hc
        rw [if_pos hc]; exact UInt64.lt_of_le_of_lt hvd h4
      · rename_i hc
        rw [if_neg hc]; exact UInt64.le_trans hvd h4
    · intro d' hd'
      rcases List.mem_cons.1 hd' with rfl | hd'
      · exact h4
      · exact h5 d' hd'

theorem growing_ne_zero {cs : List WriteReq} : ∀ {v : UInt64}, Growing v cs →
    ∀ c ∈ cs, c.entry.version ≠ 0 := by
  induction cs with
  | nil => intro v _ c h; cases h
  | cons d cs ih =>
    intro v h c hc
    rcases List.mem_cons.1 hc with rfl | hc
    · exact h.2.1
    · exact ih h.2.2 c hc

/-- A run with a dump of `x`, and otherwise nothing but dumps of records that are older. -/
theorem run_newest {t : Int64} {P : Item → Prop} {x : Item} (h0 : x.version ≠ 0)
    (hP : ∀ it, P it → it.version < x.version ∨ it = x) {st st' : KState} {ls : List KLabel}
    (hr : KRun t st ls st') (hl : ∀ l ∈ ls, l = .tau ∨ ∃ it, P it ∧ l = .dump it) (hx : KLabel.dump x ∈ ls)
    (h : (∃ it, st = .record it ∧ P it) ∨ (∃ w, st = .gone w ∧ w < x.version) ∨ st = .nothing) :
    Settled t (.record x) st' := by
  have hq : ∀ l ∈ ls, l.quiet x.version := by
    intro l hm
    rcases hl l hm with rfl | ⟨it, hit, rfl⟩
    · trivial
    · rcases hP it hit with h | h
      · exact UInt64.le_of_lt h
      · rw [h]; exact UInt64.le_refl _
  suffices H : ∀ {st : KState}, KRun t st ls st' → KLabel.dump x ∈ ls →
      ((∃ it, st = .record it ∧ P it) ∨ (∃ w, st = .gone w ∧ w < x.version) ∨ st = .nothing) ∨
        Settled t (.record x) st → Settled t (.record x) st' from H hr hx (.inl h)
  clear hr h hx
  intro st hr
  induction hr with
  | nil => intro hx; cases hx
  | @cons st st1 st2 l ls hstep hrest ih =>
    intro hx h
    have hl' := fun l h => hl l (List.mem_cons_of_mem _ h)
    have hq' := fun l h => hq l (List.mem_cons_of_mem _ h)
    rcases h with h | h
    · have next : ((∃ it, st1 = .record it ∧ P it) ∨ (∃ w, st1 = .gone w ∧ w < x.version) ∨ st1 = .nothing) ∨
          Settled t (.record x) st1 := by
        rcases hl l List.mem_cons_self with rfl | ⟨it, hit, rfl⟩
        · rcases hstep with e | ⟨it, e1, e2, e3⟩
          · rw [e]; exact .inl h
          · rcases h with ⟨it', e4, h4⟩ | ⟨w, e4, -⟩ | e4 <;> rw [e1] at e4 <;> cases e4
            rcases hP it h4 with h5 | rfl
            · exact .inl (.inr (.inl ⟨_, e3, h5⟩))
            · exact .inr (.inr ⟨_, rfl, e2, e3⟩)
        · rcases hstep with ⟨-, e⟩ | ⟨-, e⟩
          · rw [e]; exact .inl h
          · exact .inl (.inl ⟨it, e, hit⟩)
      by_cases hlx : l = .dump x
      · refine settled_run hrest hq' ?_
        subst hlx
        rcases hstep with ⟨h1, e⟩ | ⟨-, e⟩
        · rcases h with ⟨it, e4, h4⟩ | ⟨w, e4, h4⟩ | e4
          · rcases hP it h4 with h5 | rfl
            · rw [e4] at h1
              exact absurd (UInt64.lt_of_le_of_lt h1 h5) (UInt64.lt_irrefl _)
            · rw [e, e4]; exact .inl rfl
          · rw [e4] at h1
            exact absurd (UInt64.lt_of_le_of_lt h1 h4) (UInt64.lt_irrefl _)
          · rw [e4] at h1
            refine absurd ?_ h0
            apply UInt64.toNat_inj.1
            have : x.version.toNat ≤ 0 := UInt64.le_iff_toNat_le.1 h1
            simpa using this
        · exact .inl e
      · rcases List.mem_cons.1 hx with e | hx
        · exact absurd e.symm hlx
        · exact ih hl' hq' hx next
    · refine settled_run hrest hq' ?_
      refine settled_run (.cons hstep (.nil _)) (fun l' hl2 => ?_) h
      rw [List.mem_singleton.1 hl2]
      exact hq l List.mem_cons_self

end Flare
