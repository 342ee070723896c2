import Verif.Lemmas.StorageSet
import Mathlib.Data.List.Perm.Subperm

/-!
How the deletion cache and the version known for a key develop over client commands.
-/
namespace Flare

set_option linter.unusedSimpArgs false
set_option linter.unusedTactic false
set_option linter.unreachableTactic false

/-! ### The deletion cache under commands on other keys -/

theorem setHeaderCache_ne {s : Store} (hn : (s.cache.map (·.1)).Nodup) (now : Int64) (e : Entry)
    {k : Bytes} (hk : k ≠ e.key) :
    tombGet (setHeaderCache s now e).cache k = tombGet s.cache k ∨
      tombGet (setHeaderCache s now e).cache k = none := by
  cases h : tombGet (setHeaderCache s now e).cache k with
  | none => exact Or.inr rfl
  | some t =>
    left
    have := tombGet_drop (tombPut_nodup hn _ _) h
    rw [tombGet_tombPut_ne _ _ hk] at this
    exact this.symm

theorem remove_tomb_ne {s : Store} (hn : (s.cache.map (·.1)).Nodup) (env : Env) (e : Entry) (b : Beh)
    {k : Bytes} (hk : k ≠ e.key) :
    tombGet (remove s env e b).1.cache k = tombGet s.cache k ∨
      tombGet (remove s env e b).1.cache k = none := by
  have h1 := fun e' : Entry => fun h : e'.key = e.key =>
    setHeaderCache_ne (s := s) hn env.now e' (k := k) (by rw [h]; exact hk)
  have h2 := fun e' : Entry => fun h : e'.key = e.key =>
    setHeaderCache_ne (s := { s with db := dbOut s.db e.key }) hn env.now e' (k := k) (by rw [h]; exact hk)
  simp only [remove]
  repeat' split
  all_goals first | exact Or.inl rfl | exact h1 _ rfl | exact h2 _ rfl

theorem get_tomb_ne {s : Store} (hn : (s.cache.map (·.1)).Nodup) (env : Env) (e : Entry) (b : Beh)
    {k : Bytes} (hk : k ≠ e.key) :
    tombGet (get s env e b).1.cache k = tombGet s.cache k ∨
      tombGet (get s env e b).1.cache k = none := by
  rcases get_db s env e b with h | h <;> rw [h]
  · exact Or.inl rfl
  · exact remove_tomb_ne hn _ _ _ (by rwa [getRead_key])

theorem setCurrent_tomb_ne {s : Store} (hn : (s.cache.map (·.1)).Nodup) (env : Env) (e : Entry)
    (b : Beh) {k : Bytes} (hk : k ≠ e.key) :
    tombGet (setCurrent s env e b).1.cache k = tombGet s.cache k ∨
      tombGet (setCurrent s env e b).1.cache k = none := by
  rcases setCurrent_db s env e b with h | h <;> rw [h]
  · exact Or.inl rfl
  · exact get_tomb_ne hn _ _ _ hk

theorem set_cache (s : Store) (env : Env) (e : Entry) (b : Beh) :
    (set s env e b).1.cache = (setCurrent s env e b).1.cache := by
  rcases set_cases s env e b with ⟨h, -⟩ | ⟨e', -, -, -, h, -⟩ <;> rw [h]

theorem incr_tomb_ne {s : Store} (hn : (s.cache.map (·.1)).Nodup) (env : Env) (e : Entry) (v : UInt64)
    (i : Bool) (b : Beh) {k : Bytes} (hk : k ≠ e.key) :
    tombGet (incr s env e v i b).1.cache k = tombGet s.cache k ∨
      tombGet (incr s env e v i b).1.cache k = none := by
  simp only [incr]
  rcases incrLocked_cases s env e v i b with ⟨h1, -, h3⟩ | ⟨raw, -, -, -, -, -, h⟩
  · obtain ⟨s1, o, c, h⟩ : ∃ s1 o c, incrLocked s env e v i b = (s1, o, c) := ⟨_, _, _, rfl⟩
    rw [h] at h1 h3; simp only at h1; subst h1
    cases c with
    | none => simp [h]
    | some c =>
      have := h3 c rfl
      simp only [h, removeExpired]
      exact remove_tomb_ne hn _ _ _ (by rwa [this])
  · rw [h]; exact Or.inl rfl

/-- A command on another key leaves the deletion record of `k` or pushes it out. -/
theorem step_tomb_ne {s : Store} (hs : s.Ok) (env : Env) {c : Cmd} {k : Bytes} (hf : c ≠ .flush)
    (hk : c.key? ≠ some k) :
    tombGet (step s env c).1.cache k = tombGet s.cache k ∨
      tombGet (step s env c).1.cache k = none := by
  have hn := hs.2.2
  cases c with
  | set e b =>
    simp only [step, set_cache]
    exact setCurrent_tomb_ne hn _ _ _ (by rintro rfl; exact hk rfl)
  | incr e v i b => exact incr_tomb_ne hn _ _ _ _ _ (by rintro rfl; exact hk rfl)
  | get e b => exact get_tomb_ne hn _ _ _ (by rintro rfl; exact hk rfl)
  | remove e b => exact remove_tomb_ne hn _ _ _ (by rintro rfl; exact hk rfl)
  | flush => exact absurd rfl hf

theorem not_remembered {s : Store} {k : Bytes} :
    ¬ Remembered s k ↔ dbGet s.db k = none ∧ tombGet s.cache k = none := by
  simp [Remembered]

theorem known_not_remembered {s : Store} {k : Bytes} (h : ¬ Remembered s k) : known s k = 0 := by
  rw [not_remembered] at h; simp [known, h.1, h.2]

theorem step_known_ne {s : Store} (hs : s.Ok) (env : Env) {c : Cmd} {k : Bytes} (hf : c ≠ .flush)
    (hk : c.key? ≠ some k) (hr : Remembered s k → Remembered (step s env c).1 k) :
    known (step s env c).1 k = known s k := by
  have hd := step_db_ne (s := s) (env := env) hf hk
  have ht := step_tomb_ne hs env hf hk
  by_cases h : Remembered s k
  · have h' := hr h
    simp only [known, hd]
    cases hdb : dbGet s.db k with
    | some raw => rfl
    | none =>
      simp only [Remembered, hd, hdb] at h'
      rcases ht with ht | ht
      · rw [ht]
      · simp [ht] at h'
  · rw [known_not_remembered h]
    rw [not_remembered] at h
    have : tombGet (step s env c).1.cache k = none := by
      rcases ht with ht | ht <;> simp [ht, h.2]
    simp [known, hd, h.1, this]

/-! ### Commands on the key itself -/

/-- Removal of an expired record: the version stays known. -/
theorem dropRecord_known' {s : Store} (hs : s.Ok) (now : Int64) {k raw : Bytes}
    (hd : dbGet s.db k = some raw) (hr : Remembered (dropRecord s now k raw) k) :
    known (dropRecord s now k raw) k = known s k ∧
      tombGet (dropRecord s now k raw).cache k =
        some ⟨if (itemOf raw).expire = 0 then now else (itemOf raw).expire, (itemOf raw).version⟩ := by
  have hdb : dbGet (dropRecord s now k raw).db k = none := dbGet_dbOut_self _ _
  simp only [Remembered, hdb] at hr
  cases ht : tombGet (dropRecord s now k raw).cache k with
  | none => simp [ht] at hr
  | some t =>
    have := setHeaderCache_get (s := { s with db := dbOut s.db k }) hs.2.2 now (fill raw { key := k }) ht
    refine ⟨?_, by rw [this]; rfl⟩
    rw [known_of_raw hd]
    simp [known, hdb, ht, this]
    rfl

theorem removeExpired_fail {s : Store} (hs : s.Ok) {env : Env} {raw : Bytes} {e : Entry}
    (h : dbGet s.db e.key = some raw) (ho : env.outOk = false) :
    (removeExpired s env e).1 = s := by
  simp only [removeExpired, remove, getHeader_present hs h, ho]
  repeat' split
  all_goals simp_all

/-- What `get` does to the store: nothing, or the removal of an expired record. -/
theorem get_store {s : Store} (hs : s.Ok) (env : Env) (e : Entry) (b : Beh) :
    (get s env e b).1 = s ∨
      ∃ raw, dbGet s.db e.key = some raw ∧ (itemOf raw).expiredAt env.now ∧
        (get s env e b).1 = dropRecord s env.now e.key raw := by
  cases hd : dbGet s.db e.key with
  | none => left; rw [get_absent hd]
  | some raw =>
    cases hx : isExpired b.skipTimestamp (itemOf raw).expire env.now
    · left; rw [get_live hs hd hx]
    · cases ho : env.outOk
      · left
        simp only [get, getRead_some hd (hs.1 _ _ hd), hx, if_true]
        exact removeExpired_fail hs (e := fill raw e) (raw := raw) hd ho
      · right
        exact ⟨raw, rfl, (isExpired_false_iff _ _).1 (isExpired_mono hx), by rw [get_expired hs hd ho hx]⟩

theorem get_known {s : Store} (hs : s.Ok) (env : Env) (e : Entry) (b : Beh)
    (hr : Remembered s e.key → Remembered (get s env e b).1 e.key) :
    known (get s env e b).1 e.key = known s e.key := by
  rcases get_store hs env e b with h | ⟨raw, hd, hx, h⟩
  · rw [h]
  · rw [h] at hr ⊢
    exact (dropRecord_known' hs _ hd (hr (Or.inl (by simp [hd])))).1

theorem incr_known {s : Store} (hs : s.Ok) (env : Env) (e : Entry) (v : UInt64) (i : Bool) (b : Beh)
    (hr : Remembered s e.key → Remembered (incr s env e v i b).1 e.key) :
    if (incr s env e v i b).2.r = some .stored then
      known (incr s env e v i b).1 e.key = known s e.key + 1 ∧
        (incr s env e v i b).2.e.version = known s e.key + 1
    else known (incr s env e v i b).1 e.key = known s e.key := by
  cases hd : dbGet s.db e.key with
  | none => simp [incr, incrLocked, hd]
  | some raw =>
    have hro := hs.1 _ _ hd
    cases hx : isExpired b.skipTimestamp (fill raw { key := [] }).expire env.now
    · rcases incrLocked_cases s env e v i b with ⟨h1, h2, -⟩ | ⟨raw', hd', -, -, -, -, h⟩
      · have hnone : (incrLocked s env e v i b).2.2 = none := by
          simp only [incrLocked, hd, unserializeHeader_of_len hro.1, rawOk_size hro, hx]
          repeat' split
          all_goals simp_all
        obtain ⟨s1, o, c, h⟩ : ∃ s1 o c, incrLocked s env e v i b = (s1, o, c) := ⟨_, _, _, rfl⟩
        rw [h] at h1 h2 hnone; simp only at h1 h2 hnone; subst h1 hnone
        have hi : incr s1 env e v i b = (s1, o) := by simp only [incr, h]
        rw [hi, if_neg h2]
      · rw [hd] at hd'; cases hd'
        have hi : incr s env e v i b = ((incrLocked s env e v i b).1, (incrLocked s env e v i b).2.1) := by
          simp only [incr, h]
        rw [hi, h]
        simp only [if_true, known_of_raw hd]
        rw [known_of_raw (dbGet_dbPut_self ..), itemOf_serialize]
        exact ⟨rfl, trivial⟩
    · have hi : incr s env e v i b =
          ((removeExpired s env { fill raw { key := [] } with key := e.key }).1, ⟨.ok, some .notFound, e⟩) := by
        simp [incr, incrLocked, hd, unserializeHeader_of_len hro.1, rawOk_size hro, hx]
      rw [hi] at hr ⊢
      rw [if_neg (by simp)]
      cases ho : env.outOk
      · simp only
        rw [removeExpired_fail hs (e := { fill raw { key := [] } with key := e.key }) hd ho]
      · have := (removeExpired_present hs (env := env) (e := { fill raw { key := [] } with key := e.key })
          (raw := raw) hd rfl rfl ho).1
        simp only [this] at hr ⊢
        exact (dropRecord_known' hs _ hd (hr (Or.inl (by simp [hd])))).1

theorem remove_known {s : Store} (hs : s.Ok) (env : Env) (e : Entry) (hv : e.version = 0)
    (hr : Remembered s e.key → Remembered (remove s env e {}).1 e.key) :
    known (remove s env e {}).1 e.key = known s e.key := by
  cases hd : dbGet s.db e.key with
  | none =>
    have : (remove s env e {}).1 = s := by
      simp only [remove, getHeader, hd, hv]; simp
    rw [this]
  | some raw =>
    cases ho : env.outOk
    · have : (remove s env e {}).1 = s := by
        simp only [remove, getHeader_present hs hd, hv, ho]; simp
      rw [this]
    · have h : (remove s env e {}).1 =
          setHeaderCache { s with db := dbOut s.db e.key } env.now
            { e with version := (itemOf raw).version } := by
        simp only [remove, getHeader_present hs hd, hv, ho, fill_take]; simp; rfl
      rw [h] at hr ⊢
      have hr := hr (Or.inl (by simp [hd]))
      have hdb : dbGet (setHeaderCache { s with db := dbOut s.db e.key } env.now
            { e with version := (itemOf raw).version }).db e.key = none := dbGet_dbOut_self _ _
      simp only [Remembered, hdb] at hr
      cases ht : tombGet (setHeaderCache { s with db := dbOut s.db e.key } env.now
            { e with version := (itemOf raw).version }).cache e.key with
      | none => simp [ht] at hr
      | some t =>
        have := setHeaderCache_get (s := { s with db := dbOut s.db e.key }) hs.2.2 env.now
          { e with version := (itemOf raw).version } ht
        rw [known_of_raw hd]
        simp only [known, hdb, ht, this]

/-- A client's `set`-like command: STORED raises the known version by one, everything else leaves
it. -/
theorem set_known {s : Store} (hs : s.Ok) (env : Env) (e : Entry) (b : Beh)
    (hc : (Cmd.set e b).client)
    (hr : Remembered s e.key → Remembered (set s env e b).1 e.key) :
    if (set s env e b).2.r = some .stored then
      known (set s env e b).1 e.key = known s e.key + 1 ∧
        (set s env e b).2.e.version = known s e.key + 1
    else known (set s env e b).1 e.key = known s e.key := by
  rcases set_cases s env e b with ⟨h, h1, h2⟩ | ⟨e', ho, hk, hsz, hst, v, hck, hp⟩
  · rw [if_neg h1]
    rw [h] at hr ⊢
    rcases setCurrent_db s env e b with h' | h' <;> rw [h'] at hr ⊢
    exact get_known hs _ { key := e.key } _ hr
  · have hve : e'.version = v := (setPrepare_key hp).2
    have hkn : known (set s env e b).1 e.key = v := by
      rw [hst, ← hk, known_of_raw (dbGet_dbPut_self ..), itemOf_serialize]; exact hve
    have hcv : (setCurrent s env e b).2.1.version = known s e.key := by
      cases hb : (b.append || b.prepend || b.touch)
      · rw [setCurrent_plain hb]; exact header_known hs e.key
      · cases hl : lookup s env.now e.key with
        | some it =>
          obtain ⟨cur, hc, -, hv, -⟩ := setCurrent_visible (b := b) hs hl
          rw [hc]
          obtain ⟨raw, hraw, rfl, -⟩ := (lookup_eq_some hs).1 hl
          rw [known_of_raw hraw]; exact hv
        | none =>
          have hts : b.skipTimestamp = false := by
            rcases hc with rfl | ⟨-, rfl | rfl | rfl | rfl | rfl | rfl⟩ <;> rfl
          have hna := setState_not_visible (env := env) (e := e) (b := b) hs hts hl
          exfalso
          simp only [setCheck] at hck
          simp only [setPrepare] at hp
          rcases hc with rfl | ⟨-, rfl | rfl | rfl | rfl | rfl | rfl⟩ <;>
            simp_all [Beh.ofCas, Beh.ofSet, Beh.ofAdd, Beh.ofReplace, Beh.ofAppend, Beh.ofPrepend,
              Beh.ofTouch]
    rw [hcv] at hck
    generalize setState env.now b (setCurrent s env e b).2.1 (setCurrent s env e b).2.2 = st at hck
    rw [hkn, ho]
    rcases hc with rfl | ⟨h0, rfl | rfl | rfl | rfl | rfl | rfl⟩
    · have := setCheck_cas_ok hck
      simp [Beh.ofCas, hve, this.1, this.2.1]
    all_goals
      simp only [setCheck, Beh.ofSet, Beh.ofAdd, Beh.ofReplace, Beh.ofAppend, Beh.ofPrepend, Beh.ofTouch, h0] at hck ⊢
      cases st <;> simp at hck ⊢ <;> simp [hve, hck]

/-- One client command on any key: STORED on `k` raises the version known for `k` by one and reports
it; everything else leaves it. -/
theorem client_known {s : Store} (hs : s.Ok) (env : Env) {c : Cmd} (hc : c.client) {k : Bytes}
    (hr : Remembered s k → Remembered (step s env c).1 k) :
    if c.key? = some k ∧ (step s env c).2.r = some .stored then
      known (step s env c).1 k = known s k + 1 ∧ (step s env c).2.e.version = known s k + 1
    else known (step s env c).1 k = known s k := by
  by_cases hk : c.key? = some k
  · cases c with
    | set e b =>
      simp only [Cmd.key?, Option.some.injEq] at hk; subst hk
      simpa [Cmd.key?, step] using set_known hs env e b hc hr
    | incr e v i b =>
      simp only [Cmd.key?, Option.some.injEq] at hk; subst hk
      simpa [Cmd.key?, step] using incr_known hs env e v i b hr
    | get e b =>
      simp only [Cmd.key?, Option.some.injEq] at hk; subst hk
      have hns : (get s env e b).2.r ≠ some .stored := by
        simp only [get, getRead]
        repeat' split
        all_goals simp_all
        all_goals (rename_i h; revert h; repeat' split)
        all_goals (intro h; simp_all)
        all_goals first | (cases h; simp) | (rw [← h.1]; simp) | skip
      rw [if_neg (by simp [step, hns])]
      exact get_known hs env e b hr
    | remove e b =>
      simp only [Cmd.key?, Option.some.injEq] at hk; subst hk
      obtain ⟨hv, rfl⟩ := hc
      have hns : (remove s env e {}).2.r ≠ some .stored := by
        simp only [remove]
        repeat' split
        all_goals simp_all
        all_goals split <;> simp
      rw [if_neg (by simp [step, hns])]
      exact remove_known hs env e hv hr
    | flush => cases hk
  · rw [if_neg (by simp [hk])]
    exact step_known_ne hs env (by rintro rfl; exact hc) hk hr

/-- A client command that answers neither STORED nor TOUCHED leaves the record of its key or removes
it. -/
theorem client_quiet_db {s : Store} (hs : s.Ok) {env : Env} {c : Cmd} (_hc : c.client) {k : Bytes}
    (hk : c.key? = some k) (h1 : (step s env c).2.r ≠ some .stored)
    (h2 : (step s env c).2.r ≠ some .touched) :
    dbGet (step s env c).1.db k = dbGet s.db k ∨ dbGet (step s env c).1.db k = none := by
  have hrem : ∀ (e : Entry) (b : Beh), e.key = k → dbGet (remove s env e b).1.db k = dbGet s.db k ∨
      dbGet (remove s env e b).1.db k = none := by
    intro e b he
    rcases remove_db s env e b with h | h <;> rw [h]
    · exact Or.inl rfl
    · right; rw [he]; exact dbGet_dbOut_self _ _
  have hget : ∀ (e : Entry) (b : Beh), e.key = k → dbGet (get s env e b).1.db k = dbGet s.db k ∨
      dbGet (get s env e b).1.db k = none := by
    intro e b he
    rcases get_db s env e b with h | h <;> rw [h]
    · exact Or.inl rfl
    · exact hrem _ _ (by rw [getRead_key, he])
  cases c with
  | set e b =>
    simp only [Cmd.key?, Option.some.injEq] at hk
    simp only [step] at h1 h2 ⊢
    rcases set_cases s env e b with ⟨h, -⟩ | ⟨e', ho, -⟩
    · rw [h]
      rcases setCurrent_db s env e b with h | h <;> rw [h]
      · exact Or.inl rfl
      · exact hget _ _ hk
    · rw [ho] at h1 h2
      simp only at h1 h2
      split at h1 <;> simp_all
  | incr e v i b =>
    simp only [Cmd.key?, Option.some.injEq] at hk
    simp only [step, incr] at h1 ⊢
    rcases incrLocked_cases s env e v i b with ⟨hh, -, h3⟩ | ⟨raw, -, -, -, -, -, h⟩
    · obtain ⟨s1, o, c, h⟩ : ∃ s1 o c, incrLocked s env e v i b = (s1, o, c) := ⟨_, _, _, rfl⟩
      rw [h] at hh h3; simp only at hh; subst hh
      cases c with
      | none => simp [h]
      | some c => simp only [h, removeExpired]; exact hrem _ _ (by rw [h3 c rfl, hk])
    · rw [h] at h1; simp at h1
  | get e b => exact hget _ _ (by simpa [Cmd.key?] using hk)
  | remove e b => exact hrem _ _ (by simpa [Cmd.key?] using hk)
  | flush => cases hk

/-! ### Enough room in the deletion cache -/

theorem remove_store (s : Store) (env : Env) (e : Entry) (b : Beh) :
    (remove s env e b).1 = s ∨ (remove s env e b).1 = setHeaderCache s env.now e ∨
      ∃ e', e'.key = e.key ∧
        (remove s env e b).1 = setHeaderCache { s with db := dbOut s.db e.key } env.now e' := by
  simp only [remove]
  repeat' split
  all_goals first
    | exact Or.inl rfl
    | exact Or.inr (Or.inl rfl)
    | (refine Or.inr (Or.inr ⟨_, ?_, rfl⟩); rfl)

theorem length_le_of_nodup_subset {l K : List Bytes} (h : l.Nodup) (hs : ∀ x ∈ l, x ∈ K) :
    l.length ≤ K.length :=
  (List.subperm_of_subset h hs).length_le

theorem setHeaderCache_roomy {s : Store} (hn : (s.cache.map (·.1)).Nodup) {K : List Bytes}
    (hK : K.length ≤ s.cacheSize) (hc : ∀ x ∈ s.cache.map (·.1), x ∈ K) (now : Int64) {e : Entry}
    (he : e.key ∈ K) :
    (setHeaderCache s now e).cache =
      tombPut s.cache e.key ⟨if e.expire = 0 then now else e.expire, e.version⟩ ∧
    (∀ x ∈ (setHeaderCache s now e).cache.map (·.1), x ∈ K) := by
  generalize ht : (⟨if e.expire = 0 then now else e.expire, e.version⟩ : Tomb) = t
  have hsub : ∀ x ∈ (tombPut s.cache e.key t).map (·.1), x ∈ K := by
    intro x hx
    by_cases hm : e.key ∈ s.cache.map (·.1)
    · rw [tombPut_of_mem hm] at hx; exact hc x hx
    · rw [tombPut_of_not_mem hm, List.map_append, List.mem_append] at hx
      rcases hx with hx | hx
      · exact hc x hx
      · simp at hx; rw [hx]; exact he
  have hlen : (tombPut s.cache e.key t).length ≤ s.cacheSize := by
    have := length_le_of_nodup_subset (tombPut_nodup hn e.key t) hsub
    rw [List.length_map] at this; omega
  have heq : (setHeaderCache s now e).cache = tombPut s.cache e.key t := by
    simp only [setHeaderCache, ht]
    rw [Nat.sub_eq_zero_of_le hlen, List.drop_zero]
  rw [heq]; exact ⟨rfl, hsub⟩

/-- What "roomy" gives for one change of the store. -/
def RoomyStep (K : List Bytes) (s s' : Store) : Prop :=
  (∀ k, Remembered s k → Remembered s' k) ∧ ∀ x ∈ s'.cache.map (·.1), x ∈ K

theorem remove_roomy {s : Store} (hs : s.Ok) {K : List Bytes}
    (hK : K.length ≤ s.cacheSize) (hc : ∀ x ∈ s.cache.map (·.1), x ∈ K) (env : Env) {e : Entry}
    (he : e.key ∈ K) (b : Beh) : RoomyStep K s (remove s env e b).1 := by
  have htp : ∀ (k : Bytes) (t : Tomb), tombGet s.cache k ≠ none → tombGet (tombPut s.cache e.key t) k ≠ none := by
    intro k t h
    by_cases hk : k = e.key
    · subst hk; simp
    · rwa [tombGet_tombPut_ne _ _ hk]
  rcases remove_store s env e b with h | h | ⟨e', hk', h⟩ <;> rw [h]
  · exact ⟨fun k h => h, hc⟩
  · have := setHeaderCache_roomy hs.2.2 hK hc env.now he
    refine ⟨fun k hr => ?_, this.2⟩
    rcases hr with hr | hr
    · exact Or.inl hr
    · right; rw [this.1]; exact htp k _ hr
  · have := setHeaderCache_roomy (s := { s with db := dbOut s.db e.key }) hs.2.2 hK hc env.now
      (e := e') (by rw [hk']; exact he)
    refine ⟨fun k hr => ?_, this.2⟩
    by_cases hk : k = e.key
    · right; rw [this.1, hk', hk]; simp
    · rcases hr with hr | hr
      · left
        show dbGet (dbOut s.db e.key) k ≠ none
        rwa [dbGet_dbOut_ne _ hk]
      · right; rw [this.1, hk']; exact htp k _ hr

theorem put_roomy {K : List Bytes} {s s' : Store} (h : RoomyStep K s s') (k raw : Bytes) :
    RoomyStep K s { s' with db := dbPut s'.db k raw } := by
  refine ⟨fun j hr => ?_, h.2⟩
  by_cases hj : j = k
  · left; simp [hj]
  · rcases h.1 j hr with h' | h'
    · left; show dbGet (dbPut s'.db k raw) j ≠ none; rwa [dbGet_dbPut_ne _ _ hj]
    · exact Or.inr h'

theorem get_roomy {s : Store} (hs : s.Ok) {K : List Bytes}
    (hK : K.length ≤ s.cacheSize) (hc : ∀ x ∈ s.cache.map (·.1), x ∈ K) (env : Env) {e : Entry}
    (he : e.key ∈ K) (b : Beh) : RoomyStep K s (get s env e b).1 := by
  rcases get_db s env e b with h | h <;> rw [h]
  · exact ⟨fun k h => h, hc⟩
  · exact remove_roomy hs hK hc _ (by rwa [getRead_key]) _

theorem step_roomy {s : Store} (hs : s.Ok) {K : List Bytes}
    (hK : K.length ≤ s.cacheSize) (hc : ∀ x ∈ s.cache.map (·.1), x ∈ K) {env : Env} {c : Cmd}
    (hf : c ≠ .flush) (hk : ∀ k, c.key? = some k → k ∈ K) : RoomyStep K s (step s env c).1 := by
  cases c with
  | set e b =>
    have he := hk e.key rfl
    have hcur : RoomyStep K s (setCurrent s env e b).1 := by
      rcases setCurrent_db s env e b with h | h <;> rw [h]
      · exact ⟨fun k h => h, hc⟩
      · exact get_roomy hs hK hc _ (e := { key := e.key }) he _
    simp only [step]
    rcases set_cases s env e b with ⟨h, -⟩ | ⟨e', -, -, -, h, -⟩ <;> rw [h]
    · exact hcur
    · exact put_roomy hcur _ _
  | incr e v i b =>
    have he := hk e.key rfl
    simp only [step, incr]
    rcases incrLocked_cases s env e v i b with ⟨h1, -, h3⟩ | ⟨raw, -, -, -, -, -, h⟩
    · obtain ⟨s1, o, c, h⟩ : ∃ s1 o c, incrLocked s env e v i b = (s1, o, c) := ⟨_, _, _, rfl⟩
      rw [h] at h1 h3; simp only at h1; subst h1
      cases c with
      | none => simp only [h]; exact ⟨fun k h => h, hc⟩
      | some c =>
        simp only [h, removeExpired]
        exact remove_roomy hs hK hc _ (by rw [h3 c rfl]; exact he) _
    · rw [h]; exact put_roomy ⟨fun k h => h, hc⟩ _ _
  | get e b => exact get_roomy hs hK hc _ (hk e.key rfl) _
  | remove e b => exact remove_roomy hs hK hc _ (hk e.key rfl) _
  | flush => exact absurd rfl hf

theorem get_cacheSize (s : Store) (env : Env) (e : Entry) (b : Beh) :
    (get s env e b).1.cacheSize = s.cacheSize := by
  rcases get_db s env e b with h | h <;> rw [h]
  exact remove_cacheSize ..

theorem step_cacheSize (s : Store) (env : Env) (c : Cmd) :
    (step s env c).1.cacheSize = s.cacheSize := by
  cases c with
  | set e b =>
    simp only [step]
    have : (setCurrent s env e b).1.cacheSize = s.cacheSize := by
      rcases setCurrent_db s env e b with h | h <;> rw [h]
      exact get_cacheSize ..
    rcases set_cases s env e b with ⟨h, -⟩ | ⟨e', -, -, -, h, -⟩ <;> rw [h] <;> exact this
  | incr e v i b =>
    simp only [step, incr]
    rcases incrLocked_cases s env e v i b with ⟨h1, -, h3⟩ | ⟨raw, -, -, -, -, -, h⟩
    · obtain ⟨s1, o, c, h⟩ : ∃ s1 o c, incrLocked s env e v i b = (s1, o, c) := ⟨_, _, _, rfl⟩
      rw [h] at h1; simp only at h1; subst h1
      cases c with
      | none => simp only [h]
      | some c => simp only [h, removeExpired]; exact remove_cacheSize ..
    · rw [h]
  | get e b => exact get_cacheSize ..
  | remove e b => exact remove_cacheSize ..
  | flush => simp only [step, truncate]; split <;> rfl

theorem remove_iterLock (s : Store) (env : Env) (e : Entry) (b : Beh) :
    (remove s env e b).1.iterLock = s.iterLock := by
  rcases remove_store s env e b with h | h | ⟨e', -, h⟩ <;> rw [h] <;> rfl

theorem get_iterLock (s : Store) (env : Env) (e : Entry) (b : Beh) :
    (get s env e b).1.iterLock = s.iterLock := by
  rcases get_db s env e b with h | h <;> rw [h]
  exact remove_iterLock ..

theorem step_iterLock (s : Store) (env : Env) (c : Cmd) :
    (step s env c).1.iterLock = s.iterLock := by
  cases c with
  | set e b =>
    simp only [step]
    have : (setCurrent s env e b).1.iterLock = s.iterLock := by
      rcases setCurrent_db s env e b with h | h <;> rw [h]
      exact get_iterLock ..
    rcases set_cases s env e b with ⟨h, -⟩ | ⟨e', -, -, -, h, -⟩ <;> rw [h] <;> exact this
  | incr e v i b =>
    simp only [step, incr]
    rcases incrLocked_cases s env e v i b with ⟨h1, -, h3⟩ | ⟨raw, -, -, -, -, -, h⟩
    · obtain ⟨s1, o, c, h⟩ : ∃ s1 o c, incrLocked s env e v i b = (s1, o, c) := ⟨_, _, _, rfl⟩
      rw [h] at h1; simp only at h1; subst h1
      cases c with
      | none => simp only [h]
      | some c => simp only [h, removeExpired]; exact remove_iterLock ..
    · rw [h]
  | get e b => exact get_iterLock ..
  | remove e b => exact remove_iterLock ..
  | flush => simp only [step, truncate]; split <;> rfl

theorem serialize_fill {raw : Bytes} (h : raw.length = headerSize) (e0 : Entry) :
    serializeHeader (fill raw e0) = raw := by
  unfold headerSize at h
  have hu32 : ∀ n, n < 2 ^ 32 → (UInt32.ofNat n).toNat = n := by
    intro n hn; rw [UInt32.toNat_ofNat']; omega
  have hu64 : ∀ n, n < 2 ^ 64 → (UInt64.ofNat n).toNat = n := by
    intro n hn; rw [UInt64.toNat_ofNat']; omega
  have l4 : (raw.take 4).length = 4 := by simp; omega
  have l8 : ∀ i, i + 8 ≤ 28 → ((raw.drop i).take 8).length = 8 := by intro i hi; simp; omega
  have b4 := leNat_lt (raw.take 4)
  have b8 := fun i => leNat_lt ((raw.drop i).take 8)
  rw [l4] at b4
  have r4 : leBytes 4 (leNat (raw.take 4)) = raw.take 4 := by
    have := leBytes_leNat (raw.take 4); rwa [l4] at this
  have r8 : ∀ i, i + 8 ≤ 28 → leBytes 8 (leNat ((raw.drop i).take 8)) = (raw.drop i).take 8 := by
    intro i hi
    have := leBytes_leNat ((raw.drop i).take 8); rwa [l8 i hi] at this
  have c8 : ∀ i, i + 8 ≤ 28 → leNat ((raw.drop i).take 8) < 2 ^ 64 := by
    intro i hi; have := b8 i; rw [l8 i hi] at this; exact this
  simp only [serializeHeader, fill]
  rw [hu32 _ b4, UInt64.toUInt64_toInt64, hu64 _ (c8 4 (by omega)), hu64 _ (c8 12 (by omega)),
    hu64 _ (c8 20 (by omega)), r4, r8 4 (by omega), r8 12 (by omega), r8 20 (by omega)]
  have h1 : (raw.drop 20).take 8 = raw.drop 20 := List.take_of_length_le (by simp; omega)
  have h2 : ∀ i, raw.drop (i + 8) = (raw.drop i).drop 8 := by intro i; rw [List.drop_drop]
  rw [h1, List.append_assoc, List.append_assoc]
  rw [show raw.drop 20 = (raw.drop 12).drop 8 from h2 12, List.take_append_drop]
  rw [show raw.drop 12 = (raw.drop 4).drop 8 from h2 4, List.take_append_drop, List.take_append_drop]

end Flare
