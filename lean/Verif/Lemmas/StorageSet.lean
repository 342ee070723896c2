import Verif.Lemmas.Storage

set_option linter.unusedSimpArgs false

namespace Flare

/-- The version the store remembers for a key: of the record, else of its deletion. -/
def known (s : Store) (k : Bytes) : UInt64 :=
  match dbGet s.db k with
  | some raw => (itemOf raw).version
  | none => match tombGet s.cache k with
    | some t => t.version
    | none => 0

theorem known_of_raw {s : Store} {k raw : Bytes} (h : dbGet s.db k = some raw) :
    known s k = (itemOf raw).version := by simp [known, h]

theorem fill_itemOf (raw : Bytes) (e : Entry) :
    (fill raw e).flag = (itemOf raw).flag ∧ (fill raw e).expire = (itemOf raw).expire ∧
      (fill raw e).version = (itemOf raw).version := by
  simp [fill, itemOf]

/-- The header of the current entry, without append/prepend/touch. -/
theorem setCurrent_plain {s : Store} {env : Env} {e : Entry} {b : Beh}
    (hb : (b.append || b.prepend || b.touch) = false) :
    setCurrent s env e b = (s, getHeader s e.key { key := [] }) := by
  simp only [setCurrent, hb]; simp

theorem getHeader_present {s : Store} (hs : s.Ok) {k raw : Bytes} (h : dbGet s.db k = some raw)
    (e : Entry) : getHeader s k e = (fill (raw.take headerSize) e, true) := by
  have hr := hs.1 k raw h
  simp only [getHeader, h]
  rw [unserializeHeader_of_len]
  simp only [List.length_take]; have := hr.1; omega

theorem fill_take (raw : Bytes) (e : Entry) : fill (raw.take headerSize) e = fill raw e := by
  simp [fill, headerSize, List.take_take, List.drop_take]

theorem get_absent {s : Store} {env : Env} {e : Entry} {b : Beh} (h : dbGet s.db e.key = none) :
    get s env e b = (s, ⟨.ok, some .notFound, e⟩) := by
  simp [get, getRead_none h]

theorem get_live {s : Store} (hs : s.Ok) {env : Env} {e : Entry} {b : Beh} {raw : Bytes}
    (h : dbGet s.db e.key = some raw)
    (hx : isExpired b.skipTimestamp (itemOf raw).expire env.now = false) :
    get s env e b = (s, ⟨.ok, some .none_, { fill raw e with data := raw.drop headerSize }⟩) := by
  simp [get, getRead_some h (hs.1 _ _ h), hx]

/-- The store after the removal of an expired record. -/
def dropRecord (s : Store) (now : Int64) (k raw : Bytes) : Store :=
  setHeaderCache { s with db := dbOut s.db k } now (fill raw { key := k })

theorem setHeaderCache_congr (s : Store) (now : Int64) {e e' : Entry} (h1 : e.key = e'.key)
    (h2 : e.expire = e'.expire) (h3 : e.version = e'.version) :
    setHeaderCache s now e = setHeaderCache s now e' := by
  simp [setHeaderCache, h1, h2, h3]

theorem removeExpired_present {s : Store} (hs : s.Ok) {env : Env} {raw : Bytes} {e : Entry}
    (h : dbGet s.db e.key = some raw) (he : e.version = (itemOf raw).version)
    (hx : e.expire = (itemOf raw).expire) (ho : env.outOk = true) :
    (removeExpired s env e).1 = dropRecord s env.now e.key raw ∧
      (removeExpired s env e).2 = e := by
  simp only [removeExpired, remove, getHeader_present hs h, fill_take, ho, dropRecord]
  have h2 : (fill raw { key := [] }).version = e.version := by rw [he]; rfl
  have hv : (fill raw { key := e.key }).version = e.version := by rw [he]; rfl
  have hxx : (fill raw { key := e.key }).expire = e.expire := by rw [hx]; rfl
  simp only [h2]
  by_cases h0 : e.version = 0
  · simp [h0]
    refine ⟨setHeaderCache_congr _ _ rfl hxx.symm (by simp [hv, h0]), ?_⟩
    cases e; simp_all
  · simp [h0]
    exact setHeaderCache_congr _ _ rfl hxx.symm hv.symm

theorem get_expired {s : Store} (hs : s.Ok) {env : Env} {e : Entry} {b : Beh} {raw : Bytes}
    (h : dbGet s.db e.key = some raw) (ho : env.outOk = true)
    (hx : isExpired b.skipTimestamp (itemOf raw).expire env.now = true) :
    get s env e b = (dropRecord s env.now e.key raw, ⟨.ok, some .notFound, fill raw e⟩) := by
  simp only [get, getRead_some h (hs.1 _ _ h), hx, if_true]
  have := removeExpired_present hs (env := env) (e := fill raw e) (raw := raw) h rfl rfl ho
  rw [this.1, this.2]
  rfl

theorem dropRecord_known {s : Store} (hs : s.Ok) (now : Int64) (k raw : Bytes)
    (hx : (itemOf raw).expire ≠ 0) (e : Entry) (hv : e.version = (itemOf raw).version)
    (he : e.expire = (itemOf raw).expire) :
    let e' := getHeaderCache (dropRecord s now k raw) k e
    e'.version = (itemOf raw).version ∧ e'.expire = (itemOf raw).expire := by
  simp only [getHeaderCache]
  split
  · exact ⟨hv, he⟩
  next t ht =>
    have := setHeaderCache_get (s := { s with db := dbOut s.db k }) hs.2.2 now
      (fill raw { key := k }) (t := t) (by exact ht)
    subst this
    refine ⟨rfl, ?_⟩
    have h0 : (fill raw { key := k }).expire = (itemOf raw).expire := rfl
    simp [h0, hx]

/-- The state of the current entry as `set` sees it, when the record is visible. -/
theorem setCurrent_visible {s : Store} (hs : s.Ok) {env : Env} {e : Entry} {b : Beh}
    {it : Item} (h : lookup s env.now e.key = some it) :
    ∃ cur, setCurrent s env e b = (s, cur, true) ∧ setState env.now b cur true = .alive ∧
      cur.version = it.version ∧ cur.flag = it.flag ∧ cur.expire = it.expire ∧
      cur.size.toNat = it.data.length ∧
      ((b.append || b.prepend || b.touch) = true → cur.data = it.data) := by
  obtain ⟨raw, hraw, rfl, hx⟩ := (lookup_eq_some hs).1 h
  have hx' : ∀ sk, isExpired sk (itemOf raw).expire env.now = false := by
    intro sk
    simp only [Item.expiredAt] at hx
    rw [← isExpired_false_iff] at hx
    cases sk
    · simpa using hx
    · simp [isExpired]
  have hsz : ∀ e, (fill raw e).size.toNat = (itemOf raw).data.length := by
    intro e; rw [rawOk_size (hs.1 _ _ hraw)]; simp [itemOf]
  cases hb : (b.append || b.prepend || b.touch)
  · refine ⟨fill raw { key := [] }, ?_, ?_, rfl, rfl, rfl, hsz _, by simp⟩
    · rw [setCurrent_plain hb, getHeader_present hs hraw, fill_take]
    · have : (fill raw { key := [] }).expire = (itemOf raw).expire := rfl
      simp [setState, this, hx']
  · refine ⟨{ fill raw { key := e.key } with data := raw.drop headerSize }, ?_, ?_, rfl, rfl, rfl,
      hsz { key := e.key }, fun _ => rfl⟩
    · simp only [setCurrent, hb, if_true]
      rw [get_live hs (e := { key := e.key }) hraw (hx' _)]
      simp
    · have : (fill raw { key := e.key }).expire = (itemOf raw).expire := rfl
      simp [setState, this, hx']

/-- ... when a deletion hold is running. -/
theorem setCurrent_held {s : Store} {env : Env} {e : Entry} {b : Beh}
    (hb : b.skipTimestamp = false) (h : Held s env.now e.key) :
    ∃ cur, setCurrent s env e b = (s, cur, false) ∧ setState env.now b cur false = .notExpired ∧
      cur.version = known s e.key := by
  obtain ⟨hd, t, ht, h0, hn⟩ := h
  refine ⟨getHeaderCache s e.key { key := if b.append || b.prepend || b.touch then e.key else [] },
    ?_, ?_, ?_⟩
  · cases hb : (b.append || b.prepend || b.touch)
    · rw [setCurrent_plain hb]; simp [getHeader, hd]
    · simp only [setCurrent, hb, if_true]
      rw [get_absent (e := { key := e.key }) hd]
      simp
  · simp only [getHeaderCache, ht, setState, hb]
    simp [h0, hn]
  · simp [getHeaderCache, ht, known, hd]

/-- ... when the key is neither visible nor held. -/
theorem setCurrent_gone {s : Store} (hs : s.Ok) {env : Env} {e : Entry} {b : Beh}
    (ho : (b.append || b.prepend || b.touch) = false ∨ env.outOk = true)
    (hb : b.skipTimestamp = false)
    (h : lookup s env.now e.key = none) (hh : ¬ Held s env.now e.key) :
    ∃ s1 cur ex, setCurrent s env e b = (s1, cur, ex) ∧ setState env.now b cur ex = .gone ∧
      cur.version = known s e.key ∧
      (s1 = s ∨ ∃ raw, dbGet s.db e.key = some raw ∧ (itemOf raw).expiredAt env.now ∧
        s1 = dropRecord s env.now e.key raw) := by
  rcases (lookup_eq_none hs).1 h with hd | ⟨raw, hraw, hx⟩
  · -- absent
    refine ⟨s, getHeaderCache s e.key { key := if b.append || b.prepend || b.touch then e.key else [] },
      false, ?_, ?_, ?_, Or.inl rfl⟩
    · cases hb : (b.append || b.prepend || b.touch)
      · rw [setCurrent_plain hb]; simp [getHeader, hd]
      · simp only [setCurrent, hb, if_true]
        rw [get_absent (e := { key := e.key }) hd]
        simp
    · rcases ht : tombGet s.cache e.key with _ | t
      · simp [getHeaderCache, setState, hb, ht]
      · simp only [getHeaderCache, setState, hb, ht]
        simp only [Bool.false_eq_true, if_false, Bool.not_false, Bool.true_and, Bool.and_eq_true,
          decide_eq_true_eq, ite_eq_right_iff, gt_iff_lt]
        rintro ⟨h1, h2⟩
        exact absurd ⟨hd, t, ht, h1, h2⟩ hh
    · simp only [getHeaderCache, known, hd]
      cases tombGet s.cache e.key <;> rfl
  · -- expired record
    have hx' : isExpired false (itemOf raw).expire env.now = true := (isExpired_false_iff _ _).2 hx
    have hne : (itemOf raw).expire ≠ 0 := by
      intro h0
      have h1 := hx.1
      rw [h0] at h1
      exact absurd h1 (by decide)
    cases hbb : (b.append || b.prepend || b.touch)
    · refine ⟨s, fill raw { key := [] }, true, ?_, ?_, ?_, Or.inl rfl⟩
      · rw [setCurrent_plain hbb, getHeader_present hs hraw, fill_take]
      · have : (fill raw { key := [] }).expire = (itemOf raw).expire := rfl
        simp [setState, this, hx', hb]
      · rw [known_of_raw hraw]; rfl
    · have ho : env.outOk = true := by
        rcases ho with ho | ho
        · rw [hbb] at ho; cases ho
        · exact ho
      have hg := get_expired hs (e := { key := e.key }) (b := {}) hraw ho hx'
      have hk := dropRecord_known hs env.now e.key raw hne (fill raw { key := e.key }) rfl rfl
      refine ⟨dropRecord s env.now e.key raw,
        getHeaderCache (dropRecord s env.now e.key raw) e.key (fill raw { key := e.key }), false,
        ?_, ?_, ?_, Or.inr ⟨raw, hraw, hx, rfl⟩⟩
      · simp only [setCurrent, hbb, if_true]
        rw [hg]; simp
      · simp only [setState, hk.2]
        simp only [Bool.false_eq_true, if_false, Bool.and_eq_true, decide_eq_true_eq,
          ite_eq_right_iff, gt_iff_lt]
        rintro ⟨-, h2⟩
        exact absurd hx.2 (Int64.not_le.2 h2)
      · rw [known_of_raw hraw]; exact hk.1

theorem dropRecord_lookup {s : Store} (hs : s.Ok) {now : Int64} {k raw : Bytes}
    (h : dbGet s.db k = some raw) (hx : (itemOf raw).expiredAt now) {t : Int64} (ht : now ≤ t)
    (k' : Bytes) : lookup (dropRecord s now k raw) t k' = lookup s t k' := by
  have hdb : (dropRecord s now k raw).db = dbOut s.db k := rfl
  by_cases hk : k' = k
  · subst hk
    rw [lookup_none_of_absent (by rw [hdb]; exact dbGet_dbOut_self _ _)]
    symm
    rw [lookup_eq_none hs]
    exact Or.inr ⟨raw, h, hx.1, Int64.le_trans hx.2 ht⟩
  · have : dbGet (dropRecord s now k raw).db k' = dbGet s.db k' := by
      rw [hdb]; exact dbGet_dbOut_ne _ hk
    rw [lookup_of_get, lookup_of_get]
    simp only [getRead, this]

end Flare

namespace Flare

/-! ### Reads and refusals do not change what is visible -/

theorem lookup_congr_db {s s' : Store} (k : Bytes) (h : dbGet s'.db k = dbGet s.db k) (t : Int64) :
    lookup s' t k = lookup s t k := by
  rw [lookup_of_get, lookup_of_get]
  simp only [getRead, h]

theorem isExpired_mono {sk : Bool} {x now : Int64} (h : isExpired sk x now = true) :
    isExpired false x now = true := by
  cases sk
  · exact h
  · simp [isExpired] at h

theorem dbOut_lookup {s s' : Store} (hs : s.Ok) {k raw : Bytes} {now : Int64}
    (h : dbGet s.db k = some raw) (hx : (itemOf raw).expiredAt now)
    (hd : s'.db = dbOut s.db k) {t : Int64} (ht : now ≤ t) (k' : Bytes) :
    lookup s' t k' = lookup s t k' := by
  by_cases hk : k' = k
  · subst hk
    rw [lookup_none_of_absent (by rw [hd]; exact dbGet_dbOut_self _ _)]
    symm
    rw [lookup_eq_none hs]
    exact Or.inr ⟨raw, h, hx.1, Int64.le_trans hx.2 ht⟩
  · exact lookup_congr_db _ (by rw [hd]; exact dbGet_dbOut_ne _ hk) t

theorem getRead_expired {s : Store} (hs : s.Ok) {now : Int64} {e : Entry} {b : Beh} {o : Out}
    (h : getRead s now e b = (o, true)) :
    ∃ raw, dbGet s.db e.key = some raw ∧ (itemOf raw).expiredAt now ∧ o.e = fill raw e := by
  cases hd : dbGet s.db e.key with
  | none => rw [getRead_none hd] at h; cases h
  | some raw =>
    rw [getRead_some hd (hs.1 _ _ hd)] at h
    split at h
    next hx =>
      refine ⟨raw, rfl, (isExpired_false_iff _ _).1 (isExpired_mono hx), ?_⟩
      cases h; rfl
    · cases h

theorem removeExpired_lookup {s : Store} (hs : s.Ok) {env : Env} {e : Entry} {raw : Bytes}
    (h : dbGet s.db e.key = some raw) (hx : (itemOf raw).expiredAt env.now)
    {t : Int64} (ht : env.now ≤ t) (k : Bytes) :
    lookup (removeExpired s env e).1 t k = lookup s t k := by
  simp only [removeExpired]
  rcases remove_db s env e { versionEqual := true } with h' | h'
  · exact lookup_congr_db _ (by rw [h']) t
  · exact dbOut_lookup hs h hx h' ht k

theorem get_lookup {s : Store} (hs : s.Ok) (env : Env) (e : Entry) (b : Beh) {t : Int64}
    (ht : env.now ≤ t) (k : Bytes) : lookup (get s env e b).1 t k = lookup s t k := by
  simp only [get]
  obtain ⟨o, x, h⟩ : ∃ o x, getRead s env.now e b = (o, x) := ⟨_, _, rfl⟩
  cases x
  · simp [h]
  · obtain ⟨raw, hraw, hx, ho⟩ := getRead_expired hs h
    simp only [h]
    exact removeExpired_lookup hs (e := o.e) (by rw [ho]; exact hraw) hx ht k

theorem setCurrent_lookup {s : Store} (hs : s.Ok) (env : Env) (e : Entry) (b : Beh) {t : Int64}
    (ht : env.now ≤ t) (k : Bytes) : lookup (setCurrent s env e b).1 t k = lookup s t k := by
  rcases setCurrent_db s env e b with h | h <;> rw [h]
  exact get_lookup hs _ _ _ ht k

/-- A successful `set` and what is read afterwards. -/
theorem set_lookup {s : Store} {env : Env} {e : Entry} {b : Beh} {e' : Entry}
    (hs : s.Ok)
    (h : (set s env e b).2.r = some .stored ∨ (set s env e b).2.r = some .touched)
    (he : (set s env e b).2.e = e') {t : Int64} (hx : ¬ (0 < e'.expire ∧ e'.expire ≤ t)) :
    lookup (set s env e b).1 t e.key =
      some ⟨e'.data.take e'.size.toNat, e'.flag, e'.expire, e'.version⟩ := by
  rcases set_cases s env e b with ⟨-, h1, h2⟩ | ⟨e2, ho, hk, hsz, hst, v, -, hp⟩
  · rcases h with h | h
    · exact absurd h h1
    · exact absurd h h2
  · rw [ho] at he; simp only at he; subst he
    rw [lookup_eq_some (set_ok hs ..)]
    refine ⟨_, by rw [hst, ← hk]; exact dbGet_dbPut_self .., ?_, hx⟩
    rw [itemOf_serialize]

theorem remove_lookup {s : Store} (hs : s.Ok) (env : Env) (e : Entry) (b : Beh)
    (hr : (remove s env e b).2.r ≠ some .deleted) {t : Int64} (ht : env.now ≤ t) (k : Bytes) :
    lookup (remove s env e b).1 t k = lookup s t k := by
  cases hd : dbGet s.db e.key with
  | none =>
    rcases remove_db s env e b with h' | h'
    · exact lookup_congr_db _ (by rw [h']) t
    · apply lookup_congr_db
      rw [h']
      by_cases hk : k = e.key
      · subst hk; rw [hd, dbGet_dbOut_self]
      · exact dbGet_dbOut_ne _ hk
  | some raw =>
    revert hr
    simp only [remove, getHeader_present hs hd, fill_take]
    split
    · intro _; rfl
    · simp only [Bool.not_true, Bool.false_eq_true, if_false]
      split
      · intro _; rfl
      · intro hr
        by_cases hx : isExpired b.skipTimestamp (fill raw { key := [] }).expire env.now = true
        · have hx2 : (itemOf raw).expiredAt env.now :=
            (isExpired_false_iff _ _).1 (isExpired_mono hx)
          exact dbOut_lookup hs hd hx2 rfl ht k
        · simp [hx] at hr

theorem incr_lookup {s : Store} (hs : s.Ok) (env : Env) (e : Entry) (v : UInt64) (i : Bool) (b : Beh)
    (hr : (incr s env e v i b).2.r ≠ some .stored) {t : Int64} (ht : env.now ≤ t) (k : Bytes) :
    lookup (incr s env e v i b).1 t k = lookup s t k := by
  revert hr
  cases hd : dbGet s.db e.key with
  | none => simp [incr, incrLocked, hd]
  | some raw =>
    have hro := hs.1 _ _ hd
    simp only [incr, incrLocked, hd, unserializeHeader_of_len hro.1, rawOk_size hro]
    simp only [ne_eq, not_true_eq_false, if_false]
    cases hx : isExpired b.skipTimestamp (fill raw { key := [] }).expire env.now
    · simp only [Bool.false_eq_true, if_false, putRecord]
      generalize incrValue (leadingNumber (raw.drop headerSize)) v i = m
      simp only [if_pos (decimal_size_ok m)]
      cases env.putOk <;> simp
    · simp only [if_true]
      intro _
      have hx2 : (itemOf raw).expiredAt env.now :=
        (isExpired_false_iff _ _).1 (isExpired_mono hx)
      exact removeExpired_lookup hs (by exact hd) hx2 ht k

/-- A step that reports no change changes nothing visible from then on. -/
theorem step_lookup {s : Store} (hs : s.Ok) {env : Env} {c : Cmd} {k : Bytes} (hf : c ≠ .flush)
    (hr : (step s env c).2.r ≠ some .stored ∧ (step s env c).2.r ≠ some .touched ∧
      (step s env c).2.r ≠ some .deleted) {t : Int64} (ht : env.now ≤ t) :
    lookup (step s env c).1 t k = lookup s t k := by
  cases c with
  | set e b =>
    rcases set_cases s env e b with ⟨h, -⟩ | ⟨e', ho, -⟩
    · simp only [step]; rw [h]; exact setCurrent_lookup hs _ _ _ ht k
    · simp only [step, ho] at hr
      split at hr
      · exact absurd rfl hr.2.1
      · exact absurd rfl hr.1
  | incr e v i b => exact incr_lookup hs _ _ _ _ _ hr.1 ht k
  | get e b => exact get_lookup hs _ _ _ ht k
  | remove e b => exact remove_lookup hs _ _ _ hr.2.2 ht k
  | flush => exact absurd rfl hf

end Flare

namespace Flare

/-! ### `set` evaluated -/

theorem copyOut_all {d : Bytes} {n : Nat} (h : d.length = n) : copyOut d n = some d := by
  subst h; simp [copyOut]

theorem set_eval_plain {s s1 : Store} {env : Env} {e cur : Entry} {b : Beh} {ex : Bool} {st : St}
    (hc : setCurrent s env e b = (s1, cur, ex)) (hst : setState env.now b cur ex = st)
    (hb : (b.append || b.prepend || b.touch) = false) (he : e.Ok) (hp : env.putOk = true) :
    set s env e b = match setCheck st b e.version cur.version with
      | .error r => (s1, ⟨.ok, some r, e⟩)
      | .ok v => ({ s1 with db := dbPut s1.db e.key (serializeHeader { e with version := v } ++ e.data) },
          ⟨.ok, some .stored, { e with version := v }⟩) := by
  simp only [Bool.or_eq_false_iff] at hb
  simp only [set, hc, hst]
  cases setCheck st b e.version cur.version with
  | error r => rfl
  | ok v =>
    simp only [setPrepare, hb.1.1, hb.1.2, hb.2, copyOut_all he.1, putRecord, hp]
    simp [← he.1, he.2]

theorem set_eval_refuse {s s1 : Store} {env : Env} {e cur : Entry} {b : Beh} {ex : Bool} {st : St}
    (hc : setCurrent s env e b = (s1, cur, ex)) (hst : setState env.now b cur ex = st)
    {r : Result} (h : setCheck st b e.version cur.version = .error r) :
    set s env e b = (s1, ⟨.ok, some r, e⟩) := by
  simp only [set, hc, hst, h]

theorem add_size {a b : UInt64} (h : a.toNat + b.toNat ≤ intMax) :
    (a + b).toNat = a.toNat + b.toNat := by
  rw [UInt64.toNat_add]; apply Nat.mod_eq_of_lt; unfold intMax at h; omega

/-- append/prepend on a visible key. -/
theorem set_eval_concat {s s1 : Store} {env : Env} {e cur : Entry} {b : Beh} {ex : Bool}
    (hc : setCurrent s env e b = (s1, cur, ex)) (hst : setState env.now b cur ex = .alive)
    (hb : (b.append || b.prepend) = true) (he : e.data.length = e.size.toNat)
    (hcur : cur.data.length = cur.size.toNat)
    (hl : headerSize + (e.data.length + cur.data.length) ≤ intMax) (hp : env.putOk = true)
    {v : UInt64} (hv : setCheck .alive b e.version cur.version = .ok v) :
    let e' : Entry := { e with
      version := v, expire := cur.expire, flag := cur.flag, size := e.size + cur.size
      data := if b.append then cur.data ++ e.data else e.data ++ cur.data }
    set s env e b = ({ s1 with db := dbPut s1.db e.key (serializeHeader e' ++ e'.data) },
      ⟨.ok, some (if b.touch then .touched else .stored), e'⟩) := by
  have hsum : (e.size + cur.size).toNat = e.data.length + cur.data.length := by
    rw [he, hcur]; apply add_size; unfold headerSize at hl; omega
  simp only [set, hc, hst, hv, setPrepare, hb, copyOut_all he, copyOut_all hcur, putRecord, hp]
  simp only [if_true, ne_eq, not_true_eq_false, if_false, hsum, hl]
  cases b.append
  · have : List.take (e.data.length + cur.data.length) (e.data ++ cur.data) = e.data ++ cur.data := by
      apply List.take_of_length_le; simp
    simp [this]
  · have : List.take (e.data.length + cur.data.length) (cur.data ++ e.data) = cur.data ++ e.data := by
      apply List.take_of_length_le; simp; omega
    simp [this]

/-- touch on a visible key. -/
theorem set_eval_touch {s s1 : Store} {env : Env} {e cur : Entry} {b : Beh} {ex : Bool}
    (hc : setCurrent s env e b = (s1, cur, ex)) (hst : setState env.now b cur ex = .alive)
    (hb : (b.append || b.prepend) = false) (ht : b.touch = true)
    (hcur : cur.data.length = cur.size.toNat)
    (hl : headerSize + cur.data.length ≤ intMax) (hp : env.putOk = true)
    {v : UInt64} (hv : setCheck .alive b e.version cur.version = .ok v) :
    let e' : Entry := { e with version := v, flag := cur.flag, size := cur.size, data := cur.data }
    set s env e b = ({ s1 with db := dbPut s1.db e.key (serializeHeader e' ++ e'.data) },
      ⟨.ok, some .touched, e'⟩) := by
  simp only [set, hc, hst, hv, setPrepare, hb, ht, copyOut_all hcur, putRecord, hp]
  simp [← hcur, hl]

theorem lookup_put {s : Store} {k : Bytes} {e : Entry} {d : Bytes}
    (h1 : d.length = e.size.toNat) (h2 : headerSize + e.size.toNat ≤ intMax) (t : Int64) :
    lookup { s with db := dbPut s.db k (serializeHeader e ++ d) } t k =
      if isExpired false e.expire t then none else some ⟨d, e.flag, e.expire, e.version⟩ := by
  rw [lookup_of_raw (dbGet_dbPut_self ..) (rawOk_serialize h1 h2), itemOf_serialize]

theorem visible_len {s : Store} (hs : s.Ok) {now : Int64} {k : Bytes} {it : Item}
    (h : lookup s now k = some it) : headerSize + it.data.length ≤ intMax := by
  obtain ⟨raw, hraw, rfl, -⟩ := (lookup_eq_some hs).1 h
  have := hs.1 _ _ hraw
  simp only [itemOf, List.length_drop]
  have h1 := this.1; have h2 := this.2.1
  omega

end Flare

namespace Flare

/-- The data of a well-formed entry that `set` reports as stored is complete: its buffer has
exactly the length written in the record. -/
theorem set_stored_len {s : Store} (hs : s.Ok) {env : Env} {e : Entry} {b : Beh} (he : e.Ok)
    (h : (set s env e b).2.r = some .stored ∨ (set s env e b).2.r = some .touched) :
    (set s env e b).2.e.data.length = (set s env e b).2.e.size.toNat := by
  rcases set_cases s env e b with ⟨-, h1, h2⟩ | ⟨e', ho, hk, hsz, hst, v, -, hp⟩
  · rcases h with h | h
    · exact absurd h h1
    · exact absurd h h2
  · rw [ho]
    simp only [setPrepare] at hp
    split at hp
    next hb =>
      split at hp
      · cases hp
      next hal =>
        split at hp
        next d c hd hc =>
          simp only [Except.ok.injEq, Option.some.injEq] at hp; subst hp
          have h1 := copyOut_some hd
          have h2 := copyOut_some hc
          -- the current entry comes from the record
          have hcs : (setCurrent s env e b).2.1.size.toNat ≤ intMax := by
            have hb' : (b.append || b.prepend || b.touch) = true := by simp [hb]
            simp only [setCurrent, hb', if_true]
            have hg : (get s env { key := e.key } {}).2.e.size.toNat ≤ intMax := by
              cases hd : dbGet s.db e.key with
              | none => rw [get_absent (e := { key := e.key }) hd]; simp [intMax]
              | some raw =>
                have hro := hs.1 _ _ hd
                have hf : ∀ e, (fill raw e).size.toNat ≤ intMax := by
                  intro e; rw [rawOk_size hro]; have := hro.2.1; omega
                simp only [get, getRead_some (e := { key := e.key }) hd hro]
                split
                next o hh =>
                  split at hh
                  · cases hh
                  · cases hh; exact hf { key := e.key }
                next o hh =>
                  split at hh
                  · cases hh
                    simp only [removeExpired, remove]
                    repeat' split
                    all_goals exact hf { key := e.key }
                  · cases hh
            split
            · simp only [getHeaderCache]; split <;> exact hg
            · exact hg
          have hes : e.size.toNat ≤ intMax := by
            have := he.2; rw [he.1] at this; omega
          have hadd : (e.size + (setCurrent s env e b).2.1.size).toNat =
              e.size.toNat + (setCurrent s env e b).2.1.size.toNat := by
            rw [UInt64.toNat_add]; apply Nat.mod_eq_of_lt; unfold intMax at hcs hes; omega
          simp only [hadd]
          split <;> simp [h1.2, h2.2] <;> omega
        · simp at hp
    · split at hp
      · simp only [Except.ok.injEq, Option.map_eq_some_iff] at hp
        obtain ⟨a, ha, rfl⟩ := hp
        have := copyOut_some ha
        simp [this.2]; omega
      · simp only [Except.ok.injEq, Option.map_eq_some_iff] at hp
        obtain ⟨a, ha, rfl⟩ := hp
        exact he.1


/-- The store itself, as `set` finds it without append/prepend/touch. -/
theorem setCurrent_same {s : Store} {env : Env} {e : Entry} {b : Beh}
    (hb : (b.append || b.prepend || b.touch) = false) : (setCurrent s env e b).1 = s := by
  rw [setCurrent_plain hb]

/-- A key that is not visible is never `alive` for `set`. -/
theorem setState_not_visible {s : Store} (hs : s.Ok) {env : Env} {e : Entry} {b : Beh}
    (hb : b.skipTimestamp = false) (h : lookup s env.now e.key = none) :
    setState env.now b (setCurrent s env e b).2.1 (setCurrent s env e b).2.2 ≠ .alive := by
  have hfalse : ∀ cur, setState env.now b cur false ≠ .alive := by
    intro cur; simp only [setState]; split <;> simp_all <;> split <;> simp
  rcases (lookup_eq_none hs).1 h with hd | ⟨raw, hraw, hx⟩
  · have : (setCurrent s env e b).2.2 = false := by
      cases hb : (b.append || b.prepend || b.touch)
      · rw [setCurrent_plain hb]; simp [getHeader, hd]
      · simp only [setCurrent, hb, if_true]
        rw [get_absent (e := { key := e.key }) hd]
        simp
    rw [this]; exact hfalse _
  · have hx' : isExpired false (itemOf raw).expire env.now = true := (isExpired_false_iff _ _).2 hx
    cases hbb : (b.append || b.prepend || b.touch)
    · rw [setCurrent_plain hbb, getHeader_present hs hraw, fill_take]
      have : (fill raw { key := [] }).expire = (itemOf raw).expire := rfl
      simp [setState, this, hx', hb]
    · have : (setCurrent s env e b).2.2 = false := by
        simp only [setCurrent, hbb, if_true]
        have : (get s env { key := e.key } {}).2.r = some .notFound := by
          simp [get, getRead_some (e := { key := e.key }) hraw (hs.1 _ _ hraw), hx']
        simp [this]
      rw [this]; exact hfalse _

end Flare

namespace Flare

theorem setCheck_cas_ok {st : St} {ev cv v : UInt64} (h : setCheck st .ofCas ev cv = .ok v) :
    ev = cv ∧ v = ev + 1 ∧ st ≠ .gone := by
  simp only [setCheck, Beh.ofCas] at h
  cases st <;> simp at h <;> split at h <;> simp_all

theorem header_known {s : Store} (hs : s.Ok) (k : Bytes) :
    (getHeader s k { key := [] }).1.version = known s k := by
  cases hd : dbGet s.db k with
  | none =>
    simp only [getHeader, hd, getHeaderCache, known]
    cases tombGet s.cache k <;> rfl
  | some raw => rw [getHeader_present hs hd, fill_take, known_of_raw hd]; rfl

/-- A successful cas leaves the key with the presented version plus one. -/
theorem cas_known {s : Store} {env : Env} {e : Entry}
    (h : (set s env e .ofCas).2.r = some .stored) :
    known (set s env e .ofCas).1 e.key = e.version + 1 := by
  rcases set_cases s env e .ofCas with ⟨-, h1, -⟩ | ⟨e', ho, hk, hsz, hst, v, hc, hp⟩
  · exact absurd h h1
  · have hv : v = e.version + 1 := (setCheck_cas_ok hc).2.1
    rw [hst, ← hk, known_of_raw (dbGet_dbPut_self ..), itemOf_serialize]
    simp [(setPrepare_key hp).2, hv]

theorem cas_needs {s : Store} (hs : s.Ok) {env : Env} {e : Entry}
    (h : (set s env e .ofCas).2.r = some .stored) : known s e.key = e.version := by
  rcases set_cases s env e .ofCas with ⟨-, h1, -⟩ | ⟨e', ho, hk, hsz, hst, v, hc, hp⟩
  · exact absurd h h1
  · rw [setCurrent_plain (s := s) (env := env) (e := e) (b := .ofCas) rfl] at hc
    have hcur := header_known hs e.key
    simp only [hcur] at hc
    exact (setCheck_cas_ok hc).1.symm

end Flare
