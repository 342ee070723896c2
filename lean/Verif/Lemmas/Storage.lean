import Verif.Lemmas.Bytes
import Verif.Spec.Storage
import Verif.Lemmas.Decimal

set_option linter.unusedSimpArgs false

namespace Flare

/-! ### Maps -/

theorem dbGet_dbOut_self (db : List (Bytes × Bytes)) (k : Bytes) : dbGet (dbOut db k) k = none := by
  induction db with
  | nil => rfl
  | cons p db ih =>
    obtain ⟨k', v⟩ := p
    simp only [dbOut, List.filter_cons] at ih ⊢
    by_cases h : k' = k <;> simp [h, dbGet] <;> simpa using ih

theorem dbGet_dbOut_ne (db : List (Bytes × Bytes)) {k k' : Bytes} (h : k' ≠ k) :
    dbGet (dbOut db k) k' = dbGet db k' := by
  induction db with
  | nil => rfl
  | cons p db ih =>
    obtain ⟨q, v⟩ := p
    simp only [dbOut, List.filter_cons] at ih ⊢
    by_cases hq : q = k
    · have hqk : q ≠ k' := fun h' => h (h'.symm.trans hq)
      simp [dbGet, hq, hqk, h.symm]; simpa using ih
    · by_cases hq2 : q = k'
      · simp [dbGet, hq, hq2, h]
      · simp [dbGet, hq, hq2]; simpa using ih

@[simp] theorem dbGet_dbPut_self (db : List (Bytes × Bytes)) (k v : Bytes) :
    dbGet (dbPut db k v) k = some v := by simp [dbPut, dbGet]

theorem dbGet_dbPut_ne (db : List (Bytes × Bytes)) {k k' : Bytes} (v : Bytes) (h : k' ≠ k) :
    dbGet (dbPut db k v) k' = dbGet db k' := by
  simp [dbPut, dbGet, h.symm, dbGet_dbOut_ne db h]

@[simp] theorem tombGet_tombPut_self (c : List (Bytes × Tomb)) (k : Bytes) (t : Tomb) :
    tombGet (tombPut c k t) k = some t := by
  induction c with
  | nil => simp [tombPut, tombGet]
  | cons p c ih =>
    obtain ⟨q, v⟩ := p
    by_cases h : q = k <;> simp [tombPut, tombGet, h, ih]

theorem tombGet_tombPut_ne (c : List (Bytes × Tomb)) {k k' : Bytes} (t : Tomb) (h : k' ≠ k) :
    tombGet (tombPut c k t) k' = tombGet c k' := by
  induction c with
  | nil => simp [tombPut, tombGet, h.symm]
  | cons p c ih =>
    obtain ⟨q, v⟩ := p
    by_cases hq : q = k
    · subst hq; simp [tombPut, tombGet, h.symm]
    · by_cases hq2 : q = k'
      · subst hq2; simp [tombPut, tombGet, hq]
      · simp [tombPut, tombGet, hq, hq2, ih]

/-! ### Header -/

/-- Fields that a successful `unserializeHeader` fills in. -/
def fill (raw : Bytes) (e : Entry) : Entry :=
  { e with
    flag := UInt32.ofNat (leNat (raw.take 4))
    expire := (UInt64.ofNat (leNat ((raw.drop 4).take 8))).toInt64
    size := UInt64.ofNat (leNat ((raw.drop 12).take 8))
    version := UInt64.ofNat (leNat ((raw.drop 20).take 8)) }

theorem unserializeHeader_of_len {raw : Bytes} (h : headerSize ≤ raw.length) (e : Entry) :
    unserializeHeader raw e = (fill raw e, true) := by
  unfold headerSize at h
  simp only [unserializeHeader, fill]
  rw [if_neg (by omega), if_neg (by omega), if_neg (by omega), if_neg (by omega)]

theorem unserializeHeader_short {raw : Bytes} (h : raw.length < headerSize) (e : Entry) :
    (unserializeHeader raw e).2 = false := by
  unfold headerSize at h
  simp only [unserializeHeader]
  repeat' split
  all_goals first | rfl | (simp only; omega)

theorem serializeHeader_length (e : Entry) : (serializeHeader e).length = headerSize := by
  simp [serializeHeader, headerSize]

theorem fill_serialize (e e0 : Entry) (d : Bytes) :
    fill (serializeHeader e ++ d) e0 =
      { e0 with flag := e.flag, expire := e.expire, size := e.size, version := e.version } := by
  have h1 : (serializeHeader e ++ d).take 4 = leBytes 4 e.flag.toNat := by
    simp [serializeHeader, List.append_assoc, List.take_append]
  have h2 : ((serializeHeader e ++ d).drop 4).take 8 = leBytes 8 e.expire.toUInt64.toNat := by
    simp [serializeHeader, List.append_assoc, List.take_append, List.drop_append]
  have h3 : ((serializeHeader e ++ d).drop 12).take 8 = leBytes 8 e.size.toNat := by
    simp [serializeHeader, List.append_assoc, List.take_append, List.drop_append]
  have h4 : ((serializeHeader e ++ d).drop 20).take 8 = leBytes 8 e.version.toNat := by
    have : serializeHeader e ++ d = (leBytes 4 e.flag.toNat ++ leBytes 8 e.expire.toUInt64.toNat
        ++ leBytes 8 e.size.toNat) ++ (leBytes 8 e.version.toNat ++ d) := by
      simp [serializeHeader, List.append_assoc]
    rw [this, List.drop_append_of_le_length (by simp)]
    rw [List.drop_eq_nil_of_le (by simp)]
    simp
  have b1 := e.flag.toNat_lt
  have b2 := e.expire.toUInt64.toNat_lt
  have b3 := e.size.toNat_lt
  have b4 := e.version.toNat_lt
  simp only [fill, h1, h2, h3, h4]
  rw [leNat_leBytes (by simpa using b1), leNat_leBytes (by simpa using b2),
    leNat_leBytes (by simpa using b3), leNat_leBytes (by simpa using b4)]
  simp

/-! ### Records of a healthy store -/

/-- The item held by a raw record. -/
def itemOf (raw : Bytes) : Item :=
  let h := fill raw { key := [] }
  ⟨raw.drop headerSize, h.flag, h.expire, h.version⟩

theorem rawOk_size {raw : Bytes} (h : RawOk raw) (e : Entry) :
    (fill raw e).size.toNat = raw.length - headerSize := by
  have := h.2.2
  rw [unserializeHeader_of_len h.1] at this
  simpa [fill] using this

theorem getRead_none {s : Store} {e : Entry} (h : dbGet s.db e.key = none) (now : Int64) (b : Beh) :
    getRead s now e b = (⟨.ok, some .notFound, e⟩, false) := by
  simp [getRead, h]

theorem getRead_some {s : Store} {e : Entry} {raw : Bytes} (h : dbGet s.db e.key = some raw)
    (hr : RawOk raw) (now : Int64) (b : Beh) :
    getRead s now e b =
      if isExpired b.skipTimestamp (itemOf raw).expire now then
        (⟨.ok, some .notFound, fill raw e⟩, true)
      else (⟨.ok, some .none_, { fill raw e with data := raw.drop headerSize }⟩, false) := by
  simp only [getRead, h, unserializeHeader_of_len hr.1, rawOk_size hr]
  simp [itemOf, fill]

theorem isExpired_false_iff (x now : Int64) :
    isExpired false x now = true ↔ 0 < x ∧ x ≤ now := by
  simp [isExpired]

theorem lookup_of_get {s : Store} {k : Bytes} (now : Int64) :
    lookup s now k =
      let o := (getRead s now { key := k } {}).1
      if o.rc = .ok ∧ o.r = some .none_ then
        some ⟨o.e.data, o.e.flag, o.e.expire, o.e.version⟩ else none := by
  simp only [lookup, get]
  obtain ⟨o, x, h⟩ : ∃ o x, getRead s now { key := k } {} = (o, x) := ⟨_, _, rfl⟩
  cases x
  · simp [h]
  · simp only [h]
    -- an expired record answers NOT_FOUND
    have : o.r ≠ some .none_ := by
      unfold getRead at h
      revert h
      repeat' split
      all_goals (intro h; cases h)
      all_goals simp
    simp [this]

theorem lookup_none_of_absent {s : Store} {k : Bytes} (h : dbGet s.db k = none) (now : Int64) :
    lookup s now k = none := by
  rw [lookup_of_get, getRead_none (by simpa using h)]; simp

theorem lookup_of_raw {s : Store} {k raw : Bytes} (h : dbGet s.db k = some raw) (hr : RawOk raw)
    (now : Int64) :
    lookup s now k =
      if isExpired false (itemOf raw).expire now then none else some (itemOf raw) := by
  rw [lookup_of_get, getRead_some (e := { key := k }) h hr]
  by_cases hx : isExpired false (itemOf raw).expire now <;> simp [hx]
  simp [itemOf, fill]

theorem lookup_eq_some {s : Store} (hs : s.Ok) {k : Bytes} {now : Int64} {it : Item} :
    lookup s now k = some it ↔
      ∃ raw, dbGet s.db k = some raw ∧ it = itemOf raw ∧ ¬ it.expiredAt now := by
  cases h : dbGet s.db k with
  | none => simp [lookup_none_of_absent h]
  | some raw =>
    rw [lookup_of_raw h (hs.1 k raw h)]
    simp only [Option.some.injEq, exists_eq_left', Item.expiredAt]
    by_cases hx : isExpired false (itemOf raw).expire now
    · simp only [hx, if_true]
      rw [isExpired_false_iff] at hx
      constructor
      · simp
      · rintro ⟨rfl, h2⟩; exact absurd hx h2
    · simp only [hx]
      rw [isExpired_false_iff] at hx
      constructor
      · intro h; simp at h; subst h; exact ⟨rfl, hx⟩
      · rintro ⟨rfl, _⟩; simp

theorem lookup_eq_none {s : Store} (hs : s.Ok) {k : Bytes} {now : Int64} :
    lookup s now k = none ↔
      dbGet s.db k = none ∨ ∃ raw, dbGet s.db k = some raw ∧ (itemOf raw).expiredAt now := by
  cases h : dbGet s.db k with
  | none => simp [lookup_none_of_absent h]
  | some raw =>
    rw [lookup_of_raw h (hs.1 k raw h)]
    by_cases hx : isExpired false (itemOf raw).expire now
    · simp only [hx, if_true]
      rw [isExpired_false_iff] at hx
      simpa [Item.expiredAt] using hx
    · simp only [hx]
      rw [isExpired_false_iff] at hx
      simpa [Item.expiredAt] using hx

/-! ### Writing a record -/

theorem itemOf_serialize (e : Entry) (d : Bytes) :
    itemOf (serializeHeader e ++ d) = ⟨d, e.flag, e.expire, e.version⟩ := by
  simp only [itemOf, fill_serialize]
  rw [List.drop_append_of_le_length (by simp [serializeHeader_length])]
  rw [List.drop_eq_nil_of_le (by simp [serializeHeader_length])]
  simp

theorem rawOk_serialize {e : Entry} {d : Bytes} (h1 : d.length = e.size.toNat)
    (h2 : headerSize + e.size.toNat ≤ intMax) : RawOk (serializeHeader e ++ d) := by
  refine ⟨by simp [serializeHeader_length], ?_, ?_⟩
  · simp [serializeHeader_length]; omega
  · rw [unserializeHeader_of_len (by simp [serializeHeader_length])]
    simp [fill_serialize, serializeHeader_length, h1]

/-! ### Removal -/

@[simp] theorem setHeaderCache_db (s : Store) (now : Int64) (e : Entry) :
    (setHeaderCache s now e).db = s.db := rfl

@[simp] theorem setHeaderCache_cacheSize (s : Store) (now : Int64) (e : Entry) :
    (setHeaderCache s now e).cacheSize = s.cacheSize := rfl

theorem setHeaderCache_le (s : Store) (now : Int64) (e : Entry) :
    (setHeaderCache s now e).cache.length ≤ s.cacheSize := by
  simp only [setHeaderCache, List.length_drop]; omega

theorem remove_db (s : Store) (env : Env) (e : Entry) (b : Beh) :
    (remove s env e b).1.db = s.db ∨ (remove s env e b).1.db = dbOut s.db e.key := by
  simp only [remove]
  repeat' split
  all_goals simp

theorem remove_db_ne (s : Store) (env : Env) (e : Entry) (b : Beh) {k : Bytes} (h : k ≠ e.key) :
    dbGet (remove s env e b).1.db k = dbGet s.db k := by
  rcases remove_db s env e b with h' | h' <;> rw [h']
  exact dbGet_dbOut_ne _ h

theorem remove_key (s : Store) (env : Env) (e : Entry) (b : Beh) :
    (remove s env e b).2.e.key = e.key := by
  simp only [remove]
  repeat' split
  all_goals simp

theorem remove_cacheSize (s : Store) (env : Env) (e : Entry) (b : Beh) :
    (remove s env e b).1.cacheSize = s.cacheSize := by
  simp only [remove]
  repeat' split
  all_goals simp

theorem remove_cache_le (s : Store) (env : Env) (e : Entry) (b : Beh)
    (h : s.cache.length ≤ s.cacheSize) : (remove s env e b).1.cache.length ≤ s.cacheSize := by
  simp only [remove]
  repeat' split
  all_goals first | exact h | exact setHeaderCache_le ..

theorem tombPut_of_mem {c : List (Bytes × Tomb)} {k : Bytes} (h : k ∈ c.map (·.1)) (t : Tomb) :
    (tombPut c k t).map (·.1) = c.map (·.1) := by
  induction c with
  | nil => simp at h
  | cons p c ih =>
    obtain ⟨q, v⟩ := p
    by_cases hq : q = k
    · simp [tombPut, hq]
    · have : k ∈ c.map (·.1) := by simpa [hq, Ne.symm hq] using h
      simp only [tombPut, hq, if_false, List.map_cons, ih this]

theorem tombPut_of_not_mem {c : List (Bytes × Tomb)} {k : Bytes} (h : k ∉ c.map (·.1)) (t : Tomb) :
    tombPut c k t = c ++ [(k, t)] := by
  induction c with
  | nil => rfl
  | cons p c ih =>
    obtain ⟨q, v⟩ := p
    simp only [List.map_cons, List.mem_cons, not_or] at h
    simp [tombPut, Ne.symm h.1, ih h.2]

theorem tombPut_nodup {c : List (Bytes × Tomb)} (h : (c.map (·.1)).Nodup) (k : Bytes) (t : Tomb) :
    ((tombPut c k t).map (·.1)).Nodup := by
  by_cases hk : k ∈ c.map (·.1)
  · rwa [tombPut_of_mem hk]
  · rw [tombPut_of_not_mem hk, List.map_append, List.nodup_append]
    refine ⟨h, by simp, ?_⟩
    intro a ha b hb
    simp at hb
    subst hb
    rintro rfl
    exact hk ha

theorem setHeaderCache_nodup {s : Store} (h : (s.cache.map (·.1)).Nodup) (now : Int64) (e : Entry) :
    ((setHeaderCache s now e).cache.map (·.1)).Nodup := by
  simp only [setHeaderCache, List.map_drop]
  exact (tombPut_nodup h _ _).sublist (List.drop_sublist _ _)

theorem remove_nodup (s : Store) (env : Env) (e : Entry) (b : Beh)
    (h : (s.cache.map (·.1)).Nodup) : ((remove s env e b).1.cache.map (·.1)).Nodup := by
  simp only [remove]
  repeat' split
  all_goals first | exact h | exact setHeaderCache_nodup h .. | skip
  all_goals exact setHeaderCache_nodup (s := { s with db := dbOut s.db e.key }) h ..

theorem tombGet_eq_none {c : List (Bytes × Tomb)} {k : Bytes} :
    tombGet c k = none ↔ k ∉ c.map (·.1) := by
  induction c with
  | nil => simp [tombGet]
  | cons p c ih =>
    obtain ⟨q, v⟩ := p
    by_cases hq : q = k
    · simp [tombGet, hq]
    · simp only [tombGet, hq, if_false, ih, List.map_cons, List.mem_cons, Ne.symm hq, false_or]

theorem tombGet_append (a c : List (Bytes × Tomb)) (k : Bytes) :
    tombGet (a ++ c) k = (tombGet a k).or (tombGet c k) := by
  induction a with
  | nil => simp [tombGet]
  | cons p a ih =>
    obtain ⟨q, v⟩ := p
    by_cases hq : q = k <;> simp [tombGet, hq, ih]

/-- What survives the cut at the front is unchanged. -/
theorem tombGet_drop {c : List (Bytes × Tomb)} (h : (c.map (·.1)).Nodup) {n : Nat} {k : Bytes}
    {t : Tomb} (hd : tombGet (c.drop n) k = some t) : tombGet c k = some t := by
  have hc : c = c.take n ++ c.drop n := (List.take_append_drop n c).symm
  rw [hc, tombGet_append]
  have hmem : k ∈ (c.drop n).map (·.1) := by
    rw [← Decidable.not_not (p := k ∈ _), ← tombGet_eq_none, hd]; simp
  have : tombGet (c.take n) k = none := by
    rw [tombGet_eq_none]
    intro hm
    rw [hc, List.map_append, List.nodup_append] at h
    exact h.2.2 k hm k hmem rfl
  simp [this, hd]

theorem setHeaderCache_get {s : Store} (hn : (s.cache.map (·.1)).Nodup) (now : Int64) (e : Entry)
    {t : Tomb} (h : tombGet (setHeaderCache s now e).cache e.key = some t) :
    t = ⟨if e.expire = 0 then now else e.expire, e.version⟩ := by
  have := tombGet_drop (tombPut_nodup hn _ _) h
  rw [tombGet_tombPut_self] at this
  exact (Option.some.inj this).symm

theorem setHeaderCache_get_self {s : Store} (hl : s.cache.length ≤ s.cacheSize)
    (hp : 0 < s.cacheSize) (now : Int64) (e : Entry) :
    tombGet (setHeaderCache s now e).cache e.key =
      some ⟨if e.expire = 0 then now else e.expire, e.version⟩ := by
  simp only [setHeaderCache]
  generalize hT : (⟨if e.expire = 0 then now else e.expire, e.version⟩ : Tomb) = T
  by_cases hk : e.key ∈ s.cache.map (·.1)
  · have hlen : (tombPut s.cache e.key T).length = s.cache.length := by
      have := congrArg List.length (tombPut_of_mem hk T)
      simpa using this
    have : (tombPut s.cache e.key T).length - s.cacheSize = 0 := by omega
    rw [this]; simp
  · rw [tombPut_of_not_mem hk]
    rw [List.drop_append_of_le_length (by simp; omega), tombGet_append]
    have : tombGet (s.cache.drop ((s.cache ++ [(e.key, T)]).length - s.cacheSize)) e.key = none := by
      rw [tombGet_eq_none]
      intro hm
      rw [List.map_drop] at hm
      exact hk (List.mem_of_mem_drop hm)
    rw [this]; simp [tombGet]

theorem dbOut_sub {db : List (Bytes × Bytes)} {k k' raw : Bytes}
    (h : dbGet (dbOut db k) k' = some raw) : dbGet db k' = some raw := by
  by_cases hk : k' = k
  · subst hk; rw [dbGet_dbOut_self] at h; cases h
  · rwa [dbGet_dbOut_ne _ hk] at h

theorem remove_ok {s : Store} (hs : s.Ok) (env : Env) (e : Entry) (b : Beh) :
    (remove s env e b).1.Ok := by
  refine ⟨fun k raw h => ?_, ?_⟩
  · rcases remove_db s env e b with h' | h' <;> rw [h'] at h
    · exact hs.1 k raw h
    · exact hs.1 k raw (dbOut_sub h)
  · rw [remove_cacheSize]
    exact ⟨remove_cache_le s env e b hs.2.1, remove_nodup s env e b hs.2.2⟩

theorem unserializeHeader_key (raw : Bytes) (e : Entry) : (unserializeHeader raw e).1.key = e.key := by
  simp only [unserializeHeader]
  repeat' split
  all_goals rfl

theorem getRead_key (s : Store) (now : Int64) (e : Entry) (b : Beh) :
    (getRead s now e b).1.e.key = e.key := by
  simp only [getRead]
  split
  · rfl
  next raw _ =>
    have := unserializeHeader_key raw e
    repeat' split
    all_goals simp_all

theorem get_db (s : Store) (env : Env) (e : Entry) (b : Beh) :
    (get s env e b).1 = s ∨
      (get s env e b).1 = (remove s env (getRead s env.now e b).1.e { versionEqual := true }).1 := by
  simp only [get]
  obtain ⟨o, x, h⟩ : ∃ o x, getRead s env.now e b = (o, x) := ⟨_, _, rfl⟩
  cases x <;> simp [h, removeExpired]

theorem get_db_ne (s : Store) (env : Env) (e : Entry) (b : Beh) {k : Bytes} (h : k ≠ e.key) :
    dbGet (get s env e b).1.db k = dbGet s.db k := by
  rcases get_db s env e b with h' | h' <;> rw [h']
  exact remove_db_ne _ _ _ _ (by rwa [getRead_key])

theorem get_ok {s : Store} (hs : s.Ok) (env : Env) (e : Entry) (b : Beh) :
    (get s env e b).1.Ok := by
  rcases get_db s env e b with h' | h' <;> rw [h']
  · exact hs
  · exact remove_ok hs ..

theorem setCurrent_db (s : Store) (env : Env) (e : Entry) (b : Beh) :
    (setCurrent s env e b).1 = s ∨
      (setCurrent s env e b).1 = (get s env { key := e.key } {}).1 := by
  simp only [setCurrent]
  repeat' split
  all_goals simp

theorem setCurrent_db_ne (s : Store) (env : Env) (e : Entry) (b : Beh) {k : Bytes}
    (h : k ≠ e.key) : dbGet (setCurrent s env e b).1.db k = dbGet s.db k := by
  rcases setCurrent_db s env e b with h' | h' <;> rw [h']
  exact get_db_ne _ _ _ _ h

theorem setCurrent_ok {s : Store} (hs : s.Ok) (env : Env) (e : Entry) (b : Beh) :
    (setCurrent s env e b).1.Ok := by
  rcases setCurrent_db s env e b with h' | h' <;> rw [h']
  · exact hs
  · exact get_ok hs ..

/-! ### Set -/

theorem setPrepare_key {st : St} {b : Beh} {e cur e' : Entry}
    (h : setPrepare st b e cur = .ok (some e')) : e'.key = e.key ∧ e'.version = e.version := by
  simp only [setPrepare] at h
  split at h
  · split at h
    · cases h
    · split at h
      · simp only [Except.ok.injEq, Option.some.injEq] at h; subst h; simp
      · simp at h
  · split at h
    · simp only [Except.ok.injEq, Option.map_eq_some_iff] at h
      obtain ⟨a, _, rfl⟩ := h; simp
    · simp only [Except.ok.injEq, Option.map_eq_some_iff] at h
      obtain ⟨a, _, rfl⟩ := h; simp

theorem setCheck_error {st : St} {b : Beh} {ev cv : UInt64} {r : Result}
    (h : setCheck st b ev cv = .error r) : r = .notStored ∨ r = .notFound ∨ r = .exists_ := by
  simp only [setCheck] at h
  revert h
  repeat' split
  all_goals (intro h; cases h)
  all_goals simp

/-- Either `set` stored a record or it left the store as `setCurrent` left it. -/
theorem set_cases (s : Store) (env : Env) (e : Entry) (b : Beh) :
    ((set s env e b).1 = (setCurrent s env e b).1 ∧
      (set s env e b).2.r ≠ some .stored ∧ (set s env e b).2.r ≠ some .touched) ∨
    (∃ e', (set s env e b).2 = ⟨.ok, some (if b.touch then .touched else .stored), e'⟩ ∧
      e'.key = e.key ∧ headerSize + e'.size.toNat ≤ intMax ∧
      (set s env e b).1 = { (setCurrent s env e b).1 with
        db := dbPut (setCurrent s env e b).1.db e'.key
          (serializeHeader e' ++ e'.data.take e'.size.toNat) } ∧
      ∃ v, setCheck (setState env.now b (setCurrent s env e b).2.1 (setCurrent s env e b).2.2) b
          e.version (setCurrent s env e b).2.1.version = .ok v ∧
        setPrepare (setState env.now b (setCurrent s env e b).2.1 (setCurrent s env e b).2.2) b
          { e with version := v } (setCurrent s env e b).2.1 = .ok (some e')) := by
  obtain ⟨s1, cur, ex, h⟩ : ∃ s1 cur ex, setCurrent s env e b = (s1, cur, ex) := ⟨_, _, _, rfl⟩
  simp only [set, h]
  cases hc : setCheck (setState env.now b cur ex) b e.version cur.version with
  | error r =>
    left
    refine ⟨rfl, ?_⟩
    rcases setCheck_error hc with h | h | h <;> simp [h]
  | ok v =>
    simp only
    cases hp : setPrepare (setState env.now b cur ex) b { e with version := v } cur with
    | error u => simp
    | ok o =>
      cases o with
      | none => simp
      | some e' =>
        simp only [putRecord]
        by_cases hsz : headerSize + e'.size.toNat ≤ intMax
        · by_cases hpo : env.putOk
          · right
            refine ⟨e', ?_⟩
            have := setPrepare_key hp
            simp [hsz, hpo, this.1]
            exact hp
          · simp [hsz, hpo]
        · simp [hsz]

theorem copyOut_some {d : Bytes} {n : Nat} {x : Bytes} (h : copyOut d n = some x) :
    n ≤ d.length ∧ x = d.take n := by
  simp only [copyOut] at h
  split at h
  · exact ⟨by assumption, (Option.some.inj h).symm⟩
  · cases h

theorem setPrepare_len {st : St} {b : Beh} {e cur e' : Entry}
    (h : setPrepare st b e cur = .ok (some e')) : e'.size.toNat ≤ e'.data.length := by
  simp only [setPrepare] at h
  split at h
  · split at h
    · cases h
    · split at h
      next d c hd hc =>
        simp only [Except.ok.injEq, Option.some.injEq] at h; subst h
        have h1 := copyOut_some hd
        have h2 := copyOut_some hc
        have h3 : (e.size + cur.size).toNat ≤ e.size.toNat + cur.size.toNat := by
          rw [UInt64.toNat_add]; exact Nat.mod_le _ _
        simp only
        split <;> simp [h1.2, h2.2] <;> omega
      · simp at h
  · split at h
    · simp only [Except.ok.injEq, Option.map_eq_some_iff] at h
      obtain ⟨a, ha, rfl⟩ := h
      have := copyOut_some ha
      simp [this.2]; omega
    · simp only [Except.ok.injEq, Option.map_eq_some_iff] at h
      obtain ⟨a, ha, rfl⟩ := h
      exact (copyOut_some ha).1

theorem put_ok {s : Store} (hs : s.Ok) {e : Entry} (h1 : e.size.toNat ≤ e.data.length)
    (h2 : headerSize + e.size.toNat ≤ intMax) :
    Store.Ok { s with db := dbPut s.db e.key (serializeHeader e ++ e.data.take e.size.toNat) } := by
  refine ⟨fun k raw h => ?_, hs.2⟩
  by_cases hk : k = e.key
  · subst hk
    simp only [dbGet_dbPut_self, Option.some.injEq] at h
    subst h
    exact rawOk_serialize (by simp; omega) h2
  · simp only [dbGet_dbPut_ne _ _ hk] at h
    exact hs.1 k raw h

theorem set_ok {s : Store} (hs : s.Ok) (env : Env) (e : Entry) (b : Beh) :
    (set s env e b).1.Ok := by
  rcases set_cases s env e b with h | ⟨e', -, hk, hsz, hst, v, -, hp⟩
  · rw [h.1]; exact setCurrent_ok hs ..
  · rw [hst]
    exact put_ok (setCurrent_ok hs ..) (setPrepare_len hp) hsz

theorem set_db_ne (s : Store) (env : Env) (e : Entry) (b : Beh) {k : Bytes} (h : k ≠ e.key) :
    dbGet (set s env e b).1.db k = dbGet s.db k := by
  rcases set_cases s env e b with h' | ⟨e', -, hk, -, hst, -⟩
  · rw [h'.1]; exact setCurrent_db_ne _ _ _ _ h
  · rw [hst]
    simp only [hk, dbGet_dbPut_ne _ _ h]
    exact setCurrent_db_ne _ _ _ _ h

/-! ### incr -/

theorem decimal_length {w n : Nat} (hw : 0 < w) (h : n < 10 ^ w) : (decimal n).length ≤ w := by
  induction w generalizing n with
  | zero => omega
  | succ w ih =>
    rw [decimal_eq]
    split
    · simp
    · simp only [List.length_append, List.length_cons, List.length_nil]
      have : w ≠ 0 := by rintro rfl; omega
      have := ih (n := n / 10) (by omega) (by rw [Nat.pow_succ] at h; omega)
      omega

theorem decimal_length_u64 (m : UInt64) : (decimal m.toNat).length ≤ 20 :=
  decimal_length (by omega) (by have := m.toNat_lt; omega)

theorem decimal_size_ok (m : UInt64) :
    headerSize + (UInt64.ofNat (decimal m.toNat).length).toNat ≤ intMax := by
  have := decimal_length_u64 m
  have h2 := Nat.mod_le (decimal m.toNat).length (2^64)
  simp only [UInt64.toNat_ofNat', headerSize, intMax]
  omega

/-- The cases of the locked part of `incr`. -/
theorem incrLocked_cases (s : Store) (env : Env) (e : Entry) (v : UInt64) (i : Bool) (b : Beh) :
    ((incrLocked s env e v i b).1 = s ∧ (incrLocked s env e v i b).2.1.r ≠ some .stored ∧
      (∀ c, (incrLocked s env e v i b).2.2 = some c → c.key = e.key)) ∨
    (∃ raw, dbGet s.db e.key = some raw ∧ headerSize ≤ raw.length ∧
      raw.length - headerSize = (fill raw { key := [] }).size.toNat ∧
      isExpired b.skipTimestamp (itemOf raw).expire env.now = false ∧ env.putOk = true ∧
      let e' : Entry := { e with
          flag := (itemOf raw).flag
          expire := (itemOf raw).expire
          size := UInt64.ofNat
            (decimal (incrValue (leadingNumber (raw.drop headerSize)) v i).toNat).length
          version := (itemOf raw).version + 1
          data := decimal (incrValue (leadingNumber (raw.drop headerSize)) v i).toNat }
      incrLocked s env e v i b =
        ({ s with db := dbPut s.db e'.key (serializeHeader e' ++ e'.data.take e'.size.toNat) },
          ⟨.ok, some .stored, e'⟩, none)) := by
  cases h : dbGet s.db e.key with
  | none => left; simp [incrLocked, h]
  | some raw =>
    by_cases hl : headerSize ≤ raw.length
    · simp only [incrLocked, h, unserializeHeader_of_len hl]
      by_cases hsz : raw.length - headerSize = (fill raw { key := [] }).size.toNat
      · simp only [hsz, ne_eq, not_true_eq_false, if_false]
        cases hx : isExpired b.skipTimestamp (fill raw { key := [] }).expire env.now
        · have hx' : isExpired b.skipTimestamp (itemOf raw).expire env.now = false := by
            simpa [itemOf] using hx
          simp only [putRecord]
          generalize hm : incrValue (leadingNumber (raw.drop headerSize)) v i = m
          have hdl := decimal_size_ok m
          cases hp : env.putOk
          · left; simp only [if_pos hdl]; simp
          · right
            refine ⟨raw, rfl, hl, hsz, hx', rfl, ?_⟩
            simp only [if_pos hdl, hm]
            simp [itemOf]
        · left; simp
      · left; simp [hsz]
    · left
      obtain ⟨c, hc⟩ : ∃ c, unserializeHeader raw { key := [] } = (c, false) :=
        ⟨_, Prod.ext rfl (unserializeHeader_short (by omega) _)⟩
      simp [incrLocked, h, hc]

theorem incr_ok {s : Store} (hs : s.Ok) (env : Env) (e : Entry) (v : UInt64) (i : Bool) (b : Beh) :
    (incr s env e v i b).1.Ok := by
  simp only [incr]
  rcases incrLocked_cases s env e v i b with ⟨h1, -⟩ | ⟨raw, -, -, -, -, -, h⟩
  · obtain ⟨s1, o, c, h⟩ : ∃ s1 o c, incrLocked s env e v i b = (s1, o, c) := ⟨_, _, _, rfl⟩
    rw [h] at h1; simp only at h1; subst h1
    cases c with
    | none => simpa [h] using hs
    | some c => simpa [h, removeExpired] using remove_ok hs ..
  · rw [h]
    refine put_ok hs ?_ ?_
    · simp only [UInt64.toNat_ofNat']; exact Nat.mod_le _ _
    · exact decimal_size_ok _

theorem incr_db_ne (s : Store) (env : Env) (e : Entry) (v : UInt64) (i : Bool) (b : Beh) {k : Bytes}
    (hk : k ≠ e.key) : dbGet (incr s env e v i b).1.db k = dbGet s.db k := by
  simp only [incr]
  rcases incrLocked_cases s env e v i b with ⟨h1, -, h3⟩ | ⟨raw, -, -, -, -, -, h⟩
  · obtain ⟨s1, o, c, h⟩ : ∃ s1 o c, incrLocked s env e v i b = (s1, o, c) := ⟨_, _, _, rfl⟩
    rw [h] at h1 h3; simp only at h1; subst h1
    cases c with
    | none => simp [h]
    | some c =>
      have := h3 c rfl
      simp only [h, removeExpired]
      exact remove_db_ne _ _ _ _ (by rwa [this])
  · rw [h]
    exact dbGet_dbPut_ne _ _ hk

/-! ### Steps -/

theorem step_ok {s : Store} (hs : s.Ok) (env : Env) (c : Cmd) : (step s env c).1.Ok := by
  cases c with
  | set e b => exact set_ok hs ..
  | incr e v i b => exact incr_ok hs ..
  | get e b => exact get_ok hs ..
  | remove e b => exact remove_ok hs ..
  | flush =>
    simp only [step, truncate]
    split <;> refine ⟨?_, by simp, by simp⟩
    · simp [dbGet]
    · exact hs.1

theorem step_db_ne {s : Store} {env : Env} {c : Cmd} {k : Bytes} (hf : c ≠ .flush)
    (hk : c.key? ≠ some k) : dbGet (step s env c).1.db k = dbGet s.db k := by
  cases c with
  | set e b => exact set_db_ne _ _ _ _ (by rintro rfl; exact hk rfl)
  | incr e v i b => exact incr_db_ne _ _ _ _ _ _ (by rintro rfl; exact hk rfl)
  | get e b => exact get_db_ne _ _ _ _ (by rintro rfl; exact hk rfl)
  | remove e b => exact remove_db_ne _ _ _ _ (by rintro rfl; exact hk rfl)
  | flush => exact absurd rfl hf

end Flare
