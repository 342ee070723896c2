import Verif.Spec.Memory
import Verif.Lemmas.StorageSet
import Verif.Lemmas.Decimal
import Verif.Lemmas.StorageHist

set_option linter.unusedSimpArgs false

namespace Flare

/-! ### Fading -/

theorem SlotFades.refl (now : Int64) (x : MemSlot) : SlotFades now x x := .inl rfl

theorem Fades.refl (now : Int64) (m : Memory) : Fades now m m := fun _ => .inl rfl

/-! ### The memory a storage amounts to -/

theorem memoryOf_raw {s : Store} {k raw : Bytes} (h : dbGet s.db k = some raw) :
    memoryOf s k = .full (itemOf raw) := by simp only [memoryOf, h]

theorem memoryOf_absent {s : Store} {k : Bytes} (h : dbGet s.db k = none) :
    memoryOf s k = match tombGet s.cache k with
      | some t => .gone t.expire t.version
      | none => .empty := by
  simp only [memoryOf, h]
  cases tombGet s.cache k <;> rfl

theorem memoryOf_put (s : Store) (k : Bytes) (e : Entry) (d : Bytes) :
    memoryOf { s with db := dbPut s.db k (serializeHeader e ++ d) } =
      fun j => if j = k then .full ⟨d, e.flag, e.expire, e.version⟩ else memoryOf s j := by
  funext j
  by_cases h : j = k
  · subst h
    rw [memoryOf_raw (raw := serializeHeader e ++ d) (by simp), itemOf_serialize, if_pos rfl]
  · simp only [memoryOf, dbGet_dbPut_ne _ _ h, if_neg h]

theorem memoryOf_version (s : Store) (k : Bytes) : (memoryOf s k).version = known s k := by
  simp only [memoryOf, known]
  cases dbGet s.db k with
  | some raw => rfl
  | none => cases tombGet s.cache k <;> rfl

theorem live_some {s : Store} {k : Bytes} {now : Int64} {it : Item} (hs : s.Ok) :
    (memoryOf s k).live now = some it ↔ lookup s now k = some it := by
  rw [lookup_eq_some hs]
  cases h : dbGet s.db k with
  | none =>
    rw [memoryOf_absent h]
    cases tombGet s.cache k <;> simp [MemSlot.live]
  | some raw =>
    rw [memoryOf_raw h]
    simp only [MemSlot.live, Item.expiredAt, Option.some.injEq, exists_eq_left']
    by_cases hx : 0 < (itemOf raw).expire ∧ (itemOf raw).expire ≤ now
    · rw [if_pos hx]
      constructor
      · intro h; cases h
      · rintro ⟨rfl, h⟩; exact absurd hx h
    · rw [if_neg hx]
      constructor
      · intro h; cases h; exact ⟨rfl, hx⟩
      · rintro ⟨rfl, -⟩; rfl

theorem live_eq {s : Store} (hs : s.Ok) (k : Bytes) (now : Int64) :
    (memoryOf s k).live now = lookup s now k := by
  cases h : lookup s now k with
  | some it => exact (live_some hs).2 h
  | none =>
    cases h' : (memoryOf s k).live now with
    | none => rfl
    | some it => rw [(live_some hs).1 h'] at h; cases h

theorem held_iff (s : Store) (k : Bytes) (now : Int64) :
    (memoryOf s k).held now = true ↔ Held s now k := by
  simp only [Held]
  cases h : dbGet s.db k with
  | some raw => rw [memoryOf_raw h]; simp [MemSlot.held]
  | none =>
    rw [memoryOf_absent h]
    cases tombGet s.cache k <;> simp [MemSlot.held]

/-- A slot of the deletion cache is set: the others stay or are forgotten. -/
theorem headerCache_ne {s : Store} (hs : s.Ok) (now t : Int64) (e : Entry) {k : Bytes} (hk : k ≠ e.key) :
    SlotFades t (memoryOf s k) (memoryOf (setHeaderCache s now e) k) := by
  cases h : dbGet s.db k with
  | some raw =>
    rw [memoryOf_raw h, memoryOf_raw (s := setHeaderCache s now e) (raw := raw) (by rw [setHeaderCache_db]; exact h)]
    exact .refl _ _
  | none =>
    rw [memoryOf_absent h, memoryOf_absent (s := setHeaderCache s now e) (by rw [setHeaderCache_db]; exact h)]
    cases hg : tombGet (setHeaderCache s now e).cache k with
    | some x =>
      have h1 := tombGet_drop (tombPut_nodup hs.2.2 _ _) hg
      rw [tombGet_tombPut_ne _ _ hk] at h1
      rw [h1]
      exact .refl _ _
    | none =>
      cases hc : tombGet s.cache k with
      | none => exact .refl _ _
      | some x => exact .inr (.inr ⟨rfl, _, _, rfl⟩)

/-- The slot itself. -/
theorem headerCache_self {s : Store} (hs : s.Ok) (now : Int64) (e : Entry) (h : dbGet s.db e.key = none) :
    memoryOf (setHeaderCache s now e) e.key = .gone (if e.expire = 0 then now else e.expire) e.version ∨
    memoryOf (setHeaderCache s now e) e.key = .empty := by
  rw [memoryOf_absent (s := setHeaderCache s now e) (by rw [setHeaderCache_db]; exact h)]
  cases hg : tombGet (setHeaderCache s now e).cache e.key with
  | none => exact .inr rfl
  | some t =>
    rw [setHeaderCache_get hs.2.2 now e hg]
    exact .inl rfl

theorem out_ok {s : Store} (hs : s.Ok) (k : Bytes) : Store.Ok { s with db := dbOut s.db k } :=
  ⟨fun j raw h => hs.1 j raw (dbOut_sub h), hs.2⟩

theorem memoryOf_out_ne (s : Store) {k j : Bytes} (h : j ≠ k) :
    memoryOf { s with db := dbOut s.db k } j = memoryOf s j := by
  simp only [memoryOf, dbGet_dbOut_ne _ h]

/-- A record that has expired is removed. -/
theorem drop_fades {s : Store} (hs : s.Ok) {now t : Int64} {k raw : Bytes} {e : Entry} (hk : e.key = k)
    (h : dbGet s.db k = some raw) (hx : (itemOf raw).expiredAt now) (hv : e.version = (itemOf raw).version)
    (he : e.expire ≤ now) (he0 : e.expire ≠ 0) :
    Fades now (memoryOf s) (memoryOf (setHeaderCache { s with db := dbOut s.db k } t e)) := by
  subst hk
  intro j
  by_cases hj : j = e.key
  · subst hj
    have hd : dbGet (dbOut s.db e.key) e.key = none := dbGet_dbOut_self _ _
    rw [memoryOf_raw h]
    refine .inr (.inl ⟨by simp only [MemSlot.live]; exact if_pos hx, rfl, ?_⟩)
    rcases headerCache_self (out_ok hs e.key) t e hd with h1 | h1
    · rw [if_neg he0] at h1
      exact .inr ⟨_, he, by rw [h1, hv]; rfl⟩
    · exact .inl h1
  · have := headerCache_ne (out_ok hs e.key) t now e hj
    rwa [memoryOf_out_ne _ hj] at this

/-- The removal of an expired record that has just been found. -/
theorem removeFound_fades {s : Store} (hs : s.Ok) {env : Env} {raw : Bytes} {e : Entry}
    (h : dbGet s.db e.key = some raw) (hx : (itemOf raw).expiredAt env.now) (hv : e.version = (itemOf raw).version)
    (he : e.expire = (itemOf raw).expire) :
    Fades env.now (memoryOf s) (memoryOf (removeExpired s env e).1) := by
  cases ho : env.outOk with
  | true =>
    rw [(removeExpired_present hs h hv he ho).1]
    refine drop_fades hs rfl h hx rfl ?_ ?_
    · exact hx.2
    · intro h0
      have h1 : (itemOf raw).expire = 0 := h0
      have := hx.1
      rw [h1] at this
      exact absurd this (by decide)
  | false =>
    have : (removeExpired s env e).1 = s := by
      simp only [removeExpired, remove, getHeader_present hs h, fill_take, ho]
      repeat' split
      all_goals simp_all
    rw [this]
    exact .refl _ _

theorem get_fades {s : Store} (hs : s.Ok) (env : Env) (k : Bytes) :
    Fades env.now (memoryOf s) (memoryOf (get s env { key := k } {}).1) := by
  simp only [get]
  obtain ⟨o, x, h⟩ : ∃ o x, getRead s env.now { key := k } {} = (o, x) := ⟨_, _, rfl⟩
  cases x with
  | false => simp only [h]; exact .refl _ _
  | true =>
    obtain ⟨raw, hraw, hx, ho⟩ := getRead_expired hs h
    simp only [h]
    have hk : o.e.key = k := by rw [ho]; rfl
    exact removeFound_fades hs (by rw [hk]; exact hraw) hx (by rw [ho]; rfl) (by rw [ho]; rfl)

theorem setCurrent_fades {s : Store} (hs : s.Ok) (env : Env) (e : Entry) (b : Beh) :
    Fades env.now (memoryOf s) (memoryOf (setCurrent s env e b).1) := by
  rcases setCurrent_db s env e b with h | h <;> rw [h]
  · exact .refl _ _
  · exact get_fades hs env e.key

/-! ### Stores -/

/-- How a slot looks to `set`. -/
def slotState (now : Int64) (x : MemSlot) : St :=
  if (x.live now).isSome then .alive else if x.held now then .notExpired else .gone

theorem setCurrent_slot {s : Store} (hs : s.Ok) {env : Env} {e : Entry} {b : Beh} (hb : b.skipTimestamp = false)
    (hp : (b.append || b.prepend || b.touch) = false) :
    ∃ cur ex, setCurrent s env e b = (s, cur, ex) ∧ cur.version = (memoryOf s e.key).version ∧
      setState env.now b cur ex = slotState env.now (memoryOf s e.key) := by
  rw [memoryOf_version]
  cases hl : lookup s env.now e.key with
  | some it =>
    obtain ⟨cur, h1, h2, h3, -⟩ := setCurrent_visible hs (b := b) hl
    refine ⟨cur, true, h1, ?_, ?_⟩
    · obtain ⟨raw, hraw, rfl, -⟩ := (lookup_eq_some hs).1 hl
      rw [h3, known_of_raw hraw]
    · rw [h2, slotState, live_eq hs, hl]; rfl
  | none =>
    by_cases hh : Held s env.now e.key
    · obtain ⟨cur, h1, h2, h3⟩ := setCurrent_held (b := b) hb hh
      refine ⟨cur, false, h1, h3, ?_⟩
      rw [h2, slotState, live_eq hs, hl, (held_iff s e.key env.now).2 hh]; rfl
    · obtain ⟨s1, cur, ex, h1, h2, h3, -⟩ := setCurrent_gone hs (.inl hp) hb hl hh
      have h4 : s1 = s := by
        rw [setCurrent_plain hp] at h1
        exact (Prod.ext_iff.1 h1).1.symm
      subst h4
      refine ⟨cur, ex, h1, h3, ?_⟩
      have h5 : (memoryOf s1 e.key).held env.now = false := by
        cases h : (memoryOf s1 e.key).held env.now with
        | false => rfl
        | true => exact absurd ((held_iff _ _ _).1 h) hh
      rw [h2, slotState, live_eq hs, hl, h5]; rfl

/-- A store without append, prepend and touch: refused, failed, or the record is written. -/
theorem set_slot {s : Store} (hs : s.Ok) {env : Env} {e : Entry} {b : Beh} (hb : b.skipTimestamp = false)
    (hp : (b.append || b.prepend || b.touch) = false) (he : e.data.length = e.size.toNat)
    (hub : (set s env e b).2.rc ≠ .ub) :
    match setCheck (slotState env.now (memoryOf s e.key)) b e.version (memoryOf s e.key).version with
    | .error r => set s env e b = (s, ⟨.ok, some r, e⟩)
    | .ok v => ((set s env e b).1 = s ∧ (set s env e b).2.rc = .err) ∨
        set s env e b = ({ s with db := dbPut s.db e.key (serializeHeader { e with version := v } ++ e.data) },
          ⟨.ok, some .stored, { e with version := v }⟩) := by
  obtain ⟨cur, ex, h1, h2, h3⟩ := setCurrent_slot (e := e) (env := env) hs hb hp
  have hp' := hp
  simp only [Bool.or_eq_false_iff] at hp'
  simp only [set, h1, h3, h2] at hub ⊢
  cases hc : setCheck (slotState env.now (memoryOf s e.key)) b e.version (memoryOf s e.key).version with
  | error r => simp only [hc]
  | ok v =>
    simp only [hc, setPrepare, hp'.1.1, hp'.1.2, hp'.2, copyOut_all he, Option.map_some, putRecord,
      Bool.or_self, Bool.false_eq_true, if_false] at hub ⊢
    by_cases hl : headerSize + e.size.toNat ≤ intMax
    · simp only [if_pos hl] at hub ⊢
      cases hpo : env.putOk with
      | false => left; simp
      | true => right; simp [← he]
    · simp only [if_neg hl] at hub
      exact absurd rfl hub

/-- append, prepend and touch where nothing is there. -/
theorem set_refused {s : Store} (hs : s.Ok) {env : Env} {e : Entry} {b : Beh} (hb : b.skipTimestamp = false)
    (hp : (b.append || b.prepend || b.touch) = true) (hl : (memoryOf s e.key).live env.now = none) :
    ∃ s1 cur, setCurrent s env e b = (s1, cur, false) ∧ setState env.now b cur false ≠ .alive ∧
      Fades env.now (memoryOf s) (memoryOf s1) := by
  have hf := setCurrent_fades hs env e b
  rw [live_eq hs] at hl
  have hne : ∀ cur, setState env.now b cur false ≠ .alive := by
    intro cur
    simp only [setState, Bool.false_eq_true, if_false]
    split <;> simp
  have : ∃ s1 cur, setCurrent s env e b = (s1, cur, false) := by
    simp only [setCurrent, hp, if_true]
    rcases (lookup_eq_none hs).1 hl with h | ⟨raw, h, hx⟩
    · rw [get_absent (e := { key := e.key }) h]
      exact ⟨_, _, rfl⟩
    · have hxx := (isExpired_false_iff _ _).2 hx
      have hr : (get s env { key := e.key } {}).2.r = some .notFound := by
        simp only [get, getRead_some (e := { key := e.key }) h (hs.1 _ _ h), hxx, if_true]
      simp only [hr, decide_true, Bool.true_or, if_true]
      exact ⟨_, _, rfl⟩
  obtain ⟨s1, cur, h⟩ := this
  rw [h] at hf
  exact ⟨s1, cur, h, hne _, hf⟩

/-- append and prepend where a value is there. -/
theorem set_joined_at {s : Store} (hs : s.Ok) {env : Env} {e : Entry} {b : Beh} (hb : b = .ofAppend ∨ b = .ofPrepend)
    (he : e.Ok) {v : UInt64} {it : Item} (hl : (memoryOf s e.key).live env.now = some it)
    (hck : setCheck .alive b e.version it.version = .ok v) (hub : (set s env e b).2.rc ≠ .ub) :
    ((set s env e b).1 = s ∧ (set s env e b).2.rc = .err) ∨ ∃ e' : Entry,
      e'.flag = it.flag ∧ e'.expire = it.expire ∧ e'.version = v ∧
      set s env e b = ({ s with db := dbPut s.db e.key (serializeHeader e' ++
          (if b.append then it.data ++ e.data else e.data ++ it.data)) }, ⟨.ok, some .stored, e'⟩) := by
  rw [live_some hs] at hl
  obtain ⟨cur, h1, h2, h3, h4, h5, h6, h7⟩ := setCurrent_visible hs (b := b) hl
  have hd : cur.data = it.data := h7 (by rcases hb with rfl | rfl <;> rfl)
  have hcur : cur.data.length = cur.size.toNat := by rw [hd, h6]
  rw [← h3] at hck
  have hap : (b.append || b.prepend) = true := by rcases hb with rfl | rfl <;> rfl
  have htouch : b.touch = false := by rcases hb with rfl | rfl <;> rfl
  have hit : it.data.length ≤ intMax := by
    obtain ⟨raw, hraw, rfl, -⟩ := (lookup_eq_some hs).1 hl
    have := (hs.1 _ _ hraw).2.1
    simp only [itemOf, List.length_drop]
    omega
  have hsum : (e.size + cur.size).toNat = e.data.length + cur.data.length := by
    rw [he.1, hcur, UInt64.toNat_add]
    have := he.2
    rw [he.1] at this
    apply Nat.mod_eq_of_lt
    rw [h6]
    unfold headerSize at this
    unfold intMax at this hit
    omega
  simp only [set, h1, h2, hck, setPrepare, hap, if_true, copyOut_all he.1, copyOut_all hcur, putRecord, hsum,
    ne_eq, not_true_eq_false, if_false] at hub ⊢
  by_cases hsz : headerSize + (e.data.length + cur.data.length) ≤ intMax
  · simp only [if_pos hsz] at hub ⊢
    cases hpo : env.putOk with
    | false => left; simp
    | true =>
      right
      refine ⟨{ e with
        version := v, expire := cur.expire, flag := cur.flag, size := e.size + cur.size,
        data := if b.append then cur.data ++ e.data else e.data ++ cur.data }, h4, h5, rfl, ?_⟩
      rw [← hd]
      have hlen : (if b.append then cur.data ++ e.data else e.data ++ cur.data).length =
          e.data.length + cur.data.length := by
        split <;> simp <;> omega
      rw [← hlen, List.take_length]
      simp [htouch]
  · simp only [if_neg hsz] at hub
    exact absurd trivial hub

theorem set_joined {s : Store} (hs : s.Ok) {env : Env} {e : Entry} {b : Beh} (hb : b = .ofAppend ∨ b = .ofPrepend)
    (he : e.Ok) (hv : e.version = 0) {it : Item} (hl : (memoryOf s e.key).live env.now = some it)
    (hub : (set s env e b).2.rc ≠ .ub) :
    ((set s env e b).1 = s ∧ (set s env e b).2.rc = .err) ∨ ∃ e' : Entry,
      e'.flag = it.flag ∧ e'.expire = it.expire ∧ e'.version = it.version + 1 ∧
      set s env e b = ({ s with db := dbPut s.db e.key (serializeHeader e' ++
          (if b.append then it.data ++ e.data else e.data ++ it.data)) }, ⟨.ok, some .stored, e'⟩) := by
  exact set_joined_at hs hb he hl (by
    rcases hb with rfl | rfl <;> simp [setCheck, Beh.ofAppend, Beh.ofPrepend, hv]) hub

/-- touch where a value is there. -/
theorem set_touched {s : Store} (hs : s.Ok) {env : Env} {e : Entry} {it : Item}
    (hl : (memoryOf s e.key).live env.now = some it) :
    ((set s env e .ofTouch).1 = s ∧ (set s env e .ofTouch).2.rc = .err) ∨ ∃ e' : Entry,
      e'.flag = it.flag ∧ e'.expire = e.expire ∧ e'.version = it.version ∧ e'.data = it.data ∧
      e'.size.toNat = it.data.length ∧ e'.key = e.key ∧
      set s env e .ofTouch = ({ s with db := dbPut s.db e.key (serializeHeader e' ++ it.data) },
        ⟨.ok, some .touched, e'⟩) := by
  rw [live_some hs] at hl
  obtain ⟨cur, h1, h2, h3, h4, h5, h6, h7⟩ := setCurrent_visible hs (b := .ofTouch) hl
  have hd : cur.data = it.data := h7 rfl
  have hcur : cur.data.length = cur.size.toNat := by rw [hd, h6]
  have hck : setCheck .alive .ofTouch e.version cur.version = .ok cur.version := by
    simp [setCheck, Beh.ofTouch]
  have hit : headerSize + it.data.length ≤ intMax := by
    obtain ⟨raw, hraw, rfl, -⟩ := (lookup_eq_some hs).1 hl
    have h8 := (hs.1 _ _ hraw).2.1
    have h9 := (hs.1 _ _ hraw).1
    simp only [itemOf, List.length_drop]
    omega
  have hsz : headerSize + cur.size.toNat ≤ intMax := by rw [h6]; exact hit
  simp only [set, h1, h2, hck, setPrepare, copyOut_all hcur, putRecord]
  simp only [Beh.ofTouch, Bool.or_self, Bool.false_eq_true, if_false, if_true, Option.map_some, if_pos hsz]
  cases hpo : env.putOk with
  | false => left; simp
  | true =>
    right
    refine ⟨{ e with version := cur.version, flag := cur.flag, size := cur.size, data := cur.data }, h4, rfl, h3,
      hd, h6, rfl, ?_⟩
    rw [← hcur, List.take_length, hd]
    simp

/-! ### One section -/

theorem fades_at {now : Int64} {m : Memory} {k : Bytes} {x : MemSlot} {m1 : Memory}
    (h : m1 = fun j => if j = k then x else m j) : Fades now (fun j => if j = k then x else m j) m1 := by
  rw [h]; exact .refl _ _

theorem update_same (m : Memory) (k : Bytes) : (fun j => if j = k then m k else m j) = m := by
  funext j
  by_cases h : j = k
  · rw [if_pos h, h]
  · rw [if_neg h]

/-- A write that changes nothing in the memory. -/
theorem memStep_same {now : Int64} {m m1 : Memory} {r : WriteReq} {t : MemTold}
    (h : memWrite now (m r.entry.key) r = (m r.entry.key, t)) (hf : Fades now m m1) :
    MemStep now m (.write r) t m1 := by
  refine .inr ⟨by simp only [memDo, h], ?_⟩
  simp only [memDo, h, update_same]
  exact hf

/-- A write that fills its slot. -/
theorem memStep_put {now : Int64} {m m1 : Memory} {r : WriteReq} {t : MemTold} {x : MemSlot}
    (h : memWrite now (m r.entry.key) r = (x, t)) (hm : m1 = fun j => if j = r.entry.key then x else m j) :
    MemStep now m (.write r) t m1 := by
  refine .inr ⟨by simp only [memDo, h], ?_⟩
  simp only [memDo, h, hm]
  exact .refl _ _

theorem memNumber_eq (d : Bytes) : (leadingNumber d).toNat = memNumber d := by
  simp only [leadingNumber, memNumber]
  generalize hn : decValue (d.takeWhile isDigit) = n
  have he : (d.takeWhile isDigit).isEmpty = true → n = 0 := by
    intro h; rw [← hn, List.isEmpty_iff.1 h]; rfl
  by_cases h : n < 2 ^ 64
  · rw [if_pos h]
    by_cases h2 : (d.takeWhile isDigit).isEmpty = true
    · rw [if_pos (by simp [h2]), he h2]; rfl
    · rw [if_neg (by simp only [Bool.or_eq_true, decide_eq_true_eq]; rintro (h3 | h3); exacts [h2 h3, by omega]),
        UInt64.toNat_ofNat']
      exact Nat.mod_eq_of_lt h
  · rw [if_neg h, if_pos (by simp only [Bool.or_eq_true, decide_eq_true_eq]; right; omega)]; rfl

/-- What a store does, as the memory sees it. -/
theorem write_set {s : Store} (hs : s.Ok) {env : Env} {r : WriteReq} (hc : MemAsk.Client (.write r)) {b : Beh}
    (hcall : r.call = .set r.entry b) (hub : (set s env r.entry b).2.rc ≠ .ub) :
    MemStep env.now (memoryOf s) (.write r) (MemAsk.told (.write r) (set s env r.entry b).2)
      (memoryOf (set s env r.entry b).1) := by
  have told_err : ∀ o : Out, o.rc = .err → MemAsk.told (.write r) o = .failed := by
    intro o h; simp only [MemAsk.told, h]
  have told_said : ∀ (x : Result) (e : Entry), r.cmd.kind ≠ .count → (r.cmd ≠ .gat ∨ x ≠ .touched) →
      MemAsk.told (.write r) ⟨.ok, some x, e⟩ = .said x := by
    intro x e h1 h2
    simp only [MemAsk.told]
    rw [if_neg (fun h => h1 h.1), if_neg (fun h => h2.elim (fun g => g h.1) (fun g => g h.2))]
  have plain : ∀ (b : Beh), b.skipTimestamp = false → (b.append || b.prepend || b.touch) = false →
      r.entry.Ok → r.cmd.kind ≠ .count → r.cmd ≠ .gat → (set s env r.entry b).2.rc ≠ .ub →
      (∀ x v, setCheck (slotState env.now (memoryOf s r.entry.key)) b r.entry.version
        (memoryOf s r.entry.key).version = .ok v → memWrite env.now (memoryOf s r.entry.key) r = x →
        x = (.full ⟨r.entry.data, r.entry.flag, r.entry.expire, v⟩, .said .stored)) →
      (∀ x, setCheck (slotState env.now (memoryOf s r.entry.key)) b r.entry.version
        (memoryOf s r.entry.key).version = .error x →
        memWrite env.now (memoryOf s r.entry.key) r = (memoryOf s r.entry.key, .said x)) →
      MemStep env.now (memoryOf s) (.write r) (MemAsk.told (.write r) (set s env r.entry b).2)
        (memoryOf (set s env r.entry b).1) := by
    intro b hb hp he hk hg hub h1 h2
    have h := set_slot hs hb hp he.1 hub
    cases hck : setCheck (slotState env.now (memoryOf s r.entry.key)) b r.entry.version
      (memoryOf s r.entry.key).version with
    | error x =>
      rw [hck] at h
      simp only at h
      rw [h, told_said x _ hk (.inl hg)]
      exact memStep_same (h2 x hck) (.refl _ _)
    | ok v =>
      rw [hck] at h
      rcases h with ⟨h, h'⟩ | h
      · rw [h, told_err _ h']
        exact .inl ⟨rfl, .refl _ _⟩
      · rw [h, told_said _ _ hk (.inl hg)]
        exact memStep_put (h1 _ v hck rfl) (memoryOf_put _ _ _ _)
  have hstore : r.cmd.kind = .store → r.entry.Ok := hc.2
  have hver := hc.1
  obtain ⟨x, hx⟩ : ∃ x, x = memoryOf s r.entry.key := ⟨_, rfl⟩
  have joined : ∀ (b : Beh), (b = .ofAppend ∨ b = .ofPrepend) → r.entry.Ok → r.cmd.kind ≠ .count → r.cmd ≠ .gat →
      r.entry.version = 0 → (set s env r.entry b).2.rc ≠ .ub →
      (x.live env.now = none → memWrite env.now x r = (x, .said .notStored)) →
      (∀ it, x.live env.now = some it → memWrite env.now x r =
        (.full ⟨if b.append then it.data ++ r.entry.data else r.entry.data ++ it.data, it.flag, it.expire,
          it.version + 1⟩, .said .stored)) →
      MemStep env.now (memoryOf s) (.write r) (MemAsk.told (.write r) (set s env r.entry b).2)
        (memoryOf (set s env r.entry b).1) := by
    intro b hb he hk hg hv hub h1 h2
    cases hl : x.live env.now with
    | none =>
      obtain ⟨s1, cur, h3, h4, h5⟩ := set_refused hs (b := b) (by rcases hb with rfl | rfl <;> rfl)
        (by rcases hb with rfl | rfl <;> rfl) (hx ▸ hl)
      have : set s env r.entry b = (s1, ⟨.ok, some .notStored, r.entry⟩) := by
        have hck : setCheck (setState env.now b cur false) b r.entry.version cur.version = .error .notStored := by
          rcases hb with rfl | rfl <;> simp [setCheck, h4] <;> simp [Beh.ofAppend, Beh.ofPrepend]
        simp only [set, h3, hck]
      rw [this, told_said _ _ hk (.inl hg)]
      exact memStep_same (hx ▸ h1 hl) h5
    | some it =>
      rcases set_joined hs hb he hv (hx ▸ hl) hub with ⟨h3, h4⟩ | ⟨e', h3, h4, h5, h6⟩
      · rw [h3, told_err _ h4]
        exact .inl ⟨rfl, .refl _ _⟩
      · rw [h6, told_said _ _ hk (.inl hg)]
        refine memStep_put (hx ▸ h2 it hl) ?_
        rw [memoryOf_put, h3, h4, h5]
  have touched : ∀ (t : Item → MemTold), (r.cmd = .touch ∨ r.cmd = .gat) →
      (x.live env.now = none → memWrite env.now x r = (x, .said .notFound)) →
      (∀ it, x.live env.now = some it → memWrite env.now x r =
        (.full { it with expire := r.entry.expire }, t it)) →
      (∀ it e', e'.flag = it.flag → e'.expire = r.entry.expire → e'.version = it.version → e'.data = it.data →
        e'.size.toNat = it.data.length → MemAsk.told (.write r) ⟨.ok, some .touched, e'⟩ = t it) →
      MemStep env.now (memoryOf s) (.write r) (MemAsk.told (.write r) (set s env r.entry .ofTouch).2)
        (memoryOf (set s env r.entry .ofTouch).1) := by
    intro t hk h1 h2 ht
    have hkk : r.cmd.kind ≠ .count := by rcases hk with h | h <;> rw [h] <;> decide
    cases hl : x.live env.now with
    | none =>
      obtain ⟨s1, cur, h3, h4, h5⟩ := set_refused hs (b := .ofTouch) rfl rfl (hx ▸ hl)
      have : set s env r.entry .ofTouch = (s1, ⟨.ok, some .notFound, r.entry⟩) := by
        have hck : setCheck (setState env.now .ofTouch cur false) .ofTouch r.entry.version cur.version =
            .error .notFound := by
          simp only [setCheck, Beh.ofTouch] at h4 ⊢
          simp [h4]
        simp only [set, h3, hck]
      rw [this, told_said _ _ hkk (.inr (by decide))]
      exact memStep_same (hx ▸ h1 hl) h5
    | some it =>
      rcases set_touched hs (hx ▸ hl) with ⟨h3, h4⟩ | ⟨e', h3, h4, h5, h6, h7, -, h8⟩
      · rw [h3, told_err _ h4]
        exact .inl ⟨rfl, .refl _ _⟩
      · rw [h8, ht it e' h3 h4 h5 h6 h7]
        refine memStep_put (hx ▸ h2 it hl) ?_
        rw [memoryOf_put, h3, h4, h5]
  rw [← hx] at plain
  cases hcmd : r.cmd with
  | set =>
    simp only [WriteReq.call, hcmd, Cmd.set.injEq, true_and] at hcall
    subst hcall
    have hv := hver (by rw [hcmd]; decide)
    refine plain .ofSet rfl rfl (hstore (by rw [hcmd]; rfl)) (by rw [hcmd]; decide) (by rw [hcmd]; decide) hub ?_ ?_
    · intro y v h1 h2
      simp only [setCheck, Beh.ofSet, hv] at h1
      simp at h1
      subst h2; subst h1
      simp only [memWrite, hcmd]
    · intro y h1
      simp [setCheck, Beh.ofSet, hv] at h1
  | add =>
    simp only [WriteReq.call, hcmd, Cmd.set.injEq, true_and] at hcall
    subst hcall
    have hv := hver (by rw [hcmd]; decide)
    refine plain .ofAdd rfl rfl (hstore (by rw [hcmd]; rfl)) (by rw [hcmd]; decide) (by rw [hcmd]; decide) hub ?_ ?_
    · intro y v h1 h2
      simp only [setCheck, Beh.ofAdd, hv, slotState] at h1
      subst h2
      simp only [memWrite, hcmd]
      cases ha : (x.live env.now).isSome <;> cases hh : x.held env.now <;> simp [ha, hh] at h1 ⊢
      exact h1
    · intro y h1
      simp only [setCheck, Beh.ofAdd, hv, slotState] at h1
      simp only [memWrite, hcmd]
      cases ha : (x.live env.now).isSome <;> cases hh : x.held env.now <;> simp [ha, hh] at h1 ⊢
      all_goals exact h1
  | replace =>
    simp only [WriteReq.call, hcmd, Cmd.set.injEq, true_and] at hcall
    subst hcall
    have hv := hver (by rw [hcmd]; decide)
    refine plain .ofReplace rfl rfl (hstore (by rw [hcmd]; rfl)) (by rw [hcmd]; decide) (by rw [hcmd]; decide) hub ?_ ?_
    · intro y v h1 h2
      simp only [setCheck, Beh.ofReplace, hv, slotState] at h1
      subst h2
      simp only [memWrite, hcmd]
      cases ha : (x.live env.now).isSome <;> cases hh : x.held env.now <;> simp [ha, hh] at h1 ⊢
      all_goals exact h1
    · intro y h1
      simp only [setCheck, Beh.ofReplace, hv, slotState] at h1
      simp only [memWrite, hcmd]
      cases ha : (x.live env.now).isSome <;> cases hh : x.held env.now <;> simp [ha, hh] at h1 ⊢
      all_goals exact h1
  | cas =>
    simp only [WriteReq.call, hcmd, Cmd.set.injEq, true_and] at hcall
    subst hcall
    refine plain .ofCas rfl rfl (hstore (by rw [hcmd]; rfl)) (by rw [hcmd]; decide) (by rw [hcmd]; decide) hub ?_ ?_
    · intro y v h1 h2
      simp only [setCheck, Beh.ofCas, slotState] at h1
      subst h2
      simp only [memWrite, hcmd]
      by_cases hvv : r.entry.version = x.version <;>
        cases ha : (x.live env.now).isSome <;> cases hh : x.held env.now <;> simp [ha, hh, hvv] at h1 ⊢
      all_goals exact h1
    · intro y h1
      simp only [setCheck, Beh.ofCas, slotState] at h1
      simp only [memWrite, hcmd]
      by_cases hvv : r.entry.version = x.version <;>
        cases ha : (x.live env.now).isSome <;> cases hh : x.held env.now <;> simp [ha, hh, hvv] at h1 ⊢
      all_goals exact h1
  | append =>
    simp only [WriteReq.call, hcmd, Cmd.set.injEq, true_and] at hcall
    subst hcall
    refine joined .ofAppend (.inl rfl) (hstore (by rw [hcmd]; rfl)) (by rw [hcmd]; decide) (by rw [hcmd]; decide)
      (hver (by rw [hcmd]; decide)) hub ?_ ?_
    · intro h; simp only [memWrite, hcmd, h]
    · intro it h; simp only [memWrite, hcmd, h]; rfl
  | prepend =>
    simp only [WriteReq.call, hcmd, Cmd.set.injEq, true_and] at hcall
    subst hcall
    refine joined .ofPrepend (.inr rfl) (hstore (by rw [hcmd]; rfl)) (by rw [hcmd]; decide) (by rw [hcmd]; decide)
      (hver (by rw [hcmd]; decide)) hub ?_ ?_
    · intro h; simp only [memWrite, hcmd, h]
    · intro it h; simp only [memWrite, hcmd, h]; rfl
  | touch =>
    simp only [WriteReq.call, hcmd, Cmd.set.injEq, true_and] at hcall
    subst hcall
    refine touched (fun _ => .said .touched) (.inl hcmd) ?_ ?_ ?_
    · intro h; simp only [memWrite, hcmd, h]
    · intro it h; simp only [memWrite, hcmd, h]
    · intro it e' _ _ _ _ _
      exact told_said _ _ (by rw [hcmd]; decide) (.inl (by rw [hcmd]; decide))
  | gat =>
    simp only [WriteReq.call, hcmd, Cmd.set.injEq, true_and] at hcall
    subst hcall
    refine touched (fun it => .value { it with expire := r.entry.expire }) (.inr hcmd) ?_ ?_ ?_
    · intro h; simp only [memWrite, hcmd, h]
    · intro it h; simp only [memWrite, hcmd, h]
    · intro it e' h1 h2 h3 h4 h5
      simp only [MemAsk.told, hcmd]
      rw [if_neg (by decide), if_pos (by decide), h1, h2, h3, h5, h4, List.take_length]
  | incr => simp [WriteReq.call, hcmd] at hcall
  | decr => simp [WriteReq.call, hcmd] at hcall
  | delete => simp [WriteReq.call, hcmd] at hcall

theorem write_incr {s : Store} (hs : s.Ok) {env : Env} {r : WriteReq} {i : Bool}
    (hi : r.cmd = if i then .incr else .decr) :
    MemStep env.now (memoryOf s) (.write r) (MemAsk.told (.write r) (incrLocked s env r.entry r.value i {}).2.1)
      (memoryOf (incrLocked s env r.entry r.value i {}).1) := by
  have hk : r.cmd.kind = .count := by rw [hi]; cases i <;> rfl
  have none_ : (memoryOf s r.entry.key).live env.now = none →
      memWrite env.now (memoryOf s r.entry.key) r = (memoryOf s r.entry.key, .said .notFound) := by
    intro h
    cases i <;> simp only [Bool.false_eq_true, if_false, if_true] at hi <;> simp only [memWrite, hi, h]
  cases h : dbGet s.db r.entry.key with
  | none =>
    have : incrLocked s env r.entry r.value i {} = (s, ⟨.ok, some .notFound, r.entry⟩, none) := by
      simp only [incrLocked, h]
    rw [this]
    simp only [MemAsk.told]
    rw [if_neg (by simp), if_neg (by simp)]
    refine memStep_same (none_ ?_) (.refl _ _)
    rw [memoryOf_absent h]
    cases tombGet s.cache r.entry.key <;> rfl
  | some raw =>
    have hr := hs.1 _ _ h
    have hsz : ¬ raw.length - headerSize ≠ (fill raw { key := [] }).size.toNat := by
      rw [rawOk_size hr]; simp
    have hm := memoryOf_raw h
    cases hx : isExpired false (itemOf raw).expire env.now with
    | true =>
      have hx' : isExpired false (fill raw { key := [] }).expire env.now = true := hx
      have : incrLocked s env r.entry r.value i {} = (s, ⟨.ok, some .notFound, r.entry⟩,
          some { fill raw { key := [] } with key := r.entry.key }) := by
        simp only [incrLocked, h, unserializeHeader_of_len hr.1, if_neg hsz, hx', if_true]
      rw [this]
      simp only [MemAsk.told]
      rw [if_neg (by simp), if_neg (by simp)]
      refine memStep_same (none_ ?_) (.refl _ _)
      rw [hm]
      exact if_pos ((isExpired_false_iff _ _).1 hx)
    | false =>
      have hx' : isExpired false (fill raw { key := [] }).expire env.now = false := hx
      have hl : (memoryOf s r.entry.key).live env.now = some (itemOf raw) := by
        rw [hm]
        exact if_neg (fun h => by rw [(isExpired_false_iff _ _).2 h] at hx; cases hx)
      obtain ⟨n, hn⟩ : ∃ n, n = incrValue (leadingNumber (raw.drop headerSize)) r.value i := ⟨_, rfl⟩
      have hw : memWrite env.now (memoryOf s r.entry.key) r =
          (.full { itemOf raw with data := decimal n.toNat, version := (itemOf raw).version + 1 },
            .number n.toNat) := by
        have hd : memNumber (itemOf raw).data = (leadingNumber (raw.drop headerSize)).toNat :=
          (memNumber_eq _).symm
        cases i <;> simp only [Bool.false_eq_true, if_false, if_true] at hi <;>
          simp only [memWrite, hi, hl, hd]
        · rw [hn, incrValue_decr]
        · rw [hn, incrValue_incr]
      have hdl := decimal_size_ok n
      have hsz2 : (UInt64.ofNat (decimal n.toNat).length).toNat = (decimal n.toNat).length := by
        have := decimal_length_u64 n
        rw [UInt64.toNat_ofNat']
        exact Nat.mod_eq_of_lt (by omega)
      simp only [incrLocked, h, unserializeHeader_of_len hr.1, if_neg hsz, hx', putRecord, ← hn, if_pos hdl]
      cases hp : env.putOk with
      | false =>
        simp only [Bool.not_false, if_true]
        exact .inl ⟨rfl, .refl _ _⟩
      | true =>
        simp only [Bool.not_true, Bool.false_eq_true, if_false]
        have ht : ∀ e : Entry, e.data = decimal n.toNat → e.size = UInt64.ofNat (decimal n.toNat).length →
            MemAsk.told (.write r) ⟨.ok, some .stored, e⟩ = .number n.toNat := by
          intro e h1 h2
          simp only [MemAsk.told]
          rw [if_pos ⟨hk, trivial⟩, h1, h2, hsz2, List.take_length, decValue_decimal]
        rw [ht _ rfl rfl]
        refine memStep_put hw ?_
        rw [memoryOf_put, hsz2, List.take_length]
        rfl

theorem write_delete {s : Store} (hs : s.Ok) {env : Env} {r : WriteReq} (hc : MemAsk.Client (.write r))
    (hi : r.cmd = .delete) :
    MemStep env.now (memoryOf s) (.write r) (MemAsk.told (.write r) (remove s env r.entry {}).2)
      (memoryOf (remove s env r.entry {}).1) := by
  have hv := hc.1 (by rw [hi]; decide)
  have told_said : ∀ (x : Result) (e : Entry), MemAsk.told (.write r) ⟨.ok, some x, e⟩ = .said x := by
    intro x e
    simp only [MemAsk.told]
    rw [if_neg (fun h => by rw [hi] at h; exact absurd h.1 (by decide)),
      if_neg (fun h => by rw [hi] at h; exact absurd h.1 (by decide))]
  cases h : dbGet s.db r.entry.key with
  | none =>
    have : remove s env r.entry {} = (s, ⟨.ok, some .notFound, r.entry⟩) := by
      simp only [remove, getHeader, h, hv]; simp
    rw [this, told_said]
    refine memStep_same ?_ (.refl _ _)
    rw [memoryOf_absent h]
    cases tombGet s.cache r.entry.key <;> simp only [memWrite, hi]
  | some raw =>
    cases ho : env.outOk with
    | false =>
      have : remove s env r.entry {} = (s, ⟨.err, none, r.entry⟩) := by
        simp only [remove, getHeader_present hs h, hv, ho]; simp
      rw [this]
      exact .inl ⟨rfl, .refl _ _⟩
    | true =>
      obtain ⟨e', he'⟩ : ∃ e', e' = { r.entry with version := (itemOf raw).version } := ⟨_, rfl⟩
      have hk' : e'.key = r.entry.key := by rw [he']
      have h2 : remove s env r.entry {} =
          (setHeaderCache { s with db := dbOut s.db r.entry.key } env.now e',
            ⟨.ok, some (if isExpired false (itemOf raw).expire env.now then .notFound else .deleted), e'⟩) := by
        simp only [remove, getHeader_present hs h, hv, ho, fill_take, he']; simp; exact ⟨rfl, rfl, rfl⟩
      rw [h2, told_said]
      have hw : memWrite env.now (memoryOf s r.entry.key) r =
          (.gone (if r.entry.expire = 0 then env.now else r.entry.expire) (itemOf raw).version,
            .said (if isExpired false (itemOf raw).expire env.now then .notFound else .deleted)) := by
        rw [memoryOf_raw h]
        cases hx : isExpired false (itemOf raw).expire env.now with
        | true =>
          have hl : (MemSlot.full (itemOf raw)).live env.now = none :=
            if_pos ((isExpired_false_iff _ _).1 hx)
          simp only [memWrite, hi, hl]; rfl
        | false =>
          have hl : (MemSlot.full (itemOf raw)).live env.now = some (itemOf raw) :=
            if_neg (fun h => by rw [(isExpired_false_iff _ _).2 h] at hx; cases hx)
          simp only [memWrite, hi, hl]; rfl
      refine .inr ⟨by simp only [memDo, hw], ?_⟩
      simp only [memDo, hw]
      intro j
      by_cases hj : j = r.entry.key
      · subst hj
        simp only [if_true]
        have hd : dbGet (dbOut s.db r.entry.key) e'.key = none := by rw [hk']; exact dbGet_dbOut_self _ _
        have hexp : e'.expire = r.entry.expire := by rw [he']
        have hver : e'.version = (itemOf raw).version := by rw [he']
        have := headerCache_self (out_ok hs r.entry.key) env.now e' hd
        rw [hk', hexp, hver] at this
        rcases this with h1 | h1 <;> rw [h1]
        · exact .refl _ _
        · exact .inr (.inr ⟨rfl, _, _, rfl⟩)
      · simp only [if_neg hj]
        have := headerCache_ne (out_ok hs r.entry.key) env.now env.now e' (k := j) (by rw [hk']; exact hj)
        rwa [memoryOf_out_ne _ hj] at this

/-- A failed or successful `flush_all`. -/
theorem truncate_explained (s : Store) (env : Env) :
    MemStep env.now (memoryOf s) .clear (MemAsk.told .clear ⟨(truncate s env).2, none, { key := [] }⟩)
      (memoryOf (truncate s env).1) := by
  simp only [truncate]
  cases h : env.vanishOk with
  | true =>
    refine .inr ⟨rfl, ?_⟩
    intro k
    exact .inl rfl
  | false =>
    refine .inl ⟨rfl, ?_⟩
    intro k
    simp only [Bool.false_eq_true, if_false]
    cases hd : dbGet s.db k with
    | some raw => rw [memoryOf_raw hd, memoryOf_raw (s := { s with cache := [] }) hd]; exact .refl _ _
    | none =>
      rw [memoryOf_absent hd, memoryOf_absent (s := { s with cache := [] }) hd]
      cases tombGet s.cache k with
      | none => exact .refl _ _
      | some t => exact .inr (.inr ⟨rfl, _, _, rfl⟩)

theorem read_explained {s : Store} (hs : s.Ok) (env : Env) (k : Bytes) :
    (MemAsk.read k).told (getRead s env.now { key := k } {}).1 = (memDo env.now (memoryOf s) (.read k)).2 := by
  cases h : dbGet s.db k with
  | none =>
    rw [getRead_none (e := { key := k }) h]
    simp only [memDo, memoryOf_absent h]
    cases tombGet s.cache k <;> rfl
  | some raw =>
    rw [getRead_some (e := { key := k }) h (hs.1 _ _ h)]
    cases hx : isExpired false (itemOf raw).expire env.now with
    | true =>
      have hl : (MemSlot.full (itemOf raw)).live env.now = none :=
        if_pos ((isExpired_false_iff _ _).1 hx)
      simp only [memDo, memoryOf_raw h, hl]
      rfl
    | false =>
      have hl : (MemSlot.full (itemOf raw)).live env.now = some (itemOf raw) :=
        if_neg (fun h => by rw [(isExpired_false_iff _ _).2 h] at hx; cases hx)
      simp only [memDo, memoryOf_raw h, hl]
      simp only [MemAsk.told, Bool.false_eq_true, if_false]
      have := rawOk_size (hs.1 _ _ h) { key := k }
      have h2 : ({ fill raw { key := k } with data := raw.drop headerSize } : Entry).size.toNat =
        (raw.drop headerSize).length := by rw [List.length_drop]; exact this
      rw [h2, List.take_length]
      rfl

/-- The first section of a client's request is that request carried out on the memory. -/
theorem section_explained {s : Store} (hs : s.Ok) {env : Env} {a : MemAsk} (hc : a.Client)
    (hub : (firstSection s env a.cmd).2.1.rc ≠ .ub) :
    MemStep env.now (memoryOf s) a (a.told (firstSection s env a.cmd).2.1)
      (memoryOf (firstSection s env a.cmd).1) := by
  cases a with
  | read k =>
    have h := read_explained hs env k
    simp only [MemAsk.cmd, firstSection] at h ⊢
    obtain ⟨o, x, hx⟩ : ∃ o x, getRead s env.now { key := k } {} = (o, x) := ⟨_, _, rfl⟩
    cases x <;> simp only [hx] at h ⊢ <;> rw [h] <;> exact .inr ⟨rfl, .refl _ _⟩
  | clear => exact truncate_explained s env
  | write r =>
    have hset : ∀ b, r.call = .set r.entry b →
        MemStep env.now (memoryOf s) (.write r) (MemAsk.told (.write r) (firstSection s env r.call).2.1)
          (memoryOf (firstSection s env r.call).1) := by
      intro b hb
      simp only [MemAsk.cmd, hb, firstSection, step] at hub ⊢
      exact write_set hs hc hb hub
    simp only [MemAsk.cmd]
    cases hcmd : r.cmd with
    | incr =>
      simp only [WriteReq.call, hcmd, firstSection]
      exact write_incr hs hcmd
    | decr =>
      simp only [WriteReq.call, hcmd, firstSection]
      exact write_incr hs (i := false) hcmd
    | delete =>
      simp only [WriteReq.call, hcmd, firstSection, step]
      exact write_delete hs hc hcmd
    | _ => exact hset _ (by simp only [WriteReq.call, hcmd]; rfl)

/-! ### The removal of an expired record in its own section -/

theorem getHeader_absent_version {s : Store} {k : Bytes} (h : dbGet s.db k = none) :
    (getHeader s k { key := [] }).2 = false ∧
      (getHeader s k { key := [] }).1.version = (memoryOf s k).version := by
  rw [memoryOf_version]
  simp only [getHeader, h, known, getHeaderCache]
  cases tombGet s.cache k <;> simp

theorem late_fades {s : Store} (hs : s.Ok) {env : Env} {e : Entry} (h : Harmless env.now (memoryOf s) e) :
    Fades env.now (memoryOf s) (memoryOf (removeExpired s env e).1) := by
  obtain ⟨h0, hx, hv⟩ := h
  have hx' : (if e.expire = 0 then env.now else e.expire) ≤ env.now := by
    split
    · exact Int64.le_refl _
    · exact hx
  simp only [removeExpired]
  cases hd : dbGet s.db e.key with
  | none =>
    obtain ⟨h1, h2⟩ := getHeader_absent_version hd
    obtain ⟨cur, ex, hg⟩ : ∃ cur ex, getHeader s e.key { key := [] } = (cur, ex) := ⟨_, _, rfl⟩
    rw [hg] at h1 h2
    simp only at h1 h2
    subst h1
    by_cases hc : e.version = cur.version
    · have : (remove s env e { versionEqual := true }).1 = setHeaderCache s env.now e := by
        simp only [remove, hg]
        rw [if_neg (by simp [hc]), if_pos (by simp), if_pos (by simp [h0])]
      rw [this]
      obtain ⟨hl, hh⟩ := hv (by rw [← h2, hc])
      intro j
      by_cases hj : j = e.key
      · subst hj
        refine .inr (.inl ⟨hl, hh, ?_⟩)
        rcases headerCache_self hs env.now e hd with h3 | h3
        · exact .inr ⟨_, hx', by rw [h3, hc, h2]⟩
        · exact .inl h3
      · exact headerCache_ne hs env.now env.now e hj
    · have : (remove s env e { versionEqual := true }).1 = s := by
        simp only [remove, hg]
        rw [if_pos (by simp [h0, hc])]
      rw [this]
      exact .refl _ _
  | some raw =>
    have hm := memoryOf_raw hd
    by_cases hc : e.version = (itemOf raw).version
    · cases ho : env.outOk with
      | false =>
        have : (remove s env e { versionEqual := true }).1 = s := by
          simp only [remove, getHeader_present hs hd, ho]
          rw [if_neg (by simp [fill_take, hc, (fill_itemOf raw _).2.2]), if_neg (by simp), if_pos (by simp)]
        rw [this]
        exact .refl _ _
      | true =>
        have : (remove s env e { versionEqual := true }).1 =
            setHeaderCache { s with db := dbOut s.db e.key } env.now e := by
          simp only [remove, getHeader_present hs hd, ho]
          rw [if_neg (by simp [fill_take, hc, (fill_itemOf raw _).2.2]), if_neg (by simp), if_neg (by simp),
            if_neg h0]
        rw [this]
        have hlh := hv (by rw [hm]; exact hc.symm)
        intro j
        by_cases hj : j = e.key
        · subst hj
          refine .inr (.inl ⟨hlh.1, hlh.2, ?_⟩)
          rcases headerCache_self (out_ok hs e.key) env.now e (dbGet_dbOut_self _ _) with h3 | h3
          · exact .inr ⟨_, hx', by rw [h3, hc, hm]; rfl⟩
          · exact .inl h3
        · have := headerCache_ne (out_ok hs e.key) env.now env.now e hj
          rwa [memoryOf_out_ne _ hj] at this
    · have : (remove s env e { versionEqual := true }).1 = s := by
        simp only [remove, getHeader_present hs hd]
        rw [if_pos (by simp [fill_take, h0, (fill_itemOf raw _).2.2, hc])]
      rw [this]
      exact .refl _ _

/-! ### Sections keep records whole -/

theorem firstSection_ok {s : Store} (hs : s.Ok) (env : Env) (c : Cmd) : (firstSection s env c).1.Ok := by
  cases c with
  | get e b =>
    simp only [firstSection]
    obtain ⟨o, x, h⟩ : ∃ o x, getRead s env.now e b = (o, x) := ⟨_, _, rfl⟩
    cases x <;> simp only [h] <;> exact hs
  | incr e v i b =>
    simp only [firstSection]
    rcases incrLocked_cases s env e v i b with ⟨h1, -⟩ | ⟨raw, -, -, -, -, -, h⟩
    · rw [h1]; exact hs
    · rw [h]
      refine put_ok hs ?_ ?_
      · simp only [UInt64.toNat_ofNat']; exact Nat.mod_le _ _
      · exact decimal_size_ok _
  | set e b => exact step_ok hs env (.set e b)
  | remove e b => exact step_ok hs env (.remove e b)
  | flush => exact step_ok hs env .flush

theorem shStep_ok {s : Shared} (hs : s.store.Ok) (ev : ShEv) : (shStep s ev).1.store.Ok := by
  cases ev with
  | call c env cmd =>
    cases hd : s.due c with
    | some e => simp only [shStep, hd]; exact hs
    | none => simp only [shStep, hd, Shared.setDue]; exact firstSection_ok hs env cmd
  | late c env =>
    cases hd : s.due c with
    | none => simp only [shStep, hd]; exact hs
    | some e => simp only [shStep, hd, Shared.setDue]; exact remove_ok hs env e _

/-! ### Requests that leave the versions going up -/

/-- A slot of a memory in which nothing is held back and versions are small. -/
def SlotCalm (now : Int64) (n : Nat) (x : MemSlot) : Prop :=
  x.version.toNat ≤ n ∧ (∀ it, x = .full it → it.version ≠ 0) ∧ ∀ u v, x = .gone u v → u ≤ now

theorem SlotCalm.later {now t : Int64} {n m : Nat} {x : MemSlot} (h : SlotCalm now n x) (ht : now ≤ t)
    (hn : n ≤ m) : SlotCalm t m x :=
  ⟨Nat.le_trans h.1 hn, h.2.1, fun u v e => Int64.le_trans (h.2.2 u v e) ht⟩

theorem SlotCalm.held {now : Int64} {n : Nat} {x : MemSlot} (h : SlotCalm now n x) : x.held now = false := by
  cases x with
  | gone u v =>
    have := h.2.2 u v rfl
    simp only [MemSlot.held, decide_eq_false_iff_not]
    rintro ⟨-, h2⟩
    exact absurd this (Int64.not_le.2 h2)
  | _ => rfl

theorem live_none_later {now t : Int64} {x : MemSlot} (h : x.live now = none) (ht : now ≤ t) : x.live t = none := by
  cases x with
  | full it =>
    simp only [MemSlot.live] at h ⊢
    split at h
    next hx => rw [if_pos ⟨hx.1, Int64.le_trans hx.2 ht⟩]
    · cases h
  | _ => rfl

theorem succ_toNat {v : UInt64} {n : Nat} (h : v.toNat ≤ n) (hn : n + 1 < 2 ^ 64) :
    (v + 1).toNat = v.toNat + 1 := by
  rw [UInt64.toNat_add]
  exact Nat.mod_eq_of_lt (by simp; omega)

theorem succ_ne_zero {v : UInt64} {n : Nat} (h : v.toNat ≤ n) (hn : n + 1 < 2 ^ 64) : v + 1 ≠ 0 := by
  intro h0
  have := succ_toNat h hn
  rw [h0] at this
  simp at this

/-- What a calm write does to its slot: the version goes up by one, or stays and nothing comes back. -/
theorem memWrite_calm {now : Int64} {n : Nat} {x : MemSlot} {r : WriteReq} (hx : SlotCalm now n x)
    (hn : n + 1 < 2 ^ 64) (hr : r.cmd = .delete → r.entry.expire = 0) :
    SlotCalm now (n + 1) (memWrite now x r).1 ∧
      ((memWrite now x r).1.version.toNat = x.version.toNat + 1 ∨
        (memWrite now x r).1.version = x.version ∧ (x.live now = none → (memWrite now x r).1.live now = none)) := by
  obtain ⟨P, hP⟩ : ∃ P : MemSlot → Prop, ∀ y, P y ↔ SlotCalm now (n + 1) y ∧
      (y.version.toNat = x.version.toNat + 1 ∨ y.version = x.version ∧ (x.live now = none → y.live now = none)) :=
    ⟨_, fun _ => Iff.rfl⟩
  rw [← hP]
  have same : P x := (hP _).2 ⟨hx.later (Int64.le_refl _) (by omega), .inr ⟨rfl, id⟩⟩
  have up : ∀ it : Item, it.version = x.version + 1 → P (.full it) := by
    intro it h
    have h1 := succ_toNat hx.1 hn
    have h2 := succ_ne_zero hx.1 hn
    have h3 : (MemSlot.full it).version = x.version + 1 := h
    refine (hP _).2 ⟨⟨?_, ?_, fun u v h => by cases h⟩, .inl ?_⟩
    · rw [h3, h1]; have := hx.1; omega
    · intro it' h'; cases h'; rw [h]; exact h2
    · rw [h3, h1]
  have liv : ∀ it, x.live now = some it → x.version = it.version ∧ it.version ≠ 0 := by
    intro it h
    cases x with
    | full i =>
      simp only [MemSlot.live] at h
      split at h
      · cases h
      · cases h; exact ⟨rfl, hx.2.1 _ rfl⟩
    | _ => cases h
  have touch : ∀ it, x.live now = some it → ∀ y : Item, y.version = it.version → P (.full y) := by
    intro it h y hy
    have h2 := liv it h
    have h3 : (MemSlot.full y).version = x.version := by rw [h2.1]; exact hy
    refine (hP _).2 ⟨⟨?_, ?_, fun u v h => by cases h⟩, .inr ⟨h3, ?_⟩⟩
    · rw [h3]; have := hx.1; omega
    · intro it' h'; cases h'; rw [hy]; exact h2.2
    · intro h'; rw [h] at h'; cases h'
  have del : ∀ it, x = .full it → P (.gone now it.version) := by
    intro it h
    refine (hP _).2 ⟨⟨?_, fun it h => (by cases h), ?_⟩, .inr ⟨by rw [h]; rfl, fun _ => rfl⟩⟩
    · have := hx.1; rw [h] at this; simp only [MemSlot.version] at this ⊢; omega
    · intro u v h; cases h; exact Int64.le_refl _
  cases hc : r.cmd with
  | set => simp only [memWrite, hc]; exact up _ rfl
  | add => simp only [memWrite, hc]; split <;> [exact same; exact up _ rfl]
  | replace => simp only [memWrite, hc]; split <;> [exact up _ rfl; exact same]
  | append =>
    cases hl : x.live now with
    | none => simp only [memWrite, hc, hl]; exact same
    | some it => simp only [memWrite, hc, hl]; exact up _ (by rw [(liv it hl).1])
  | prepend =>
    cases hl : x.live now with
    | none => simp only [memWrite, hc, hl]; exact same
    | some it => simp only [memWrite, hc, hl]; exact up _ (by rw [(liv it hl).1])
  | cas =>
    simp only [memWrite, hc]
    split
    · split <;> [exact up _ rfl; exact same]
    · exact same
  | touch =>
    cases hl : x.live now with
    | none => simp only [memWrite, hc, hl]; exact same
    | some it => simp only [memWrite, hc, hl]; exact touch it hl _ rfl
  | gat =>
    cases hl : x.live now with
    | none => simp only [memWrite, hc, hl]; exact same
    | some it => simp only [memWrite, hc, hl]; exact touch it hl _ rfl
  | incr =>
    cases hl : x.live now with
    | none => simp only [memWrite, hc, hl]; exact same
    | some it => simp only [memWrite, hc, hl]; exact up _ (by rw [(liv it hl).1])
  | decr =>
    cases hl : x.live now with
    | none => simp only [memWrite, hc, hl]; exact same
    | some it => simp only [memWrite, hc, hl]; exact up _ (by rw [(liv it hl).1])
  | delete =>
    cases hxx : x with
    | full it =>
      simp only [memWrite, hc, hr hc, if_true]
      exact del it hxx
    | empty => simp only [memWrite, hc]; rw [hxx] at same; exact same
    | gone u v => simp only [memWrite, hc]; rw [hxx] at same; exact same

/-- What fading does to a slot that is not forgotten. -/
theorem fades_calm {now : Int64} {n : Nat} {y z : MemSlot} (hy : SlotCalm now n y) (hf : SlotFades now y z)
    (hne : y ≠ .empty → z ≠ .empty) :
    SlotCalm now n z ∧ z.version = y.version ∧ (y.live now = none → z.live now = none) := by
  rcases hf with rfl | ⟨hl, -, rfl | ⟨u, hu, rfl⟩⟩ | ⟨rfl, u, v, rfl⟩
  · exact ⟨hy, rfl, id⟩
  · have : y = .empty := by cases y <;> first | rfl | exact absurd rfl (hne (by simp))
    subst this
    exact ⟨hy, rfl, id⟩
  · exact ⟨⟨hy.1, fun it h => (by cases h), fun u' v h => (by cases h; exact hu)⟩, rfl, fun _ => rfl⟩
  · exact absurd rfl (hne (by simp))

theorem remembered_iff (s : Store) (k : Bytes) : Remembered s k ↔ memoryOf s k ≠ .empty := by
  simp only [Remembered, memoryOf]
  cases dbGet s.db k with
  | some raw => simp
  | none => cases tombGet s.cache k <;> simp

theorem firstSection_roomy {s : Store} (hs : s.Ok) {K : List Bytes} (hK : K.length ≤ s.cacheSize)
    (hc : ∀ x ∈ s.cache.map (·.1), x ∈ K) {env : Env} {c : Cmd} (hf : c ≠ .flush)
    (hk : ∀ k, c.key? = some k → k ∈ K) :
    RoomyStep K s (firstSection s env c).1 ∧ (firstSection s env c).1.cacheSize = s.cacheSize := by
  cases c with
  | get e b =>
    simp only [firstSection]
    obtain ⟨o, x, h⟩ : ∃ o x, getRead s env.now e b = (o, x) := ⟨_, _, rfl⟩
    cases x <;> simp only [h] <;> exact ⟨⟨fun k h => h, hc⟩, trivial⟩
  | incr e v i b =>
    simp only [firstSection]
    rcases incrLocked_cases s env e v i b with ⟨h1, -⟩ | ⟨raw, -, -, -, -, -, h⟩
    · rw [h1]; exact ⟨⟨fun k h => h, hc⟩, rfl⟩
    · rw [h]; exact ⟨put_roomy ⟨fun k h => h, hc⟩ _ _, rfl⟩
  | set e b => exact ⟨step_roomy hs hK hc hf hk, step_cacheSize s env (.set e b)⟩
  | remove e b => exact ⟨step_roomy hs hK hc hf hk, step_cacheSize s env (.remove e b)⟩
  | flush => exact absurd rfl hf

/-- The record that a call has found expired. -/
theorem firstSection_due {s : Store} (hs : s.Ok) {env : Env} {a : MemAsk} {e : Entry}
    (h : (firstSection s env a.cmd).2.2 = some e) :
    (firstSection s env a.cmd).1 = s ∧ a.cmd.key? = some e.key ∧
      ∃ raw, dbGet s.db e.key = some raw ∧ (itemOf raw).expiredAt env.now ∧ e.version = (itemOf raw).version ∧
        e.expire = (itemOf raw).expire := by
  have hget : ∀ (k : Bytes), (firstSection s env (.get { key := k } {})).2.2 = some e →
      (firstSection s env (.get { key := k } {})).1 = s ∧ k = e.key ∧
      ∃ raw, dbGet s.db e.key = some raw ∧ (itemOf raw).expiredAt env.now ∧ e.version = (itemOf raw).version ∧
        e.expire = (itemOf raw).expire := by
    intro k h
    simp only [firstSection] at h ⊢
    obtain ⟨o, x, hx⟩ : ∃ o x, getRead s env.now { key := k } {} = (o, x) := ⟨_, _, rfl⟩
    cases x with
    | false => simp only [hx] at h; cases h
    | true =>
      simp only [hx, Option.some.injEq] at h ⊢
      obtain ⟨raw, hraw, hxx, ho⟩ := getRead_expired hs hx
      subst h
      rw [ho]
      exact ⟨trivial, rfl, raw, hraw, hxx, rfl, rfl⟩
  have hincr : ∀ (e0 : Entry) (v : UInt64) (i : Bool), (firstSection s env (.incr e0 v i {})).2.2 = some e →
      (firstSection s env (.incr e0 v i {})).1 = s ∧ e0.key = e.key ∧
      ∃ raw, dbGet s.db e.key = some raw ∧ (itemOf raw).expiredAt env.now ∧ e.version = (itemOf raw).version ∧
        e.expire = (itemOf raw).expire := by
    intro e0 v i h
    simp only [firstSection] at h ⊢
    cases hd : dbGet s.db e0.key with
    | none => simp only [incrLocked, hd] at h; cases h
    | some raw =>
      have hr := hs.1 _ _ hd
      have hsz : ¬ raw.length - headerSize ≠ (fill raw { key := [] }).size.toNat := by
        rw [rawOk_size hr]; simp
      simp only [incrLocked, hd, unserializeHeader_of_len hr.1, if_neg hsz] at h ⊢
      cases hx : isExpired false (fill raw { key := [] }).expire env.now with
      | true =>
        simp only [hx, if_true, Option.some.injEq] at h ⊢
        subst h
        exact ⟨trivial, rfl, raw, hd, (isExpired_false_iff _ _).1 hx, rfl, rfl⟩
      | false =>
        exfalso
        simp only [hx, Bool.false_eq_true, if_false, putRecord] at h
        repeat' split at h
        all_goals cases h
  cases a with
  | read k =>
    have := hget k h
    exact ⟨this.1, by simp only [MemAsk.cmd, Cmd.key?, this.2.1], this.2.2⟩
  | clear => simp only [MemAsk.cmd, firstSection] at h; cases h
  | write r =>
    simp only [MemAsk.cmd] at h ⊢
    cases hc : r.cmd <;> simp only [WriteReq.call, hc] at h ⊢
    case incr =>
      have := hincr _ _ _ h
      exact ⟨this.1, by simp only [Cmd.key?, this.2.1], this.2.2⟩
    case decr =>
      have := hincr _ _ _ h
      exact ⟨this.1, by simp only [Cmd.key?, this.2.1], this.2.2⟩
    all_goals simp only [firstSection] at h; cases h

/-- What holds of a storage whose clients make calm requests. -/
structure CalmInv (K : List Bytes) (now : Int64) (n : Nat) (s : Shared) : Prop where
  ok : s.store.Ok
  room : K.length ≤ s.store.cacheSize
  cache : ∀ x ∈ s.store.cache.map (·.1), x ∈ K
  slots : ∀ k, SlotCalm now n (memoryOf s.store k)
  due : ∀ c e, s.due c = some e → e.key ∈ K ∧ e.version ≠ 0 ∧ e.expire ≤ now ∧
    e.version.toNat ≤ (memoryOf s.store e.key).version.toNat ∧
    ((memoryOf s.store e.key).version = e.version → (memoryOf s.store e.key).live now = none)

theorem CalmInv.later {K : List Bytes} {now t : Int64} {n m : Nat} {s : Shared} (h : CalmInv K now n s)
    (ht : now ≤ t) (hn : n ≤ m) : CalmInv K t m s :=
  ⟨h.ok, h.room, h.cache, fun k => (h.slots k).later ht hn, fun c e hd => by
    have := h.due c e hd
    exact ⟨this.1, this.2.1, Int64.le_trans this.2.2.1 ht, this.2.2.2.1, fun hv =>
      live_none_later (this.2.2.2.2 hv) ht⟩⟩

/-- How a slot goes on: its version goes up by one, or stays and nothing comes back. -/
def SlotOn (now : Int64) (x z : MemSlot) : Prop :=
  z.version.toNat = x.version.toNat + 1 ∨ z.version = x.version ∧ (x.live now = none → z.live now = none)

theorem memStep_calm {K : List Bytes} {now : Int64} {n : Nat} {m m1 : Memory} {a : MemAsk} {t : MemTold}
    (h : MemStep now m a t m1) (hn : n + 1 < 2 ^ 64) (hm : ∀ k, SlotCalm now n (m k)) (ha : a.Calm K)
    (hr : ∀ k, m k ≠ .empty → m1 k ≠ .empty) (k : Bytes) :
    SlotCalm now (n + 1) (m1 k) ∧ SlotOn now (m k) (m1 k) := by
  have quiet : SlotFades now (m k) (m1 k) → SlotCalm now (n + 1) (m1 k) ∧ SlotOn now (m k) (m1 k) := by
    intro hf
    have := fades_calm (hm k) hf (hr k)
    exact ⟨this.1.later (Int64.le_refl _) (by omega), .inr this.2⟩
  rcases h with ⟨-, hf⟩ | ⟨-, hf⟩
  · exact quiet (hf k)
  · cases a with
    | clear => exact absurd ha id
    | read j => exact quiet (hf k)
    | write r =>
      have hfk := hf k
      simp only [memDo] at hfk
      by_cases hk : k = r.entry.key
      · rw [if_pos hk, ← hk] at hfk
        obtain ⟨h1, h2⟩ := memWrite_calm (r := r) (hm k) hn ha.2
        obtain ⟨y, hy⟩ : ∃ y, y = (memWrite now (m k) r).1 := ⟨_, rfl⟩
        rw [← hy] at h1 h2 hfk
        by_cases hem : m k = .empty
        · -- nothing was there before
          rcases hfk with h3 | ⟨hl, -, h3 | ⟨u, hu, h3⟩⟩ | ⟨h3, u, v, h4⟩
          · rw [h3]; exact ⟨h1, h2⟩
          · rw [h3, hem]
            exact ⟨⟨Nat.zero_le _, fun _ h => (by cases h), fun _ _ h => (by cases h)⟩, .inr ⟨rfl, id⟩⟩
          · rw [h3]
            refine ⟨⟨h1.1, fun _ h => (by cases h), fun _ _ h => (by cases h; exact hu)⟩, ?_⟩
            rcases h2 with h2 | h2
            · exact .inl h2
            · exact .inr ⟨h2.1, fun _ => rfl⟩
          · rw [h3, hem]
            exact ⟨⟨Nat.zero_le _, fun _ h => (by cases h), fun _ _ h => (by cases h)⟩, .inr ⟨rfl, id⟩⟩
        · have h5 := fades_calm h1 hfk (fun _ => hr k hem)
          refine ⟨h5.1, ?_⟩
          rcases h2 with h2 | h2
          · exact .inl (by rw [h5.2.1]; exact h2)
          · exact .inr ⟨by rw [h5.2.1]; exact h2.1, fun h => h5.2.2 (h2.2 h)⟩
      · rw [if_neg hk] at hfk
        exact quiet hfk

theorem due_on {now : Int64} {x z : MemSlot} {v : UInt64} (hon : SlotOn now x z)
    (h1 : v.toNat ≤ x.version.toNat) (h2 : x.version = v → x.live now = none) :
    v.toNat ≤ z.version.toNat ∧ (z.version = v → z.live now = none) := by
  rcases hon with h | ⟨h, h'⟩
  · exact ⟨by omega, fun e => by rw [e] at h; omega⟩
  · rw [h]; exact ⟨h1, fun e => h' (h2 e)⟩

theorem shStep_calm {K : List Bytes} {now : Int64} {n : Nat} {s : Shared} (h : CalmInv K now n s) {ev : AskEv}
    (ht : now ≤ ev.now) (hn : n + 1 < 2 ^ 64) (hcl : ev.client) (hca : ev.calm K)
    (hub : ∀ c now cmd o, (shStep s ev.ev).2 = some (.did c now cmd o) → o.rc ≠ .ub) :
    ev.harmless s ∧ CalmInv K ev.now (n + 1) (shStep s ev.ev).1 := by
  replace h := h.later ht (Nat.le_refl _)
  cases ev with
  | ask c env a =>
    refine ⟨trivial, ?_⟩
    simp only [AskEv.now, AskEv.ev, AskEv.client, AskEv.calm] at *
    cases hd : s.due c with
    | some e => simp only [shStep, hd]; exact h.later (Int64.le_refl _) (by omega)
    | none =>
      simp only [shStep, hd, Option.some.injEq] at hub ⊢
      have hub := hub _ _ _ _ rfl
      have hkey : ∀ k, a.cmd.key? = some k → k ∈ K := by
        intro k hk
        cases a with
        | read j => simp only [MemAsk.cmd, Cmd.key?, Option.some.injEq] at hk; rw [← hk]; exact hca
        | clear => exact absurd hca id
        | write r =>
          have : r.call.key? = some r.entry.key := by
            simp only [WriteReq.call]; cases r.cmd <;> rfl
          simp only [MemAsk.cmd, this, Option.some.injEq] at hk
          rw [← hk]; exact hca.1
      have hnf : a.cmd ≠ .flush := by
        cases a with
        | read j => simp [MemAsk.cmd]
        | clear => exact absurd hca id
        | write r => simp only [MemAsk.cmd, WriteReq.call]; cases r.cmd <;> simp
      have hroom := firstSection_roomy h.ok h.room h.cache (env := env) hnf hkey
      have hok := firstSection_ok h.ok env a.cmd
      have hstep := section_explained h.ok (env := env) hcl hub
      have hrem : ∀ k, memoryOf s.store k ≠ .empty → memoryOf (firstSection s.store env a.cmd).1 k ≠ .empty := by
        intro k hk
        exact (remembered_iff _ _).1 (hroom.1.1 k ((remembered_iff _ _).2 hk))
      have hslot := memStep_calm hstep hn h.slots hca hrem
      refine ⟨hok, by show K.length ≤ (firstSection s.store env a.cmd).1.cacheSize; rw [hroom.2]; exact h.room,
        hroom.1.2, fun k => (hslot k).1, ?_⟩
      intro c' e he
      simp only [Shared.setDue] at he
      by_cases hc : c' = c
      · rw [if_pos hc] at he
        obtain ⟨h1, h2, raw, h3, h4, h5, h6⟩ := firstSection_due h.ok he
        simp only [Shared.setDue]
        rw [h1, memoryOf_raw h3]
        refine ⟨hkey _ h2, ?_, by rw [h6]; exact h4.2, by rw [h5]; exact Nat.le_refl _, fun _ => if_pos h4⟩
        rw [h5]
        exact (h.slots e.key).2.1 _ (memoryOf_raw h3)
      · rw [if_neg hc] at he
        obtain ⟨h1, h2, h3, h4, h5⟩ := h.due c' e he
        have := due_on (hslot e.key).2 h4 h5
        exact ⟨h1, h2, h3, this.1, this.2⟩
  | late c env =>
    simp only [AskEv.now, AskEv.ev] at *
    have hharm : ∀ e, s.due c = some e → Harmless env.now (memoryOf s.store) e := by
      intro e he
      obtain ⟨h1, h2, h3, h4, h5⟩ := h.due c e he
      exact ⟨h2, h3, fun hv => ⟨h5 hv, (h.slots e.key).held⟩⟩
    refine ⟨hharm, ?_⟩
    cases hd : s.due c with
    | none => simp only [shStep, hd]; exact h.later (Int64.le_refl _) (by omega)
    | some e =>
      simp only [shStep, hd]
      have hf := late_fades h.ok (hharm e hd)
      have hroom := remove_roomy h.ok h.room h.cache env (h.due c e hd).1 { versionEqual := true }
      have hslot : ∀ k, SlotCalm env.now n (memoryOf (removeExpired s.store env e).1 k) ∧
          SlotOn env.now (memoryOf s.store k) (memoryOf (removeExpired s.store env e).1 k) := by
        intro k
        have := fades_calm (h.slots k) (hf k) (fun hk =>
          (remembered_iff _ _).1 (hroom.1 k ((remembered_iff _ _).2 hk)))
        exact ⟨this.1, .inr this.2⟩
      refine ⟨remove_ok h.ok env e _, ?_, hroom.2, fun k => (hslot k).1.later (Int64.le_refl _) (by omega), ?_⟩
      · show K.length ≤ (remove s.store env e { versionEqual := true }).1.cacheSize
        rw [remove_cacheSize]; exact h.room
      · intro c' e' he
        simp only [Shared.setDue] at he
        by_cases hc : c' = c
        · rw [if_pos hc] at he; cases he
        · rw [if_neg hc] at he
          obtain ⟨h1, h2, h3, h4, h5⟩ := h.due c' e' he
          have := due_on (hslot e'.key).2 h4 h5
          exact ⟨h1, h2, h3, this.1, this.2⟩

end Flare
