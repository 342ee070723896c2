import Verif.Model.Engines
import Verif.Lemmas.StorageHist
import Verif.Lemmas.StorageSet
import Verif.Props.Storage

/-! C65: the other two storages give the answers of `storage_tch`, on which C01 to C10 are proved,
except in three situations, which are spelled out. -/
namespace Flare

/-- A record of the key is in the database and nobody can see it any more. -/
def Stale (s : Store) (now : Int64) (k : Bytes) : Prop :=
  dbGet s.db k ≠ none ∧ lookup s now k = none

instance (s : Store) (now : Int64) (k : Bytes) : Decidable (Stale s now k) := by
  unfold Stale; infer_instance

/-- The call is not one of those in which the engine behaves otherwise than `storage_tch`:
`storage_tcb::incr` of a stale record; for `storage_kch` a failing `synchronize()` of a write with
answer, and a record that is too long for `storage_tch`. -/
def Alike (g : Engine) (s : Store) (x : EngEnv) (c : Cmd) : Prop :=
  match g with
  | .tch => True
  | .tcb => ∀ e v i b, c = .incr e v i b → ¬ Stale s x.env.now e.key
  | .kch => (∀ e b, c = .set e b → x.syncOk = true ∨ e.option &&& optNoreply ≠ 0) ∧
      (∀ e v i b, c = .incr e v i b → x.syncOk = true ∨ e.option &&& optNoreply ≠ 0) ∧
      (step s x.env c).2.rc ≠ .ub

/-- Every call of a history is of that kind. -/
def AlikeAll (g : Engine) : Store → List (EngEnv × Cmd) → Prop
  | _, [] => True
  | s, (x, c) :: cs => Alike g s x c ∧ AlikeAll g (step s x.env c).1 cs

/-! ### Lemmas -/

theorem kchPut_of_put {s s' : Store} {e : Entry} (h : putRecord s e = some s') : kchPut s e = some s' := by
  unfold putRecord at h
  unfold kchPut
  by_cases hl : headerSize + e.size.toNat ≤ intMax
  · rw [if_pos hl] at h
    rw [if_pos (Nat.lt_of_le_of_lt hl (by decide))]
    exact h
  · rw [if_neg hl] at h; exact nomatch h

theorem setPrepare_option {st : St} {b : Beh} {e cur e' : Entry} (h : setPrepare st b e cur = .ok (some e')) :
    e'.option = e.option := by
  unfold setPrepare at h
  repeat' split at h
  all_goals simp at h
  all_goals try (subst h; rfl)
  all_goals (obtain ⟨_, _, rfl⟩ := h; rfl)

theorem kchSet_eq {s : Store} {x : EngEnv} {e : Entry} {b : Beh}
    (hs : x.syncOk = true ∨ e.option &&& optNoreply ≠ 0) (hu : (set s x.env e b).2.rc ≠ .ub) :
    kchSet s x e b = set s x.env e b := by
  unfold kchSet set at *
  obtain ⟨cur, hc⟩ : ∃ c, c = setCurrent s x.env e b := ⟨_, rfl⟩
  rw [← hc] at hu ⊢
  obtain ⟨s1, cu, ex⟩ := cur
  simp only at hu ⊢
  cases h1 : setCheck (setState x.env.now b cu ex) b e.version cu.version with
  | error r => rfl
  | ok v =>
    simp only [h1] at hu ⊢
    cases h2 : setPrepare (setState x.env.now b cu ex) b { e with version := v } cu with
    | error r => rfl
    | ok o =>
      cases o with
      | none => rfl
      | some e' =>
        simp only [h2] at hu ⊢
        have ho := setPrepare_option h2
        unfold kchStore
        cases h3 : putRecord s1 e' with
        | none => simp [h3] at hu
        | some s' =>
          simp only [kchPut_of_put h3]
          have : ¬ (e'.option &&& optNoreply = 0 ∧ x.syncOk = false) := by
            rintro ⟨ha, hb⟩
            rcases hs with h | h
            · rw [h] at hb; exact nomatch hb
            · rw [ho] at ha; exact h ha
          rw [if_neg this]

theorem kchIncr_eq {s : Store} {x : EngEnv} {e : Entry} {v : UInt64} {i : Bool} {b : Beh}
    (hs : x.syncOk = true ∨ e.option &&& optNoreply ≠ 0) (hu : (incr s x.env e v i b).2.rc ≠ .ub) :
    kchIncr s x e v i b = incr s x.env e v i b := by
  unfold kchIncr incr incrLocked at *
  cases h1 : dbGet s.db e.key with
  | none => rfl
  | some raw =>
    simp only [h1] at hu ⊢
    obtain ⟨u, h2⟩ : ∃ u, u = unserializeHeader raw { key := [] } := ⟨_, rfl⟩
    rw [← h2] at hu ⊢
    obtain ⟨cur, ok⟩ := u
    cases ok with
    | false => rfl
    | true =>
      simp only at hu ⊢
      by_cases h3 : raw.length - headerSize ≠ cur.size.toNat
      · simp only [if_pos h3]
      · simp only [if_neg h3] at hu ⊢
        by_cases h4 : isExpired b.skipTimestamp cur.expire x.env.now
        · simp only [if_pos h4]
        · simp only [if_neg h4] at hu ⊢
          unfold kchStore
          obtain ⟨e', he⟩ : ∃ e' : Entry, e' = { e with
              flag := cur.flag
              expire := cur.expire
              size := UInt64.ofNat (decimal (incrValue (leadingNumber (raw.drop headerSize)) v i).toNat).length
              version := cur.version + 1
              data := decimal (incrValue (leadingNumber (raw.drop headerSize)) v i).toNat } := ⟨_, rfl⟩
          rw [← he] at hu ⊢
          have ho : e'.option = e.option := by rw [he]
          cases h5 : putRecord s e' with
          | none => simp [h5] at hu
          | some s' =>
            simp only [kchPut_of_put h5]
            have : ¬ (e'.option &&& optNoreply = 0 ∧ x.syncOk = false) := by
              rintro ⟨ha, hb⟩
              rcases hs with h | h
              · rw [h] at hb; exact nomatch hb
              · rw [ho] at ha; exact h ha
            rw [if_neg this]
            cases x.env.putOk <;> rfl

/-- What the locked part of `incr` leaves to be removed is the expired record of the key. -/
theorem incrLocked_some {s : Store} (hs : s.Ok) {env : Env} {e : Entry} {v : UInt64} {i : Bool} {b : Beh}
    {s' : Store} {o : Out} {cur : Entry} (h : incrLocked s env e v i b = (s', o, some cur)) :
    s' = s ∧ ∃ raw, dbGet s.db e.key = some raw ∧ (itemOf raw).expiredAt env.now ∧
      cur.key = e.key ∧ cur.version = (itemOf raw).version := by
  unfold incrLocked at h
  cases h1 : dbGet s.db e.key with
  | none => simp [h1] at h
  | some raw =>
    simp only [h1] at h
    have hr := hs.1 _ _ h1
    rw [unserializeHeader_of_len hr.1] at h
    simp only [rawOk_size hr, ne_eq, not_true_eq_false, if_false] at h
    by_cases hx : isExpired b.skipTimestamp (fill raw { key := [] }).expire env.now
    · rw [if_pos hx] at h
      simp only [Prod.mk.injEq, Option.some.injEq] at h
      obtain ⟨rfl, -, rfl⟩ := h
      refine ⟨rfl, raw, rfl, ?_, rfl, rfl⟩
      simp only [isExpired] at hx
      simp only [Item.expiredAt, itemOf]
      revert hx
      cases b.skipTimestamp <;> simp
    · rw [if_neg hx] at h
      repeat' split at h
      all_goals simp at h

/-! ### Theorems -/

/-- **C65.**  Outside the situations named in `Alike`, a call gives the same answer and leaves the same
store as in `storage_tch`: for every engine, store without damaged records, answer of the outside and
call. -/
theorem C65_alike (g : Engine) {s : Store} (hs : s.Ok) (x : EngEnv) (c : Cmd) (h : Alike g s x c) :
    engStep g s x c = step s x.env c := by
  cases g with
  | tch => cases c <;> rfl
  | tcb =>
    cases c with
    | incr e v i b =>
      have hn := h e v i b rfl
      simp only [engStep, step, tcbIncr, incr]
      obtain ⟨t, ht⟩ : ∃ t, incrLocked s x.env e v i b = t := ⟨_, rfl⟩
      obtain ⟨s', o, m⟩ := t
      rw [ht]
      cases m with
      | none => rfl
      | some cur =>
        exfalso
        obtain ⟨-, raw, hd, hx, -⟩ := incrLocked_some hs ht
        exact hn ⟨by rw [hd]; exact (fun h => nomatch h), (lookup_eq_none hs).2 (.inr ⟨raw, hd, hx⟩)⟩
    | _ => rfl
  | kch =>
    obtain ⟨h1, h2, h3⟩ := h
    cases c with
    | set e b => exact kchSet_eq (h1 e b rfl) h3
    | incr e v i b => exact kchIncr_eq (h2 e v i b rfl) h3
    | _ => rfl

/-- **C65.**  So whole histories of such calls, started on an empty directory, give the same answers
and end in the same store, and everything proved of the histories of `storage_tch` holds of them. -/
theorem C65_history (g : Engine) (n : Nat) (cs : List (EngEnv × Cmd))
    (h : AlikeAll g (Store.empty n) cs) :
    engOuts g (Store.empty n) cs = outs (Store.empty n) (cs.map fun p => (p.1.env, p.2)) ∧
      engRun g (Store.empty n) cs = run (Store.empty n) (cs.map fun p => (p.1.env, p.2)) := by
  have hs : (Store.empty n).Ok := C01_reachable_ok n []
  generalize Store.empty n = s at h hs
  induction cs generalizing s with
  | nil => exact ⟨rfl, rfl⟩
  | cons p cs ih =>
    obtain ⟨x, c⟩ := p
    have e := C65_alike g hs x c h.1
    have := ih _ h.2 (step_ok hs x.env c)
    simp only [engOuts, engRun, outs, run, List.map_cons, e, this]
    exact ⟨trivial, trivial⟩

/-- **C65.**  An `incr` of a stale record in `storage_tcb` is answered as in `storage_tch`, and what
anybody sees of a key other than the empty one does not change, now or later. -/
theorem C65_tcb_stale {s : Store} (hs : s.Ok) (x : EngEnv) (e : Entry) (v : UInt64) (i : Bool) (b : Beh)
    (h : Stale s x.env.now e.key) :
    (engStep .tcb s x (.incr e v i b)).2 = (step s x.env (.incr e v i b)).2 ∧
      (b.skipTimestamp = false → ∀ k, k ≠ [] → ∀ t, x.env.now ≤ t →
        lookup (engStep .tcb s x (.incr e v i b)).1 t k = lookup s t k ∧
        lookup (engStep .tcb s x (.incr e v i b)).1 t k =
          lookup (step s x.env (.incr e v i b)).1 t k) := by
  simp only [engStep, step, tcbIncr, incr]
  obtain ⟨t, ht⟩ : ∃ t, incrLocked s x.env e v i b = t := ⟨_, rfl⟩
  obtain ⟨s', o, m⟩ := t
  rw [ht]
  cases m with
  | none =>
    refine ⟨rfl, fun hb => ?_⟩
    exfalso
    obtain ⟨hd, hl⟩ := h
    rcases (lookup_eq_none hs).1 hl with h0 | ⟨raw, h0, hx⟩
    · exact hd h0
    have hr := hs.1 _ _ h0
    have hx' : isExpired false (fill raw { key := [] }).expire x.env.now = true := by
      have := hx
      simp only [Item.expiredAt, itemOf] at this
      simp [isExpired, this]
    unfold incrLocked at ht
    simp only [h0] at ht
    rw [unserializeHeader_of_len hr.1] at ht
    simp only [rawOk_size hr, ne_eq, not_true_eq_false, if_false, hb] at ht
    rw [if_pos hx'] at ht
    simp at ht
  | some cur =>
    obtain ⟨rfl, raw, hd, hx, hk, hv⟩ := incrLocked_some hs ht
    refine ⟨rfl, fun _ k hk0 t htt => ?_⟩
    have h1 : lookup (removeExpired s' x.env { cur with key := [] }).1 t k = lookup s' t k :=
      lookup_congr_db k (remove_db_ne _ _ _ _ hk0) t
    have h2 : lookup (removeExpired s' x.env cur).1 t k = lookup s' t k :=
      removeExpired_lookup hs (by rw [hk]; exact hd) hx htt k
    exact ⟨h1, h1.trans h2.symm⟩

/-- **C65, defect.**  The same call deletes another record: if the empty key has a record of the same
version, it is gone after `storage_tcb::incr` of the stale one, while the stale one stays in the
database. -/
theorem C65_tcb_wrong_key {s : Store} (hs : s.Ok) (x : EngEnv) (e : Entry) (v : UInt64) (i : Bool) (b : Beh)
    (hb : b.skipTimestamp = false) (hk : e.key ≠ []) (h : Stale s x.env.now e.key) {raw raw0 : Bytes}
    (h1 : dbGet s.db e.key = some raw) (h0 : dbGet s.db [] = some raw0)
    (hv : (itemOf raw0).version = (itemOf raw).version) (ho : x.env.outOk = true) :
    dbGet (engStep .tcb s x (.incr e v i b)).1.db [] = none ∧
      dbGet (engStep .tcb s x (.incr e v i b)).1.db e.key = some raw := by
  simp only [engStep, tcbIncr]
  obtain ⟨t, ht⟩ : ∃ t, incrLocked s x.env e v i b = t := ⟨_, rfl⟩
  obtain ⟨s', o, m⟩ := t
  rw [ht]
  cases m with
  | none =>
    exfalso
    obtain ⟨hd, hl⟩ := h
    have hr := hs.1 _ _ h1
    have hx : (itemOf raw).expiredAt x.env.now := by
      rcases (lookup_eq_none hs).1 hl with h0 | ⟨raw', h0, hx⟩
      · exact absurd h0 hd
      · rw [h1] at h0; cases h0; exact hx
    have hx' : isExpired false (fill raw { key := [] }).expire x.env.now = true := by
      have := hx
      simp only [Item.expiredAt, itemOf] at this
      simp [isExpired, this]
    unfold incrLocked at ht
    simp only [h1] at ht
    rw [unserializeHeader_of_len hr.1] at ht
    simp only [rawOk_size hr, ne_eq, not_true_eq_false, if_false, hb] at ht
    rw [if_pos hx'] at ht
    simp at ht
  | some cur =>
    obtain ⟨rfl, raw', hd, hx, hk', hv'⟩ := incrLocked_some hs ht
    rw [h1] at hd; cases hd
    refine ⟨?_, ?_⟩
    · simp only [removeExpired, remove, getHeader_present hs h0, ho]
      have h2 : (fill (List.take headerSize raw0) { key := [] }).version = cur.version := by
        rw [fill_take, hv', ← hv]; rfl
      simp [h2, setHeaderCache, dbGet_dbOut_self]
    · exact (remove_db_ne _ _ _ _ hk).trans h1

/-- **C65, defect.**  If `synchronize()` fails, `storage_kch::set` reports an error although everybody
sees the new value: whenever `storage_tch::set` would have answered STORED. -/
theorem C65_kch_sync {s : Store} (x : EngEnv) (e : Entry) (b : Beh)
    (hn : e.option &&& optNoreply = 0) (hy : x.syncOk = false)
    (h : (step s x.env (.set e b)).2.r = some .stored) :
    (engStep .kch s x (.set e b)).2.rc = .err ∧
      (engStep .kch s x (.set e b)).1 = (step s x.env (.set e b)).1 := by
  simp only [engStep, step, if_true] at h ⊢
  unfold kchSet
  unfold set at h ⊢
  obtain ⟨cur, hc⟩ : ∃ c, c = setCurrent s x.env e b := ⟨_, rfl⟩
  rw [← hc] at h ⊢
  obtain ⟨s1, cu, ex⟩ := cur
  simp only at h ⊢
  cases h1 : setCheck (setState x.env.now b cu ex) b e.version cu.version with
  | error r =>
    exfalso
    simp only [h1, Option.some.injEq] at h
    subst h
    unfold setCheck at h1
    repeat' split at h1
    all_goals simp at h1
  | ok v =>
    simp only [h1] at h ⊢
    cases h2 : setPrepare (setState x.env.now b cu ex) b { e with version := v } cu with
    | error r => simp [h2] at h
    | ok o =>
      cases o with
      | none => simp [h2] at h
      | some e' =>
        simp only [h2] at h ⊢
        have ho := setPrepare_option h2
        cases h3 : putRecord s1 e' with
        | none => simp [h3] at h
        | some s' =>
          simp only [h3] at h ⊢
          unfold kchStore
          simp only [kchPut_of_put h3]
          cases hp : x.env.putOk with
          | false => simp [hp] at h
          | true => simp [ho, hn, hy]

/-- **C65.**  A key is handed out by the iteration of `storage_kch` as it is, by that of `storage_tch`
only up to its first NUL. -/
theorem C65_kch_keys (s : Store) (hs : s.iterLock = true) (k : Bytes) :
    kchIterNext s (.continue_ k) = .continue_ k ∧
      (iterNext s (.continue_ k) = .continue_ k ↔ (0 : UInt8) ∉ k) := by
  refine ⟨by simp [kchIterNext, hs], ?_⟩
  simp only [iterNext, hs, Bool.not_true, if_false, Bool.false_eq_true, Iteration.continue_.injEq]
  induction k with
  | nil => simp
  | cons a k ih =>
    by_cases ha : a = 0
    · subst ha; simp
    · simpa [ha, Ne.symm ha] using ih

/-- **C65.**  Without an iteration begun, neither hands out anything. -/
theorem C65_no_iteration (s : Store) (hs : s.iterLock = false) (a : Iteration) :
    kchIterNext s a = .error ∧ iterNext s a = .error := by
  simp [kchIterNext, iterNext, hs]

/-- **C65.**  A value of two gigabytes or more is stored by `storage_kch`, whose lengths are `size_t`; the
others pass a negative length. -/
theorem C65_large (s : Store) (x : EngEnv) (e : Entry) (hv : e.version = 0) (hd : e.data.length = e.size.toNat)
    (hl : intMax < headerSize + e.size.toNat) (h64 : headerSize + e.size.toNat < 2 ^ 64)
    (hp : x.env.putOk = true) (hy : x.syncOk = true) :
    (engStep .kch s x (.set e {})).2.rc = .ok ∧ (engStep .kch s x (.set e {})).2.r = some .stored ∧
    (engStep .tch s x (.set e {})).2.rc = .ub ∧ (engStep .tcb s x (.set e {})).2.rc = .ub := by
  have hc : copyOut e.data e.size.toNat = some e.data := by
    unfold copyOut
    rw [if_pos (by omega), ← hd, List.take_length]
  have hpr : ∀ st cur v, setPrepare st {} { e with version := v } cur = .ok (some { e with version := v }) := by
    intro st cur v
    simp [setPrepare, hc]
  have hck : ∀ st cv, setCheck st {} e.version cv = .ok (cv + 1) := by
    intro st cv
    simp [setCheck, hv]
  have hput : ∀ s' v, putRecord s' { e with version := v } = none := by
    intro s' v
    simp only [putRecord, if_neg (Nat.not_le.2 hl)]
  have htch : (set s x.env e {}).2.rc = .ub := by
    unfold set
    obtain ⟨t, ht⟩ : ∃ t, t = setCurrent s x.env e {} := ⟨_, rfl⟩
    rw [← ht]
    simp only [hck, hpr, hput]
  have hkch : (kchSet s x e {}).2.rc = .ok ∧ (kchSet s x e {}).2.r = some .stored := by
    unfold kchSet
    obtain ⟨t, ht⟩ : ∃ t, t = setCurrent s x.env e {} := ⟨_, rfl⟩
    rw [← ht]
    simp only [hck, hpr, kchStore, kchPut, if_pos h64, hp, hy]
    simp
  exact ⟨hkch.1, hkch.2, htch, htch⟩

/-- **C65, defect.**  From an empty store, three calls after which `storage_tch` still has the record of the
empty key, and `storage_tcb` has lost it. -/
theorem C65_tcb_history : ∃ cs : List (EngEnv × Cmd),
    dbGet (engRun .tch (Store.empty 4) cs).db [] ≠ none ∧ dbGet (engRun .tcb (Store.empty 4) cs).db [] = none :=
  ⟨[({ env := { now := 1 } }, .set { key := [110], size := 1, data := [49], expire := 5 } .ofSet),
    ({ env := { now := 1 } }, .set { key := [], size := 1, data := [120] } .ofSet),
    ({ env := { now := 9 } }, .incr { key := [110] } 1 true {})], by decide +kernel, by decide +kernel⟩

/-! ### Examples -/

/-- A store with the record "1" of key "n", expired at 5, version 1, and the record "x" of the empty
key, version 1. -/
def exEngStore : Store :=
  run (Store.empty 4)
    [({ now := 1 }, .set { key := [110], size := 1, data := [49], expire := 5 } .ofSet),
     ({ now := 1 }, .set { key := [], size := 1, data := [120] } .ofSet)]

/-- At time 9 `incr n 1` answers NOT_FOUND in both storages; `storage_tch` drops the record of "n",
`storage_tcb` the one of the empty key. -/
example :
    (engStep .tch exEngStore { env := { now := 9 } } (.incr { key := [110] } 1 true {})).2.r = some .notFound ∧
    (engStep .tcb exEngStore { env := { now := 9 } } (.incr { key := [110] } 1 true {})).2.r = some .notFound ∧
    (engStep .tch exEngStore { env := { now := 9 } } (.incr { key := [110] } 1 true {})).1.db.map (·.1) = [[]] ∧
    (engStep .tcb exEngStore { env := { now := 9 } } (.incr { key := [110] } 1 true {})).1.db.map (·.1) =
      [[110]] := by
  decide +kernel

/-- The hypotheses of `C65_tcb_wrong_key` are met there. -/
example : Stale exEngStore 9 [110] ∧ ∃ raw raw0, dbGet exEngStore.db [110] = some raw ∧
    dbGet exEngStore.db [] = some raw0 ∧ (itemOf raw0).version = (itemOf raw).version :=
  ⟨by decide +kernel, (dbGet exEngStore.db [110]).getD [], (dbGet exEngStore.db []).getD [],
    by decide +kernel, by decide +kernel, by decide +kernel⟩

/-- A set whose `synchronize()` fails: an error, and the value is there. -/
example :
    let r := engStep .kch (Store.empty 4) { env := { now := 1 }, syncOk := false }
      (.set { key := [107], size := 1, data := [118] } .ofSet)
    r.2.rc = .err ∧ (lookup r.1 1 [107]).map (·.data) = some [118] := by
  decide +kernel

/-- A history on which all three agree: set, incr, get. -/
example : ∀ g, AlikeAll g (Store.empty 4)
    [({ env := { now := 1 } }, .set { key := [110], size := 1, data := [57] } .ofSet),
     ({ env := { now := 2 } }, .incr { key := [110] } 4 true {}),
     ({ env := { now := 2 } }, .get { key := [110] } {})] := by
  intro g
  cases g
  · exact ⟨trivial, trivial, trivial, trivial⟩
  · refine ⟨?_, ?_, ?_, trivial⟩
    · intro e v i b h; exact nomatch h
    · intro e v i b h; cases h; decide +kernel
    · intro e v i b h; exact nomatch h
  · refine ⟨⟨fun _ _ _ => .inl rfl, fun _ _ _ _ _ => .inl rfl, by decide +kernel⟩,
      ⟨fun _ _ _ => .inl rfl, fun _ _ _ _ _ => .inl rfl, by decide +kernel⟩,
      ⟨fun _ _ _ => .inl rfl, fun _ _ _ _ _ => .inl rfl, by decide +kernel⟩, trivial⟩

/-- A key with a NUL in the middle. -/
example : kchIterNext { exEngStore with iterLock := true } (.continue_ [97, 0, 98]) = .continue_ [97, 0, 98] ∧
    iterNext { exEngStore with iterLock := true } (.continue_ [97, 0, 98]) = .continue_ [97] := by
  decide +kernel

end Flare
