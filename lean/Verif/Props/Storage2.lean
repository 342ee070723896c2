import Verif.Props.Storage

/-!
Property theorems about the storage, second part: C05 (expiry), C06 (conditional writes),
C07 (incr/decr), C08 (delete), C09 (deletion hold), C10 (stale writes), C13 (flush_all),
C14 (delayed removal), C16 (iteration).
-/
namespace Flare

/-! ### C05 -/

/-- An item that could be read at some time `t0` and whose expiry has come by now is not read. -/
theorem C05_get {s : Store} (hs : s.Ok) {env : Env} {k : Bytes} {t0 : Int64} {it : Item}
    (h : lookup s t0 k = some it) (hx : it.expiredAt env.now) (e : Entry) (hk : e.key = k) :
    (get s env e {}).2.rc = .ok ∧ (get s env e {}).2.r = some .notFound := by
  obtain ⟨raw, hraw, rfl, -⟩ := (lookup_eq_some hs).1 h
  subst hk
  have hx' : isExpired false (itemOf raw).expire env.now = true := (isExpired_false_iff _ _).2 hx
  simp [get, getRead_some hraw (hs.1 _ _ hraw), hx']

/-- ... incr and decr answer NOT_FOUND ... -/
theorem C05_incr {s : Store} (hs : s.Ok) {env : Env} {k : Bytes} {t0 : Int64} {it : Item}
    (h : lookup s t0 k = some it) (hx : it.expiredAt env.now) (e : Entry) (hk : e.key = k)
    (v : UInt64) (i : Bool) :
    (incr s env e v i {}).2.rc = .ok ∧ (incr s env e v i {}).2.r = some .notFound := by
  obtain ⟨raw, hraw, rfl, -⟩ := (lookup_eq_some hs).1 h
  subst hk
  have hro := hs.1 _ _ hraw
  have hx' : isExpired false (fill raw { key := [] }).expire env.now = true :=
    (isExpired_false_iff _ _).2 hx
  simp [incr, incrLocked, hraw, unserializeHeader_of_len hro.1, rawOk_size hro, hx']

theorem expired_lookup {s : Store} (hs : s.Ok) {now t0 : Int64} {k : Bytes} {it : Item}
    (h : lookup s t0 k = some it) (hx : it.expiredAt now) : lookup s now k = none := by
  obtain ⟨raw, hraw, rfl, -⟩ := (lookup_eq_some hs).1 h
  exact (lookup_eq_none hs).2 (Or.inr ⟨raw, hraw, hx⟩)

theorem set_refused_not_visible {s : Store} (hs : s.Ok) {env : Env} {e : Entry} {b : Beh} {r : Result}
    (hb : b.skipTimestamp = false) (h : lookup s env.now e.key = none)
    (hc : ∀ st ev cv, st ≠ .alive → setCheck st b ev cv = .error r) :
    (set s env e b).2.rc = .ok ∧ (set s env e b).2.r = some r := by
  have := set_eval_refuse (s := s) (env := env) (e := e) (b := b) rfl rfl
    (hc _ e.version (setCurrent s env e b).2.1.version (setState_not_visible hs hb h))
  rw [this]; exact ⟨rfl, rfl⟩

/-- ... replace, append, prepend answer NOT_STORED and touch answers NOT_FOUND, for every key
that is not visible (never stored, deleted or expired) ... -/
theorem C05_conditional {s : Store} (hs : s.Ok) {env : Env} {e : Entry}
    (h : lookup s env.now e.key = none) :
    (set s env e .ofReplace).2.r = some .notStored ∧
    (set s env e .ofAppend).2.r = some .notStored ∧
    (set s env e .ofPrepend).2.r = some .notStored ∧
    (set s env e .ofTouch).2.r = some .notFound := by
  refine ⟨(set_refused_not_visible hs rfl h ?_).2, (set_refused_not_visible hs rfl h ?_).2,
    (set_refused_not_visible hs rfl h ?_).2, (set_refused_not_visible hs rfl h ?_).2⟩ <;>
  · intro st ev cv hst
    simp [setCheck, Beh.ofReplace, Beh.ofAppend, Beh.ofPrepend, Beh.ofTouch, hst]

/-- An expired record blocks the deletion hold question: a present record is never "held". -/
theorem not_held_of_present {s : Store} {now : Int64} {k raw : Bytes}
    (h : dbGet s.db k = some raw) : ¬ Held s now k := by
  rintro ⟨hd, -⟩; rw [h] at hd; cases hd

/-- ... cas answers NOT_FOUND, add succeeds, delete answers NOT_FOUND. -/
theorem C05_cas_add_delete {s : Store} (hs : s.Ok) {env : Env} {e : Entry} {t0 : Int64} {it : Item}
    (h : lookup s t0 e.key = some it) (hx : it.expiredAt env.now) :
    (set s env e .ofCas).2.r = some .notFound ∧
    (e.Ok → env.putOk = true → (set s env e .ofAdd).2.r = some .stored) ∧
    (env.outOk = true → (remove s env e {}).2.r = some .notFound) := by
  obtain ⟨raw, hraw, rfl, -⟩ := (lookup_eq_some hs).1 h
  have hn := expired_lookup hs h hx
  have hh : ¬ Held s env.now e.key := not_held_of_present hraw
  refine ⟨(C04_cas_absent hs hn hh).2.1, fun he hp => ?_, fun ho => ?_⟩
  · obtain ⟨s1, cur, ex, hc, hst, -⟩ := setCurrent_gone (b := .ofAdd) hs (Or.inl rfl) rfl hn hh
    rw [set_eval_plain hc hst rfl he hp]
    have : ∃ v, setCheck .gone .ofAdd e.version cur.version = .ok v := by
      simp only [setCheck, Beh.ofAdd]
      by_cases h0 : e.version = 0 <;> simp [h0]
    obtain ⟨v, hv⟩ := this
    rw [hv]
  · have hx' : isExpired false (fill raw { key := [] }).expire env.now = true :=
      (isExpired_false_iff _ _).2 hx
    simp only [remove, getHeader_present hs hraw, fill_take, ho, hx']
    repeat' split
    all_goals simp_all

/-- At time 200 the key "a" of the example store has expired. -/
example : lookup exStore 199 [97] = some ⟨[55], 5, 200, 3⟩ ∧
    Item.expiredAt ⟨[55], 5, 200, 3⟩ 200 := ⟨by decide, by unfold Item.expiredAt; decide⟩

/-! ### C06 -/

/-- An unconditional client set (no version given) always stores. -/
theorem C06_set {s : Store} {env : Env} {e : Entry} (he : e.Ok) (hv : e.version = 0)
    (hp : env.putOk = true) :
    (set s env e .ofSet).2.rc = .ok ∧ (set s env e .ofSet).2.r = some .stored ∧
    ∃ v, ∀ t, lookup (set s env e .ofSet).1 t e.key =
      if 0 < e.expire ∧ e.expire ≤ t then none else some ⟨e.data, e.flag, e.expire, v⟩ := by
  obtain ⟨s1, cur, ex, hcur⟩ : ∃ s1 cur ex, setCurrent s env e .ofSet = (s1, cur, ex) := ⟨_, _, _, rfl⟩
  have hc : ∀ st cv, setCheck st .ofSet e.version cv = .ok (cv + 1) := by
    intro st cv; simp [setCheck, Beh.ofSet, hv]
  rw [set_eval_plain hcur rfl rfl he hp]; simp only [hc]
  refine ⟨trivial, trivial, cur.version + 1, fun t => ?_⟩
  rw [lookup_put (e := { e with version := cur.version + 1 }) he.1 (by rw [← he.1]; exact he.2)]
  simp [isExpired_false_iff]

/-- add stores exactly if the key is not visible and not under a deletion hold; otherwise it
answers NOT_STORED and changes nothing. -/
theorem C06_add {s : Store} (hs : s.Ok) {env : Env} {e : Entry} (he : e.Ok) (hp : env.putOk = true) :
    ((set s env e .ofAdd).2.r = some .stored ↔
      lookup s env.now e.key = none ∧ ¬ Held s env.now e.key) ∧
    ((set s env e .ofAdd).2.r = some .stored → ∃ v, ∀ t, lookup (set s env e .ofAdd).1 t e.key =
      if 0 < e.expire ∧ e.expire ≤ t then none else some ⟨e.data, e.flag, e.expire, v⟩) ∧
    ((set s env e .ofAdd).2.r ≠ some .stored →
      (set s env e .ofAdd).2.r = some .notStored ∧ (set s env e .ofAdd).1 = s) := by
  have hput : ∀ (s1 : Store) (v : UInt64) (t : Int64),
      lookup { s1 with db := dbPut s1.db e.key (serializeHeader { e with version := v } ++ e.data) } t e.key =
        if 0 < e.expire ∧ e.expire ≤ t then none else some ⟨e.data, e.flag, e.expire, v⟩ := by
    intro s1 v t
    rw [lookup_put (e := { e with version := v }) he.1 (by rw [← he.1]; exact he.2)]
    simp [isExpired_false_iff]
  cases hl : lookup s env.now e.key with
  | some it =>
    obtain ⟨cur, hc, hst, -⟩ := setCurrent_visible (b := .ofAdd) hs hl
    have : set s env e .ofAdd = (s, ⟨.ok, some .notStored, e⟩) :=
      set_eval_refuse hc hst (by simp [setCheck, Beh.ofAdd])
    simp [this]
  | none =>
    by_cases hh : Held s env.now e.key
    · obtain ⟨cur, hc, hst, -⟩ := setCurrent_held (b := .ofAdd) rfl hh
      have : set s env e .ofAdd = (s, ⟨.ok, some .notStored, e⟩) :=
        set_eval_refuse hc hst (by simp [setCheck, Beh.ofAdd])
      simp [this, hh]
    · obtain ⟨s1, cur, ex, hc, hst, -⟩ := setCurrent_gone (b := .ofAdd) hs (Or.inl rfl) rfl hl hh
      have hev : ∃ v, setCheck .gone .ofAdd e.version cur.version = .ok v := by
        simp only [setCheck, Beh.ofAdd]
        by_cases h0 : e.version = 0 <;> simp [h0]
      obtain ⟨v, hv⟩ := hev
      rw [set_eval_plain hc hst rfl he hp, hv]
      refine ⟨by simp [hh], fun _ => ⟨v, hput s1 v⟩, fun h => absurd rfl h⟩

/-- replace by a client stores exactly if the key is visible; otherwise NOT_STORED. -/
theorem C06_replace {s : Store} (hs : s.Ok) {env : Env} {e : Entry} (he : e.Ok) (hv : e.version = 0)
    (hp : env.putOk = true) :
    (∀ it, lookup s env.now e.key = some it →
      (set s env e .ofReplace).2.r = some .stored ∧
      ∀ t, lookup (set s env e .ofReplace).1 t e.key =
        if 0 < e.expire ∧ e.expire ≤ t then none
        else some ⟨e.data, e.flag, e.expire, it.version + 1⟩) ∧
    (lookup s env.now e.key = none →
      (set s env e .ofReplace).2.r = some .notStored ∧ (set s env e .ofReplace).1 = s) := by
  refine ⟨fun it hl => ?_, fun hl => ⟨(C05_conditional hs hl).1, ?_⟩⟩
  · obtain ⟨cur, hc, hst, hcv, -⟩ := setCurrent_visible (b := .ofReplace) hs hl
    have hck : setCheck .alive .ofReplace e.version cur.version = .ok (it.version + 1) := by
      simp [setCheck, Beh.ofReplace, hv, hcv]
    rw [set_eval_plain hc hst rfl he hp, hck]
    refine ⟨rfl, fun t => ?_⟩
    rw [lookup_put (e := { e with version := it.version + 1 }) he.1 (by rw [← he.1]; exact he.2)]
    simp [isExpired_false_iff]
  · rcases set_cases s env e .ofReplace with ⟨h1, -⟩ | ⟨e', ho, -⟩
    · rw [h1]; exact setCurrent_same rfl
    · have := (C05_conditional hs hl).1
      rw [ho] at this
      simp [Beh.ofReplace] at this

/-- append / prepend by a client on a visible key: the data is extended at the end / the front,
flag and expiry are kept, the version grows by one. -/
theorem C06_append_prepend {s : Store} (hs : s.Ok) {env : Env} {e : Entry}
    (he : e.data.length = e.size.toNat) (hv : e.version = 0) (hp : env.putOk = true) {it : Item}
    (hl : lookup s env.now e.key = some it)
    (hfit : headerSize + (e.data.length + it.data.length) ≤ intMax) :
    ((set s env e .ofAppend).2.r = some .stored ∧
      ∀ t, lookup (set s env e .ofAppend).1 t e.key =
        if 0 < it.expire ∧ it.expire ≤ t then none
        else some ⟨it.data ++ e.data, it.flag, it.expire, it.version + 1⟩) ∧
    ((set s env e .ofPrepend).2.r = some .stored ∧
      ∀ t, lookup (set s env e .ofPrepend).1 t e.key =
        if 0 < it.expire ∧ it.expire ≤ t then none
        else some ⟨e.data ++ it.data, it.flag, it.expire, it.version + 1⟩) := by
  have key : ∀ (b : Beh), b = .ofAppend ∨ b = .ofPrepend →
      ((set s env e b).2.r = some .stored ∧
      ∀ t, lookup (set s env e b).1 t e.key =
        if 0 < it.expire ∧ it.expire ≤ t then none
        else some ⟨if b.append then it.data ++ e.data else e.data ++ it.data, it.flag, it.expire,
          it.version + 1⟩) := by
    intro b hb
    obtain ⟨cur, hc, hst, hcv, hcf, hcx, hcs, hcd⟩ := setCurrent_visible (b := b) hs hl
    have hbb : (b.append || b.prepend) = true := by rcases hb with rfl | rfl <;> rfl
    have hbt : b.touch = false := by rcases hb with rfl | rfl <;> rfl
    have hcd := hcd (by simp [hbb])
    have hck : setCheck .alive b e.version cur.version = .ok (it.version + 1) := by
      rcases hb with rfl | rfl <;> simp [setCheck, Beh.ofAppend, Beh.ofPrepend, hv, hcv]
    have hset := set_eval_concat hc hst hbb he (by rw [hcd, hcs]) (by rw [hcd]; exact hfit) hp hck
    have hsum : (e.size + cur.size).toNat = e.data.length + it.data.length := by
      rw [he, ← hcs]; apply add_size; rw [he, ← hcs] at hfit; unfold headerSize at hfit; omega
    rw [hset]
    refine ⟨by simp [hbt], fun t => ?_⟩
    rw [lookup_put (by simp only [hsum]; split <;> simp [hcd]; omega) (by simp only [hsum]; exact hfit)]
    simp [isExpired_false_iff, hcx, hcf, hcd]
  exact ⟨key .ofAppend (Or.inl rfl), key .ofPrepend (Or.inr rfl)⟩

/-- touch on a visible key answers TOUCHED and alters the expiry only; on any other key it answers
NOT_FOUND (`C05_conditional`). -/
theorem C06_touch {s : Store} (hs : s.Ok) {env : Env} {e : Entry} (hp : env.putOk = true) {it : Item}
    (hl : lookup s env.now e.key = some it) :
    (set s env e .ofTouch).2.r = some .touched ∧
      ∀ t, lookup (set s env e .ofTouch).1 t e.key =
        if 0 < e.expire ∧ e.expire ≤ t then none
        else some ⟨it.data, it.flag, e.expire, it.version⟩ := by
  obtain ⟨cur, hc, hst, hcv, hcf, hcx, hcs, hcd⟩ := setCurrent_visible (b := .ofTouch) hs hl
  have hcd := hcd rfl
  have hlen := visible_len hs hl
  have hck : setCheck .alive .ofTouch e.version cur.version = .ok it.version := by
    simp [setCheck, Beh.ofTouch, hcv]
  have hset := set_eval_touch hc hst rfl rfl (by rw [hcd, hcs]) (by rw [hcd]; exact hlen) hp hck
  rw [hset]
  refine ⟨rfl, fun t => ?_⟩
  rw [lookup_put (by simp only [hcd, hcs]) (by simp only [hcs]; exact hlen)]
  simp [isExpired_false_iff, hcf, hcd]

/-- Whatever the set-like command and its arguments: unless it answers STORED or TOUCHED, every key
reads as before from then on. -/
theorem C06_refused_unchanged {s : Store} (hs : s.Ok) {env : Env} {e : Entry} {b : Beh}
    (h : (set s env e b).2.r ≠ some .stored ∧ (set s env e b).2.r ≠ some .touched)
    (k : Bytes) {t : Int64} (ht : env.now ≤ t) :
    lookup (set s env e b).1 t k = lookup s t k := by
  rcases set_cases s env e b with ⟨h1, -⟩ | ⟨e', ho, -⟩
  · rw [h1]; exact setCurrent_lookup hs _ _ _ ht k
  · rw [ho] at h
    simp only at h
    split at h
    · exact absurd rfl h.2
    · exact absurd rfl h.1

example : (set exStore exEnv exEntry .ofAdd).2.r = some .notStored ∧
    (set exStore exEnv { exEntry with key := [99] } .ofAdd).2.r = some .stored ∧
    (set exStore exEnv { exEntry with key := [98] } .ofAdd).2.r = some .notStored ∧
    (set exStore exEnv exEntry .ofReplace).2.r = some .stored ∧
    lookup (set exStore exEnv exEntry .ofAppend).1 100 [97] = some ⟨[55, 120, 121], 5, 200, 4⟩ ∧
    lookup (set exStore exEnv exEntry .ofPrepend).1 100 [97] = some ⟨[120, 121, 55], 5, 200, 4⟩ ∧
    lookup (set exStore exEnv exEntry .ofTouch).1 100 [97] = some ⟨[55], 5, 300, 3⟩ := by decide

/-! ### C07 -/

/-- The number a value stands for: its leading decimal digits (0 without digits). -/
def HoldsNumber (d : Bytes) (n : Nat) : Prop :=
  ∃ rest, d = decimal n ++ rest ∧ ∀ c, rest.head? = some c → isDigit c = false

/-- incr / decr on a visible key holding the number `n`: saturating 64-bit arithmetic; flag and
expiry kept, version plus one, and the new value is again a decimal number. -/
theorem C07_incr_decr {s : Store} (hs : s.Ok) {env : Env} {e : Entry} {v : UInt64} {b : Bool}
    (hp : env.putOk = true) {it : Item} (hl : lookup s env.now e.key = some it)
    {n : Nat} (hn : n < 2 ^ 64) (hd : HoldsNumber it.data n) :
    let m := if b then min (n + v.toNat) (2 ^ 64 - 1) else n - v.toNat
    (incr s env e v b {}).2.rc = .ok ∧ (incr s env e v b {}).2.r = some .stored ∧
    (incr s env e v b {}).2.e.data = decimal m ∧
    ∀ t, lookup (incr s env e v b {}).1 t e.key =
      if 0 < it.expire ∧ it.expire ≤ t then none
      else some ⟨decimal m, it.flag, it.expire, it.version + 1⟩ := by
  intro m
  obtain ⟨raw, hraw, rfl, hx⟩ := (lookup_eq_some hs).1 hl
  have hro := hs.1 _ _ hraw
  obtain ⟨rest, hd, hr⟩ := hd
  have hd' : raw.drop headerSize = decimal n ++ rest := hd
  have hx' : isExpired false (fill raw { key := [] }).expire env.now = false := by
    cases hxx : isExpired false (fill raw { key := [] }).expire env.now
    · rfl
    · exact absurd ((isExpired_false_iff _ _).1 hxx) hx
  have hm : (incrValue (leadingNumber (raw.drop headerSize)) v b).toNat = m := by
    have hnn : (UInt64.ofNat n).toNat = n := by simp only [UInt64.toNat_ofNat']; omega
    rw [hd', leadingNumber_decimal hn hr]
    cases b
    · rw [incrValue_decr, hnn]; rfl
    · rw [incrValue_incr, hnn]; rfl
  have hlen := decimal_length_u64 (incrValue (leadingNumber (raw.drop headerSize)) v b)
  have hsok := decimal_size_ok (incrValue (leadingNumber (raw.drop headerSize)) v b)
  rw [hm] at hlen hsok
  have hsz : (UInt64.ofNat (decimal m).length).toNat = (decimal m).length := by
    simp only [UInt64.toNat_ofNat']; omega
  have heq : incr s env e v b {} =
      ({ s with db := dbPut s.db e.key (serializeHeader { e with
          flag := (itemOf raw).flag, expire := (itemOf raw).expire
          size := UInt64.ofNat (decimal m).length
          version := (itemOf raw).version + 1, data := decimal m } ++ decimal m) },
        ⟨.ok, some .stored, { e with
          flag := (itemOf raw).flag, expire := (itemOf raw).expire
          size := UInt64.ofNat (decimal m).length
          version := (itemOf raw).version + 1, data := decimal m }⟩) := by
    simp only [incr, incrLocked, hraw, unserializeHeader_of_len hro.1, rawOk_size hro, hx', hm,
      putRecord, hsok, hp]
    simp only [hsz]
    simp [itemOf]
  rw [heq]
  refine ⟨rfl, rfl, rfl, fun t => ?_⟩
  rw [lookup_put (by simp only [hsz]) (by simp only [hsz]; rw [hsz] at hsok; exact hsok)]
  simp [isExpired_false_iff]

/-- The new value is a number again, so the operations chain. -/
theorem C07_result_is_number (n : Nat) : HoldsNumber (decimal n) n :=
  ⟨[], by simp, by simp⟩

/-- On a key that is not visible both answer NOT_FOUND and nothing visible changes. -/
theorem C07_absent {s : Store} (hs : s.Ok) {env : Env} {e : Entry} {v : UInt64} {b : Bool}
    (hl : lookup s env.now e.key = none) :
    (incr s env e v b {}).2.rc = .ok ∧ (incr s env e v b {}).2.r = some .notFound ∧
    ∀ k t, env.now ≤ t → lookup (incr s env e v b {}).1 t k = lookup s t k := by
  have h : (incr s env e v b {}).2.rc = .ok ∧ (incr s env e v b {}).2.r = some .notFound := by
    rcases (lookup_eq_none hs).1 hl with hd | ⟨raw, hraw, hx⟩
    · simp [incr, incrLocked, hd]
    · have hro := hs.1 _ _ hraw
      have hx' : isExpired false (fill raw { key := [] }).expire env.now = true :=
        (isExpired_false_iff _ _).2 hx
      simp [incr, incrLocked, hraw, unserializeHeader_of_len hro.1, rawOk_size hro, hx']
  exact ⟨h.1, h.2, fun k t ht => incr_lookup hs _ _ _ _ _ (by rw [h.2]; decide) ht k⟩

example : HoldsNumber [55] 7 ∧ HoldsNumber [49, 50, 32, 51] 12 ∧
    lookup (incr exStore exEnv { key := [97] } 5 true {}).1 100 [97] = some ⟨[49, 50], 5, 200, 4⟩ ∧
    lookup (incr exStore exEnv { key := [97] } 9 false {}).1 100 [97] = some ⟨[48], 5, 200, 4⟩ := by
  refine ⟨⟨[], by decide, by simp⟩, ⟨[32, 51], by decide, ?_⟩, by decide, by decide⟩
  intro c hc; simp at hc; subst hc; decide

end Flare
