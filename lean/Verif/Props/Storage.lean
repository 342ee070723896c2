import Verif.Lemmas.StorageSet
import Verif.Lemmas.Decimal

/-!
Property theorems about the storage (C01, C02, C04-C10, C13, C14, C16).

Vocabulary: `lookup s t k` is what a client's `get` of key `k` answers at time `t`;
`Store.Ok` holds for every store reached from the empty one (`C01_reachable_ok`);
`Entry.Ok` says that the caller's buffer has the announced length.
-/
namespace Flare

/-! A small store used in the concrete instances below. -/

/-- Time 100; key "a" holds "7" with flag 5, expiry 200 and version 3; key "b" was deleted at
version 9 with a hold until 150. -/
def exStore : Store :=
  { db := [([97], serializeHeader { key := [97], flag := 5, expire := 200, size := 1, version := 3 } ++ [55])]
    cache := [([98], ⟨150, 9⟩)]
    cacheSize := 10 }

def exEnv : Env := { now := 100 }

theorem exStore_ok : exStore.Ok := by
  refine ⟨fun k raw h => ?_, by decide, by decide⟩
  simp only [exStore, dbGet] at h
  split at h
  · cases h
    exact rawOk_serialize (by decide) (by decide)
  · cases h

/-- The entry `set a` with the data "xy". -/
def exEntry : Entry := { key := [97], flag := 1, expire := 300, size := 2, data := [120, 121] }

theorem exEntry_ok : exEntry.Ok := ⟨by decide, by decide⟩

/-! ### C01 -/

/-- Every store reached from the empty store by any calls is healthy: no damaged records, the
deletion cache within its bound. -/
theorem C01_reachable_ok (n : Nat) (cs : List (Env × Cmd)) : (run (Store.empty n) cs).Ok := by
  have : ∀ (s : Store), s.Ok → (run s cs).Ok := by
    induction cs with
    | nil => exact fun s h => h
    | cons c cs ih => exact fun s h => ih _ (step_ok h ..)
  refine this _ ⟨?_, by simp [Store.empty], by simp [Store.empty]⟩
  simp [Store.empty, dbGet]

/-- A set-like command that answers STORED or TOUCHED leaves the store such that a read at any
time before the expiry returns exactly the entry the command reports. -/
theorem C01_set_then_get {s : Store} (hs : s.Ok) {env : Env} {e : Entry} {b : Beh} (he : e.Ok)
    (h : (set s env e b).2.r = some .stored ∨ (set s env e b).2.r = some .touched)
    {t : Int64} (hx : ¬ (0 < (set s env e b).2.e.expire ∧ (set s env e b).2.e.expire ≤ t)) :
    lookup (set s env e b).1 t e.key =
      some ⟨(set s env e b).2.e.data, (set s env e b).2.e.flag, (set s env e b).2.e.expire,
        (set s env e b).2.e.version⟩ := by
  rw [set_lookup hs h rfl hx]
  rw [List.take_of_length_le (by rw [set_stored_len hs he h]; exact Nat.le_refl _)]

example : exStore.Ok ∧ exEntry.Ok ∧ (set exStore exEnv exEntry {}).2.r = some .stored ∧
    ¬ (0 < (set exStore exEnv exEntry {}).2.e.expire ∧ (set exStore exEnv exEntry {}).2.e.expire ≤ 250) :=
  ⟨exStore_ok, exEntry_ok, by decide, by decide⟩

/-- Nothing but a reported change of the key itself (or flush_all) alters what is read of it:
through any calls on any keys, the reading at a later time `t` stays the same. -/
theorem C01_persists {s : Store} (hs : s.Ok) {k : Bytes} {cs : List (Env × Cmd)} {t : Int64}
    (hq : Quiet k s cs) (ht : ∀ p ∈ cs, p.1.now ≤ t) :
    lookup (run s cs) t k = lookup s t k := by
  induction cs generalizing s with
  | nil => rfl
  | cons p cs ih =>
    obtain ⟨env, c⟩ := p
    obtain ⟨hf, hc, hq⟩ := hq
    simp only [run]
    rw [ih (step_ok hs ..) hq (fun p hp => ht p (by simp [hp]))]
    by_cases hk : c.key? = some k
    · have := hc hk
      simp only [Out.changed, not_or] at this
      exact step_lookup hs hf this (ht (env, c) (by simp))
    · exact lookup_congr_db _ (step_db_ne hf hk) t

/-- The full claim: stored, then any quiet history, then read. -/
theorem C01_read_your_write {s : Store} (hs : s.Ok) {env : Env} {e : Entry} {b : Beh} (he : e.Ok)
    (h : (set s env e b).2.r = some .stored ∨ (set s env e b).2.r = some .touched)
    {cs : List (Env × Cmd)} (hq : Quiet e.key (set s env e b).1 cs)
    {t : Int64} (ht : ∀ p ∈ cs, p.1.now ≤ t)
    (hx : ¬ (0 < (set s env e b).2.e.expire ∧ (set s env e b).2.e.expire ≤ t)) :
    lookup (run (set s env e b).1 cs) t e.key =
      some ⟨(set s env e b).2.e.data, (set s env e b).2.e.flag, (set s env e b).2.e.expire,
        (set s env e b).2.e.version⟩ := by
  rw [C01_persists (set_ok hs ..) hq ht, C01_set_then_get hs he h hx]

/-- The same for incr and decr. -/
theorem C01_incr_then_get {s : Store} (hs : s.Ok) {env : Env} {e : Entry} {v : UInt64} {i : Bool}
    {b : Beh} (h : (incr s env e v i b).2.r = some .stored)
    {cs : List (Env × Cmd)} (hq : Quiet e.key (incr s env e v i b).1 cs)
    {t : Int64} (ht : ∀ p ∈ cs, p.1.now ≤ t)
    (hx : ¬ (0 < (incr s env e v i b).2.e.expire ∧ (incr s env e v i b).2.e.expire ≤ t)) :
    lookup (run (incr s env e v i b).1 cs) t e.key =
      some ⟨(incr s env e v i b).2.e.data, (incr s env e v i b).2.e.flag,
        (incr s env e v i b).2.e.expire, (incr s env e v i b).2.e.version⟩ := by
  rw [C01_persists (incr_ok hs ..) hq ht]
  rcases incrLocked_cases s env e v i b with ⟨h1, h2, -⟩ | ⟨raw, -, -, -, -, -, hi⟩
  · exfalso
    apply h2
    simp only [incr] at h
    obtain ⟨s1, o, c, hl⟩ : ∃ s1 o c, incrLocked s env e v i b = (s1, o, c) := ⟨_, _, _, rfl⟩
    rw [hl] at h ⊢
    cases c <;> exact h
  · have hi2 : incr s env e v i b = ((incrLocked s env e v i b).1, (incrLocked s env e v i b).2.1) := by
      simp only [incr, hi]
    rw [hi2] at hx ⊢
    rw [hi] at hx ⊢
    have hlen := decimal_length_u64 (incrValue (leadingNumber (raw.drop headerSize)) v i)
    have hsz : (UInt64.ofNat (decimal (incrValue (leadingNumber (raw.drop headerSize)) v i).toNat).length).toNat
        = (decimal (incrValue (leadingNumber (raw.drop headerSize)) v i).toNat).length := by
      simp only [UInt64.toNat_ofNat']; omega
    simp only [hsz, List.take_length]
    rw [lookup_put (by simp only [hsz]) (decimal_size_ok _), if_neg]
    rw [isExpired_false_iff]; exact hx

example : (set exStore exEnv exEntry {}).2.r = some .stored ∧
    Quiet [97] (set exStore exEnv exEntry {}).1
      [({ now := 120 }, .set { key := [98], size := 0 } {}), ({ now := 130 }, .set exEntry .ofAdd),
       ({ now := 140 }, .get { key := [97] } {})] := by
  refine ⟨by decide, by decide, ?_, by decide, ?_, by decide, ?_, trivial⟩ <;>
    simp only [Out.changed] <;> decide

example : (incr exStore exEnv { key := [97] } 5 true {}).2.r = some .stored := by decide

/-! ### C02 -/

/-- A call about one key does not alter the record of another key: it reads the same at every
time. -/
theorem C02_other_keys (s : Store) (env : Env) (c : Cmd) (k : Bytes) (hf : c ≠ .flush)
    (hk : c.key? ≠ some k) (t : Int64) : lookup (step s env c).1 t k = lookup s t k :=
  lookup_congr_db _ (step_db_ne hf hk) t

example : lookup (step exStore exEnv (.remove { key := [98] } {})).1 100 [97] =
    some ⟨[55], 5, 200, 3⟩ := by decide

/-! ### C04 -/

/-- cas on a visible key: it is stored (with the presented version plus one) exactly if the
presented version is the stored one; otherwise the answer is EXISTS and nothing changes. -/
theorem C04_cas_visible {s : Store} (hs : s.Ok) {env : Env} {e : Entry} (he : e.Ok)
    (hp : env.putOk = true) {it : Item} (h : lookup s env.now e.key = some it) :
    (e.version = it.version →
      (set s env e .ofCas).2.rc = .ok ∧ (set s env e .ofCas).2.r = some .stored ∧
      ∀ t, lookup (set s env e .ofCas).1 t e.key =
        if 0 < e.expire ∧ e.expire ≤ t then none
        else some ⟨e.data, e.flag, e.expire, e.version + 1⟩) ∧
    (e.version ≠ it.version →
      (set s env e .ofCas).2.rc = .ok ∧ (set s env e .ofCas).2.r = some .exists_ ∧
      (set s env e .ofCas).1 = s) := by
  obtain ⟨cur, hc, hst, hv, -⟩ := setCurrent_visible (b := .ofCas) hs h
  rw [set_eval_plain hc hst rfl he hp]
  refine ⟨fun heq => ?_, fun hne => ?_⟩
  · have : setCheck .alive .ofCas e.version cur.version = .ok (e.version + 1) := by
      simp [setCheck, Beh.ofCas, hv, heq]
    rw [this]
    refine ⟨rfl, rfl, fun t => ?_⟩
    rw [lookup_put (e := { e with version := e.version + 1 }) he.1 (by rw [← he.1]; exact he.2)]
    simp [isExpired_false_iff]
  · have : setCheck .alive .ofCas e.version cur.version = .error .exists_ := by
      simp [setCheck, Beh.ofCas, hv, hne]
    simp [this]

/-- cas on a key that is absent or expired (and not under a deletion hold): NOT_FOUND, nothing
changes. -/
theorem C04_cas_absent {s : Store} (hs : s.Ok) {env : Env} {e : Entry}
    (h : lookup s env.now e.key = none) (hh : ¬ Held s env.now e.key) :
    (set s env e .ofCas).2.rc = .ok ∧ (set s env e .ofCas).2.r = some .notFound ∧
      (set s env e .ofCas).1 = s := by
  obtain ⟨s1, cur, ex, hc, hst, -⟩ :=
    setCurrent_gone (b := .ofCas) hs (Or.inl rfl) rfl h hh
  have hs1 : s1 = s := by
    have := setCurrent_same (s := s) (env := env) (e := e) (b := .ofCas) rfl
    rw [hc] at this; exact this
  rw [set_eval_refuse hc hst (r := .notFound) (by simp [setCheck, Beh.ofCas])]
  simp [hs1]

/-- cas while a deletion hold is running compares with the version of the deletion: the one case
in which cas creates a key. -/
theorem C04_cas_held {s : Store} {env : Env} {e : Entry} (he : e.Ok)
    (hp : env.putOk = true) {t : Tomb} (hd : dbGet s.db e.key = none)
    (ht : tombGet s.cache e.key = some t) (h0 : 0 < t.expire) (hn : env.now < t.expire) :
    (set s env e .ofCas).2.r = (if e.version = t.version then some .stored else some .exists_) := by
  obtain ⟨cur, hc, hst, hv⟩ := setCurrent_held (s := s) (env := env) (e := e) (b := .ofCas) rfl
    ⟨hd, t, ht, h0, hn⟩
  have hkn : known s e.key = t.version := by simp [known, hd, ht]
  rw [set_eval_plain hc hst rfl he hp, hv, hkn]
  by_cases heq : e.version = t.version <;> simp [setCheck, Beh.ofCas, heq]

/-- Whatever happens: a cas that does not answer STORED leaves the store as it was. -/
theorem C04_cas_refused (s : Store) (env : Env) (e : Entry)
    (h : (set s env e .ofCas).2.r ≠ some .stored) : (set s env e .ofCas).1 = s := by
  rcases set_cases s env e .ofCas with ⟨h1, -⟩ | ⟨e', ho, -⟩
  · rw [h1]; exact setCurrent_same rfl
  · rw [ho] at h; exact absurd rfl h

/-- Of any number of cas commands for one key presenting the same version, at most one answers
STORED, whatever commands on other keys and whatever reads run in between. -/
theorem C04_single_winner {s : Store} (hs : s.Ok) {k : Bytes} {v : UInt64}
    {cs : List (Env × Cmd)}
    (hcs : ∀ p ∈ cs, (∃ e, p.2 = .set e .ofCas ∧ e.key = k ∧ e.version = v) ∨
      (p.2 ≠ .flush ∧ p.2.key? ≠ some k)) :
    ((cs.zip (outs s cs)).filter
      (fun p => p.1.2.key? = some k ∧ p.2.r = some .stored)).length ≤ 1 := by
  -- once the record has another version, no cas succeeds
  have hnone : ∀ (cs : List (Env × Cmd)) (s : Store), s.Ok →
      (∀ p ∈ cs, (∃ e, p.2 = .set e .ofCas ∧ e.key = k ∧ e.version = v) ∨
        (p.2 ≠ .flush ∧ p.2.key? ≠ some k)) →
      (∃ raw, dbGet s.db k = some raw ∧ (itemOf raw).version ≠ v) →
      (cs.zip (outs s cs)).filter
        (fun p => p.1.2.key? = some k ∧ p.2.r = some .stored) = [] := by
    intro cs
    induction cs with
    | nil => intros; rfl
    | cons p cs ih =>
      intro s hs hcs hv
      obtain ⟨env, c⟩ := p
      simp only [outs, List.zip_cons_cons, List.filter_cons]
      rcases hcs (env, c) (by simp) with ⟨e, hc, hk, hev⟩ | ⟨hf, hk⟩
      · simp only at hc; subst hc
        have hno : (set s env e .ofCas).2.r ≠ some .stored := by
          intro hst
          have := cas_needs hs hst
          obtain ⟨raw, hraw, hne⟩ := hv
          rw [hk, known_of_raw hraw, hev] at this
          exact hne this
        have hsame := C04_cas_refused s env e hno
        simp only [step, hno, and_false, decide_false, Bool.false_eq_true, if_false]
        rw [hsame]
        exact ih s hs (fun p hp => hcs p (by simp [hp])) hv
      · simp only [hk, false_and, decide_false, Bool.false_eq_true, if_false]
        refine ih _ (step_ok hs ..) (fun p hp => hcs p (by simp [hp])) ?_
        rw [step_db_ne hf hk]; exact hv
  induction cs generalizing s with
  | nil => simp [outs]
  | cons p cs ih =>
    obtain ⟨env, c⟩ := p
    simp only [outs, List.zip_cons_cons, List.filter_cons]
    rcases hcs (env, c) (by simp) with ⟨e, hc, hk, hev⟩ | ⟨hf, hk⟩
    · simp only at hc; subst hc
      by_cases hst : (set s env e .ofCas).2.r = some .stored
      · have hkn : known (set s env e .ofCas).1 k = v + 1 := by
          have := cas_known hst
          rwa [hk, hev] at this
        have hraw : ∃ raw, dbGet (set s env e .ofCas).1.db k = some raw ∧ (itemOf raw).version ≠ v := by
          rcases set_cases s env e .ofCas with ⟨-, h1, -⟩ | ⟨e', ho, hk', hsz, hst', -⟩
          · exact absurd hst h1
          · have hd : dbGet (set s env e .ofCas).1.db k =
                some (serializeHeader e' ++ e'.data.take e'.size.toNat) := by
              rw [hst', ← hk, ← hk']; exact dbGet_dbPut_self ..
            refine ⟨_, hd, ?_⟩
            rw [known_of_raw hd] at hkn
            rw [hkn]
            intro h
            simp at h
        have := hnone cs _ (set_ok hs ..) (fun p hp => hcs p (by simp [hp])) hraw
        have h0 : step s env (.set e .ofCas) = set s env e .ofCas := rfl
        rw [h0, this]
        split <;> simp
      · have hsame := C04_cas_refused s env e hst
        have h0 : step s env (.set e .ofCas) = set s env e .ofCas := rfl
        simp only [h0, hst, and_false, decide_false, Bool.false_eq_true, if_false]
        exact ih (set_ok hs ..) (fun p hp => hcs p (by simp [hp]))
    · simp only [hk, false_and, decide_false, Bool.false_eq_true, if_false]
      exact ih (step_ok hs ..) (fun p hp => hcs p (by simp [hp]))

/-- Two competing cas with the right version 3: one wins. -/
example :
    let cs : List (Env × Cmd) := [(exEnv, .set { exEntry with version := 3 } .ofCas),
      (exEnv, .get { key := [98] } {}), (exEnv, .set { exEntry with version := 3 } .ofCas)]
    (outs exStore cs).map (·.r) = [some .stored, some .notFound, some .exists_] := by decide

example : lookup exStore 100 [97] = some ⟨[55], 5, 200, 3⟩ ∧
    lookup exStore 100 [99] = none ∧ ¬ Held exStore 100 [99] ∧ Held exStore 100 [98] := by
  refine ⟨by decide, by decide, ?_, by decide, ⟨150, 9⟩, by decide⟩
  rintro ⟨-, t, ht, -⟩
  revert ht; simp [exStore, tombGet]

end Flare
