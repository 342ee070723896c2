import Verif.Props.Storage2
import Verif.Lemmas.StorageHist
import Verif.Spec.Iter

/-!
Property theorems about the storage, third part: C03 (versions), C04 over histories, C08 (delete),
C09 (deletion hold), C10 (stale writes), C13 (flush_all), C14 (delayed removal), C16 (iteration),
C37 (record header).
-/
namespace Flare

/-! ### C03 -/

theorem known_visible {s : Store} (hs : s.Ok) {t : Int64} {k : Bytes} {it : Item}
    (h : lookup s t k = some it) : known s k = it.version := by
  obtain ⟨raw, hraw, rfl, -⟩ := (lookup_eq_some hs).1 h
  exact known_of_raw hraw

theorem keeps_present {s : Store} {env : Env} {c : Cmd} {k : Bytes} {raw : Bytes}
    (h : dbGet (step s env c).1.db k = some raw) : Remembered s k → Remembered (step s env c).1 k :=
  fun _ => Or.inl (by simp [h])

/-- One step: a client write answered STORED on a visible key reports the version it had plus one
(and by `C01_set_then_get` that is what is read back). -/
theorem C03_step {s : Store} (hs : s.Ok) {env : Env} {c : Cmd} (hc : c.client) {k : Bytes}
    (hk : c.key? = some k) (hst : (step s env c).2.r = some .stored) {it : Item} {t : Int64}
    (h : lookup s t k = some it) : (step s env c).2.e.version = it.version + 1 := by
  have hr : Remembered s k → Remembered (step s env c).1 k := by
    intro _
    left
    cases c with
    | set e b =>
      simp only [Cmd.key?, Option.some.injEq] at hk; subst hk
      rcases set_cases s env e b with ⟨-, h1, -⟩ | ⟨e', -, hk, -, h1, -⟩
      · exact absurd hst h1
      · simp only [step, h1, ← hk, dbGet_dbPut_self]; simp
    | incr e v i b =>
      simp only [Cmd.key?, Option.some.injEq] at hk; subst hk
      simp only [step, incr] at hst ⊢
      rcases incrLocked_cases s env e v i b with ⟨h1, h2, -⟩ | ⟨raw, -, -, -, -, -, hi⟩
      · exfalso
        apply h2
        obtain ⟨s1, o, c, hl⟩ : ∃ s1 o c, incrLocked s env e v i b = (s1, o, c) := ⟨_, _, _, rfl⟩
        rw [hl] at hst ⊢
        cases c <;> exact hst
      · rw [hi]; simp
    | get e b =>
      simp only [step, get, getRead] at hst
      exfalso; revert hst
      repeat' split
      all_goals simp_all
      all_goals (rename_i h; revert h; repeat' split)
      all_goals (intro h; simp_all)
      all_goals (cases h; simp)
    | remove e b =>
      exfalso; revert hst
      simp only [step, remove]
      repeat' split
      all_goals simp_all
    | flush => cases hk
  have := client_known hs env hc hr
  rw [if_pos ⟨hk, hst⟩, known_visible hs h] at this
  exact this.2

theorem run_known {k : Bytes} {cs : List (Env × Cmd)} : ∀ {s : Store}, s.Ok →
    (∀ p ∈ cs, p.2.client) → Keeps k s cs →
    known (run s cs) k = known s k + UInt64.ofNat (storedCount k s cs) := by
  induction cs with
  | nil => intro s _ _ _; simp [run, storedCount]
  | cons p cs ih =>
    intro s hs hcl hk
    obtain ⟨env, c⟩ := p
    have h1 := client_known hs env (hcl (env, c) (by simp)) hk.1
    simp only [run, storedCount]
    rw [ih (step_ok hs ..) (fun p hp => hcl p (by simp [hp])) hk.2]
    split at h1
    · next h => rw [h1.1, if_pos h, UInt64.ofNat_add]; simp [UInt64.add_assoc]
    · next h => rw [h1, if_neg h]; simp

/-- Over a whole history of client commands from the empty store (deletes, expiries and reads
included) in which the store does not forget the key: the version reported by the n-th STORED answer
for a key is n. -/
theorem C03_history {n : Nat} {k : Bytes} {cs : List (Env × Cmd)} {env : Env} {c : Cmd}
    (hcl : ∀ p ∈ cs ++ [(env, c)], p.2.client) (hk : Keeps k (Store.empty n) (cs ++ [(env, c)]))
    (hck : c.key? = some k) (hst : (step (run (Store.empty n) cs) env c).2.r = some .stored) :
    (step (run (Store.empty n) cs) env c).2.e.version =
      UInt64.ofNat (storedCount k (Store.empty n) cs + 1) := by
  have hsplit : ∀ (cs : List (Env × Cmd)) (s : Store), Keeps k s (cs ++ [(env, c)]) →
      Keeps k s cs ∧ (Remembered (run s cs) k → Remembered (step (run s cs) env c).1 k) := by
    intro cs
    induction cs with
    | nil => intro s h; exact ⟨trivial, h.1⟩
    | cons p cs ih => intro s h; exact ⟨⟨h.1, (ih _ h.2).1⟩, (ih _ h.2).2⟩
  have hs := hsplit _ _ hk
  have h1 := client_known (C01_reachable_ok n cs) env (hcl (env, c) (by simp)) hs.2
  rw [if_pos ⟨hck, hst⟩] at h1
  have h2 := run_known (k := k) (s := Store.empty n) (C01_reachable_ok n [])
    (fun p hp => hcl p (by simp [hp])) hs.1
  have h0 : known (Store.empty n) k = 0 := rfl
  rw [h1.2, h2, h0, UInt64.ofNat_add]
  simp

theorem storedCount_append (k : Bytes) (a b : List (Env × Cmd)) : ∀ s : Store,
    storedCount k s (a ++ b) = storedCount k s a + storedCount k (run s a) b := by
  induction a with
  | nil => intro s; simp [storedCount, run]
  | cons p a ih => intro s; simp only [List.cons_append, storedCount, run, ih]; omega

theorem run_append (a b : List (Env × Cmd)) : ∀ s : Store, run s (a ++ b) = run (run s a) b := by
  induction a with
  | nil => intro s; rfl
  | cons p a ih => intro s; simp only [List.cons_append, run, ih]

theorem storedCount_le (k : Bytes) (a : List (Env × Cmd)) : ∀ s : Store,
    storedCount k s a ≤ a.length := by
  induction a with
  | nil => intro s; simp [storedCount]
  | cons p a ih =>
    intro s
    simp only [storedCount, List.length_cons]
    have := ih (step s p.1 p.2).1
    split <;> omega

theorem Keeps_append {k : Bytes} {a b : List (Env × Cmd)} : ∀ {s : Store}, Keeps k s (a ++ b) →
    Keeps k s a := by
  induction a with
  | nil => intro s _; trivial
  | cons p a ih => intro s h; exact ⟨h.1, ih h.2⟩

/-- Of two STORED answers for one key the later one reports the larger version, as long as the
64-bit counter does not wrap (fewer than 2^64 - 1 commands). -/
theorem C03_increasing {n : Nat} {k : Bytes} {a b : List (Env × Cmd)} {env1 env2 : Env} {c1 c2 : Cmd}
    (hcl : ∀ p ∈ a ++ [(env1, c1)] ++ b ++ [(env2, c2)], p.2.client)
    (hk : Keeps k (Store.empty n) (a ++ [(env1, c1)] ++ b ++ [(env2, c2)]))
    (hlen : (a ++ [(env1, c1)] ++ b ++ [(env2, c2)]).length < 2 ^ 64)
    (hk1 : c1.key? = some k) (hk2 : c2.key? = some k)
    (h1 : (step (run (Store.empty n) a) env1 c1).2.r = some .stored)
    (h2 : (step (run (Store.empty n) (a ++ [(env1, c1)] ++ b)) env2 c2).2.r = some .stored) :
    (step (run (Store.empty n) a) env1 c1).2.e.version <
      (step (run (Store.empty n) (a ++ [(env1, c1)] ++ b)) env2 c2).2.e.version := by
  have e1 := C03_history (n := n) (k := k) (cs := a) (env := env1) (c := c1)
    (fun p hp => hcl p (by simp only [List.mem_append] at hp ⊢; rcases hp with hp | hp <;> simp [hp]))
    (Keeps_append (b := b ++ [(env2, c2)]) (by simpa using hk)) hk1 h1
  have e2 := C03_history (n := n) (k := k) (cs := a ++ [(env1, c1)] ++ b) (env := env2) (c := c2)
    hcl hk hk2 h2
  rw [e1, e2]
  have hc : storedCount k (Store.empty n) (a ++ [(env1, c1)] ++ b) ≥ storedCount k (Store.empty n) a + 1 := by
    rw [storedCount_append, storedCount_append]
    simp only [storedCount]
    rw [if_pos ⟨hk1, h1⟩]; omega
  have hle := storedCount_le k (a ++ [(env1, c1)] ++ b) (Store.empty n)
  rw [List.length_append] at hlen
  simp only [List.length_singleton] at hlen
  rw [UInt64.lt_iff_toNat_lt, UInt64.toNat_ofNat', UInt64.toNat_ofNat']
  rw [Nat.mod_eq_of_lt (by omega), Nat.mod_eq_of_lt (by omega)]
  omega

/-- A sufficient condition for "does not forget": no more distinct keys than slots in the deletion
cache. -/
theorem C03_few_keys_kept {n : Nat} {K : List Bytes} (hK : K.length ≤ n) {cs : List (Env × Cmd)}
    (hcs : ∀ p ∈ cs, p.2 ≠ .flush ∧ ∀ k, p.2.key? = some k → k ∈ K) (k : Bytes) :
    Keeps k (Store.empty n) cs := by
  have : ∀ (cs : List (Env × Cmd)) (s : Store), s.Ok → s.cacheSize = n →
      (∀ x ∈ s.cache.map (·.1), x ∈ K) →
      (∀ p ∈ cs, p.2 ≠ .flush ∧ ∀ k, p.2.key? = some k → k ∈ K) → Keeps k s cs := by
    intro cs
    induction cs with
    | nil => intro s _ _ _ _; trivial
    | cons p cs ih =>
      intro s hs hn hc hcs
      obtain ⟨h1, h2⟩ := hcs p (by simp)
      have h := step_roomy (env := p.1) hs (by rw [hn]; exact hK) hc h1 h2
      refine ⟨h.1 k, ih _ (step_ok hs ..) (by rw [step_cacheSize, hn]) h.2 (fun p hp => hcs p (by simp [hp]))⟩
  exact this cs _ (C01_reachable_ok n []) rfl (by simp [Store.empty]) hcs

/-- A history for the two theorems above: set, delete with hold, cas on the deleted key, set, incr,
expiry, add. -/
def exHist : List (Env × Cmd) :=
  [({ now := 10 }, .set { key := [97], expire := 50, size := 1, data := [55] } .ofSet),
   ({ now := 11 }, .remove { key := [97], expire := 30 } {}),
   ({ now := 12 }, .set { key := [97], version := 1, expire := 50, size := 1, data := [55] } .ofCas),
   ({ now := 13 }, .incr { key := [97] } 4 true {}),
   ({ now := 60 }, .get { key := [97] } {}),
   ({ now := 61 }, .set { key := [98], size := 0 } .ofAdd)]

example : (∀ p ∈ exHist ++ [({ now := 62 }, Cmd.set { key := [97], size := 0 } .ofAdd)], p.2.client) ∧
    Keeps [97] (Store.empty 2) (exHist ++ [({ now := 62 }, Cmd.set { key := [97], size := 0 } .ofAdd)]) ∧
    (outs (Store.empty 2) exHist).map (fun o => (o.r, o.e.version)) =
      [(some .stored, 1), (some .deleted, 1), (some .stored, 2), (some .stored, 3), (some .notFound, 3),
       (some .stored, 1)] ∧
    (step (run (Store.empty 2) exHist) { now := 62 } (.set { key := [97], size := 0 } .ofAdd)).2 =
      ⟨.ok, some .stored, { key := [97], version := 4 }⟩ := by
  refine ⟨?_, C03_few_keys_kept (K := [[97], [98]]) (by decide) ?_ _, by decide, by decide⟩
  · simp only [exHist, List.cons_append, List.nil_append, List.mem_cons, List.not_mem_nil, or_false,
      forall_eq_or_imp, forall_eq, Cmd.client]
    decide
  · simp only [exHist, List.cons_append, List.nil_append, List.mem_cons, List.not_mem_nil, or_false,
      forall_eq_or_imp, forall_eq, Cmd.key?]
    simp

/-- Without the condition the claim is false: with one slot, deleting another key makes the store
forget the version, and the next write starts again at 1 although version 1 had been used (and a cas
holding version 1 from before then succeeds on the new value). -/
theorem C03_forgotten_restarts :
    ∃ cs : List (Env × Cmd), (∀ p ∈ cs, p.2.client) ∧
      (outs (Store.empty 1) cs).map (fun o => (o.r, o.e.version)) =
        [(some .stored, 1), (some .stored, 2), (some .deleted, 2), (some .stored, 1),
         (some .deleted, 1), (some .stored, 1)] ∧
      (cs.map (fun p => p.2.key?)) = [some [97], some [97], some [97], some [98], some [98], some [97]] := by
  refine ⟨[({ now := 10 }, .set { key := [97] } .ofSet), ({ now := 10 }, .set { key := [97] } .ofSet),
    ({ now := 11 }, .remove { key := [97] } {}), ({ now := 12 }, .set { key := [98] } .ofSet),
    ({ now := 13 }, .remove { key := [98] } {}), ({ now := 14 }, .set { key := [97] } .ofSet)], ?_, by decide, by decide⟩
  simp only [List.mem_cons, List.not_mem_nil, or_false, forall_eq_or_imp, forall_eq, Cmd.client]
  decide

/-! ### C04 over whole histories -/

/-- In a whole client history, of two cas commands for the same key presenting the same version at
most one answers STORED, whatever other commands (deletes, expiries, sets, other cas) run between. -/
theorem C04_single_winner_history {n : Nat} {k : Bytes} {a b : List (Env × Cmd)} {env1 env2 : Env}
    {e1 e2 : Entry} (he1 : e1.key = k) (he2 : e2.key = k) (hv : e1.version = e2.version)
    (hcl : ∀ p ∈ a ++ [(env1, Cmd.set e1 .ofCas)] ++ b ++ [(env2, Cmd.set e2 .ofCas)], p.2.client)
    (hk : Keeps k (Store.empty n) (a ++ [(env1, Cmd.set e1 .ofCas)] ++ b ++ [(env2, Cmd.set e2 .ofCas)]))
    (hlen : (a ++ [(env1, Cmd.set e1 .ofCas)] ++ b ++ [(env2, Cmd.set e2 .ofCas)]).length < 2 ^ 64)
    (h1 : (step (run (Store.empty n) a) env1 (Cmd.set e1 .ofCas)).2.r = some .stored) :
    (step (run (Store.empty n) (a ++ [(env1, Cmd.set e1 .ofCas)] ++ b)) env2 (Cmd.set e2 .ofCas)).2.r ≠
      some .stored := by
  intro h2
  have h := C03_increasing hcl hk hlen (by simp [Cmd.key?, he1]) (by simp [Cmd.key?, he2]) h1 h2
  have hver : ∀ (s : Store) (env : Env) (e : Entry), (step s env (.set e .ofCas)).2.r = some .stored →
      (step s env (.set e .ofCas)).2.e.version = e.version + 1 := by
    intro s env e h
    simp only [step] at h ⊢
    rcases set_cases s env e .ofCas with ⟨-, h1, -⟩ | ⟨e', ho, -, -, -, v, hc, hp⟩
    · exact absurd h h1
    · rw [ho]
      simp only
      rw [(setPrepare_key hp).2, ← (setCheck_cas_ok hc).2.1]
  rw [hver _ _ _ h1, hver _ _ _ h2, hv] at h
  exact absurd h (UInt64.lt_irrefl _)

example : ∃ (a b : List (Env × Cmd)) (e1 e2 : Entry), e1.key = [97] ∧ e2.key = [97] ∧ e1.version = e2.version ∧
    (∀ p ∈ a ++ [(exEnv, Cmd.set e1 .ofCas)] ++ b ++ [(exEnv, Cmd.set e2 .ofCas)], p.2.client) ∧
    Keeps [97] (Store.empty 2) (a ++ [(exEnv, Cmd.set e1 .ofCas)] ++ b ++ [(exEnv, Cmd.set e2 .ofCas)]) ∧
    (step (run (Store.empty 2) a) exEnv (.set e1 .ofCas)).2.r = some .stored := by
  refine ⟨[(exEnv, .set { key := [97] } .ofSet)], [(exEnv, .get { key := [97] } {})],
    { key := [97], version := 1 }, { key := [97], version := 1 }, rfl, rfl, rfl, ?_,
    C03_few_keys_kept (K := [[97]]) (by decide) ?_ _, by decide⟩
  · simp only [List.cons_append, List.nil_append, List.mem_cons, List.not_mem_nil, or_false,
      forall_eq_or_imp, forall_eq, Cmd.client]
    decide
  · simp only [List.cons_append, List.nil_append, List.mem_cons, List.not_mem_nil, or_false,
      forall_eq_or_imp, forall_eq, Cmd.key?]
    simp

/-! ### C08 -/

/-- delete answers DELETED exactly if the key is visible and not newer than the given version (if one
is given). -/
theorem C08_deleted_iff {s : Store} (hs : s.Ok) {env : Env} {e : Entry} (ho : env.outOk = true) :
    (remove s env e {}).2.r = some .deleted ↔
      ∃ it, lookup s env.now e.key = some it ∧ (e.version = 0 ∨ it.version ≤ e.version) := by
  cases hd : dbGet s.db e.key with
  | none =>
    have hl := lookup_none_of_absent hd env.now
    rw [hl]
    simp only [remove, getHeader, hd]
    constructor
    · intro h; revert h; repeat' split
      all_goals simp_all
    · rintro ⟨it, h, -⟩; cases h
  | some raw =>
    have hro := hs.1 _ _ hd
    have hver : (fill raw { key := [] }).version = (itemOf raw).version := rfl
    have hexp : (fill raw { key := [] }).expire = (itemOf raw).expire := rfl
    rw [lookup_of_raw hd hro]
    simp only [remove, getHeader_present hs hd, fill_take, ho, hver, hexp]
    cases hx : isExpired false (itemOf raw).expire env.now
    · by_cases h0 : e.version = 0
      · simp [h0]
      · by_cases hlt : e.version < (itemOf raw).version
        · simp [h0, hlt, UInt64.not_le.2 hlt]
        · have := UInt64.not_lt.1 hlt
          simp [h0, this, hlt]
    · by_cases h0 : e.version = 0 <;> by_cases hlt : e.version < (itemOf raw).version <;> simp [h0, hlt]

/-- After DELETED the key is absent at every time. -/
theorem C08_absent_afterwards {s : Store} {env : Env} {e : Entry}
    (h : (remove s env e {}).2.r = some .deleted) (t : Int64) :
    lookup (remove s env e {}).1 t e.key = none := by
  apply lookup_none_of_absent
  revert h
  simp only [remove]
  repeat' split
  all_goals simp
  all_goals exact dbGet_dbOut_self _ _

/-- A delete whose version is older than the stored one answers NOT_FOUND and changes nothing. -/
theorem C08_stale {s : Store} (hs : s.Ok) {env : Env} {e : Entry} {it : Item} {t : Int64}
    (h : lookup s t e.key = some it) (h0 : e.version ≠ 0) (hlt : e.version < it.version) :
    remove s env e {} = (s, ⟨.ok, some .notFound, e⟩) := by
  obtain ⟨raw, hd, rfl, -⟩ := (lookup_eq_some hs).1 h
  have hver : (fill raw { key := [] }).version = (itemOf raw).version := rfl
  simp [remove, getHeader_present hs hd, fill_take, hver, h0, hlt]

/-- Any delete that does not answer DELETED leaves what is read of every key as it was. -/
theorem C08_refused_unchanged {s : Store} (hs : s.Ok) {env : Env} {e : Entry} {b : Beh}
    (h : (remove s env e b).2.r ≠ some .deleted) (k : Bytes) {t : Int64} (ht : env.now ≤ t) :
    lookup (remove s env e b).1 t k = lookup s t k := remove_lookup hs env e b h ht k

example : (remove exStore exEnv { key := [97] } {}).2.r = some .deleted ∧
    (remove exStore exEnv { key := [97], version := 3 } {}).2.r = some .deleted ∧
    (remove exStore exEnv { key := [97], version := 2 } {}).2.r = some .notFound ∧
    lookup (remove exStore exEnv { key := [97], version := 2 } {}).1 100 [97] = some ⟨[55], 5, 200, 3⟩ ∧
    (remove exStore exEnv { key := [98] } {}).2.r = some .notFound := by decide

/-! ### C09 -/

/-- While a hold runs, add, replace, append, prepend and touch of the key are refused and the store
does not change. -/
theorem C09_blocks {s : Store} {env : Env} {e : Entry} (h : Held s env.now e.key) :
    set s env e .ofAdd = (s, ⟨.ok, some .notStored, e⟩) ∧
    set s env e .ofReplace = (s, ⟨.ok, some .notStored, e⟩) ∧
    set s env e .ofAppend = (s, ⟨.ok, some .notStored, e⟩) ∧
    set s env e .ofPrepend = (s, ⟨.ok, some .notStored, e⟩) ∧
    set s env e .ofTouch = (s, ⟨.ok, some .notFound, e⟩) := by
  have key : ∀ (b : Beh) (r : Result), b.skipTimestamp = false →
      (∀ ev cv, setCheck .notExpired b ev cv = .error r) → set s env e b = (s, ⟨.ok, some r, e⟩) := by
    intro b r hb hr
    obtain ⟨cur, hc, hst, -⟩ := setCurrent_held (b := b) hb h
    exact set_eval_refuse hc hst (hr _ _)
  refine ⟨key _ _ rfl ?_, key _ _ rfl ?_, key _ _ rfl ?_, key _ _ rfl ?_, key _ _ rfl ?_⟩ <;>
  · intro ev cv
    rfl

/-- The deletion record of a key after a history without a change of the key. -/
theorem hold_persists {k : Bytes} {tb : Tomb} {cs : List (Env × Cmd)} : ∀ {s : Store}, s.Ok →
    dbGet s.db k = none → tombGet s.cache k = some tb →
    (∀ p ∈ cs, p.2 ≠ .flush ∧ (p.2.key? = some k → p.2.client)) → Keeps k s cs →
    storedCount k s cs = 0 →
    dbGet (run s cs).db k = none ∧ tombGet (run s cs).cache k = some tb := by
  induction cs with
  | nil => intro s _ h1 h2 _ _ _; exact ⟨h1, h2⟩
  | cons p cs ih =>
    intro s hs h1 h2 hcs hk hcount
    obtain ⟨env, c⟩ := p
    obtain ⟨hf, hcl⟩ := hcs (env, c) (by simp)
    simp only [storedCount] at hcount
    have hns : ¬ (c.key? = some k ∧ (step s env c).2.r = some .stored) := by
      intro h; rw [if_pos h] at hcount; omega
    have hstep : dbGet (step s env c).1.db k = none ∧ tombGet (step s env c).1.cache k = some tb := by
      by_cases hck : c.key? = some k
      · have hc := hcl hck
        have hsame : (step s env c).1 = s := by
          cases c with
          | set e b =>
            simp only [Cmd.key?, Option.some.injEq] at hck; subst hck
            have hsc : (setCurrent s env e b).1 = s := by
              rcases setCurrent_db s env e b with h | h <;> rw [h]
              rw [get_absent (e := { key := e.key }) h1]
            have hl := lookup_none_of_absent h1 env.now
            simp only [step]
            rcases set_cases s env e b with ⟨h, -⟩ | ⟨e', ho, -⟩
            · rw [h, hsc]
            · exfalso
              rcases hc with rfl | ⟨-, rfl | rfl | rfl | rfl | rfl | rfl⟩
              all_goals first
                | exact hns ⟨rfl, by simp only [step, ho]; rfl⟩
                | (have := (C05_conditional hs hl).2.2.2
                   rw [ho] at this; simp [Beh.ofTouch] at this)
          | incr e v i b =>
            simp only [Cmd.key?, Option.some.injEq] at hck; subst hck
            simp [step, incr, incrLocked, h1]
          | get e b =>
            simp only [Cmd.key?, Option.some.injEq] at hck; subst hck
            simp only [step]; rw [get_absent h1]
          | remove e b =>
            simp only [Cmd.key?, Option.some.injEq] at hck; subst hck
            obtain ⟨hv, rfl⟩ := hc
            simp [step, remove, getHeader, h1, hv]
          | flush => exact absurd rfl hf
        rw [hsame]; exact ⟨h1, h2⟩
      · have hd := step_db_ne (s := s) (env := env) hf hck
        have hrem := hk.1 (Or.inr (by simp [h2]))
        refine ⟨by rw [hd]; exact h1, ?_⟩
        rcases step_tomb_ne hs env hf hck with h | h
        · rw [h]; exact h2
        · exfalso; rcases hrem with h' | h'
          · rw [hd] at h'; exact h' h1
          · exact h' h
    exact ih (step_ok hs ..) hstep.1 hstep.2 (fun p hp => hcs p (by simp [hp])) hk.2
      (by omega)

/-- The claim: `delete k T` answered DELETED with T in the future, then any history of other commands
(any commands on other keys, client commands on the key itself that do not re-create it) during which
the store keeps the deletion record.  Then add of the key is refused before T and succeeds from T on;
replace, append, prepend and touch are refused before T. -/
theorem C09_hold {s : Store} (hs : s.Ok) {env0 : Env} {e0 : Entry} (hsize : 0 < s.cacheSize)
    (hdel : (remove s env0 e0 {}).2.r = some .deleted) (hT : 0 < e0.expire)
    {cs : List (Env × Cmd)}
    (hcs : ∀ p ∈ cs, p.2 ≠ .flush ∧ (p.2.key? = some e0.key → p.2.client))
    (hk : Keeps e0.key (remove s env0 e0 {}).1 cs)
    (hno : storedCount e0.key (remove s env0 e0 {}).1 cs = 0)
    {env : Env} {e : Entry} (hek : e.key = e0.key) :
    let s' := run (remove s env0 e0 {}).1 cs
    (env.now < e0.expire →
      set s' env e .ofAdd = (s', ⟨.ok, some .notStored, e⟩) ∧
      set s' env e .ofReplace = (s', ⟨.ok, some .notStored, e⟩) ∧
      set s' env e .ofAppend = (s', ⟨.ok, some .notStored, e⟩) ∧
      set s' env e .ofPrepend = (s', ⟨.ok, some .notStored, e⟩) ∧
      set s' env e .ofTouch = (s', ⟨.ok, some .notFound, e⟩)) ∧
    (e0.expire ≤ env.now → e.Ok → env.putOk = true → (set s' env e .ofAdd).2.r = some .stored) := by
  intro s'
  have hok : (run (remove s env0 e0 {}).1 cs).Ok := by
    have : ∀ (cs : List (Env × Cmd)) (s : Store), s.Ok → (run s cs).Ok := by
      intro cs
      induction cs with
      | nil => exact fun s h => h
      | cons c cs ih => exact fun s h => ih _ (step_ok h ..)
    exact this _ _ (remove_ok hs ..)
  have hstart : dbGet (remove s env0 e0 {}).1.db e0.key = none ∧
      ∃ v, tombGet (remove s env0 e0 {}).1.cache e0.key = some ⟨e0.expire, v⟩ := by
    have hne : e0.expire ≠ 0 := by rintro h; rw [h] at hT; exact absurd hT (by decide)
    revert hdel
    have hs1 := fun e' : Entry => setHeaderCache_get_self (s := { s with db := dbOut s.db e0.key })
      hs.2.1 hsize env0.now e'
    have h2 := hs1 e0
    have h3 := fun v => hs1 { e0 with version := v }
    simp only [hne, if_false] at h2 h3
    simp only [remove]
    repeat' split
    all_goals simp only [Option.some.injEq, reduceCtorEq, IsEmpty.forall_iff, forall_true_left]
    all_goals first
      | exact ⟨dbGet_dbOut_self _ _, _, h2⟩
      | exact ⟨dbGet_dbOut_self _ _, _, h3 _⟩
  obtain ⟨h1, v, h2⟩ := hstart
  obtain ⟨h3, h4⟩ := hold_persists (remove_ok hs ..) h1 h2 hcs hk hno
  refine ⟨fun hlt => C09_blocks ?_, fun hle he hp => ?_⟩
  · rw [hek]; exact ⟨h3, _, h4, hT, hlt⟩
  · refine ((C06_add hok he hp).1).2 ⟨lookup_none_of_absent (by rw [hek]; exact h3) _, ?_⟩
    rw [hek]
    rintro ⟨-, tb, ht, -, hn⟩
    rw [h4] at ht; cases ht
    exact absurd hn (Int64.not_lt.2 hle)

example : (remove exStore exEnv { key := [97], expire := 170 } {}).2.r = some .deleted ∧
    (let cs : List (Env × Cmd) := [(exEnv, .set { key := [99] } {}), (exEnv, .set exEntry .ofAdd),
        (exEnv, .incr { key := [97] } 1 true {}), (exEnv, .remove { key := [99], version := 7 } {})]
     storedCount [97] (remove exStore exEnv { key := [97], expire := 170 } {}).1 cs = 0 ∧
     Keeps [97] (remove exStore exEnv { key := [97], expire := 170 } {}).1 cs) ∧
    (set (remove exStore exEnv { key := [97], expire := 170 } {}).1 { now := 169 } exEntry .ofAdd).2.r =
      some .notStored ∧
    (set (remove exStore exEnv { key := [97], expire := 170 } {}).1 { now := 170 } exEntry .ofAdd).2.r =
      some .stored := by
  refine ⟨by decide, ⟨by decide, ?_⟩, by decide, by decide⟩
  simp only [Keeps, Remembered]
  decide

/-! ### C10 -/

/-- A set carrying an explicit version, as replication sends, is refused when the key is visible
with the same or a newer version. -/
theorem C10_stale_set {s : Store} (hs : s.Ok) {env : Env} {e : Entry} (b : Beh)
    (hb : b = .ofSet ∨ b = .ofDump) (h0 : e.version ≠ 0)
    {it : Item} (h : lookup s env.now e.key = some it) (hle : e.version ≤ it.version) :
    set s env e b = (s, ⟨.ok, some .notStored, e⟩) := by
  obtain ⟨cur, hc, hst, hv, -⟩ := setCurrent_visible (b := b) hs h
  refine set_eval_refuse hc hst ?_
  rcases hb with rfl | rfl <;> simp [setCheck, Beh.ofSet, Beh.ofDump, h0, hv, hle]

/-- A newer version is accepted and kept. -/
theorem C10_newer_set {s : Store} (hs : s.Ok) {env : Env} {e : Entry} (b : Beh)
    (hb : b = .ofSet ∨ b = .ofDump) (he : e.Ok) (hp : env.putOk = true)
    {it : Item} (h : lookup s env.now e.key = some it) (hlt : it.version < e.version) :
    (set s env e b).2.r = some .stored ∧
    ∀ t, lookup (set s env e b).1 t e.key =
      if 0 < e.expire ∧ e.expire ≤ t then none else some ⟨e.data, e.flag, e.expire, e.version⟩ := by
  obtain ⟨cur, hc, hst, hv, -⟩ := setCurrent_visible (b := b) hs h
  have h0 : e.version ≠ 0 := by
    rintro h; rw [h] at hlt; exact absurd hlt (by simp)
  have hck : setCheck .alive b e.version cur.version = .ok e.version := by
    have := UInt64.not_le.2 hlt
    rcases hb with rfl | rfl <;> simp [setCheck, Beh.ofSet, Beh.ofDump, h0, hv, this]
  rw [set_eval_plain hc hst (by rcases hb with rfl | rfl <;> rfl) he hp, hck]
  refine ⟨rfl, fun t => ?_⟩
  rw [lookup_put he.1 (by rw [← he.1]; exact he.2)]
  simp [isExpired_false_iff]

/-- A dump record is refused, in addition, when the key was deleted at the same or a newer version
and the deletion record is still cached - whether or not the hold time is over. -/
theorem C10_stale_dump {s : Store} {env : Env} {e : Entry} (h0 : e.version ≠ 0) {tb : Tomb}
    (hd : dbGet s.db e.key = none) (ht : tombGet s.cache e.key = some tb) (hle : e.version ≤ tb.version) :
    set s env e .ofDump = (s, ⟨.ok, some .notStored, e⟩) := by
  obtain ⟨s1, cur, ex, hc⟩ : ∃ s1 cur ex, setCurrent s env e .ofDump = (s1, cur, ex) := ⟨_, _, _, rfl⟩
  have hc' := hc
  rw [setCurrent_plain rfl] at hc'
  simp only [getHeader, hd, getHeaderCache, ht, Prod.mk.injEq] at hc'
  obtain ⟨rfl, rfl, rfl⟩ := hc'
  refine set_eval_refuse hc rfl ?_
  generalize setState _ _ _ _ = st
  cases st <;> simp [setCheck, Beh.ofDump, h0, hle]

/-- The same over a history: a client's delete answered DELETED for an item of version `it.version`,
then any commands that do not re-create the key and during which the store keeps the deletion record.
A dump record of the same or an older version is refused. -/
theorem C10_dump_after_delete {s : Store} (hs : s.Ok) {env0 : Env} {e0 : Entry}
    (hsize : 0 < s.cacheSize) (hv0 : e0.version = 0) {it : Item}
    (hl : lookup s env0.now e0.key = some it)
    (hdel : (remove s env0 e0 {}).2.r = some .deleted) {cs : List (Env × Cmd)}
    (hcs : ∀ p ∈ cs, p.2 ≠ .flush ∧ (p.2.key? = some e0.key → p.2.client))
    (hk : Keeps e0.key (remove s env0 e0 {}).1 cs)
    (hno : storedCount e0.key (remove s env0 e0 {}).1 cs = 0)
    {env : Env} {e : Entry} (hek : e.key = e0.key) (h0 : e.version ≠ 0) (hle : e.version ≤ it.version) :
    let s' := run (remove s env0 e0 {}).1 cs
    set s' env e .ofDump = (s', ⟨.ok, some .notStored, e⟩) := by
  intro s'
  obtain ⟨raw, hraw, rfl, hx⟩ := (lookup_eq_some hs).1 hl
  have ho : env0.outOk = true := by
    cases ho : env0.outOk
    · exfalso; revert hdel; simp only [remove, ho]; repeat' split
      all_goals simp_all
    · rfl
  have hstore : (remove s env0 e0 {}).1 = setHeaderCache { s with db := dbOut s.db e0.key } env0.now
      { e0 with version := (itemOf raw).version } := by
    simp only [remove, getHeader_present hs hraw, hv0, ho, fill_take]; simp; rfl
  have h2 := setHeaderCache_get_self (s := { s with db := dbOut s.db e0.key }) hs.2.1 hsize env0.now
    { e0 with version := (itemOf raw).version }
  rw [← hstore] at h2
  have h1 : dbGet (remove s env0 e0 {}).1.db e0.key = none := by
    rw [hstore]; exact dbGet_dbOut_self _ _
  obtain ⟨h3, h4⟩ := hold_persists (remove_ok hs ..) h1 h2 hcs hk hno
  exact C10_stale_dump h0 (by rw [hek]; exact h3) (by rw [hek]; exact h4) hle

example : lookup exStore 100 [97] = some ⟨[55], 5, 200, 3⟩ ∧
    (remove exStore exEnv { key := [97] } {}).2.r = some .deleted ∧
    (let cs : List (Env × Cmd) := [(exEnv, .remove { key := [99], version := 7 } {}), (exEnv, .get { key := [97] } {})]
     storedCount [97] (remove exStore exEnv { key := [97] } {}).1 cs = 0 ∧
     Keeps [97] (remove exStore exEnv { key := [97] } {}).1 cs ∧
     (set (run (remove exStore exEnv { key := [97] } {}).1 cs) exEnv { exEntry with version := 3 } .ofDump).2.r =
       some .notStored) := by
  refine ⟨by decide, by decide, by decide, ?_, by decide⟩
  simp only [Keeps, Remembered]; decide

/-- The English claim says nothing about a plain replicated set arriving after the deletion of a newer
version, and indeed the code lets it through: version 2 comes back after version 9 was deleted. -/
theorem C10_stale_set_after_delete_resurrects :
    ∃ (s : Store) (env : Env) (e : Entry), s.Ok ∧ e.Ok ∧ e.version = 2 ∧
      (remove s env { key := e.key } {}).2.r = some .deleted ∧
      (remove s env { key := e.key } {}).2.e.version = 3 ∧
      (set (remove s env { key := e.key } {}).1 env e .ofSet).2.r = some .stored ∧
      (set (remove s env { key := e.key } {}).1 env e .ofDump).2.r = some .notStored :=
  ⟨exStore, exEnv, { exEntry with version := 2 }, exStore_ok, ⟨by decide, by decide⟩, by decide⟩

example : (set exStore exEnv { exEntry with version := 3 } .ofSet).2.r = some .notStored ∧
    (set exStore exEnv { exEntry with version := 4 } .ofSet).2.r = some .stored ∧
    (set exStore { now := 160 } { exEntry with key := [98], version := 9 } .ofDump).2.r = some .notStored ∧
    (set exStore { now := 160 } { exEntry with key := [98], version := 10 } .ofDump).2.r = some .stored := by
  decide

/-! ### C13 -/

/-- After a successful flush_all every key is absent at every time. -/
theorem C13_all_absent {s : Store} {env : Env} (hv : env.vanishOk = true) (t : Int64) (k : Bytes) :
    (truncate s env).2 = .ok ∧ lookup (truncate s env).1 t k = none := by
  refine ⟨by simp [truncate, hv], lookup_none_of_absent ?_ _⟩
  simp [truncate, hv, dbGet]

/-- add, and any unversioned set, of any key succeeds afterwards and starts again at version 1. -/
theorem C13_starts_again {s : Store} {env env' : Env} (hv : env.vanishOk = true) {e : Entry}
    (he : e.Ok) (h0 : e.version = 0) (hp : env'.putOk = true) (b : Beh) (hb : b = .ofAdd ∨ b = .ofSet) :
    (set (truncate s env).1 env' e b).2 = ⟨.ok, some .stored, { e with version := 1 }⟩ := by
  have hc : setCurrent (truncate s env).1 env' e b = ((truncate s env).1, { key := [] }, false) := by
    rw [setCurrent_plain (by rcases hb with rfl | rfl <;> rfl)]
    simp [truncate, hv, getHeader, getHeaderCache, dbGet, tombGet]
  have hst : setState env'.now b { key := [] } false = .gone := by
    simp [setState]
  rw [set_eval_plain hc hst (by rcases hb with rfl | rfl <;> rfl) he hp]
  have hck : setCheck .gone b e.version 0 = .ok 1 := by
    rcases hb with rfl | rfl <;> simp [setCheck, Beh.ofAdd, Beh.ofSet, h0]
  simp [hck]

example : (truncate exStore exEnv).2 = .ok ∧
    (set (truncate exStore exEnv).1 exEnv { exEntry with key := [98] } .ofAdd).2.e.version = 1 := by decide

/-! ### C14 -/

/-- The delayed deletion: the first half of a read found the expired entry `o.e`; when the second half
runs on an arbitrary later store `s2` that knows the key with another version, nothing happens. -/
theorem C14_other_version {s s2 : Store} (hs : s.Ok) (hs2 : s2.Ok) {now : Int64} {env : Env}
    {e : Entry} {b : Beh} {o : Out} (hread : getRead s now e b = (o, true)) (h0 : o.e.version ≠ 0)
    {it : Item} {t : Int64} (h : lookup s2 t e.key = some it) (hne : it.version ≠ o.e.version) :
    (removeExpired s2 env o.e).1 = s2 := by
  obtain ⟨raw, hraw, -, ho⟩ := getRead_expired hs hread
  obtain ⟨raw2, hraw2, rfl, -⟩ := (lookup_eq_some hs2).1 h
  have hk : o.e.key = e.key := by rw [ho]; rfl
  have hv : (fill raw2 { key := [] }).version = (itemOf raw2).version := rfl
  simp [removeExpired, remove, getHeader_present hs2 (hk ▸ hraw2), fill_take, hv, h0, hne.symm]

theorem client_absent {s : Store} (hs : s.Ok) {env : Env} {c : Cmd} (hc : c.client) {k : Bytes}
    (hk : c.key? = some k) (hl : lookup s env.now k = none) :
    (step s env c).2.r ≠ some .touched ∧ (step s env c).2.r ≠ some .deleted := by
  cases c with
  | set e b =>
    simp only [Cmd.key?, Option.some.injEq] at hk; subst hk
    simp only [step]
    constructor
    · rcases hc with rfl | ⟨-, rfl | rfl | rfl | rfl | rfl | rfl⟩
      all_goals
        intro h
        rcases set_cases s env e _ with ⟨-, -, h1⟩ | ⟨e', ho, -⟩
        · exact absurd h h1
        · rw [ho] at h
          first
          | (simp [Beh.ofCas, Beh.ofSet, Beh.ofAdd, Beh.ofReplace, Beh.ofAppend, Beh.ofPrepend] at h; done)
          | (have := (C05_conditional hs hl).2.2.2
             rw [ho] at this; simp [Beh.ofTouch] at this)
    · obtain ⟨s1, cur, ex, hcur⟩ : ∃ s1 cur ex, setCurrent s env e b = (s1, cur, ex) := ⟨_, _, _, rfl⟩
      simp only [set, hcur]
      cases hck : setCheck (setState env.now b cur ex) b e.version cur.version with
      | error r => rcases setCheck_error hck with h | h | h <;> simp [h]
      | ok v =>
        simp only
        repeat' split
        all_goals simp
  | incr e v i b =>
    simp only [step, incr, incrLocked]
    repeat' split
    all_goals simp_all
    all_goals (rename_i h; revert h; repeat' split)
    all_goals (intro h; simp_all)
    all_goals (first | (cases h; done) | (obtain ⟨-, rfl, -⟩ := h; simp))
  | get e b =>
    simp only [step, get, getRead]
    repeat' split
    all_goals simp_all
    all_goals (rename_i h; revert h; repeat' split)
    all_goals (intro h; simp_all)
    all_goals (cases h; simp)
  | remove e b =>
    simp only [Cmd.key?, Option.some.injEq] at hk; subst hk
    obtain ⟨hv, rfl⟩ := hc
    simp only [step]
    refine ⟨?_, ?_⟩
    · simp only [remove]; repeat' split
      all_goals simp_all
    · cases ho : env.outOk
      · simp only [remove, ho]; repeat' split
        all_goals simp_all
      · intro h
        obtain ⟨it, h1, -⟩ := (C08_deleted_iff hs ho).1 h
        rw [hl] at h1; cases h1
  | flush => exact hc.elim

/-- Over histories: the first half of a read at time `now` found an expired record.  Then any client
commands on any keys run (not before that time, without the store forgetting the key, fewer than 2^64
of them), then the second half of the read runs.  It does not alter what any later read of any key
sees. -/
theorem C14_history {s : Store} (hs : s.Ok) {now : Int64} {e : Entry} {b : Beh} {o : Out}
    (hread : getRead s now e b = (o, true)) (h0 : o.e.version ≠ 0) {cs : List (Env × Cmd)}
    (hcl : ∀ p ∈ cs, p.2.client ∧ now ≤ p.1.now) (hk : Keeps e.key s cs) (hlen : cs.length < 2 ^ 64)
    {env : Env} {t : Int64} (ht : now ≤ t) (k : Bytes) :
    lookup (removeExpired (run s cs) env o.e).1 t k = lookup (run s cs) t k := by
  obtain ⟨raw, hraw, hx, ho⟩ := getRead_expired hs hread
  have hok : ∀ (cs : List (Env × Cmd)) (s : Store), s.Ok → (run s cs).Ok := by
    intro cs
    induction cs with
    | nil => exact fun s h => h
    | cons c cs ih => exact fun s h => ih _ (step_ok h ..)
  have hokr := hok cs s hs
  have hkey : o.e.key = e.key := by rw [ho]; rfl
  have hver : o.e.version = known s e.key := by rw [known_of_raw hraw, ho]; rfl
  by_cases hj : k = e.key
  swap
  · simp only [removeExpired]
    exact lookup_congr_db _ (remove_db_ne _ _ _ _ (by rwa [hkey])) t
  subst hj
  by_cases hz : storedCount e.key s cs = 0
  · -- the key stayed invisible
    have habs : ∀ (cs : List (Env × Cmd)) (s : Store), s.Ok →
        (∀ p ∈ cs, p.2.client ∧ now ≤ p.1.now) → storedCount e.key s cs = 0 →
        (∀ t, now ≤ t → lookup s t e.key = none) → ∀ t, now ≤ t → lookup (run s cs) t e.key = none := by
      intro cs
      induction cs with
      | nil => intro s _ _ _ h; exact h
      | cons p cs ih =>
        intro s hs hcl hz hl
        obtain ⟨env, c⟩ := p
        obtain ⟨hc, hnow⟩ := hcl (env, c) (by simp)
        simp only [storedCount] at hz
        have hns : ¬ (c.key? = some e.key ∧ (step s env c).2.r = some .stored) := by
          intro h; rw [if_pos h] at hz; omega
        refine ih _ (step_ok hs ..) (fun p hp => hcl p (by simp [hp])) (by omega) ?_
        have hf : c ≠ .flush := by rintro rfl; exact hc
        by_cases hck : c.key? = some e.key
        · have hca := client_absent (env := env) hs hc hck (hl _ hnow)
          have hstep : ∀ t, env.now ≤ t → lookup (step s env c).1 t e.key = none := fun t ht' => by
            rw [step_lookup hs hf ⟨fun h => hns ⟨hck, h⟩, hca⟩ ht']
            exact hl t (Int64.le_trans hnow ht')
          -- an absent or expired record can only have been dropped
          intro t ht'
          have hok' := step_ok hs env c
          rcases (lookup_eq_none hok').1 (hstep env.now (Int64.le_refl _)) with hd | ⟨raw', hd, hx'⟩
          · exact lookup_none_of_absent hd t
          · have hdb := client_quiet_db (env := env) hs hc hck (fun h => hns ⟨hck, h⟩) hca.1
            rcases hdb with h | h
            · rw [lookup_congr_db _ h]; exact hl t ht'
            · rw [h] at hd; cases hd
        · intro t ht'
          rw [lookup_congr_db _ (step_db_ne hf hck)]; exact hl t ht'
    have hl0 : ∀ t, now ≤ t → lookup s t e.key = none := fun t ht' =>
      (lookup_eq_none hs).2 (Or.inr ⟨raw, hraw, hx.1, Int64.le_trans hx.2 ht'⟩)
    have hnone := habs cs s hs hcl hz hl0 t ht
    rw [hnone]
    have hdb : (removeExpired (run s cs) env o.e).1.db = (run s cs).db ∨
        (removeExpired (run s cs) env o.e).1.db = dbOut (run s cs).db o.e.key := remove_db ..
    rcases hdb with h | h
    · rw [lookup_congr_db (s := run s cs) _ (by rw [h])]; exact hnone
    · exact lookup_none_of_absent (by rw [h, hkey]; exact dbGet_dbOut_self _ _) t
  · -- the key was written: its version differs
    have hle := storedCount_le e.key cs s
    have hkn := run_known (k := e.key) hs (fun p hp => (hcl p hp).1) hk
    have hne : known (run s cs) e.key ≠ o.e.version := by
      rw [hkn, hver]
      intro h
      have h' := congrArg UInt64.toNat h
      rw [UInt64.toNat_add, UInt64.toNat_ofNat'] at h'
      have hb := UInt64.toNat_lt (known s e.key)
      omega
    have : (removeExpired (run s cs) env o.e).1 = run s cs := by
      have hh := header_known hokr e.key
      simp only [removeExpired, remove, hkey]
      generalize getHeader (run s cs) e.key { key := [] } = g at hh ⊢
      rw [hh]
      simp [h0, hne.symm]
    rw [this]

/-- The reader of "a" at time 250 finds version 3 expired, another client adds the key again, the
reader's delayed deletion comes afterwards. -/
example :
    let e : Entry := { key := [97] }
    let cs : List (Env × Cmd) := [({ now := 251 }, .set { key := [97], size := 1, data := [57] } .ofAdd),
      ({ now := 252 }, .incr { key := [97] } 1 true {})]
    (getRead exStore 250 e {}).2 = true ∧ (getRead exStore 250 e {}).1.e.version = 3 ∧
    (∀ p ∈ cs, p.2.client ∧ 250 ≤ p.1.now) ∧ Keeps [97] exStore cs ∧
    lookup (removeExpired (run exStore cs) { now := 253 } (getRead exStore 250 e {}).1.e).1 260 [97] =
      some ⟨[49, 48], 0, 0, 5⟩ := by
  refine ⟨by decide, by decide, ?_, ?_, by decide⟩
  · simp only [List.mem_cons, List.not_mem_nil, or_false, forall_eq_or_imp, forall_eq, Cmd.client]
    decide
  · simp only [Keeps, Remembered]; decide

/-- The condition "another version" is needed: a replicated record with the same version as the
expired one (for example after a touch on the master, which keeps the version) is destroyed by the
delayed deletion although it has not expired. -/
theorem C14_same_version_destroyed :
    ∃ (s : Store) (e : Entry) (o : Out) (e2 : Entry), s.Ok ∧ e2.Ok ∧
      getRead s 250 e {} = (o, true) ∧
      (set s { now := 251 } e2 .ofSet).2.r = some .stored ∧
      lookup (set s { now := 251 } e2 .ofSet).1 260 e.key = some ⟨e2.data, e2.flag, 900, 3⟩ ∧
      lookup (removeExpired (set s { now := 251 } e2 .ofSet).1 { now := 252 } o.e).1 260 e.key = none := by
  refine ⟨exStore, { key := [97] }, (getRead exStore 250 { key := [97] } {}).1,
    { key := [97], expire := 900, size := 1, data := [55], version := 3 }, exStore_ok,
    ⟨by decide, by decide⟩, ?_, by decide, by decide, by decide⟩
  decide

/-! ### C16 -/

theorem istep_lock (s : Store) (c : ICall) :
    (istep s c).1.iterLock =
      if isBegin (c, (istep s c).2) then true
      else if isEnd (c, (istep s c).2) then false else s.iterLock := by
  cases c with
  | begin_ ok => cases h : s.iterLock <;> cases ok <;> simp [istep, iterBegin, h, isBegin, isEnd]
  | next ans => simp [istep, isBegin, isEnd]
  | end_ => cases h : s.iterLock <;> simp [istep, iterEnd, h, isBegin, isEnd]
  | cmd env c => simpa [istep, isBegin, isEnd] using step_iterLock s env c

theorem ibegin_unlocked (s : Store) (c : ICall) (h : isBegin (c, (istep s c).2) = true) :
    s.iterLock = false := by
  cases c with
  | begin_ ok =>
    cases hl : s.iterLock
    · rfl
    · simp [istep, iterBegin, hl, isBegin] at h
  | next ans => simp [isBegin] at h
  | end_ => simp [isBegin] at h
  | cmd env c => simp [isBegin] at h

theorem iend_locked (s : Store) (c : ICall) (h : isEnd (c, (istep s c).2) = true) :
    s.iterLock = true := by
  cases c with
  | end_ =>
    cases hl : s.iterLock
    · simp [istep, iterEnd, hl, isEnd] at h
    · rfl
  | next ans => simp [isEnd] at h
  | begin_ ok => simp [isEnd] at h
  | cmd env c => simp [isEnd] at h

/-- In every sequence of iteration calls and ordinary calls, starting with no iteration running: the
number of successful iter_begin calls exceeds the number of successful iter_end calls by one or not
at all, in every prefix (a prefix of a sequence is a sequence); and by one exactly if an iteration is
running. -/
theorem C16_at_most_one {s : Store} (h0 : s.iterLock = false) (cs : List ICall) :
    (itrace s cs).countP isBegin =
      (itrace s cs).countP isEnd + (irun s cs).iterLock.toNat := by
  have : ∀ (cs : List ICall) (s : Store),
      (itrace s cs).countP isBegin + s.iterLock.toNat =
        (itrace s cs).countP isEnd + (irun s cs).iterLock.toNat := by
    intro cs
    induction cs with
    | nil => intro s; simp [itrace, irun]
    | cons c cs ih =>
      intro s
      have hi := ih (istep s c).1
      rw [istep_lock] at hi
      simp only [itrace, irun, List.countP_cons]
      have h1 := ibegin_unlocked s c
      have h2 := iend_locked s c
      have h3 : ¬ (isBegin (c, (istep s c).2) = true ∧ isEnd (c, (istep s c).2) = true) := by
        rintro ⟨a, b⟩; rw [h1 a] at h2; exact absurd (h2 b) (by simp)
      cases hb : isBegin (c, (istep s c).2) <;> cases he : isEnd (c, (istep s c).2) <;>
        simp_all <;> omega
  have := this cs s
  simpa [h0] using this

/-- Between two successful iter_begin calls there is a successful iter_end. -/
theorem C16_end_between {s : Store} {c1 c2 : ICall} {cs : List ICall}
    (h1 : isBegin (c1, (istep s c1).2) = true)
    (h2 : isBegin (c2, (istep (irun (istep s c1).1 cs) c2).2) = true) :
    ∃ p ∈ itrace (istep s c1).1 cs, isEnd p = true := by
  have : ∀ (cs : List ICall) (s : Store), s.iterLock = true → (irun s cs).iterLock = false →
      ∃ p ∈ itrace s cs, isEnd p = true := by
    intro cs
    induction cs with
    | nil => intro s a b; simp [irun, a] at b
    | cons c cs ih =>
      intro s a b
      by_cases he : isEnd (c, (istep s c).2) = true
      · exact ⟨_, by simp [itrace], he⟩
      · have hl : (istep s c).1.iterLock = true := by
          rw [istep_lock]; split
          · rfl
          · exact a
        obtain ⟨p, hp, hpe⟩ := ih _ hl b
        exact ⟨p, by simp [itrace, hp], hpe⟩
  refine this cs _ ?_ (ibegin_unlocked _ _ h2)
  rw [istep_lock, if_pos h1]

/-- Without a running iteration iter_next and iter_end fail and change nothing; with one running,
iter_begin fails and changes nothing. -/
theorem C16_refusals (s : Store) :
    (s.iterLock = false → (∀ ans, iterNext s ans = .error) ∧ iterEnd s = (s, .err)) ∧
    (s.iterLock = true → ∀ ok, iterBegin s ok = (s, .err)) := by
  refine ⟨fun h => ⟨fun ans => by simp [iterNext, h], by simp [iterEnd, h]⟩, fun h ok => by simp [iterBegin, h]⟩

example : (itrace exStore [.begin_ true, .begin_ true, .next (.continue_ [97]), .cmd exEnv (.get { key := [97] } {}),
    .end_, .end_, .begin_ false, .begin_ true]).map (·.2) =
    [true, false, true, true, true, false, false, true] := by decide

/-! ### C37 -/

/-- The record header is read back to the same flag, expiry, size and version, whatever follows it;
the other fields of the entry read into are untouched. -/
theorem C37_round_trip (e e0 : Entry) (rest : Bytes) :
    unserializeHeader (serializeHeader e ++ rest) e0 =
      ({ e0 with flag := e.flag, expire := e.expire, size := e.size, version := e.version }, true) := by
  rw [unserializeHeader_of_len (by simp [serializeHeader_length]), fill_serialize]

/-- Anything shorter than a header is rejected. -/
theorem C37_short_rejected (raw : Bytes) (h : raw.length < headerSize) (e0 : Entry) :
    (unserializeHeader raw e0).2 = false := unserializeHeader_short h e0

/-- Every full header determines the bytes: reading any 28 bytes and writing them again gives the
same bytes. -/
theorem C37_write_back (raw : Bytes) (h : raw.length = headerSize) (e0 : Entry) :
    serializeHeader (unserializeHeader raw e0).1 = raw := by
  rw [unserializeHeader_of_len (by omega)]
  exact serialize_fill h e0

example : serializeHeader { key := [], flag := 258, expire := -1, size := 5, version := 1 } =
    [2, 1, 0, 0, 255, 255, 255, 255, 255, 255, 255, 255, 5, 0, 0, 0, 0, 0, 0, 0, 1, 0, 0, 0, 0, 0, 0, 0] := by
  decide

end Flare
