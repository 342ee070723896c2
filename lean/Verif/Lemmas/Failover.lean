import Verif.Spec.Failover
import Verif.Lemmas.RebuildMaster
import Verif.Props.Rebuild
import Verif.Props.CrossCluster

namespace Flare

/-! ### One node -/

/-- Nothing, or a record that does not expire. -/
def Bare (st : KState) : Prop :=
  st = .nothing ∨ ∃ x, st = .record x ∧ ¬ 0 < x.expire ∧ x.version ≠ 0

/-- The same, or a record with a greater version. -/
def Up (st st' : KState) : Prop :=
  st' = st ∨ ∃ x, st' = .record x ∧ ¬ 0 < x.expire ∧ st.version < x.version

theorem Up.refl (st : KState) : Up st st := .inl rfl

theorem Up.trans {a b c : KState} (h1 : Up a b) (h2 : Up b c) : Up a c := by
  rcases h2 with rfl | ⟨x, rfl, h3, h4⟩
  · exact h1
  · right
    refine ⟨x, rfl, h3, ?_⟩
    rcases h1 with rfl | ⟨y, rfl, -, h5⟩
    · exact h4
    · exact UInt64.lt_trans h5 h4

theorem Up.le {a b : KState} (h : Up a b) : a.version ≤ b.version := by
  rcases h with rfl | ⟨x, rfl, -, h⟩
  · exact UInt64.le_refl _
  · exact UInt64.le_of_lt h

structure HostOk (k : Bytes) (s : Store) : Prop where
  ok : s.Ok
  abs : AbsoluteStore s
  cache : 0 < s.cacheSize
  bare : Bare (kstate s k)

structure CopyOk (k : Bytes) (c : WriteReq) : Prop where
  send : Sendable c 8192
  abs : Absolute c.entry.expire
  value : c.value = 0
  ok : c.cmd = .set → c.entry.Ok
  kinds : c.cmd = .set ∨ c.cmd = .delete ∨ c.cmd = .touch
  own : c.entry.key = k → c.cmd = .set ∧ c.entry.version ≠ 0 ∧ ¬ 0 < c.entry.expire ∧ (encodeWrite c).isSome

theorem bare_other {s : Store} (hs : s.Ok) {k : Bytes} (hb : Bare (kstate s k)) {env : Env} {c : Cmd}
    (hf : c ≠ .flush) (hk : c.key? ≠ some k) : kstate (step s env c).1 k = kstate s k := by
  refine kstate_other hs hf hk fun hr => ?_
  rcases hb with h | ⟨x, h, -⟩
  · exact absurd h (kstate_remembered.1 hr)
  · left
    rw [step_db_ne hf hk]
    intro hd
    simp only [kstate, hd] at h
    revert h
    cases tombGet s.cache k <;> simp

theorem bare_lookup {s : Store} (hs : s.Ok) {k : Bytes} {x : Item} (h : kstate s k = .record x)
    (hx : ¬ 0 < x.expire) (t : Int64) : lookup s t k = some x := by
  rw [kstate_lookup hs, h]; simp [KState.visible, hx]

theorem kstate_of_lookup {s : Store} (hs : s.Ok) {k : Bytes} {x : Item} {t : Int64}
    (h : lookup s t k = some x) : kstate s k = .record x := by
  rw [kstate_lookup hs] at h
  revert h
  cases kstate s k <;> simp [KState.visible]

theorem bare_get {s : Store} {k : Bytes} (h : HostOk k s) (env : Env) (e : Entry) :
    HostOk k (get s env e {}).1 ∧ kstate (get s env e {}).1 k = kstate s k := by
  have key : kstate (get s env e {}).1 k = kstate s k := by
    by_cases hk : e.key = k
    · subst hk
      rcases kstate_get h.ok h.cache (env := env) (e := e) with h1 | ⟨it, h1, h2, -⟩
      · exact h1
      · rcases h.bare with hb | ⟨x, hb, hx, -⟩
        · rw [hb] at h1; cases h1
        · rw [hb] at h1; cases h1; exact absurd h2.1 hx
    · exact bare_other h.ok h.bare (c := .get e {}) (by simp) (by simpa [Cmd.key?] using hk)
  refine ⟨⟨get_ok h.ok .., absolute_of_or h.abs (fun t k => get_lookup_or env e {} t k), ?_, ?_⟩, key⟩
  · rw [show (get s env e {}).1.cacheSize = s.cacheSize from step_cacheSize s env (.get e {})]; exact h.cache
  · rw [key]; exact h.bare

/-- A refused value leaves a store without the key as it is. -/
theorem absent_unchanged {s : Store} {env : Env} {path : List Bytes} {r : WriteReq}
    (hd : dbGet s.db r.entry.key = none) (hc : r.cmd.copy = .set) (hn : (atMaster s env path r).2 = none) :
    (atMaster s env path r).1 = s := by
  have hset : ∀ b : Beh, (set s env r.entry b).2.r ≠ some .stored → (set s env r.entry b).2.r ≠ some .touched →
      (set s env r.entry b).1 = s := by
    intro b h1 h2
    rcases set_cases s env r.entry b with ⟨h, -⟩ | ⟨e', h, -⟩
    · rw [h]
      unfold setCurrent
      split
      · simp only [get, getRead, hd]
        simp
      · rfl
    · rw [h] at h1 h2
      simp only at h1 h2
      split at h1
      · rename_i hb; rw [if_pos hb] at h2; exact absurd rfl h2
      · exact absurd rfl h1
  have hinc : ∀ v i, (incr s env r.entry v i {}).1 = s := by
    intro v i
    simp only [incr, incrLocked, hd]
  simp only [atMaster, copyOf] at hn ⊢
  split at hn
  · cases hn
  next hcop =>
    obtain ⟨cmd, p, e, v⟩ := r
    cases cmd <;> simp only [WriteCmd.copy, reduceCtorEq] at hc <;>
      simp only [WriteReq.call, step, WriteCmd.copies, Bool.or_eq_true, beq_iff_eq, not_or] at hcop ⊢
    all_goals first
      | exact hset _ hcop.1 hcop.2
      | exact hinc _ _

theorem node_write {k : Bytes} {m : Store} (h : HostOk k m) {env : Env} {path : List Bytes} {r : WriteReq}
    (hw : ClientWrite r) (hp : PlainPath path)
    (hk : r.entry.key = k → r.call.client ∧ r.cmd.copy = .set ∧ ¬ 0 < r.entry.expire ∧
      ∀ c, (atMaster m env path r).2 = some c → (encodeWrite c).isSome)
    (hv : (kstate m k).version + 1 ≠ 0) :
    HostOk k (atMaster m env path r).1 ∧ (∀ c, (atMaster m env path r).2 = some c → CopyOk k c) ∧
    ((kstate (atMaster m env path r).1 k = kstate m k ∧
        ∀ c, (atMaster m env path r).2 = some c → c.entry.key ≠ k) ∨
      ∃ c, (atMaster m env path r).2 = some c ∧ c.entry.key = k ∧
        kstate (atMaster m env path r).1 k = .record c.entry.item ∧
        c.entry.version = (kstate m k).version + 1) := by
  have hf := event_facts h.ok h.abs k (ev := .write env path r) ⟨hw, hp⟩
  have hap : (MEvent.write env path r).apply m = ((atMaster m env path r).1, (atMaster m env path r).2.map .copy) := rfl
  obtain ⟨f1, f2, f3, -, -, -⟩ := hf
  rw [hap] at f1 f2 f3
  simp only at f1 f2 f3
  have hcache : 0 < (atMaster m env path r).1.cacheSize := by
    show 0 < (step m env r.call).1.cacheSize
    rw [step_cacheSize]; exact h.cache
  cases hc : (atMaster m env path r).2 with
  | none =>
    have hks : kstate (atMaster m env path r).1 k = kstate m k := by
      by_cases hkk : r.entry.key = k
      · rcases h.bare with hb | ⟨x, hb, hx, -⟩
        · have hd : dbGet m.db r.entry.key = none := by
            rw [hkk]
            simp only [kstate] at hb
            cases hd : dbGet m.db k with
            | none => rfl
            | some raw => rw [hd] at hb; cases hb
          rw [absent_unchanged hd (hk hkk).2.1 hc]
        · have hn := (master_no_copy h.ok hc).1 env.now k (Int64.le_refl _)
          rw [bare_lookup h.ok hb hx] at hn
          rw [kstate_of_lookup f1 hn, hb]
      · exact bare_other h.ok h.bare (call_not_flush r) (by rw [call_key]; simpa using hkk)
    refine ⟨⟨f1, f2, hcache, by rw [hks]; exact h.bare⟩, fun c h => (nomatch h), .inl ⟨hks, fun c h => (nomatch h)⟩⟩
  | some c =>
    obtain ⟨hcf, -⟩ := master_copy h.ok hw.2.2.2 hc
    obtain ⟨g1, g2, g3, g4, g5⟩ := f3 c (by rw [hc]; rfl)
    by_cases hkk : r.entry.key = k
    · obtain ⟨k1, k2, k3, k4⟩ := hk hkk
      have hck : c.entry.key = k := by rw [hcf.key]; exact hkk
      have hcs : c.cmd = .set := by
        simp only [atMaster, copyOf] at hc
        split at hc
        · cases hc; exact k2
        · cases hc
      obtain ⟨-, hl, -⟩ := hcf.ofSet hcs
      have hks : kstate (atMaster m env path r).1 k = .record c.entry.item := by
        apply kstate_of_lookup f1 (t := Int64.minValue)
        rw [← hkk, hl, if_neg (show ¬ (0 < c.entry.expire ∧ c.entry.expire ≤ Int64.minValue) from not_expired_min c.entry.item)]
        rfl
      obtain ⟨hce, hst, -⟩ := copied_result hc
      have hver : c.entry.version = (kstate m k).version + 1 := by
        have := client_known h.ok env (c := r.call) k1 (k := k) (fun _ => by
          rw [kstate_remembered]
          show kstate (atMaster m env path r).1 k ≠ _
          rw [hks]; simp)
        rw [if_pos ⟨by rw [call_key, hkk], hst hcs⟩] at this
        rw [hce, this.2, kstate_known]
      have hexp : ¬ 0 < c.entry.expire := by
        rcases hcf.expire with h1 | ⟨it, h1, h2⟩
        · rw [h1]; exact k3
        · rw [h2]
          rw [hkk] at h1
          have := kstate_of_lookup h.ok h1
          rcases h.bare with hb | ⟨x, hb, hx, -⟩
          · rw [hb] at this; cases this
          · rw [hb] at this; cases this; exact hx
      refine ⟨⟨f1, f2, hcache, .inr ⟨_, hks, hexp, ?_⟩⟩, ?_, .inr ⟨c, rfl, hck, hks, hver⟩⟩
      · show c.entry.version ≠ 0
        rw [hver]; exact hv
      · intro c' h'; cases h'
        exact ⟨g1, g2, g3, g4, g5, fun _ => ⟨hcs, by rw [hver]; exact hv, hexp, k4 c hc⟩⟩
    · have hck : c.entry.key ≠ k := by rw [hcf.key]; exact hkk
      have hks : kstate (atMaster m env path r).1 k = kstate m k :=
        bare_other h.ok h.bare (call_not_flush r) (by rw [call_key]; simpa using hkk)
      refine ⟨⟨f1, f2, hcache, by rw [hks]; exact h.bare⟩, ?_, .inl ⟨hks, ?_⟩⟩
      · intro c' h'; cases h'
        exact ⟨g1, g2, g3, g4, g5, fun h => absurd h hck⟩
      · intro c' h'; cases h'; exact hck

theorem copy_client {c : WriteReq} {k : Bytes} (hc : CopyOk k c) (now : Int64) :
    ClientWrite (arrives now c) := by
  obtain ⟨⟨s1, s2, s3, s4⟩, ha, -, hok, hkind, -⟩ := hc
  refine ⟨by rw [arrives_key]; exact s1, ?_⟩
  have hz : (0 : Nat) = (0 : UInt64).toNat := rfl
  rcases hkind with h | h | h <;> simp only [arrives, h]
  · obtain ⟨h1, h2⟩ := hok h
    refine ⟨s3, by rw [realtime_absolute ha]; exact ha, ?_, ?_⟩
    · rw [List.length_take, ← h1, Nat.min_self]
    · rw [List.length_take, ← h1, Nat.min_self]; exact h2
  · exact ⟨s3, by rw [realtime_absolute ha]; exact ha, hz, (show headerSize + 0 ≤ intMax by decide)⟩
  · refine ⟨?_, by rw [realtime_absolute ha]; exact ha, hz, (show headerSize + 0 ≤ intMax by decide)⟩
    have hle : c.entry.option &&& optNoreply ≤ optNoreply := by
      rw [UInt32.le_iff_toNat_le, UInt32.toNat_and]
      exact Nat.and_le_right
    exact UInt32.lt_of_le_of_lt hle (by decide)

theorem node_arrive {k : Bytes} {s : Store} (h : HostOk k s) {env : Env} (hp : env.putOk = true) {c : WriteReq}
    (hc : CopyOk k c) :
    HostOk k (atSlave s env c) ∧
    (c.entry.key ≠ k → kstate (atSlave s env c) k = kstate s k) ∧
    (c.entry.key = k →
      (kstate (atSlave s env c) k = .record c.entry.item ∧ (kstate s k).version < c.entry.version) ∨
      (kstate (atSlave s env c) k = kstate s k ∧ c.entry.version ≤ (kstate s k).version)) := by
  have hcache : 0 < (atSlave s env c).cacheSize := by
    rw [show (atSlave s env c).cacheSize = s.cacheSize from arrival_cacheSize s env (.copy c)]; exact h.cache
  have habs : AbsoluteStore (atSlave s env c) := by
    unfold atSlave
    cases hd : deliver env.now c with
    | none => exact h.abs
    | some r =>
      have hen : (encodeWrite c).isSome := by
        simp only [deliver] at hd
        split at hd
        · cases hd
        · rename_i h; simp [h]
      rw [deliver_arrives hc.send hen] at hd
      cases hd
      exact (event_facts h.ok h.abs [] (ev := .write env [] (arrives env.now c))
        ⟨copy_client hc env.now, plainPath_nil⟩).absolute
  have hsame : c.entry.key ≠ k → kstate (atSlave s env c) k = kstate s k := by
    intro hk
    unfold atSlave
    cases hd : deliver env.now c with
    | none => rfl
    | some r =>
      have hen : (encodeWrite c).isSome := by
        simp only [deliver] at hd
        split at hd
        · cases hd
        · rename_i h; simp [h]
      rw [deliver_arrives hc.send hen] at hd
      cases hd
      exact bare_other h.ok h.bare (call_not_flush _) (by rw [call_key, arrives_key]; simpa using hk)
  have hown : c.entry.key = k →
      (kstate (atSlave s env c) k = .record c.entry.item ∧ (kstate s k).version < c.entry.version) ∨
      (kstate (atSlave s env c) k = kstate s k ∧ c.entry.version ≤ (kstate s k).version) := by
    intro hk
    obtain ⟨h1, h2, h3, h4⟩ := hc.own hk
    have hdel := deliver_arrives hc.send h4 env.now
    have harr : arrives env.now c = c :=
      C35_store_unchanged env.now c (by simp [h1]) hc.abs (hc.ok h1).1 hc.value
    subst hk
    simp only [atSlave, hdel, harr, WriteReq.call, h1, step]
    rcases h.bare with hb | ⟨x, hb, hx, -⟩
    · left
      rcases kstate_set h.ok (hc.ok h1) hp h2 (env := env) with g | ⟨it, g, -⟩
      · refine ⟨g, ?_⟩
        rw [hb]
        exact UInt64.pos_iff_ne_zero.2 h2
      · rw [hb] at g; cases g
    · by_cases hv : c.entry.version ≤ x.version
      · right
        rw [kstate_set_old h.ok (hc.ok h1) hp h2 hb hx hv, hb]
        exact ⟨rfl, hv⟩
      · left
        rcases kstate_set h.ok (hc.ok h1) hp h2 (env := env) with g | ⟨it, g, g2, -⟩
        · refine ⟨g, ?_⟩
          rw [hb]
          exact UInt64.not_le.1 hv
        · rw [hb] at g; cases g; exact absurd g2 hv
  refine ⟨⟨slave_ok h.ok env c, habs, hcache, ?_⟩, hsame, hown⟩
  by_cases hk : c.entry.key = k
  · obtain ⟨-, h2, h3, -⟩ := hc.own hk
    rcases hown hk with ⟨g, -⟩ | ⟨g, -⟩
    · exact .inr ⟨_, g, h3, h2⟩
    · rw [g]; exact h.bare
  · rw [hsame hk]; exact h.bare

/-- A record of a dump: it comes from a node that does not expire `k`. -/
structure DumpOk (k : Bytes) (e : Entry) : Prop where
  ok : e.Ok
  abs : Absolute e.expire
  own : e.key = k → e.version ≠ 0 ∧ ¬ 0 < e.expire

/-- What a node sends when its dump comes to a key. -/
theorem node_dumps {k : Bytes} {s : Store} (h : HostOk k s) (env : Env) (k' : Bytes) :
    HostOk k ((MEvent.dump env k').apply s).1 ∧ kstate ((MEvent.dump env k').apply s).1 k = kstate s k ∧
      ∀ e, ((MEvent.dump env k').apply s).2 = some (.dump e) →
        DumpOk k e ∧ e.key = k' ∧ (e.key = k → kstate s k = .record e.item) := by
  obtain ⟨r1, r2⟩ := bare_get h env { key := k' }
  refine ⟨r1, r2, fun e he => ?_⟩
  simp only [MEvent.apply] at he
  split at he
  next hg =>
    cases he
    obtain ⟨h1, h2, -, h4⟩ := dumped h.ok hg
    have hrec : (get s env { key := k' } {}).2.e.key = k → kstate s k = .record (get s env { key := k' } {}).2.e.item := by
      intro hk
      rw [h1] at hk
      rw [← hk]
      exact kstate_of_lookup h.ok h4
    refine ⟨⟨h2, h.abs _ _ _ h4, fun hk => ?_⟩, h1, hrec⟩
    have := hrec hk
    rcases h.bare with hb | ⟨x, hb, hx, hv⟩
    · rw [hb] at this; cases this
    · rw [hb] at this; cases this; exact ⟨hv, hx⟩
  · cases he

/-- A record of a dump at the node it was made for. -/
theorem node_put {k : Bytes} {s : Store} (h : HostOk k s) {env : Env} (hp : env.putOk = true) {e : Entry} (he : DumpOk k e) :
    HostOk k ((Arrival.dump e).apply s env) ∧
    (e.key ≠ k → kstate ((Arrival.dump e).apply s env) k = kstate s k) ∧
    (e.key = k →
      (kstate ((Arrival.dump e).apply s env) k = .record e.item ∧ (kstate s k).version < e.version) ∨
      (kstate ((Arrival.dump e).apply s env) k = kstate s k ∧ e.version ≤ (kstate s k).version)) := by
  have hcache : 0 < ((Arrival.dump e).apply s env).cacheSize := by
    rw [arrival_cacheSize s env (.dump e)]; exact h.cache
  have habs : AbsoluteStore ((Arrival.dump e).apply s env) := by
    intro t k' it hl
    simp only [Arrival.apply] at hl
    by_cases hk : k' = e.key
    · subst hk
      obtain ⟨s1, cur, ex, hc⟩ : ∃ s1 cur ex, setCurrent s env e .ofDump = (s1, cur, ex) := ⟨_, _, _, rfl⟩
      rw [set_eval_plain hc rfl rfl he.ok hp] at hl
      rw [setCurrent_plain rfl] at hc
      simp only [Prod.mk.injEq] at hc
      obtain ⟨rfl, -⟩ := hc
      split at hl
      · exact h.abs t _ it hl
      · rename_i v hv
        have := lookup_put (s := s) (k := e.key) (e := { e with version := v }) (d := e.data) he.ok.1
          (by have := he.ok.2; rw [he.ok.1] at this; exact this) t
        rw [this] at hl
        split at hl
        · cases hl
        · cases hl; exact he.abs
    · rw [lookup_congr_db k' (set_db_ne s env e .ofDump hk) t] at hl
      exact h.abs t k' it hl
  have hsame : e.key ≠ k → kstate ((Arrival.dump e).apply s env) k = kstate s k := fun hk =>
    bare_other h.ok h.bare (c := .set e .ofDump) (by simp) (by simpa [Cmd.key?] using hk)
  have hown : e.key = k →
      (kstate ((Arrival.dump e).apply s env) k = .record e.item ∧ (kstate s k).version < e.version) ∨
      (kstate ((Arrival.dump e).apply s env) k = kstate s k ∧ e.version ≤ (kstate s k).version) := by
    intro hk
    subst hk
    rcases kstate_dump h.ok he.ok hp (he.own rfl).1 with ⟨g1, g2⟩ | ⟨g1, g2⟩
    · exact .inr ⟨by simp only [Arrival.apply]; rw [g2], g1⟩
    · exact .inl ⟨g2, g1⟩
  refine ⟨⟨arrival_ok h.ok env (.dump e), habs, hcache, ?_⟩, hsame, hown⟩
  by_cases hk : e.key = k
  · obtain ⟨h2, h3⟩ := he.own hk
    rcases hown hk with ⟨g, -⟩ | ⟨g, -⟩
    · exact .inr ⟨_, g, h3, h2⟩
    · rw [g]; exact h.bare
  · rw [hsame hk]; exact h.bare

end Flare
