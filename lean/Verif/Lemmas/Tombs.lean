import Verif.Spec.Tombs
import Verif.Lemmas.FailoverGroup

namespace Flare

/-! ### One node -/

/-- Values and deletions in the order in which they replace each other: a deletion has the version of the value. -/
def KState.rank : KState → Nat
  | .record x => 2 * x.version.toNat
  | .gone v => 2 * v.toNat + 1
  | .nothing => 0

/-- What the copy of a write stands for. -/
def WriteReq.mark (c : WriteReq) : KState :=
  if c.cmd = .delete then .gone c.entry.version else .record c.entry.item

/-- Nothing, a record that does not expire, or a deletion. -/
def Lasting : KState → Prop
  | .nothing => True
  | .record x => ¬ 0 < x.expire ∧ x.version ≠ 0
  | .gone v => v ≠ 0

def Rise (st st' : KState) : Prop := st' = st ∨ st.rank < st'.rank

theorem Rise.refl (st : KState) : Rise st st := .inl rfl

theorem Rise.trans {a b c : KState} (h1 : Rise a b) (h2 : Rise b c) : Rise a c := by
  rcases h2 with rfl | h2
  · exact h1
  · right
    rcases h1 with rfl | h1
    · exact h2
    · omega

theorem Rise.le {a b : KState} (h : Rise a b) : a.rank ≤ b.rank := by
  rcases h with rfl | h <;> omega

theorem lasting_rank {st : KState} (h : Lasting st) (hn : st ≠ .nothing) : st.rank ≠ 0 := by
  cases st with
  | nothing => exact absurd rfl hn
  | record x =>
    intro h0
    apply h.2
    simp only [KState.rank] at h0
    apply UInt64.toNat_inj.1
    show x.version.toNat = 0
    omega
  | gone v => simp [KState.rank]

structure HostFit (k : Bytes) (s : Store) : Prop where
  ok : s.Ok
  abs : AbsoluteStore s
  cache : 0 < s.cacheSize
  lasting : Lasting (kstate s k)

structure CopyFit (k : Bytes) (c : WriteReq) : Prop where
  send : Sendable c 8192
  abs : Absolute c.entry.expire
  value : c.value = 0
  ok : c.cmd = .set → c.entry.Ok
  kinds : c.cmd = .set ∨ c.cmd = .delete ∨ c.cmd = .touch
  own : c.entry.key = k → (c.cmd = .set ∧ ¬ 0 < c.entry.expire ∨ c.cmd = .delete) ∧ c.entry.version ≠ 0 ∧ (encodeWrite c).isSome

theorem CopyFit.good {k : Bytes} {c : WriteReq} (h : CopyFit k c) : GoodCopy k c :=
  ⟨h.send, fun hk => ⟨(h.own hk).2.2, (h.own hk).1.imp (·.1) id, (h.own hk).2.1, h.abs, h.value, h.ok⟩⟩

theorem CopyFit.lasting {k : Bytes} {c : WriteReq} (h : CopyFit k c) (hk : c.entry.key = k) : Lasting c.mark := by
  obtain ⟨h1, h2, -⟩ := h.own hk
  unfold WriteReq.mark
  split
  · exact h2
  · rcases h1 with h1 | h1
    · exact ⟨h1.2, h2⟩
    · exact absurd h1 ‹_›

theorem lastVersion_kstate {s : Store} (hs : s.Ok) (k : Bytes) : lastVersion s k = (kstate s k).version := by
  rw [lastVersion_known hs, kstate_known]

theorem lookup_min_none {s : Store} (hs : s.Ok) {k : Bytes} :
    lookup s Int64.minValue k = none ↔ ∀ x, kstate s k ≠ .record x := by
  rw [kstate_lookup hs]
  cases h : kstate s k with
  | record x =>
    simp only [KState.visible]
    rw [if_neg (not_expired_min x)]
    simp
  | gone v => simp [KState.visible]
  | nothing => simp [KState.visible]

/-- Somebody reads. -/
theorem fit_get {k : Bytes} {s : Store} (h : HostFit k s) (env : Env) (e : Entry)
    (hr : Remembered s k → Remembered (get s env e {}).1 k) :
    HostFit k (get s env e {}).1 ∧ kstate (get s env e {}).1 k = kstate s k := by
  have key : kstate (get s env e {}).1 k = kstate s k := by
    by_cases hk : e.key = k
    · subst hk
      rcases kstate_get h.ok h.cache (env := env) (e := e) with h1 | ⟨it, h1, h2, -⟩
      · exact h1
      · have := h.lasting
        rw [h1] at this
        exact absurd h2.1 this.1
    · exact kstate_other h.ok (c := .get e {}) (by simp) (by simpa [Cmd.key?] using hk) hr
  refine ⟨⟨get_ok h.ok .., absolute_of_or h.abs (fun t k => get_lookup_or env e {} t k), ?_, ?_⟩, key⟩
  · rw [show (get s env e {}).1.cacheSize = s.cacheSize from step_cacheSize s env (.get e {})]; exact h.cache
  · rw [key]; exact h.lasting

/-- A client deletes a record. -/
theorem removed_gone {s : Store} (hs : s.Ok) (hz : 0 < s.cacheSize) {env : Env} {e : Entry} (h0 : e.version = 0)
    (h : (remove s env e {}).2.r = some .deleted) :
    kstate (remove s env e {}).1 e.key = .gone (remove s env e {}).2.e.version := by
  obtain ⟨-, hd⟩ := removed_version hs h0 h
  cases hd' : dbGet s.db e.key with
  | none => exact absurd hd' hd
  | some raw =>
    revert h
    simp only [remove, getHeader_present hs hd', h0]
    repeat' split
    all_goals try simp_all
    have hself := setHeaderCache_get_self (s := { s with db := dbOut s.db e.key }) hs.2.1 hz env.now
      { e with version := (fill (List.take headerSize raw) { key := [] }).version }
    simp only [kstate, setHeaderCache_db, dbGet_dbOut_self]
    simp only at hself
    rw [hself]

/-- A deletion that is not carried out leaves the record as it is. -/
theorem not_removed {s : Store} (hs : s.Ok) {env : Env} {e : Entry} (h0 : e.version = 0) (hl : Lasting (kstate s e.key))
    (h : (remove s env e {}).2.r ≠ some .deleted) : (remove s env e {}).1 = s := by
  cases hd : dbGet s.db e.key with
  | none =>
    simp only [remove, getHeader, hd, h0]
    repeat' split
    all_goals simp_all
  | some raw =>
    have hx : ¬ 0 < (itemOf raw).expire := by
      simp only [kstate, hd] at hl
      exact hl.1
    have hex : isExpired false (fill raw { key := [] }).expire env.now = false := by
      rw [(fill_itemOf raw { key := [] }).2.1]
      simp only [isExpired]
      simp [hx]
    revert h
    simp only [remove, getHeader_present hs hd, h0, fill_take, hex]
    repeat' split
    all_goals simp_all

theorem fit_write {k : Bytes} {m : Store} (h : HostFit k m) {env : Env} {path : List Bytes} {r : WriteReq}
    (hw : ClientWrite r) (hp : PlainPath path)
    (hk : r.entry.key = k → r.call.client ∧ (r.cmd.copy = .set ∧ ¬ 0 < r.entry.expire ∨ r.cmd.copy = .delete) ∧
      ∀ c, (atMaster m env path r).2 = some c → (encodeWrite c).isSome)
    (hr : Remembered m k → Remembered (atMaster m env path r).1 k)
    {n : Nat} (hv : (kstate m k).version.toNat ≤ n) (hn : n + 1 < 2 ^ 64) :
    HostFit k (atMaster m env path r).1 ∧ (∀ c, (atMaster m env path r).2 = some c → CopyFit k c) ∧
    (kstate (atMaster m env path r).1 k).version.toNat ≤ n + 1 ∧
    ((kstate (atMaster m env path r).1 k = kstate m k ∧
        ∀ c, (atMaster m env path r).2 = some c → c.entry.key ≠ k) ∨
      ∃ c, (atMaster m env path r).2 = some c ∧ c.entry.key = k ∧
        kstate (atMaster m env path r).1 k = c.mark ∧ (kstate m k).rank < c.mark.rank) := by
  have hf := event_facts h.ok h.abs k (ev := .write env path r) ⟨hw, hp⟩
  have hap : (MEvent.write env path r).apply m = ((atMaster m env path r).1, (atMaster m env path r).2.map .copy) := rfl
  obtain ⟨f1, f2, f3, -, -, -⟩ := hf
  rw [hap] at f1 f2 f3
  simp only at f1 f2 f3
  have hcache : 0 < (atMaster m env path r).1.cacheSize := by
    show 0 < (step m env r.call).1.cacheSize
    rw [step_cacheSize]; exact h.cache
  obtain ⟨v1, v2, v3⟩ := version_succ hv hn
  cases hc : (atMaster m env path r).2 with
  | none =>
    have hks : kstate (atMaster m env path r).1 k = kstate m k := by
      by_cases hkk : r.entry.key = k
      · cases hst : kstate m k with
        | record x =>
          have hl := h.lasting
          rw [hst] at hl
          have hn := (master_no_copy h.ok hc).1 env.now k (Int64.le_refl _)
          rw [bare_lookup h.ok hst hl.1] at hn
          rw [kstate_of_lookup f1 hn]
        | _ =>
          have hd : dbGet m.db r.entry.key = none := by
            rw [hkk]
            simp only [kstate] at hst
            cases hd : dbGet m.db k with
            | none => rfl
            | some raw => rw [hd] at hst; cases hst
          rcases (hk hkk).2.1 with ⟨h1, -⟩ | h1
          · rw [absent_unchanged hd h1 hc, hst]
          · have hrem : r.call = .remove r.entry {} := by
              obtain ⟨cmd, p, e, v⟩ := r
              cases cmd <;> simp only [WriteCmd.copy, reduceCtorEq] at h1
              rfl
            have hcl := (hk hkk).1
            rw [hrem] at hcl
            have : (atMaster m env path r).1 = m := by
              show (step m env r.call).1 = m
              rw [hrem]
              refine not_removed h.ok hcl.1 (by rw [hkk]; exact h.lasting) ?_
              intro hdel
              have := (removed_version h.ok hcl.1 hdel).2
              exact this hd
            rw [this, hst]
      · exact kstate_other h.ok (call_not_flush r) (by rw [call_key]; simpa using hkk) hr
    refine ⟨⟨f1, f2, hcache, by rw [hks]; exact h.lasting⟩, fun c h => (nomatch h), by rw [hks]; omega,
      .inl ⟨hks, fun c h => (nomatch h)⟩⟩
  | some c =>
    obtain ⟨hcf, -⟩ := master_copy h.ok hw.2.2.2 hc
    obtain ⟨g1, g2, g3, g4, g5⟩ := f3 c (by rw [hc]; rfl)
    obtain ⟨hce, hst, hdl⟩ := copied_result hc
    by_cases hkk : r.entry.key = k
    · obtain ⟨k1, k2, k4⟩ := hk hkk
      have hck : c.entry.key = k := by rw [hcf.key]; exact hkk
      have hcs : c.cmd = r.cmd.copy := by
        simp only [atMaster, copyOf] at hc
        split at hc
        · cases hc; rfl
        · cases hc
      rcases k2 with ⟨k2, k3⟩ | k2
      · have hcs : c.cmd = .set := by rw [hcs, k2]
        obtain ⟨-, hl, -⟩ := hcf.ofSet hcs
        have hmark : c.mark = .record c.entry.item := by simp [WriteReq.mark, hcs]
        have hks : kstate (atMaster m env path r).1 k = .record c.entry.item := by
          apply kstate_of_lookup f1 (t := Int64.minValue)
          rw [← hkk, hl, if_neg (show ¬ (0 < c.entry.expire ∧ c.entry.expire ≤ Int64.minValue) from not_expired_min c.entry.item)]
          rfl
        have hver : c.entry.version = (kstate m k).version + 1 := by
          have := client_known h.ok env (c := r.call) k1 (k := k) hr
          rw [if_pos ⟨by rw [call_key, hkk], hst hcs⟩] at this
          rw [hce, this.2, kstate_known]
        have hexp : ¬ 0 < c.entry.expire := by
          rcases hcf.expire with h1 | ⟨it, h1, h2⟩
          · rw [h1]; exact k3
          · rw [h2]
            rw [hkk] at h1
            have hl := h.lasting
            rw [kstate_of_lookup h.ok h1] at hl
            exact hl.1
        have hnz : c.entry.version ≠ 0 := by rw [hver]; exact v1
        refine ⟨⟨f1, f2, hcache, by rw [hks]; exact ⟨hexp, hnz⟩⟩, ?_, ?_, .inr ⟨c, rfl, hck, by rw [hks, hmark], ?_⟩⟩
        · intro c' h'; cases h'
          exact ⟨g1, g2, g3, g4, g5, fun _ => ⟨.inl ⟨hcs, hexp⟩, hnz, k4 c hc⟩⟩
        · rw [hks]
          show c.entry.version.toNat ≤ _
          rw [hver]; exact v2
        · rw [hmark]
          show _ < 2 * c.entry.version.toNat
          rw [hver]
          rw [UInt64.lt_iff_toNat_lt] at v3
          generalize (kstate m k).version + 1 = w at v3
          cases hst : kstate m k with
          | nothing => rw [hst] at v3; simp only [KState.rank]; simp only [KState.version] at v3; omega
          | record x => rw [hst] at v3; simp only [KState.rank]; simp only [KState.version] at v3; omega
          | gone v => rw [hst] at v3; simp only [KState.rank]; simp only [KState.version] at v3; omega
      · have hcs : c.cmd = .delete := by rw [hcs, k2]
        have hmark : c.mark = .gone c.entry.version := by simp [WriteReq.mark, hcs]
        obtain ⟨hcall, hd⟩ := hdl hcs
        rw [hcall] at hd hce k1
        simp only [step] at hd hce
        obtain ⟨hver, hpres⟩ := removed_version h.ok k1.1 hd
        have hks : kstate (atMaster m env path r).1 k = .gone c.entry.version := by
          show kstate (step m env r.call).1 k = _
          rw [hcall, hce, ← hkk]
          exact removed_gone h.ok h.cache k1.1 hd
        rw [hkk] at hver hpres
        rw [← hce, ← kstate_known] at hver
        have hrec : ∃ x, kstate m k = .record x := by
          cases hdb : dbGet m.db k with
          | none => exact absurd hdb hpres
          | some raw => exact ⟨itemOf raw, by simp only [kstate, hdb]⟩
        obtain ⟨x, hx⟩ := hrec
        have hl := h.lasting
        rw [hx] at hl hver
        have hver : c.entry.version = x.version := hver
        have hnz : c.entry.version ≠ 0 := by rw [hver]; exact hl.2
        refine ⟨⟨f1, f2, hcache, by rw [hks]; exact hnz⟩, ?_, ?_, .inr ⟨c, rfl, hck, by rw [hks, hmark], ?_⟩⟩
        · intro c' h'; cases h'
          exact ⟨g1, g2, g3, g4, g5, fun _ => ⟨.inr hcs, hnz, k4 c hc⟩⟩
        · rw [hks]
          show c.entry.version.toNat ≤ _
          rw [hver]
          rw [hx] at hv
          exact Nat.le_succ_of_le hv
        · rw [hmark, hx, hver]
          simp only [KState.rank]
          omega
    · have hck : c.entry.key ≠ k := by rw [hcf.key]; exact hkk
      have hks : kstate (atMaster m env path r).1 k = kstate m k :=
        kstate_other h.ok (call_not_flush r) (by rw [call_key]; simpa using hkk) hr
      refine ⟨⟨f1, f2, hcache, by rw [hks]; exact h.lasting⟩, ?_, by rw [hks]; omega, .inl ⟨hks, ?_⟩⟩
      · intro c' h'; cases h'
        exact ⟨g1, g2, g3, g4, g5, fun h => absurd h hck⟩
      · intro c' h'; cases h'; exact hck

theorem fit_copy_client {c : WriteReq} {k : Bytes} (hc : CopyFit k c) (now : Int64) : ClientWrite (arrives now c) := by
  obtain ⟨⟨s1, s2, s3, s4⟩, ha, -, hok, hkind, -⟩ := hc
  refine ⟨by rw [arrives_key]; exact s1, ?_⟩
  have hz : (0 : Nat) = (0 : UInt64).toNat := rfl
  rcases hkind with h | h | h <;> simp only [arrives, h]
  · obtain ⟨h1, h2⟩ := hok h
    refine ⟨s3, by rw [realtime_absolute ha]; exact ha, ?_, ?_⟩
    · rw [List.length_take, ← h1, Nat.min_self]
    · rw [List.length_take, ← h1, Nat.min_self]; exact h2
  · exact ⟨s3, by rw [realtime_absolute ha]; exact ha, hz, (show headerSize + 0 ≤ intMax by decide)⟩
  · refine ⟨?_, by rw [realtime_absolute ha]; exact ha, hz, (show headerSize + 0 ≤ intMax by decide)⟩
    have hle : c.entry.option &&& optNoreply ≤ optNoreply := by
      rw [UInt32.le_iff_toNat_le, UInt32.toNat_and]
      exact Nat.and_le_right
    exact UInt32.lt_of_le_of_lt hle (by decide)

theorem fit_arrive {k : Bytes} {s : Store} (h : HostFit k s) {env : Env} (hp : env.putOk = true) (ho : env.outOk = true)
    {c : WriteReq} (hc : CopyFit k c) (hr : Remembered s k → Remembered (atSlave s env c) k)
    (hno : NotOvertaken k s c) :
    HostFit k (atSlave s env c) ∧
    (c.entry.key ≠ k → kstate (atSlave s env c) k = kstate s k) ∧
    (c.entry.key = k →
      (kstate (atSlave s env c) k = c.mark ∧ (kstate s k).rank < c.mark.rank) ∨
      (kstate (atSlave s env c) k = kstate s k ∧ c.mark.rank ≤ (kstate s k).rank)) := by
  have hcache : 0 < (atSlave s env c).cacheSize := by
    rw [show (atSlave s env c).cacheSize = s.cacheSize from arrival_cacheSize s env (.copy c)]; exact h.cache
  have habs : AbsoluteStore (atSlave s env c) := by
    unfold atSlave
    cases hd : deliver env.now c with
    | none => exact h.abs
    | some r =>
      have hen : (encodeWrite c).isSome := by
        simp only [deliver] at hd
        split at hd
        · cases hd
        · rename_i h; simp [h]
      rw [deliver_arrives hc.send hen] at hd
      cases hd
      exact (event_facts h.ok h.abs [] (ev := .write env [] (arrives env.now c))
        ⟨fit_copy_client hc env.now, plainPath_nil⟩).absolute
  have hstep := arrival_step h.ok h.cache (k := k) (t := env.now) (env := env) (a := .copy c)
    ⟨Int64.le_refl _, hp, ho, hc.good⟩ hr
  have hsame : c.entry.key ≠ k → kstate (atSlave s env c) k = kstate s k := by
    intro hk
    simp only [Arrival.label, if_neg hk, KStep, Arrival.apply] at hstep
    rcases hstep with e | ⟨it, e, hx, -⟩
    · exact e
    · have := h.lasting
      rw [e] at this
      exact absurd hx.1 this.1
  have hown : c.entry.key = k →
      (kstate (atSlave s env c) k = c.mark ∧ (kstate s k).rank < c.mark.rank) ∨
      (kstate (atSlave s env c) k = kstate s k ∧ c.mark.rank ≤ (kstate s k).rank) := by
    intro hk
    simp only [Arrival.label, if_pos hk, Arrival.apply] at hstep
    obtain ⟨hkind, hnz, -⟩ := hc.own hk
    have hnz' : 0 < c.entry.version.toNat := Nat.pos_of_ne_zero fun h => hnz (UInt64.toNat_inj.1 h)
    by_cases hd : c.cmd = .delete
    · rw [if_pos hd] at hstep
      have hmark : c.mark = .gone c.entry.version := by simp [WriteReq.mark, hd]
      rw [hmark]
      simp only [KStep] at hstep
      rcases hstep with ⟨hlt, e⟩ | ⟨hle, e⟩
      · right
        refine ⟨e, ?_⟩
        rw [UInt64.lt_iff_toNat_lt] at hlt
        revert hlt
        cases kstate s k <;> simp only [KState.version, KState.rank] <;> intro hlt
        · omega
        · omega
        · exact absurd hlt (Nat.not_lt_zero _)
      · rw [UInt64.le_iff_toNat_le] at hle
        cases hst : kstate s k with
        | nothing => left; exact ⟨by rw [e], by simp only [KState.rank]; omega⟩
        | record x => rw [hst] at hle; left; exact ⟨by rw [e], by simp only [KState.rank]; simp only [KState.version] at hle; omega⟩
        | gone v =>
          rw [hst] at hle
          simp only [KState.version] at hle
          by_cases hv : v = c.entry.version
          · subst hv; right; exact ⟨by rw [e], Nat.le_refl _⟩
          · left
            refine ⟨by rw [e], ?_⟩
            have : v.toNat ≠ c.entry.version.toNat := fun h => hv (UInt64.toNat_inj.1 h)
            simp only [KState.rank]
            omega
    · rw [if_neg hd] at hstep
      have hmark : c.mark = .record c.entry.item := by simp [WriteReq.mark, hd]
      rw [hmark]
      simp only [KStep] at hstep
      have hno := hno hk hd
      rw [lastVersion_kstate h.ok, lookup_min_none h.ok] at hno
      cases hst : kstate s k with
      | nothing =>
        rw [hst] at hstep
        rcases hstep with e | ⟨it, e, -⟩
        · left; exact ⟨e, by show (0 : Nat) < 2 * c.entry.version.toNat; omega⟩
        · cases e
      | gone v =>
        rw [hst] at hstep hno
        have hlt := hno (fun x hx => by cases hx)
        rw [UInt64.lt_iff_toNat_lt] at hlt
        simp only [KState.version] at hlt
        rcases hstep with e | ⟨it, e, -⟩
        · left; exact ⟨e, by show 2 * v.toNat + 1 < 2 * c.entry.version.toNat; omega⟩
        · cases e
      | record x =>
        rw [hst] at hstep
        rcases hstep with e | ⟨it, e, hle, e2⟩
        · by_cases hle : c.entry.version ≤ x.version
          · -- an old copy is refused
            right
            have hdel := deliver_arrives hc.send (hc.own hk).2.2 env.now
            have hcs : c.cmd = .set := hkind.elim (·.1) (fun h => absurd h hd)
            have harr : arrives env.now c = c :=
              C35_store_unchanged env.now c (by simp [hcs]) hc.abs (hc.ok hcs).1 hc.value
            have hx : ¬ 0 < x.expire := by
              have := h.lasting
              rw [hst] at this
              exact this.1
            refine ⟨?_, ?_⟩
            · simp only [atSlave, hdel, harr, WriteReq.call, hcs, Flare.step]
              subst hk
              rw [kstate_set_old h.ok (hc.ok hcs) hp hnz hst hx hle]
            · rw [UInt64.le_iff_toNat_le] at hle
              show 2 * c.entry.version.toNat ≤ 2 * x.version.toNat
              omega
          · left
            refine ⟨e, ?_⟩
            have := UInt64.not_le.1 hle
            rw [UInt64.lt_iff_toNat_lt] at this
            show 2 * x.version.toNat < 2 * c.entry.version.toNat
            omega
        · cases e
          right
          refine ⟨e2, ?_⟩
          rw [UInt64.le_iff_toNat_le] at hle
          have hle : c.entry.version.toNat ≤ x.version.toNat := hle
          show 2 * c.entry.version.toNat ≤ 2 * x.version.toNat
          omega
  refine ⟨⟨slave_ok h.ok env c, habs, hcache, ?_⟩, hsame, hown⟩
  by_cases hk : c.entry.key = k
  · rcases hown hk with ⟨g, -⟩ | ⟨g, -⟩
    · rw [g]; exact hc.lasting hk
    · rw [g]; exact h.lasting
  · rw [hsame hk]; exact h.lasting

/-- What a node sends when its dump comes to a key. -/
theorem fit_dumps {k : Bytes} {s : Store} (h : HostFit k s) (env : Env) (k' : Bytes)
    (hr : Remembered s k → Remembered ((MEvent.dump env k').apply s).1 k) :
    HostFit k ((MEvent.dump env k').apply s).1 ∧ kstate ((MEvent.dump env k').apply s).1 k = kstate s k ∧
      ∀ e, ((MEvent.dump env k').apply s).2 = some (.dump e) →
        DumpOk k e ∧ e.key = k' ∧ (e.key = k → kstate s k = .record e.item) := by
  obtain ⟨r1, r2⟩ := fit_get h env { key := k' } hr
  refine ⟨r1, r2, fun e he => ?_⟩
  simp only [MEvent.apply] at he
  split at he
  next hg =>
    cases he
    obtain ⟨h1, h2, -, h4⟩ := dumped h.ok hg
    have hrec : (get s env { key := k' } {}).2.e.key = k → kstate s k = .record (get s env { key := k' } {}).2.e.item := by
      intro hk
      rw [h1] at hk
      rw [← hk]
      exact kstate_of_lookup h.ok h4
    refine ⟨⟨h2, h.abs _ _ _ h4, fun hk => ?_⟩, h1, hrec⟩
    have := h.lasting
    rw [hrec hk] at this
    exact ⟨this.2, this.1⟩
  · cases he

/-- A record of a dump at the node it was made for. -/
theorem fit_put {k : Bytes} {s : Store} (h : HostFit k s) {env : Env} (hp : env.putOk = true) (ho : env.outOk = true)
    {e : Entry} (he : DumpOk k e) (hr : Remembered s k → Remembered ((Arrival.dump e).apply s env) k) :
    HostFit k ((Arrival.dump e).apply s env) ∧
    (e.key ≠ k → kstate ((Arrival.dump e).apply s env) k = kstate s k) ∧
    (e.key = k →
      (kstate ((Arrival.dump e).apply s env) k = .record e.item ∧ (kstate s k).rank < 2 * e.version.toNat) ∨
      (kstate ((Arrival.dump e).apply s env) k = kstate s k ∧ 2 * e.version.toNat ≤ (kstate s k).rank)) := by
  have hcache : 0 < ((Arrival.dump e).apply s env).cacheSize := by
    rw [arrival_cacheSize s env (.dump e)]; exact h.cache
  have habs : AbsoluteStore ((Arrival.dump e).apply s env) := by
    intro t k' it hl
    simp only [Arrival.apply] at hl
    by_cases hk : k' = e.key
    · subst hk
      obtain ⟨s1, cur, ex, hc⟩ : ∃ s1 cur ex, setCurrent s env e .ofDump = (s1, cur, ex) := ⟨_, _, _, rfl⟩
      rw [set_eval_plain hc rfl rfl he.ok hp] at hl
      rw [setCurrent_plain rfl] at hc
      simp only [Prod.mk.injEq] at hc
      obtain ⟨rfl, -⟩ := hc
      split at hl
      · exact h.abs t _ it hl
      · rename_i v hv
        have := lookup_put (s := s) (k := e.key) (e := { e with version := v }) (d := e.data) he.ok.1
          (by have := he.ok.2; rw [he.ok.1] at this; exact this) t
        rw [this] at hl
        split at hl
        · cases hl
        · cases hl; exact he.abs
    · rw [lookup_congr_db k' (set_db_ne s env e .ofDump hk) t] at hl
      exact h.abs t k' it hl
  have hstep := arrival_step h.ok h.cache (k := k) (t := env.now) (env := env) (a := .dump e)
    ⟨Int64.le_refl _, hp, ho, fun hk => ⟨he.ok, (he.own hk).1⟩⟩ hr
  have hsame : e.key ≠ k → kstate ((Arrival.dump e).apply s env) k = kstate s k := fun hk =>
    kstate_other h.ok (c := .set e .ofDump) (by simp) (by simpa [Cmd.key?] using hk) hr
  have hown : e.key = k →
      (kstate ((Arrival.dump e).apply s env) k = .record e.item ∧ (kstate s k).rank < 2 * e.version.toNat) ∨
      (kstate ((Arrival.dump e).apply s env) k = kstate s k ∧ 2 * e.version.toNat ≤ (kstate s k).rank) := by
    intro hk
    simp only [Arrival.label, if_pos hk, KStep] at hstep
    rcases hstep with ⟨hle, g⟩ | ⟨hlt, g⟩
    · right
      refine ⟨g, ?_⟩
      rw [UInt64.le_iff_toNat_le] at hle
      have hle : e.version.toNat ≤ _ := hle
      revert hle
      cases kstate s k <;> simp only [KState.version, KState.rank] <;> intro hle
      · omega
      · omega
      · simp at hle; omega
    · left
      refine ⟨g, ?_⟩
      rw [UInt64.lt_iff_toNat_lt] at hlt
      have hlt : _ < e.version.toNat := hlt
      revert hlt
      cases kstate s k <;> simp only [KState.version, KState.rank] <;> intro hlt <;> omega
  refine ⟨⟨arrival_ok h.ok env (.dump e), habs, hcache, ?_⟩, hsame, hown⟩
  by_cases hk : e.key = k
  · obtain ⟨h2, h3⟩ := he.own hk
    rcases hown hk with ⟨g, -⟩ | ⟨g, -⟩
    · rw [g]; exact ⟨h3, h2⟩
    · rw [g]; exact h.lasting
  · rw [hsame hk]; exact h.lasting

end Flare
