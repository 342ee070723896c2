import Verif.Spec.Replication
import Verif.Lemmas.StorageSet
import Verif.Props.Storage2
import Verif.Props.Storage3
import Verif.Props.Text

set_option linter.unusedSimpArgs false

namespace Flare

/-! ### What the storage leaves in the entry -/

theorem lt_succ_of_ne_zero {w : UInt64} (hw : w + 1 ≠ 0) : w < w + 1 := by
  rw [UInt64.lt_iff_toNat_lt]
  have h1 : (w + 1).toNat = (w.toNat + 1) % 2 ^ 64 := by
    rw [UInt64.toNat_add]; rfl
  have h2 : (w + 1).toNat ≠ 0 := by
    intro h; apply hw; apply UInt64.toNat_inj.1; rw [h]; rfl
  have h3 := w.toNat_lt
  omega

theorem setPrepare_fields {st : St} {b : Beh} {e cur e' : Entry}
    (h : setPrepare st b e cur = .ok (some e')) :
    e'.option = e.option ∧ e'.version = e.version ∧
      (e'.expire = e.expire ∨ (st = .alive ∧ e'.expire = cur.expire)) := by
  simp only [setPrepare] at h
  split at h
  · split at h
    · cases h
    · rename_i hal
      split at h
      · simp only [Except.ok.injEq, Option.some.injEq] at h; subst h
        exact ⟨rfl, rfl, Or.inr ⟨by simpa using hal, rfl⟩⟩
      · simp at h
  · split at h
    · simp only [Except.ok.injEq, Option.map_eq_some_iff] at h
      obtain ⟨a, ha, rfl⟩ := h
      exact ⟨rfl, rfl, Or.inl rfl⟩
    · simp only [Except.ok.injEq, Option.map_eq_some_iff] at h
      obtain ⟨a, ha, rfl⟩ := h
      exact ⟨rfl, rfl, Or.inl rfl⟩

theorem alive_lookup {s : Store} (hs : s.Ok) {env : Env} {e : Entry} {b : Beh}
    (hb : b.skipTimestamp = false)
    (h : setState env.now b (setCurrent s env e b).2.1 (setCurrent s env e b).2.2 = .alive) :
    ∃ it, lookup s env.now e.key = some it ∧ (setCurrent s env e b).2.1.expire = it.expire ∧
      (setCurrent s env e b).2.1.version = it.version := by
  cases hl : lookup s env.now e.key with
  | none => exact absurd h (setState_not_visible hs hb hl)
  | some it =>
    obtain ⟨cur, hc, -, hv, -, hx, -⟩ := setCurrent_visible (b := b) hs hl
    exact ⟨it, rfl, by rw [hc]; exact hx, by rw [hc]; exact hv⟩

/-- A `set` that answered stored or touched. -/
theorem set_done {s : Store} (hs : s.Ok) {env : Env} {e : Entry} {b : Beh} (he : e.Ok)
    (hb : b.skipTimestamp = false)
    (h : (set s env e b).2.r = some .stored ∨ (set s env e b).2.r = some .touched) :
    let e' := (set s env e b).2.e
    e'.key = e.key ∧ e'.option = e.option ∧ e'.Ok ∧
      (e'.expire = e.expire ∨ ∃ it, lookup s env.now e.key = some it ∧ e'.expire = it.expire) ∧
      (∀ t, lookup (set s env e b).1 t e.key =
        if 0 < e'.expire ∧ e'.expire ≤ t then none
        else some ⟨e'.data, e'.flag, e'.expire, e'.version⟩) ∧
      (b.skipVersion = false → b.touch = false → ∀ it, lookup s env.now e.key = some it →
        e'.version ≠ 0 → it.version < e'.version) := by
  have hlen := set_stored_len hs he h
  have h0 := h
  rcases set_cases s env e b with ⟨-, h1, h2⟩ | ⟨e', ho, hk, hsz, hst, v, hck, hp⟩
  · rcases h with h | h
    · exact absurd h h1
    · exact absurd h h2
  · rw [ho] at hlen
    simp only [ho]
    simp only at hlen
    obtain ⟨f1, f2, f3⟩ := setPrepare_fields hp
    have hok : e'.Ok := ⟨hlen, by rw [hlen]; exact hsz⟩
    have htake : e'.data.take e'.size.toNat = e'.data := List.take_of_length_le (by omega)
    refine ⟨hk, f1, hok, ?_, ?_, ?_⟩
    · rcases f3 with f3 | ⟨hal, f3⟩
      · exact Or.inl f3
      · obtain ⟨it, hl, hx, -⟩ := alive_lookup hs hb hal
        exact Or.inr ⟨it, hl, f3.trans hx⟩
    · intro t
      rw [hst, ← hk, lookup_put (by simp [hlen]) hsz, htake]
      simp [isExpired_false_iff]
    · intro hsv htc it hl hv0
      obtain ⟨cur, hc, hal, hcv, -⟩ := setCurrent_visible (b := b) hs hl
      rw [hc] at hck
      simp only [hal] at hck
      have hvv : e'.version = v := f2
      rw [hvv] at hv0 ⊢
      have hlt1 := @lt_succ_of_ne_zero
      rw [← hcv]
      simp only [setCheck, hsv, htc] at hck
      revert hck
      repeat' split
      all_goals intro hck
      all_goals first
        | cases hck; done
        | (simp only [Except.ok.injEq] at hck; subst hck)
      all_goals simp_all

/-- An `incr` or `decr` that answered stored. -/
theorem incr_done {s : Store} (hs : s.Ok) {env : Env} {e : Entry} {v : UInt64} {i : Bool}
    (h : (incr s env e v i {}).2.r = some .stored) :
    let e' := (incr s env e v i {}).2.e
    e'.key = e.key ∧ e'.option = e.option ∧ e'.Ok ∧
      (∃ it, lookup s env.now e.key = some it ∧ e'.expire = it.expire ∧
        e'.version = it.version + 1) ∧
      (∀ t, lookup (incr s env e v i {}).1 t e.key =
        if 0 < e'.expire ∧ e'.expire ≤ t then none
        else some ⟨e'.data, e'.flag, e'.expire, e'.version⟩) := by
  rcases incrLocked_cases s env e v i {} with ⟨h1, h2, -⟩ | ⟨raw, hraw, -, -, hx, -, hi⟩
  · exfalso
    apply h2
    simp only [incr] at h
    obtain ⟨s1, o, c, hl⟩ : ∃ s1 o c, incrLocked s env e v i {} = (s1, o, c) := ⟨_, _, _, rfl⟩
    rw [hl] at h ⊢
    cases c <;> exact h
  · have hi2 : incr s env e v i {} =
        ((incrLocked s env e v i {}).1, (incrLocked s env e v i {}).2.1) := by
      simp only [incr, hi]
    rw [hi2, hi]
    generalize hm : incrValue (leadingNumber (raw.drop headerSize)) v i = m
    have hlen := decimal_length_u64 m
    have hsz : (UInt64.ofNat (decimal m.toNat).length).toNat = (decimal m.toNat).length := by
      simp only [UInt64.toNat_ofNat']; omega
    have hok := decimal_size_ok m
    refine ⟨rfl, rfl, ⟨hsz.symm, ?_⟩, ⟨itemOf raw, ?_, rfl, rfl⟩, ?_⟩
    · rw [hsz] at hok; exact hok
    · rw [lookup_of_raw hraw (hs.1 _ _ hraw)]
      simp at hx; simp [hx]
    · intro t
      simp only [hsz, List.take_length]
      rw [lookup_put (by simp only [hsz]) hok]
      simp [isExpired_false_iff]

/-- A `remove` that answered deleted. -/
theorem remove_done {s : Store} (hs : s.Ok) {env : Env} {e : Entry}
    (h : (remove s env e {}).2.r = some .deleted) :
    let e' := (remove s env e {}).2.e
    e'.key = e.key ∧ e'.option = e.option ∧ e'.expire = e.expire ∧ e'.size = e.size ∧
      (∃ it, lookup s env.now e.key = some it ∧ it.version ≤ e'.version) := by
  cases hd : dbGet s.db e.key with
  | none =>
    exfalso
    revert h
    simp only [remove, getHeader, hd]
    repeat' split
    all_goals simp_all
  | some raw =>
    have hro := hs.1 _ _ hd
    have hver : (fill raw { key := [] }).version = (itemOf raw).version := rfl
    have hexp : (fill raw { key := [] }).expire = (itemOf raw).expire := rfl
    revert h
    simp only [remove, getHeader_present hs hd, fill_take, hver, hexp]
    split
    · simp
    · rename_i hnot
      split
      · simp
      · split
        · simp
        · cases hx : isExpired false (itemOf raw).expire env.now
          · intro _
            have hl : lookup s env.now e.key = some (itemOf raw) := by
              rw [lookup_of_raw hd hro]; simp [hx]
            by_cases h0 : e.version = 0
            · simp [h0, hl]
            · simp [h0, hl]
              simpa [h0] using hnot
          · simp

/-! ### The master -/

theorem lookup_dbOut {s s' : Store} {k : Bytes} (h : s'.db = s.db ∨ s'.db = dbOut s.db k)
    (t : Int64) (k' : Bytes) : lookup s' t k' = lookup s t k' ∨ lookup s' t k' = none := by
  rcases h with h | h
  · exact Or.inl (lookup_congr_db _ (by rw [h]) t)
  · by_cases hk : k' = k
    · right; subst hk; exact lookup_none_of_absent (by rw [h]; exact dbGet_dbOut_self _ _) t
    · exact Or.inl (lookup_congr_db _ (by rw [h]; exact dbGet_dbOut_ne _ hk) t)

theorem get_lookup_or {s : Store} (env : Env) (e : Entry) (b : Beh) (t : Int64) (k : Bytes) :
    lookup (get s env e b).1 t k = lookup s t k ∨ lookup (get s env e b).1 t k = none := by
  rcases get_db s env e b with h | h <;> rw [h]
  · exact Or.inl rfl
  · exact lookup_dbOut (remove_db ..) t k

/-- A storage call that does not report a change can only make things disappear. -/
theorem step_lookup_or {s : Store} {env : Env} {c : Cmd} {k : Bytes} (hf : c ≠ .flush)
    (hr : (step s env c).2.r ≠ some .stored ∧ (step s env c).2.r ≠ some .touched) (t : Int64) :
    lookup (step s env c).1 t k = lookup s t k ∨ lookup (step s env c).1 t k = none := by
  cases c with
  | set e b =>
    rcases set_cases s env e b with ⟨h, -⟩ | ⟨e', ho, -⟩
    · simp only [step]
      rw [h]
      rcases setCurrent_db s env e b with h | h <;> rw [h]
      · exact Or.inl rfl
      · exact get_lookup_or ..
    · simp only [step, ho] at hr
      split at hr
      · exact absurd rfl hr.2
      · exact absurd rfl hr.1
  | incr e v i b =>
    simp only [step]
    simp only [step] at hr
    rcases incrLocked_cases s env e v i b with ⟨h1, -, -⟩ | ⟨raw, -, -, -, -, -, hi⟩
    · simp only [incr]
      obtain ⟨s1, o, c, hl⟩ : ∃ s1 o c, incrLocked s env e v i b = (s1, o, c) := ⟨_, _, _, rfl⟩
      rw [hl] at h1 ⊢
      simp only at h1
      subst h1
      cases c with
      | none => exact Or.inl rfl
      | some cur => exact lookup_dbOut (remove_db ..) t k
    · exfalso
      apply hr.1
      simp only [incr, hi]
  | get e b => exact get_lookup_or ..
  | remove e b => exact lookup_dbOut (remove_db ..) t k
  | flush => exact absurd rfl hf

theorem call_not_flush (r : WriteReq) : r.call ≠ .flush := by
  obtain ⟨c, p, e, v⟩ := r
  cases c <;> simp [WriteReq.call]

theorem call_key (r : WriteReq) : r.call.key? = some r.entry.key := by
  obtain ⟨c, p, e, v⟩ := r
  cases c <;> rfl

/-- What the copy of a write says about the write. -/
structure CopyFacts (m m' : Store) (now : Int64) (r c : WriteReq) : Prop where
  key : c.entry.key = r.entry.key
  option : c.entry.option = r.entry.option
  value : c.value = 0
  expire : c.entry.expire = r.entry.expire ∨
    ∃ it, lookup m now r.entry.key = some it ∧ c.entry.expire = it.expire
  others : ∀ k, k ≠ r.entry.key → dbGet m'.db k = dbGet m.db k
  kinds : c.cmd = .set ∨ c.cmd = .delete ∨ c.cmd = .touch
  ofSet : c.cmd = .set → c.entry.Ok ∧
    (∀ t, lookup m' t r.entry.key = if 0 < c.entry.expire ∧ c.entry.expire ≤ t then none
      else some ⟨c.entry.data, c.entry.flag, c.entry.expire, c.entry.version⟩) ∧
    (c.entry.version ≠ 0 → ∀ it, lookup m now r.entry.key = some it →
      it.version < c.entry.version)
  ofDelete : c.cmd = .delete → (∀ t, lookup m' t r.entry.key = none) ∧
    ∃ it, lookup m now r.entry.key = some it ∧ it.version ≤ c.entry.version
  ofTouch : c.cmd = .touch → ∃ it, lookup m now r.entry.key = some it ∧
    ∀ t, lookup m' t r.entry.key = if 0 < c.entry.expire ∧ c.entry.expire ≤ t then none
      else some ⟨it.data, it.flag, c.entry.expire, it.version⟩

theorem setCheck_touch_ok {st : St} {ev cv v : UInt64} (h : setCheck st .ofTouch ev cv = .ok v) :
    st = .alive ∧ v = cv := by
  cases st <;> simp [setCheck, Beh.ofTouch] at h
  exact ⟨rfl, h.symm⟩

theorem touch_lookup {m : Store} (hm : m.Ok) {env : Env} {e : Entry} (he : e.Ok)
    (h : (set m env e .ofTouch).2.r = some .stored ∨
      (set m env e .ofTouch).2.r = some .touched) :
    (set m env e .ofTouch).2.e.expire = e.expire ∧
    ∃ it, lookup m env.now e.key = some it ∧
      ∀ t, lookup (set m env e .ofTouch).1 t e.key =
        if 0 < e.expire ∧ e.expire ≤ t then none
        else some ⟨it.data, it.flag, e.expire, it.version⟩ := by
  have hs := h
  rcases set_cases m env e .ofTouch with ⟨-, h1, h2⟩ | ⟨e', ho, hk, hsz, hst, v, hck, hp⟩
  · rcases h with h | h
    · exact absurd h h1
    · exact absurd h h2
  · have hal := (setCheck_touch_ok hck).1
    obtain ⟨it, hl, -, -⟩ := alive_lookup hm rfl hal
    have hx : e'.expire = e.expire := by
      simp only [setPrepare, Beh.ofTouch] at hp
      simp at hp
      obtain ⟨a, ha, rfl⟩ := hp
      rfl
    have hput : env.putOk = true := by
      cases hpo : env.putOk
      · exfalso
        revert ho
        obtain ⟨s1, cur, ex, hc⟩ : ∃ s1 cur ex, setCurrent m env e .ofTouch = (s1, cur, ex) :=
          ⟨_, _, _, rfl⟩
        simp only [set, hc, hpo]
        cases hck : setCheck (setState env.now .ofTouch cur ex) .ofTouch e.version cur.version with
        | error r => rcases setCheck_error hck with rfl | rfl | rfl <;> simp [Beh.ofTouch]
        | ok v =>
          simp only
          repeat' split
          all_goals simp_all
      · rfl
    refine ⟨by rw [ho]; exact hx, it, hl, (C06_touch hm hput hl).2⟩

theorem master_copy {m : Store} (hm : m.Ok) {env : Env} {path : List Bytes} {r c : WriteReq}
    (he : r.entry.Ok) (h : (atMaster m env path r).2 = some c) :
    CopyFacts m (atMaster m env path r).1 env.now r c ∧ c.path = path := by
  have hoth : ∀ k, k ≠ r.entry.key →
      dbGet (step m env r.call).1.db k = dbGet m.db k := fun k hk =>
    step_db_ne (call_not_flush r) (by rw [call_key]; intro h; exact hk (Option.some.inj h).symm)
  simp only [atMaster, copyOf] at h ⊢
  split at h
  next hcop =>
    simp only [Option.some.injEq] at h
    subst h
    have hset : ∀ b : Beh, b.skipTimestamp = false → b.skipVersion = false → b.touch = false →
        r.call = .set r.entry b → r.cmd.copy = .set →
        ((set m env r.entry b).2.r = some .stored ∨ (set m env r.entry b).2.r = some .touched) →
        CopyFacts m (step m env r.call).1 env.now r
          { cmd := r.cmd.copy, path := path, entry := (step m env r.call).2.e } := by
      intro b hb1 hb2 hb3 hcall hcmd hr
      obtain ⟨f1, f2, f3, f4, f5, f6⟩ := set_done hm he hb1 hr
      rw [hcall] at hoth ⊢
      simp only [step] at hoth ⊢
      refine ⟨f1, f2, rfl, f4, hoth, Or.inl hcmd, fun _ => ⟨f3, f5, fun h0 it hl => f6 hb2 hb3 it hl h0⟩,
        ?_, ?_⟩
      · intro h; rw [hcmd] at h; cases h
      · intro h; rw [hcmd] at h; cases h
    have hinc : ∀ i : Bool, r.call = .incr r.entry r.value i {} → r.cmd.copy = .set →
        (incr m env r.entry r.value i {}).2.r = some .stored →
        CopyFacts m (step m env r.call).1 env.now r
          { cmd := r.cmd.copy, path := path, entry := (step m env r.call).2.e } := by
      intro i hcall hcmd hr
      obtain ⟨f1, f2, f3, ⟨it, hl, fx, fv⟩, f5⟩ := incr_done hm hr
      rw [hcall] at hoth ⊢
      simp only [step] at hoth ⊢
      refine ⟨f1, f2, rfl, Or.inr ⟨it, hl, fx⟩, hoth, Or.inl hcmd,
        fun _ => ⟨f3, f5, fun h0 it' hl' => ?_⟩, ?_, ?_⟩
      · rw [hl] at hl'; cases hl'
        simp only at h0
        rw [fv] at h0 ⊢
        exact lt_succ_of_ne_zero h0
      · intro h; rw [hcmd] at h; cases h
      · intro h; rw [hcmd] at h; cases h
    have htou : r.call = .set r.entry .ofTouch → r.cmd.copy = .touch →
        ((set m env r.entry .ofTouch).2.r = some .stored ∨
          (set m env r.entry .ofTouch).2.r = some .touched) →
        CopyFacts m (step m env r.call).1 env.now r
          { cmd := r.cmd.copy, path := path, entry := (step m env r.call).2.e } := by
      intro hcall hcmd hr
      obtain ⟨f1, f2, f3, f4, f5, -⟩ := set_done hm he rfl hr
      obtain ⟨g1, it, g2, g3⟩ := touch_lookup hm he hr
      rw [hcall] at hoth ⊢
      simp only [step] at hoth ⊢
      refine ⟨f1, f2, rfl, f4, hoth, Or.inr (Or.inr hcmd), ?_, ?_, fun _ => ⟨it, g2, ?_⟩⟩
      · intro h; rw [hcmd] at h; cases h
      · intro h; rw [hcmd] at h; cases h
      · simp only [g1]; exact g3
    refine ⟨?_, rfl⟩
    have hcmds : r.cmd = .set ∨ r.cmd = .add ∨ r.cmd = .replace ∨ r.cmd = .cas ∨ r.cmd = .append ∨
        r.cmd = .prepend ∨ r.cmd = .incr ∨ r.cmd = .decr ∨ r.cmd = .delete ∨ r.cmd = .touch ∨
        r.cmd = .gat := by cases r.cmd <;> simp
    rcases hcmds with hc | hc | hc | hc | hc | hc | hc | hc | hc | hc | hc
    · exact hset .ofSet rfl rfl rfl (by simp [WriteReq.call, hc]) (by rw [hc]; rfl)
        (by simpa [WriteCmd.copies, hc, WriteReq.call, step] using hcop)
    · exact hset .ofAdd rfl rfl rfl (by simp [WriteReq.call, hc]) (by rw [hc]; rfl)
        (by simpa [WriteCmd.copies, hc, WriteReq.call, step] using hcop)
    · exact hset .ofReplace rfl rfl rfl (by simp [WriteReq.call, hc]) (by rw [hc]; rfl)
        (by simpa [WriteCmd.copies, hc, WriteReq.call, step] using hcop)
    · exact hset .ofCas rfl rfl rfl (by simp [WriteReq.call, hc]) (by rw [hc]; rfl)
        (by simpa [WriteCmd.copies, hc, WriteReq.call, step] using hcop)
    · exact hset .ofAppend rfl rfl rfl (by simp [WriteReq.call, hc]) (by rw [hc]; rfl)
        (by simpa [WriteCmd.copies, hc, WriteReq.call, step] using hcop)
    · exact hset .ofPrepend rfl rfl rfl (by simp [WriteReq.call, hc]) (by rw [hc]; rfl)
        (by simpa [WriteCmd.copies, hc, WriteReq.call, step] using hcop)
    · exact hinc true (by simp [WriteReq.call, hc]) (by rw [hc]; rfl)
        (by simpa [WriteCmd.copies, hc, WriteReq.call, step] using hcop)
    · exact hinc false (by simp [WriteReq.call, hc]) (by rw [hc]; rfl)
        (by simpa [WriteCmd.copies, hc, WriteReq.call, step] using hcop)
    · have hcall : r.call = .remove r.entry {} := by simp [WriteReq.call, hc]
      have hr : (remove m env r.entry {}).2.r = some .deleted := by
        simpa [WriteCmd.copies, hc, WriteReq.call, step] using hcop
      obtain ⟨f1, f2, f3, f4, it, f5, f6⟩ := remove_done hm hr
      have hcmd : r.cmd.copy = .delete := by rw [hc]; rfl
      rw [hcall] at hoth ⊢
      simp only [step] at hoth ⊢
      refine ⟨f1, f2, rfl, Or.inl f3, hoth, Or.inr (Or.inl hcmd), ?_,
        fun _ => ⟨fun t => C08_absent_afterwards hr t, it, f5, f6⟩, ?_⟩
      · intro h; rw [hcmd] at h; cases h
      · intro h; rw [hcmd] at h; cases h
    · exact htou (by simp [WriteReq.call, hc]) (by rw [hc]; rfl)
        (by simpa [WriteCmd.copies, hc, WriteReq.call, step] using hcop)
    · exact htou (by simp [WriteReq.call, hc]) (by rw [hc]; rfl)
        (by simpa [WriteCmd.copies, hc, WriteReq.call, step] using hcop)
  · cases h

/-- A write without a copy changes nothing that is read from then on. -/
theorem master_no_copy {m : Store} (hm : m.Ok) {env : Env} {path : List Bytes} {r : WriteReq}
    (h : (atMaster m env path r).2 = none) :
    (∀ t k, env.now ≤ t → lookup (atMaster m env path r).1 t k = lookup m t k) ∧
    (∀ t k, lookup (atMaster m env path r).1 t k = lookup m t k ∨
      lookup (atMaster m env path r).1 t k = none) := by
  simp only [atMaster, copyOf] at h ⊢
  split at h
  · cases h
  next hcop =>
    have hr : (step m env r.call).2.r ≠ some .stored ∧ (step m env r.call).2.r ≠ some .touched ∧
        (step m env r.call).2.r ≠ some .deleted := by
      obtain ⟨cmd, p, e, v⟩ := r
      have h1 : ∀ (e : Entry) (b : Beh), (set m env e b).2.r ≠ some .deleted := by
        intro e b hh
        rcases set_cases m env e b with ⟨-, -⟩ | ⟨e', ho, -⟩
        · revert hh
          obtain ⟨s1, cur, ex, hc⟩ : ∃ s1 cur ex, setCurrent m env e b = (s1, cur, ex) :=
            ⟨_, _, _, rfl⟩
          simp only [set, hc]
          cases hck : setCheck (setState env.now b cur ex) b e.version cur.version with
          | error r => rcases setCheck_error hck with rfl | rfl | rfl <;> simp
          | ok v =>
            simp only
            repeat' split
            all_goals simp
        · rw [ho] at hh
          simp only [Option.some.injEq] at hh
          split at hh <;> cases hh
      have h2 : ∀ (e : Entry) (v : UInt64) (i : Bool),
          (incr m env e v i {}).2.r ≠ some .deleted ∧ (incr m env e v i {}).2.r ≠ some .touched := by
        intro e v i
        simp only [incr, incrLocked]
        repeat' split
        all_goals simp_all
        all_goals
          rename_i heq
          revert heq
          repeat' split
          all_goals
            intro heq
            simp only [Prod.mk.injEq] at heq
            obtain ⟨-, rfl, -⟩ := heq
            simp
      have h3 : ∀ (e : Entry), (remove m env e {}).2.r ≠ some .stored ∧
          (remove m env e {}).2.r ≠ some .touched := by
        intro e
        simp only [remove]
        repeat' split
        all_goals simp
      cases cmd <;> simp_all [WriteCmd.copies, WriteReq.call, step]
    exact ⟨fun t k ht => step_lookup hm (call_not_flush r) hr ht,
      fun t k => step_lookup_or (call_not_flush r) ⟨hr.1, hr.2.1⟩ t⟩

/-! ### The slave -/

theorem deliver_arrives {c : WriteReq} (hs : Sendable c 8192) (he : (encodeWrite c).isSome)
    (now : Int64) : deliver now c = some (arrives now c) := by
  obtain ⟨b, hb⟩ := Option.isSome_iff_exists.1 he
  have h := C35_forwarded_writes now (List.replicate 1024 0) (List.replicate 8192 0)
    List.length_replicate List.length_replicate [c] [b] (by simpa using hs) (by simp [hb]) []
  simp only [List.length_singleton, List.flatten_singleton, List.append_nil, List.map_cons,
    List.map_nil] at h
  simp only [deliver, hb, h]

theorem realtime_absolute {now x : Int64} (hx : Absolute x) : realtime now x = x := by
  rcases hx with rfl | h
  · rfl
  · rw [realtime]
    split
    · rename_i h0; exact h0.symm
    · rw [if_neg]
      rw [Int64.le_iff_toInt_le]; rw [Int64.lt_iff_toInt_lt] at h; omega

theorem absolute_nonneg {x : Int64} (hx : Absolute x) : 0 ≤ x.toInt := by
  rcases hx with rfl | h
  · decide
  · have hm : maxRealtimeDelta.toInt = 2592000 := by decide
    rw [Int64.lt_iff_toInt_lt] at h; omega

/-- A set with a version that is newer than what is visible takes effect. -/
theorem slave_set {s : Store} (hs : s.Ok) {env : Env} {e : Entry} (he : e.Ok)
    (hp : env.putOk = true) (h0 : e.version ≠ 0)
    (hv : ∀ it, lookup s env.now e.key = some it → it.version < e.version) (t : Int64) :
    lookup (set s env e .ofSet).1 t e.key =
      if 0 < e.expire ∧ e.expire ≤ t then none
      else some ⟨e.data, e.flag, e.expire, e.version⟩ := by
  cases hl : lookup s env.now e.key with
  | some it => exact (C10_newer_set hs .ofSet (Or.inl rfl) he hp hl (hv it hl)).2 t
  | none =>
    have hna := setState_not_visible (b := .ofSet) hs rfl hl
    obtain ⟨s1, cur, ex, hc⟩ : ∃ s1 cur ex, setCurrent s env e .ofSet = (s1, cur, ex) :=
      ⟨_, _, _, rfl⟩
    rw [hc] at hna
    rw [set_eval_plain hc rfl rfl he hp]
    have : setCheck (setState env.now .ofSet cur ex) .ofSet e.version cur.version =
        .ok e.version := by
      revert hna
      cases setState env.now .ofSet cur ex <;> simp [setCheck, Beh.ofSet, h0]
    rw [this]
    simp only
    rw [lookup_put he.1 (by rw [← he.1]; exact he.2)]
    simp [isExpired_false_iff]

theorem slave_ok {s : Store} (hs : s.Ok) (env : Env) (c : WriteReq) : (atSlave s env c).Ok := by
  simp only [atSlave]
  split
  · exact step_ok hs ..
  · exact hs

/-- The copy of a write brings the slave to where the master is. -/
theorem copy_same {m s m' : Store} (hs : s.Ok) {now : Int64} {env : Env} {r c : WriteReq}
    (hf : CopyFacts m m' now r c) (hsend : Sendable c 8192) (habs : Absolute c.entry.expire)
    (hca : CopyArrives m env.now c) (hp : env.putOk = true) (ho : env.outOk = true)
    (hnow : now ≤ env.now)
    (hearly : ∀ it, lookup m env.now r.entry.key = some it → lookup m now r.entry.key = some it)
    (h : SameFrom env.now m s) : SameFrom env.now m' (atSlave s env c) := by
  obtain ⟨hen, hver, htch⟩ := hca
  have hdel := deliver_arrives hsend hen env.now
  intro t ht k
  have hoth : k ≠ r.entry.key → lookup (atSlave s env c) t k = lookup m' t k := by
    intro hk
    have h1 : lookup m' t k = lookup m t k := lookup_congr_db _ (hf.others k hk) t
    have h2 : lookup (atSlave s env c) t k = lookup s t k := by
      refine lookup_congr_db _ ?_ t
      simp only [atSlave, hdel]
      refine step_db_ne (call_not_flush _) ?_
      rw [call_key]
      have : (arrives env.now c).entry.key = c.entry.key := by
        simp only [arrives]; split <;> rfl
      rw [this, hf.key]
      intro hh; exact hk (Option.some.inj hh).symm
    rw [h1, h2, h t ht k]
  by_cases hk : k = r.entry.key
  · subst hk
    have hsame := h env.now (Int64.le_refl _) r.entry.key
    rcases hf.kinds with hc | hc | hc
    · obtain ⟨he, hm', hv⟩ := hf.ofSet hc
      have h0 := hver hc
      have harr : arrives env.now c = c :=
        C35_store_unchanged env.now c (by simp [hc]) habs he.1 hf.value
      simp only [atSlave, hdel, harr, WriteReq.call, hc, step]
      rw [hm', ← hf.key]
      refine slave_set hs he hp h0 (fun it hit => ?_) t
      rw [hf.key, hsame] at hit
      exact hv h0 it (hearly it hit)
    · obtain ⟨hm', it, hl, hv⟩ := hf.ofDelete hc
      have harr : (arrives env.now c).call = .remove (arrives env.now c).entry {} ∧
          (arrives env.now c).entry.key = c.entry.key ∧
          (arrives env.now c).entry.version = c.entry.version := by
        simp [arrives, WriteReq.call, hc]
      obtain ⟨a1, a2, a3⟩ := harr
      generalize hae : (arrives env.now c).entry = ae at a1 a2 a3
      simp only [atSlave, hdel, a1, step, hm']
      by_cases hd : (remove s env ae {}).2.r = some .deleted
      · rw [← hf.key, ← a2]; exact C08_absent_afterwards hd t
      · rw [remove_lookup hs env ae {} hd ht, h t ht]
        have hgone : lookup m env.now r.entry.key = none := by
          rw [← hsame]
          cases hl2 : lookup s env.now r.entry.key with
          | none => rfl
          | some it2 =>
            exfalso
            apply hd
            rw [C08_deleted_iff hs ho]
            refine ⟨it2, by rw [a2, hf.key]; exact hl2, Or.inr ?_⟩
            rw [hsame] at hl2
            have := hearly it2 hl2
            rw [hl] at this
            cases this
            rw [a3]; exact hv
        cases hl3 : lookup m t r.entry.key with
        | none => rfl
        | some it3 =>
          exfalso
          have hl4 : lookup s t r.entry.key = some it3 := by rw [h t ht]; exact hl3
          obtain ⟨raw, hraw, rfl, hx⟩ := (lookup_eq_some hs).1 hl4
          have : lookup s env.now r.entry.key = some (itemOf raw) := by
            rw [lookup_eq_some hs]
            exact ⟨raw, hraw, rfl, fun hx2 => hx ⟨hx2.1, Int64.le_trans hx2.2 ht⟩⟩
          rw [hsame, hgone] at this
          cases this
    · obtain ⟨it, hl, hm'⟩ := hf.ofTouch hc
      have harr : (arrives env.now c).call = .set (arrives env.now c).entry .ofTouch ∧
          (arrives env.now c).entry.key = c.entry.key ∧
          (arrives env.now c).entry.expire = c.entry.expire := by
        simp [arrives, WriteReq.call, hc, realtime_absolute habs]
      obtain ⟨a1, a2, a3⟩ := harr
      generalize hae : (arrives env.now c).entry = ae at a1 a2 a3
      simp only [atSlave, hdel, a1, step, hm']
      cases hl2 : lookup m env.now r.entry.key with
      | some it2 =>
        have hl3 := hearly it2 hl2
        rw [hl] at hl3; cases hl3
        have := (C06_touch (e := ae) hs hp (by rw [a2, hf.key, hsame]; exact hl2)).2 t
        rw [a2, hf.key, a3] at this
        exact this
      | none =>
        rcases htch hc with h1 | h1
        · rw [hf.key] at h1; exact absurd hl2 h1
        · rw [if_pos ⟨h1.1, Int64.le_trans h1.2 ht⟩]
          have hnone : lookup s t r.entry.key = none := by
            rw [lookup_eq_none hs]
            have := hsame.trans hl2
            rcases (lookup_eq_none hs).1 this with hh | ⟨raw, hraw, hx⟩
            · exact Or.inl hh
            · exact Or.inr ⟨raw, hraw, hx.1, Int64.le_trans hx.2 ht⟩
          by_cases hr : (set s env ae .ofTouch).2.r = some .stored ∨
              (set s env ae .ofTouch).2.r = some .touched
          · exfalso
            rcases set_cases s env ae .ofTouch with ⟨-, g1, g2⟩ | ⟨e', go, -, -, -, v, gc, -⟩
            · rcases hr with hr | hr
              · exact g1 hr
              · exact g2 hr
            · have hal := (setCheck_touch_ok gc).1
              obtain ⟨it5, hl5, -⟩ := alive_lookup hs rfl hal
              rw [a2, hf.key, hsame, hl2] at hl5
              cases hl5
          · rw [not_or] at hr
            rw [C06_refused_unchanged hs hr _ ht]
            exact hnone
  · exact hoth hk

end Flare
