import Verif.Props.Stats
import Verif.Props.BinMeaning

/-! C84 for the binary protocol: the counters say what clients were told. -/
namespace Flare

variable {σ : Type}

/-- A store that must find a version, by the status of its answer: done, other version, not there. -/
def heardStore (cas : UInt64) (status : UInt16) : Tally :=
  { cmdSet := 1
    totalItems := if status = 0 then 1 else 0
    casHits := if cas ≠ 0 ∧ status = 0 then 1 else 0
    casBadval := if cas ≠ 0 ∧ status = 2 then 1 else 0
    casMisses := if cas ≠ 0 ∧ status = 1 then 1 else 0 }

/-- What a client that counts its requests and the answers it reads expects one request to have added.  All it has to
look at is the status of the answer. -/
def BinAsk.heard (a : BinAsk) (t : BinMsg) : Tally :=
  let yes (n : Nat) : Nat := if t.vbucket = UInt16.ofNat n then 1 else 0
  match a with
  | .get _ _ _ => { cmdGet := 1, getHits := yes 0, getMisses := yes 1 }
  | .set _ _ _ _ _ c | .add _ _ _ _ _ c | .replace _ _ _ _ _ c => heardStore c t.vbucket
  | .append _ _ _ _ | .prepend _ _ _ _ => heardStore 0 t.vbucket
  | .touch _ _ => { cmdSet := 1, touchHits := yes 0, touchMisses := yes 1 }
  | .gat _ _ _ => { cmdSet := 1 }
  | .delete _ _ _ => { deleteHits := yes 0, deleteMisses := yes 1 }
  | .incr _ _ _ _ _ => { incrHits := yes 0, incrMisses := yes 1 }
  | .decr _ _ _ _ _ => { decrHits := yes 0, decrMisses := yes 1 }
  | .noop | .version | .flush _ => {}

/-- The same for all requests. -/
def binHeardAll : List BinAsk → List BinMsg → Tally
  | a :: as, t :: ts => (a.heard t).add (binHeardAll as ts)
  | _, _ => {}

/-- The success of a command. -/
def WriteCmd.success (c : WriteCmd) : Result :=
  match c.kind with
  | .store | .count => .stored
  | .touch => .touched
  | .delete => .deleted

/-- The write was carried out here, by a storage that has one success for each command. -/
def Did.binHere : BReq → Did → Prop
  | .write w, .wrote d => ∃ o, d = .own o ∧
      (o.rc = .ok → ∀ r, o.r = some r → r = w.req.cmd.success ∨ r = .notStored ∨ r = .exists_ ∨ r = .notFound)
  | _, _ => True

/-- A read of one key counts what the client reads. -/
theorem tallyGet_bin (k : Bytes) (a : ReadAt) (op : UInt8) :
    tallyGet [(k, a)] =
      { cmdGet := 1
        getHits := if ((BReq.get k).reply op (.got [(k, a)])).vbucket = 0 then 1 else 0
        getMisses := if ((BReq.get k).reply op (.got [(k, a)])).vbucket = 1 then 1 else 0 } := by
  have h := tallyGet_heard .get 0 [(k, a)] (by simp)
  rw [h]
  simp only [BReq.reply, heardOf, List.filterMap_cons, List.filterMap_nil]
  rcases Option.eq_none_or_eq_some a.found with hf | ⟨e, hf⟩ <;> simp only [hf] <;> rfl

/-- A write carried out here counts what the client reads. -/
theorem tallyHeld_own (op : UInt8) (a : BinAsk) (now : Int64) (w : HeldOp) (hw : a.meaning now = .write w) (o : Out)
    (h : o.rc = .ok → ∀ r, o.r = some r → r = w.req.cmd.success ∨ r = .notStored ∨ r = .exists_ ∨ r = .notFound)
    (hs : (Done.own o).BSound w.req.cmd) :
    tallyHeld w (.own o) = a.heard ((Done.own o).bin op w.req.cmd) := by
  obtain ⟨rc, res, e⟩ := o
  simp only [Done.BSound] at hs
  dsimp only at h hs
  cases rc with
  | ub => exact absurd rfl hs.1
  | err =>
    cases a <;> simp only [BinAsk.meaning, reduceCtorEq, BReq.write.injEq] at hw <;> subst hw <;>
      first
      | rfl
      | (rename_i c; by_cases hc : c = 0
         · subst hc; rfl
         · simp only [BinAsk.heard, heardStore, hc, ne_eq, not_false_eq_true, decide_true, true_and]; rfl)
  | ok =>
    obtain ⟨y, hy, -⟩ := hs.2 rfl
    subst hy
    have hh := h rfl y rfl
    cases a <;> simp only [BinAsk.meaning, reduceCtorEq, BReq.write.injEq] at hw <;> subst hw <;>
      rcases hh with rfl | rfl | rfl | rfl <;>
      first
      | rfl
      | (rename_i c; by_cases hc : c = 0
         · subst hc; rfl
         · simp only [BinAsk.heard, heardStore, hc, ne_eq, not_false_eq_true, decide_true, true_and]; rfl)

theorem filterMap_id_some {α : Type} (x : α) (l : List (Option α)) :
    (some x :: l).filterMap id = x :: l.filterMap id := rfl

theorem Tally.none_add (t : Tally) : ({} : Tally).add t = t := by simp [Tally.add]

theorem bTally_heard (B : BBack σ) (now : Int64) (st : σ) (a : BinAsk)
    (hs : Did.BSound (a.meaning now) (bPerform B st (a.meaning now)).2)
    (hh : Did.binHere (a.meaning now) (bPerform B st (a.meaning now)).2) :
    bTallyOf (a.meaning now) (bPerform B st (a.meaning now)).2 =
      a.heard (a.msg.reply (some (a.meaning now, (bPerform B st (a.meaning now)).2))) := by
  cases hm : a.meaning now with
  | write w =>
    rw [hm] at hs hh
    simp only [bPerform] at hs hh ⊢
    obtain ⟨o, ho, h⟩ := hh
    rw [ho] at hs ⊢
    exact tallyHeld_own a.msg.opcode a now w hm o h hs
  | get k =>
    have ha : ∃ q w, a = .get q w k := by
      cases a <;> simp only [BinAsk.meaning, reduceCtorEq, BReq.get.injEq] at hm
      subst hm; exact ⟨_, _, rfl⟩
    obtain ⟨q, w, rfl⟩ := ha
    simp only [bPerform, bTallyOf, BinMsg.reply]
    exact tallyGet_bin k _ _
  | _ =>
    cases a <;> simp only [BinAsk.meaning, reduceCtorEq] at hm <;> simp only [bPerform, bTallyOf] <;> rfl

theorem bTallyAll_heard (B : BBack σ) (now : Int64) (as : List BinAsk) :
    ∀ (st : σ), (∀ r d, some (r, d) ∈ (bPerformAll B st (as.map fun a => some (a.meaning now))).2 → Did.BSound r d) →
      (∀ r d, some (r, d) ∈ (bPerformAll B st (as.map fun a => some (a.meaning now))).2 → Did.binHere r d) →
      bTallyAll ((bPerformAll B st (as.map fun a => some (a.meaning now))).2.filterMap id) =
        binHeardAll as (as.zipWith (fun a x => a.msg.reply x) (bPerformAll B st (as.map fun a => some (a.meaning now))).2) := by
  induction as with
  | nil => intros; rfl
  | cons a as ih =>
    intro st hs hh
    simp only [List.map_cons, bPerformAll, List.mem_cons] at hs hh ⊢
    have h1 := bTally_heard B now st a (hs _ _ (.inl rfl)) (hh _ _ (.inl rfl))
    have h2 := ih (bPerform B st (a.meaning now)).1 (fun r d h => hs r d (.inr h)) (fun r d h => hh r d (.inr h))
    simp only [filterMap_id_some, bTallyAll, List.zipWith_cons_cons, binHeardAll, h1, h2]

/-- **C84 for the binary protocol.**  A client sends any requests of the protocol description to a node that carries its
writes out itself (reads may be passed on), and reads the answers.  Then what its session has added to the counters of
the node is what the client has counted by the status of each answer; a store under a version counts as `cas`.  Whatever
other clients do in between, and also for the quiet requests, which are answered.  Missing: writes that are passed on
(`C84_bin_passed_on`), requests that are refused (`C84_bin_refused`). -/
theorem C84_bin_told_partial (B : BBack σ) (now : Int64) (as : List BinAsk) (hk : ∀ a ∈ as, a.KeyOk)
    (hf : ∀ a ∈ as, a.msg.Fits) (st : σ)
    (hs : ∀ r d, some (r, d) ∈ (bPerformAll B st (as.map fun a => some (a.meaning now))).2 → Did.BSound r d)
    (hh : ∀ r d, some (r, d) ∈ (bPerformAll B st (as.map fun a => some (a.meaning now))).2 → Did.binHere r d) :
    let t := binServeAll B now st (as.flatMap fun a => a.msg.encode)
    ∃ replies, readBins as.length t.out = some (replies, []) ∧ bTallyAll t.did = binHeardAll as replies := by
  intro t
  obtain ⟨-, -, h3, -, h5⟩ := C72_meaning B now as hk hf st hs
  refine ⟨_, h5, ?_⟩
  rw [show t.did = _ from h3]
  exact bTallyAll_heard B now as st hs hh

/-- The storage answers as `Did.binHere` says. -/
theorem C84_bin_own_storage (s : Store) (env : Env) (w : HeldOp) :
    Did.binHere (.write w) (.wrote (.own (step s env w.call).2)) := by
  refine ⟨_, rfl, fun _ r hr => ?_⟩
  have hset : ∀ e b x, (set s env e b).2.r = some x →
      x = (if b.touch then .touched else .stored) ∨ x = .notStored ∨ x = .exists_ ∨ x = .notFound := by
    intro e b x h
    have hchk : ∀ st ev cv y, setCheck st b ev cv = .error y → y = .notStored ∨ y = .exists_ ∨ y = .notFound := by
      intro st ev cv y hy
      simp only [setCheck] at hy
      repeat' split at hy
      all_goals first | (cases hy; simp; done) | cases hy
    simp only [set] at h
    split at h
    · rename_i y hy
      simp only [Option.some.injEq] at h; subst h
      exact .inr (hchk _ _ _ _ hy)
    · split at h
      · cases h
      · cases h
      · split at h
        · cases h
        · split at h
          · cases h
          · simp only [Option.some.injEq] at h
            exact .inl h.symm
  have hinc : ∀ e v i x, (incr s env e v i {}).2.r = some x → x = .stored ∨ x = .notFound := by
    intro e v i x h
    have : ∀ y, (incrLocked s env e v i {}).2.1.r = some y → y = .stored ∨ y = .notFound := by
      intro y hy
      simp only [incrLocked] at hy
      repeat' split at hy
      all_goals first | (cases hy; simp; done) | cases hy
    simp only [incr] at h
    split at h <;> rename_i hx <;> rw [hx] at this <;> exact this _ h
  have hrem : ∀ e x, (remove s env e {}).2.r = some x → x = .deleted ∨ x = .notFound := by
    intro e x h
    simp only [remove] at h
    repeat' split at h
    all_goals first | (cases h; simp; done) | cases h
  obtain ⟨⟨cmd, path, e, v⟩, c⟩ := w
  cases cmd <;> simp only [HeldOp.call, WriteReq.call, step] at hr <;>
    first
    | exact hset _ _ _ hr
    | (rcases hinc _ _ _ _ hr with h | h
       · exact .inl h
       · exact .inr (.inr (.inr h)))
    | (rcases hrem _ _ hr with h | h
       · exact .inl h
       · exact .inr (.inr (.inr h)))

/-- A write of the binary protocol that is passed on counts as `cmd_set` where it arrives, if it stores or touches, and
as nothing else there. -/
theorem C84_bin_passed_on (w : HeldOp) (d : Done) (h : ∀ o, d ≠ .own o) :
    tallyHeld w d = if w.req.cmd.kind = .store ∨ w.req.cmd.kind = .touch then { cmdSet := 1 } else {} := by
  obtain ⟨⟨cmd, path, e, v⟩, c⟩ := w
  cases d with
  | own o => exact absurd rfl (h o)
  | _ => cases cmd <;> cases c <;> rfl

/-- Requests of the binary protocol that are refused or unknown are counted nowhere, whatever their operation code: the
session counts what it would count without them. -/
theorem C84_bin_refused (B : BBack σ) (now : Int64) (ms : List BinMsg) (hu : ∀ m ∈ ms, m.Usual) (st : σ)
    (hs : ∀ r d, some (r, d) ∈ (bPerformAll B st (ms.map (·.taken now))).2 → Did.BSound r d) :
    bTallyAll (binServeAll B now st (ms.flatMap BinMsg.encode)).did =
      bTallyAll (binServeAll B now st
        ((ms.filter fun m => m.taken now ≠ none ∧ m.taken now ≠ some .unknown).flatMap BinMsg.encode)).did := by
  have hperf : ∀ (ms : List BinMsg) (st : σ),
      bTallyAll ((bPerformAll B st (ms.map (·.taken now))).2.filterMap id) =
        bTallyAll ((bPerformAll B st ((ms.filter fun m => m.taken now ≠ none ∧ m.taken now ≠ some .unknown).map
          (·.taken now))).2.filterMap id) ∧
      ∀ r d, some (r, d) ∈ (bPerformAll B st ((ms.filter fun m => m.taken now ≠ none ∧ m.taken now ≠ some .unknown).map
          (·.taken now))).2 → some (r, d) ∈ (bPerformAll B st (ms.map (·.taken now))).2 := by
    intro ms
    induction ms with
    | nil => intro st; exact ⟨rfl, fun _ _ h => h⟩
    | cons m ms ih =>
      intro st
      rw [List.filter_cons]
      cases hm : m.taken now with
      | none =>
        obtain ⟨i1, i2⟩ := ih st
        simp only [hm, List.map_cons, bPerformAll, List.filterMap_cons, id, ne_eq, not_true_eq_false, false_and,
          decide_false, Bool.false_eq_true, if_false, List.mem_cons]
        exact ⟨i1, fun r d h => .inr (i2 r d h)⟩
      | some r =>
        by_cases hr : r = .unknown
        · subst hr
          obtain ⟨i1, i2⟩ := ih st
          simp only [hm, List.map_cons, bPerformAll, bPerform, filterMap_id_some, ne_eq, not_true_eq_false,
            and_false, decide_false, Bool.false_eq_true, if_false, List.mem_cons, bTallyAll, bTallyOf]
          exact ⟨(Tally.none_add _).trans i1, fun r d h => .inr (i2 r d h)⟩
        · obtain ⟨i1, i2⟩ := ih (bPerform B st r).1
          have : (decide (some r ≠ none ∧ some r ≠ some BReq.unknown)) = true := by simp [hr]
          simp only [hm, List.map_cons, bPerformAll, filterMap_id_some, this, if_true, List.mem_cons, bTallyAll]
          refine ⟨congrArg _ i1, fun r d h => ?_⟩
          rcases h with h | h
          · exact .inl h
          · exact .inr (i2 r d h)
  obtain ⟨p1, p2⟩ := hperf ms st
  obtain ⟨-, -, h3, -⟩ := C72_in_step_partial B now ms hu st hs
  obtain ⟨-, -, h3', -⟩ := C72_in_step_partial B now _
    (fun m hm => hu m (List.mem_of_mem_filter hm)) st (fun r d h => hs r d (p2 r d h))
  rw [h3, h3', p1]

/-- Defect: status 0x84 says as well that the request was refused, and not counted, as that the storage failed, when it is
counted;
only the text differs. -/
example : (BinMsg.plain 0x01 0 []).refused.vbucket = 0x84 ∧
    ((Done.own ⟨.err, none, { key := [] }⟩).bin 0x01 .set).vbucket = 0x84 ∧
    tallyHeld ⟨{ cmd := .set, entry := { key := [] } }, false⟩ (.own ⟨.err, none, { key := [] }⟩) = { cmdSet := 1 } := by
  decide +kernel

/-- The six requests of Props/BinMeaning: `add` stored, `prepend` stored, a store under a wrong version, `decr`, `gat`. -/
example : bTallyAll (binServeAll (binNode 1000) 1000 { cacheSize := 0 } (sixAsks.flatMap fun a => a.msg.encode)).did =
    { cmdSet := 4, totalItems := 2, casBadval := 1, decrHits := 1 } ∧
    binHeardAll sixAsks [.plain 0x12 0 [], .plain 0x0f 0 [], .plain 0x01 2 (ascii "Key exists"),
       .plain 0x16 0 [0, 0, 0, 0, 0, 0, 0, 40],
       { opcode := 0x1d, extras := [0, 0, 0, 7], key := [], value := ascii "40" }, .plain 0x18 0 []] =
    { cmdSet := 4, totalItems := 2, casBadval := 1, decrHits := 1 } := by
  refine ⟨by decide +kernel, by decide +kernel⟩

end Flare
