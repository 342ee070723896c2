import Verif.Spec.Dump
import Verif.Lemmas.StorageHist
import Verif.Lemmas.TextLines
import Verif.Lemmas.Connection

namespace Flare

theorem run_ok {s : Store} (hs : s.Ok) (cs : List (Env × Cmd)) : (run s cs).Ok := by
  induction cs generalizing s with
  | nil => exact hs
  | cons c cs ih => exact ih (step_ok hs ..)

theorem run_iterLock (s : Store) (cs : List (Env × Cmd)) : (run s cs).iterLock = s.iterLock := by
  induction cs generalizing s with
  | nil => rfl
  | cons c cs ih => exact (ih _).trans (step_iterLock ..)

theorem run_concat (s : Store) (cs ds : List (Env × Cmd)) : run s (cs ++ ds) = run (run s cs) ds := by
  induction cs generalizing s with
  | nil => rfl
  | cons c cs ih => exact ih _

theorem remove_congr (s : Store) (env : Env) {e e' : Entry} (b : Beh) (h1 : e.key = e'.key)
    (h2 : e.expire = e'.expire) (h3 : e.version = e'.version) :
    (remove s env e b).1 = (remove s env e' b).1 := by
  obtain ⟨k, f, x, z, v, o, d⟩ := e
  obtain ⟨k', f', x', z', v', o', d'⟩ := e'
  simp only at h1 h2 h3
  subst h1 h2 h3
  simp only [remove]
  repeat' split
  all_goals first | rfl | exact setHeaderCache_congr _ _ rfl rfl rfl | simp_all

/-- What the loop gets for a key, whatever the entry it uses holds from the round before. -/
theorem get_reused {s : Store} (hs : s.Ok) (env : Env) (e : Entry) (k : Bytes) :
    (get s env { e with key := k } {}).1 = (get s env { key := k } {}).1 ∧
    (get s env { e with key := k } {}).2.rc = .ok ∧
    (get s env { e with key := k } {}).2.e.option = e.option ∧
    (get s env { e with key := k } {}).2.e.key = k ∧
    (lookup s env.now k = none → (get s env { e with key := k } {}).2.r = some .notFound) ∧
    (∀ it, lookup s env.now k = some it →
      (get s env { e with key := k } {}).2.r = some .none_ ∧
      (get s env { e with key := k } {}).2.e = { it.entry k with option := e.option }) := by
  cases hd : dbGet s.db k with
  | none =>
    have hl : lookup s env.now k = none := by
      simp [lookup, get_absent (e := { key := k }) hd]
    rw [get_absent (e := { e with key := k }) hd, get_absent (e := { key := k }) hd, hl]
    exact ⟨rfl, rfl, rfl, rfl, fun _ => rfl, (fun it h => nomatch h)⟩
  | some raw =>
    have hro := hs.1 _ _ hd
    cases hx : isExpired false (itemOf raw).expire env.now
    · have hl : lookup s env.now k = some (itemOf raw) := by
        simp only [lookup]
        rw [get_live (env := { now := env.now }) (e := { key := k }) hs hd hx]
        rfl
      rw [get_live (e := { e with key := k }) hs hd hx, get_live (e := { key := k }) hs hd hx, hl]
      refine ⟨rfl, rfl, rfl, rfl, (fun h => nomatch h), ?_⟩
      intro it h
      rw [← Option.some.inj h]
      refine ⟨rfl, ?_⟩
      have hz := rawOk_size hro { key := [] }
      have : (fill raw { key := [] }).size = UInt64.ofNat (raw.drop headerSize).length := by
        rw [List.length_drop, ← hz, UInt64.ofNat_toNat]
      simp only [Item.entry, itemOf, ← this]
      rfl
    · have hg : ∀ (e : Entry), get s env { e with key := k } {} =
          ((removeExpired s env (fill raw { e with key := k })).1,
            ⟨.ok, some .notFound, (removeExpired s env (fill raw { e with key := k })).2⟩) := by
        intro e
        simp [get, getRead_some (e := { e with key := k }) hd hro, hx]
      have hl : lookup s env.now k = none := by
        simp [lookup, get, getRead_some (e := { key := k }) hd hro, hx]
      have h1 := hg e
      have h2 := hg { key := k }
      simp only at h2
      rw [h1, h2, hl]
      refine ⟨?_, rfl, ?_, ?_, fun _ => rfl, (fun it h => nomatch h)⟩
      · exact remove_congr _ _ _ rfl rfl rfl
      · simp only [removeExpired, remove]
        repeat' split
        all_goals rfl
      · simp only [removeExpired, remove]
        repeat' split
        all_goals rfl

/-- The entries one round is to send. -/
def expect1 (b : Bytes → Option Bool) (s : Store) (r : DumpRound) : List Entry :=
  match r.key? with
  | some k =>
    if b k = some true then
      ((lookup (run s (r.before ++ r.mid)) r.env.now k).map (·.entry k)).toList
    else []
  | none => []

/-- The entries some rounds are to send. -/
def expect (b : Bytes → Option Bool) (s : Store) : List DumpRound → List Entry
  | [] => []
  | r :: rs => expect1 b s r ++ expect b (run s (r.calls b)) rs

/-- A round that goes on to the next one. -/
def DumpRound.through (b : Bytes → Option Bool) (r : DumpRound) : Prop :=
  r.shutdown = false ∧ ∃ k, r.key? = some k ∧ b k ≠ none

theorem iterNext_locked {s : Store} (h : s.iterLock = true) (a : Iteration) :
    iterNext s a = match a with
      | .continue_ k => .continue_ (k.takeWhile (· ≠ 0))
      | .end_ => .end_
      | .error => .error := by
  cases a <;> simp [iterNext, h]

/-- The loop sends what its rounds are to send, and how it ends. -/
theorem dumpLoop_spec (b : Bytes → Option Bool) (rs : List DumpRound) {s : Store} (hs : s.Ok)
    (hl : s.iterLock = true) {e : Entry} (he : e.option = 0) :
    ∃ pre post, rs = pre ++ post ∧ (∀ r ∈ pre, r.through b) ∧
      (dumpLoop b s e rs).sent = expect b s pre ∧
      ((dumpLoop b s e rs).ended = none → post = []) ∧
      ((dumpLoop b s e rs).ended = some .fin → ∃ r post', post = r :: post' ∧ r.ans = .end_ ∧
        r.shutdown = false ∧ r.late = false) ∧
      ((dumpLoop b s e rs).ended ≠ some .busy) ∧
      (∀ r post', post = r :: post' → r.ans = .end_ → r.shutdown = false → r.late = false →
        (dumpLoop b s e rs).ended = some .fin) := by
  induction rs generalizing s e with
  | nil => exact ⟨[], [], rfl, (fun _ h => nomatch h), rfl, fun _ => rfl, (fun h => nomatch h),
      (fun h => nomatch h), (fun r p h => nomatch h)⟩
  | cons r rs ih =>
    have hs1 : (run s r.before).Ok := run_ok hs _
    have hl1 : (run s r.before).iterLock = true := (run_iterLock ..).trans hl
    -- the loop is left in this round
    have stop : ∀ x s', dumpLoop b s e (r :: rs) = ⟨s', [], some x⟩ → x ≠ .busy →
        (x = .fin ↔ r.ans = .end_ ∧ r.shutdown = false ∧ r.late = false) →
        ∃ pre post, r :: rs = pre ++ post ∧ (∀ r ∈ pre, r.through b) ∧
          (dumpLoop b s e (r :: rs)).sent = expect b s pre ∧
          ((dumpLoop b s e (r :: rs)).ended = none → post = []) ∧
          ((dumpLoop b s e (r :: rs)).ended = some .fin → ∃ r post', post = r :: post' ∧
            r.ans = .end_ ∧ r.shutdown = false ∧ r.late = false) ∧
          ((dumpLoop b s e (r :: rs)).ended ≠ some .busy) ∧
          (∀ r' post', post = r' :: post' → r'.ans = .end_ → r'.shutdown = false →
            r'.late = false → (dumpLoop b s e (r :: rs)).ended = some .fin) := by
      intro x s' hx hb hf
      rw [hx]
      refine ⟨[], r :: rs, rfl, (fun _ h => nomatch h), rfl, fun h => (nomatch h), ?_, ?_, ?_⟩
      · intro h
        have h := hf.1 (Option.some.inj h)
        exact ⟨r, rs, rfl, h⟩
      · intro h; exact hb (Option.some.inj h)
      · intro r' p h h1 h2 h3
        rw [List.cons.injEq] at h
        rw [← h.1] at h1 h2 h3
        rw [hf.2 ⟨h1, h2, h3⟩]
    -- the loop goes on
    have go : ∀ s' e' add, (s' = run s (r.calls b)) → e'.option = 0 → r.through b →
        add = expect1 b s r →
        (dumpLoop b s e (r :: rs)).sent = add ++ (dumpLoop b s' e' rs).sent →
        (dumpLoop b s e (r :: rs)).ended = (dumpLoop b s' e' rs).ended →
        ∃ pre post, r :: rs = pre ++ post ∧ (∀ r ∈ pre, r.through b) ∧
          (dumpLoop b s e (r :: rs)).sent = expect b s pre ∧
          ((dumpLoop b s e (r :: rs)).ended = none → post = []) ∧
          ((dumpLoop b s e (r :: rs)).ended = some .fin → ∃ r post', post = r :: post' ∧
            r.ans = .end_ ∧ r.shutdown = false ∧ r.late = false) ∧
          ((dumpLoop b s e (r :: rs)).ended ≠ some .busy) ∧
          (∀ r' post', post = r' :: post' → r'.ans = .end_ → r'.shutdown = false →
            r'.late = false → (dumpLoop b s e (r :: rs)).ended = some .fin) := by
      intro s' e' add h1 h2 h3 h4 h5 h6
      subst h1
      obtain ⟨pre, post, g1, g2, g3, g4, g5, g6, g7⟩ :=
        ih (s := run s (r.calls b)) (run_ok hs _) ((run_iterLock ..).trans hl) h2
      rw [h5, h6]
      refine ⟨r :: pre, post, by rw [g1]; rfl, ?_, ?_, g4, g5, g6, g7⟩
      · intro r' hr'
        rcases List.mem_cons.1 hr' with rfl | hr'
        · exact h3
        · exact g2 _ hr'
      · rw [g3, h4]; rfl
    cases ha : r.ans with
    | end_ =>
      refine stop (dumpEnd .end_ (r.shutdown || r.late)) (run s r.before) ?_ ?_ ?_
      · simp only [dumpLoop, iterNext_locked hl1, ha]
      · simp only [dumpEnd]; split <;> simp
      · simp only [dumpEnd, ha]
        cases r.shutdown <;> cases r.late <;> simp
    | error =>
      refine stop (dumpEnd .error (r.shutdown || r.late)) (run s r.before) ?_ ?_ ?_
      · simp only [dumpLoop, iterNext_locked hl1, ha]
      · simp only [dumpEnd]; split <;> simp
      · simp only [dumpEnd, ha]
        cases r.shutdown <;> cases r.late <;> simp
    | continue_ k0 =>
      have hk : r.key? = some (k0.takeWhile (· ≠ 0)) := by simp only [DumpRound.key?, ha]
      generalize k0.takeWhile (· ≠ 0) = k at hk
      have hit : iterNext (run s r.before) r.ans = .continue_ k := by
        rw [iterNext_locked hl1, ha]
        simp only [DumpRound.key?, ha, Option.some.injEq] at hk
        simp only [hk]
      cases hsd : r.shutdown with
      | true =>
        refine stop (dumpEnd (.continue_ k) true) (run s r.before) ?_ (by simp [dumpEnd]) ?_
        · simp only [dumpLoop, hit, hsd, if_true]
        · simp [dumpEnd, hsd]
      | false =>
        cases hb : b k with
        | none =>
          refine stop .ub (run (run s r.before) r.mid) ?_ (by simp) ?_
          · simp only [dumpLoop, hit, hsd, hb, Bool.false_eq_true, if_false]
          · simp [ha]
        | some x =>
          have hth : r.through b := ⟨hsd, k, hk, by simp [hb]⟩
          cases x with
          | false =>
            refine go (run (run s r.before) r.mid) { e with key := k } [] ?_ he hth ?_ ?_ ?_
            · simp [DumpRound.calls, hk, hb, run_concat]
            · simp [expect1, hk, hb]
            · simp only [dumpLoop, hit, hsd, hb, Bool.false_eq_true, if_false, List.nil_append]
            · simp only [dumpLoop, hit, hsd, hb, Bool.false_eq_true, if_false]
          | true =>
            have hs2 : (run (run s r.before) r.mid).Ok := run_ok hs1 _
            obtain ⟨f1, f2, f3, f4, f5, f6⟩ := get_reused hs2 r.env e k
            have hcalls : (get (run (run s r.before) r.mid) r.env { e with key := k } {}).1 =
                run s (r.calls b) := by
              rw [f1]
              simp [DumpRound.calls, hk, hb, run_concat, run, step]
            have hexp : expect1 b s r =
                ((lookup (run (run s r.before) r.mid) r.env.now k).map (·.entry k)).toList := by
              simp [expect1, hk, hb, run_concat]
            obtain ⟨s2, o, hg⟩ : ∃ s2 o,
              get (run (run s r.before) r.mid) r.env { e with key := k } {} = (s2, o) := ⟨_, _, rfl⟩
            rw [hg] at f1 f2 f3 f4 f5 f6 hcalls
            simp only at f1 f2 f3 f4 f5 f6 hcalls
            cases hlk : lookup (run (run s r.before) r.mid) r.env.now k with
            | none =>
              have hr := f5 hlk
              refine go s2 o.e [] hcalls (f3.trans he) hth ?_ ?_ ?_
              · rw [hexp, hlk]; rfl
              · simp only [dumpLoop, hit, hsd, hb, Bool.false_eq_true, if_false, hg, hr, or_true,
                  if_true, List.nil_append]
              · simp only [dumpLoop, hit, hsd, hb, Bool.false_eq_true, if_false, hg, hr, or_true,
                  if_true]
            | some it =>
              obtain ⟨hr, hoe⟩ := f6 it hlk
              have hcond : ¬ (o.rc ≠ .ok ∨ o.r = some .notFound) := by simp [f2, hr]
              cases hw : r.writeOk with
              | false =>
                refine stop (dumpEnd (.continue_ k) r.late) s2 ?_ ?_ ?_
                · simp only [dumpLoop, hit, hsd, hb, Bool.false_eq_true, if_false, hg, if_neg hcond,
                    hw, Bool.not_false, if_true]
                · simp only [dumpEnd]; split <;> simp
                · simp only [dumpEnd, ha]; split <;> simp
              | true =>
                refine go s2 o.e [o.e] hcalls (f3.trans he) hth ?_ ?_ ?_
                · rw [hexp, hlk, hoe, he]; rfl
                · simp only [dumpLoop, hit, hsd, hb, Bool.false_eq_true, if_false, hg, if_neg hcond,
                    hw, Bool.not_true, DumpRun.cons, List.singleton_append]
                · simp only [dumpLoop, hit, hsd, hb, Bool.false_eq_true, if_false, hg, if_neg hcond,
                    hw, Bool.not_true, DumpRun.cons]

/-! ### What the rounds are to send -/

theorem dumpCalls_cons (b : Bytes → Option Bool) (r : DumpRound) (rs : List DumpRound) :
    dumpCalls b (r :: rs) = r.calls b ++ dumpCalls b rs := rfl

theorem expect_append (b : Bytes → Option Bool) (s : Store) (xs ys : List DumpRound) :
    expect b s (xs ++ ys) = expect b s xs ++ expect b (run s (dumpCalls b xs)) ys := by
  induction xs generalizing s with
  | nil => rfl
  | cons x xs ih =>
    simp only [List.cons_append, expect, dumpCalls_cons, run_concat, List.append_assoc]
    rw [ih]

theorem mem_expect1 {b : Bytes → Option Bool} {s : Store} {r : DumpRound} {e : Entry} :
    e ∈ expect1 b s r ↔ b e.key = some true ∧ r.key? = some e.key ∧
      ∃ it, lookup (run s (r.before ++ r.mid)) r.env.now e.key = some it ∧ e = it.entry e.key := by
  simp only [expect1]
  cases hk : r.key? with
  | none => simp
  | some k =>
    by_cases hb : b k = some true
    · simp only [hb, if_true]
      constructor
      · intro h
        cases hl : lookup (run s (r.before ++ r.mid)) r.env.now k with
        | none => simp [hl] at h
        | some it =>
          simp only [hl, Option.map_some, Option.toList_some, List.mem_singleton] at h
          subst h
          exact ⟨hb, rfl, it, hl, rfl⟩
      · rintro ⟨-, h1, it, h2, h3⟩
        rw [Option.some.injEq] at h1
        rw [h1, h2]
        simp only [Option.map_some, Option.toList_some, List.mem_singleton]
        exact h3
    · dsimp only
      rw [if_neg hb]
      constructor
      · intro h; exact nomatch h
      · rintro ⟨h1, h2, -⟩
        rw [Option.some.injEq] at h2
        exact absurd (h2 ▸ h1) hb

theorem mem_expect {b : Bytes → Option Bool} {s : Store} {rs : List DumpRound} {e : Entry} :
    e ∈ expect b s rs ↔ b e.key = some true ∧ ∃ pre r post, rs = pre ++ r :: post ∧
      r.key? = some e.key ∧
      ∃ it, lookup (run s (dumpCalls b pre ++ r.before ++ r.mid)) r.env.now e.key = some it ∧
        e = it.entry e.key := by
  induction rs generalizing s with
  | nil => simp [expect]
  | cons r rs ih =>
    simp only [expect, List.mem_append, ih, mem_expect1]
    constructor
    · rintro (⟨h1, h2, it, h3, h4⟩ | ⟨h1, pre, r', post, rfl, h3, it, h4, h5⟩)
      · exact ⟨h1, [], r, rs, rfl, h2, it, h3, h4⟩
      · refine ⟨h1, r :: pre, r', post, rfl, h3, it, ?_, h5⟩
        rw [← h4]
        simp only [dumpCalls_cons, List.append_assoc, run_concat]
    · rintro ⟨h1, pre, r', post, h2, h3, it, h4, h5⟩
      cases pre with
      | nil =>
        obtain ⟨rfl, rfl⟩ := List.cons.inj h2
        exact .inl ⟨h1, h3, it, h4, h5⟩
      | cons x pre =>
        obtain ⟨rfl, rfl⟩ := List.cons.inj h2
        refine .inr ⟨h1, pre, r', post, rfl, h3, it, ?_, h5⟩
        rw [← h4]
        simp only [dumpCalls_cons, List.append_assoc, run_concat]

theorem expect_filter_none {b : Bytes → Option Bool} {k : Bytes} {rs : List DumpRound} (s : Store)
    (h : ∀ r ∈ rs, r.key? ≠ some k) : (expect b s rs).filter (·.key = k) = [] := by
  rw [List.filter_eq_nil_iff]
  intro e he hk
  simp only [decide_eq_true_eq] at hk
  obtain ⟨-, pre, r, post, rfl, h2, -⟩ := mem_expect.1 he
  exact h r (by simp) (hk ▸ h2)

theorem expect_sublist (b : Bytes → Option Bool) (s : Store) (rs : List DumpRound) :
    ((expect b s rs).map (·.key)).Sublist (rs.filterMap (·.key?)) := by
  induction rs generalizing s with
  | nil => exact .slnil
  | cons r rs ih =>
    simp only [expect, List.map_append]
    cases hk : r.key? with
    | none => simp only [expect1, hk, List.map_nil, List.nil_append, List.filterMap_cons_none]; exact ih _
    | some k =>
      rw [List.filterMap_cons_some hk]
      have h1 : ((expect1 b s r).map (·.key)).Sublist [k] := by
        simp only [expect1, hk]
        split
        · cases lookup (run s (r.before ++ r.mid)) r.env.now k with
          | none => simp
          | some it => simp [Item.entry]
        · simp
      exact h1.append (ih _)

/-- Reads of other keys leave the record alone. -/
theorem run_gets_other {k : Bytes} (cs : List (Env × Cmd)) (s : Store)
    (h : ∀ p ∈ cs, p.2 ≠ .flush ∧ p.2.key? ≠ some k) : dbGet (run s cs).db k = dbGet s.db k := by
  induction cs generalizing s with
  | nil => rfl
  | cons c cs ih =>
    have hc := h c (by simp)
    exact (ih _ (fun p hp => h p (by simp [hp]))).trans (step_db_ne hc.1 hc.2)

/-! ### The initial copy to another cluster -/

theorem AlwaysFound.tail {b : Bytes → Option Bool} {s : Store} {r : DumpRound} {rs : List DumpRound}
    (h : AlwaysFound b s (r :: rs)) : AlwaysFound b (run s (r.calls b)) rs := by
  intro pre r' post k h1 h2 h3
  have := h (r :: pre) r' post k (by rw [h1]; rfl) h2 h3
  rw [← run_concat]
  simpa only [dumpCalls_cons, List.append_assoc] using this

/-- The copy to another cluster sends what its rounds are to send, if every key is found. -/
theorem dumpReplLoop_spec (b : Bytes → Option Bool) (rs : List DumpRound) {s : Store} (hs : s.Ok)
    (hl : s.iterLock = true) {e : Entry} (he : e.option = 0) (hf : AlwaysFound b s rs) :
    ∃ pre post, rs = pre ++ post ∧ (dumpReplLoop b s e rs).sent = expect b s pre ∧
      ((dumpReplLoop b s e rs).ended = none → post = []) ∧
      ((dumpReplLoop b s e rs).ended = some .fin → ∃ r post', post = r :: post' ∧ r.ans = .end_) := by
  induction rs generalizing s e with
  | nil => exact ⟨[], [], rfl, rfl, fun _ => rfl, (fun h => nomatch h)⟩
  | cons r rs ih =>
    have hs1 : (run s r.before).Ok := run_ok hs _
    have hl1 : (run s r.before).iterLock = true := (run_iterLock ..).trans hl
    have stop : ∀ x s', dumpReplLoop b s e (r :: rs) = ⟨s', [], some x⟩ →
        (x = .fin → r.ans = .end_) →
        ∃ pre post, r :: rs = pre ++ post ∧ (dumpReplLoop b s e (r :: rs)).sent = expect b s pre ∧
          ((dumpReplLoop b s e (r :: rs)).ended = none → post = []) ∧
          ((dumpReplLoop b s e (r :: rs)).ended = some .fin → ∃ r post', post = r :: post' ∧
            r.ans = .end_) := by
      intro x s' hx hf
      rw [hx]
      refine ⟨[], r :: rs, rfl, rfl, (fun h => nomatch h), ?_⟩
      intro h
      exact ⟨r, rs, rfl, hf (Option.some.inj h)⟩
    have go : ∀ s' e' add, (s' = run s (r.calls b)) → e'.option = 0 → add = expect1 b s r →
        (dumpReplLoop b s e (r :: rs)).sent = add ++ (dumpReplLoop b s' e' rs).sent →
        (dumpReplLoop b s e (r :: rs)).ended = (dumpReplLoop b s' e' rs).ended →
        ∃ pre post, r :: rs = pre ++ post ∧ (dumpReplLoop b s e (r :: rs)).sent = expect b s pre ∧
          ((dumpReplLoop b s e (r :: rs)).ended = none → post = []) ∧
          ((dumpReplLoop b s e (r :: rs)).ended = some .fin → ∃ r post', post = r :: post' ∧
            r.ans = .end_) := by
      intro s' e' add h1 h2 h4 h5 h6
      subst h1
      obtain ⟨pre, post, g1, g3, g4, g5⟩ :=
        ih (s := run s (r.calls b)) (run_ok hs _) ((run_iterLock ..).trans hl) h2 hf.tail
      rw [h5, h6]
      exact ⟨r :: pre, post, by rw [g1]; rfl, by rw [g3, h4]; rfl, g4, g5⟩
    cases ha : r.ans with
    | end_ =>
      refine stop .fin (run s r.before) ?_ (fun _ => ha)
      simp only [dumpReplLoop, iterNext_locked hl1, ha]
    | error =>
      refine stop .canceled (run s r.before) ?_ (fun h => nomatch h)
      simp only [dumpReplLoop, iterNext_locked hl1, ha]
    | continue_ k0 =>
      have hk : r.key? = some (k0.takeWhile (· ≠ 0)) := by simp only [DumpRound.key?, ha]
      generalize k0.takeWhile (· ≠ 0) = k at hk
      have hit : iterNext (run s r.before) r.ans = .continue_ k := by
        rw [iterNext_locked hl1, ha]
        simp only [DumpRound.key?, ha, Option.some.injEq] at hk
        simp only [hk]
      cases hsd : r.shutdown with
      | true =>
        refine stop .interrupted (run s r.before) ?_ (fun h => nomatch h)
        simp only [dumpReplLoop, hit, hsd, if_true]
      | false =>
        cases hb : b k with
        | none =>
          refine stop .ub (run (run s r.before) r.mid) ?_ (fun h => nomatch h)
          simp only [dumpReplLoop, hit, hsd, hb, Bool.false_eq_true, if_false]
        | some x =>
          cases x with
          | false =>
            refine go (run (run s r.before) r.mid) { e with key := k } [] ?_ he ?_ ?_ ?_
            · simp [DumpRound.calls, hk, hb, run_concat]
            · simp [expect1, hk, hb]
            · simp only [dumpReplLoop, hit, hsd, hb, Bool.false_eq_true, if_false, List.nil_append]
            · simp only [dumpReplLoop, hit, hsd, hb, Bool.false_eq_true, if_false]
          | true =>
            have hs2 : (run (run s r.before) r.mid).Ok := run_ok hs1 _
            obtain ⟨f1, f2, f3, f4, f5, f6⟩ := get_reused hs2 r.env e k
            have hcalls : (get (run (run s r.before) r.mid) r.env { e with key := k } {}).1 =
                run s (r.calls b) := by
              rw [f1]
              simp [DumpRound.calls, hk, hb, run_concat, run, step]
            have hexp : expect1 b s r =
                ((lookup (run (run s r.before) r.mid) r.env.now k).map (·.entry k)).toList := by
              simp [expect1, hk, hb, run_concat]
            have hfound := hf [] r rs k rfl hk hb
            rw [show dumpCalls b [] ++ r.before ++ r.mid = r.before ++ r.mid from rfl,
              run_concat] at hfound
            obtain ⟨s2, o, hg⟩ : ∃ s2 o,
              get (run (run s r.before) r.mid) r.env { e with key := k } {} = (s2, o) := ⟨_, _, rfl⟩
            rw [hg] at f1 f2 f3 f4 f5 f6 hcalls
            simp only at f1 f2 f3 f4 f5 f6 hcalls
            cases hlk : lookup (run (run s r.before) r.mid) r.env.now k with
            | none => exact absurd hlk hfound
            | some it =>
              obtain ⟨hr, hoe⟩ := f6 it hlk
              have hone : [o.e] = expect1 b s r := by rw [hexp, hlk, hoe, he]; rfl
              cases hw : r.writeOk with
              | false =>
                have hx : dumpReplLoop b s e (r :: rs) = ⟨s2, [o.e], some .canceled⟩ := by
                  simp only [dumpReplLoop, hit, hsd, hb, Bool.false_eq_true, if_false, hg, f2,
                    ne_eq, not_true_eq_false, hw, Bool.not_false, if_true]
                rw [hx]
                refine ⟨[r], rs, rfl, ?_, (fun h => nomatch h), (fun h => nomatch h)⟩
                rw [hone]
                simp [expect]
              | true =>
                refine go s2 o.e [o.e] hcalls (f3.trans he) hone ?_ ?_
                · simp only [dumpReplLoop, hit, hsd, hb, Bool.false_eq_true, if_false, hg, f2, ne_eq,
                    not_true_eq_false, hw, Bool.not_true, DumpRun.cons, List.singleton_append]
                · simp only [dumpReplLoop, hit, hsd, hb, Bool.false_eq_true, if_false, hg, f2, ne_eq,
                    not_true_eq_false, hw, Bool.not_true, DumpRun.cons]

/-! ### The receiver -/

theorem readLine_more {s l rest : Bytes} (h : readLine s = some (l, rest)) (m : Bytes) :
    readLine (s ++ m) = some (l, rest ++ m) := by
  by_cases hn : chNl ∈ s
  · obtain ⟨a, c, rfl, ha⟩ := List.eq_append_cons_of_mem hn
    rw [readLine_nl ha] at h
    rw [List.append_assoc, List.cons_append, readLine_nl ha]
    simp only [Option.some.injEq, Prod.mk.injEq] at h ⊢
    exact ⟨h.1, by rw [h.2]⟩
  · rw [readLine_none hn] at h
    exact nomatch h

theorem readSize_more {n : Nat} {s d rest : Bytes} (h : readSize n s = .ok (d, rest)) (m : Bytes) :
    readSize n (s ++ m) = .ok (d, rest ++ m) := by
  simp only [readSize] at h ⊢
  split at h
  · exact nomatch h
  · rename_i h1
    split at h
    · exact nomatch h
    · rename_i h2
      simp only [Except.ok.injEq, Prod.mk.injEq] at h
      rw [if_neg h1, if_neg (by simp only [List.length_append]; omega),
        List.take_append_of_le_length (by omega), List.drop_append_of_le_length (by omega), h.1, h.2]

/-- The same answer with more bytes behind it. -/
def Answer.more (m : Bytes) : Answer → Answer
  | .fin r => .fin (r ++ m)
  | .value e r => .value e (r ++ m)

theorem readAnswer_more {now : Int64} {w q s : Bytes} {a : Answer}
    (h : readAnswer now w q s = .ok a) (m : Bytes) :
    readAnswer now w q (s ++ m) = .ok (a.more m) := by
  simp only [readAnswer] at h
  cases hl : readLine s with
  | none => simp [hl] at h
  | some x =>
    obtain ⟨line, s1⟩ := x
    simp only [hl] at h
    simp only [readAnswer, readLine_more hl]
    split at h
    · rename_i h1
      rw [if_pos h1, ← Except.ok.inj h]; rfl
    · rename_i h1
      rw [if_neg h1]
      cases hw : scanWord line w with
      | error f => simp [hw] at h
      | ok y =>
        obtain ⟨p, w1⟩ := y
        simp only [hw] at h ⊢
        split at h
        · exact nomatch h
        · rename_i h2
          rw [if_neg h2]
          cases he : entryParse now .get p q { key := [] } with
          | error f => simp [he] at h
          | ok e =>
            simp only [he] at h ⊢
            cases hz : readSize (e.size.toNat + 2) s1 with
            | error f => simp [hz] at h
            | ok z =>
              obtain ⟨d, s2⟩ := z
              simp only [hz] at h
              simp only [readSize_more hz]
              rw [← Except.ok.inj h]; rfl

theorem readAnswers_more {now : Int64} {w q : Bytes} {fuel : Nat} {s : Bytes} {es : List Entry}
    {rest : Bytes} (h : readAnswers now w q fuel s = .ok (es, rest)) (m : Bytes) :
    readAnswers now w q fuel (s ++ m) = .ok (es, rest ++ m) := by
  induction fuel generalizing s es rest with
  | zero => exact nomatch h
  | succ fuel ih =>
    simp only [readAnswers] at h ⊢
    cases ha : readAnswer now w q s with
    | error f => simp [ha] at h
    | ok a =>
      rw [readAnswer_more ha]
      simp only [ha] at h
      cases a with
      | fin r =>
        simp only [Except.ok.injEq, Prod.mk.injEq] at h
        simp only [Answer.more, h.1, h.2]
      | value e r =>
        simp only [Answer.more]
        dsimp only at h
        cases hr : readAnswers now w q fuel r with
        | error f => simp [hr] at h
        | ok x =>
          obtain ⟨es', rest'⟩ := x
          simp only [hr, Except.ok.injEq, Prod.mk.injEq] at h
          simp only [ih hr, h.1, h.2]

theorem readLine_of_answer {now : Int64} {w q s : Bytes} {a : Answer}
    (h : readAnswer now w q s = .ok a) : ∃ x, readLine s = some x := by
  simp only [readAnswer] at h
  cases hl : readLine s with
  | none => simp [hl] at h
  | some x => exact ⟨x, rfl⟩

/-- A round of the receiver that finds a record, no shutdown being requested. -/
theorem dumpClient_value {now : Int64} {w q : Bytes} {sd : Nat → Bool} {fuel n : Nat} {s : Bytes}
    {e : Entry} {rest : Bytes} (h1 : sd n = false) (h2 : sd (n + 1) = false)
    (h : readAnswer now w q s = .ok (.value e rest)) :
    dumpClient now w q sd (fuel + 1) n s =
      (e :: (dumpClient now w q sd fuel (n + 2) rest).1,
        (dumpClient now w q sd fuel (n + 2) rest).2) := by
  obtain ⟨x, hx⟩ := readLine_of_answer h
  simp only [dumpClient, h1, h2, hx, h, Bool.false_eq_true, if_false]

theorem dumpClient_fin {now : Int64} {w q : Bytes} {sd : Nat → Bool} {fuel n : Nat} {s : Bytes}
    {rest : Bytes} (h1 : sd n = false) (h2 : sd (n + 1) = false)
    (h : readAnswer now w q s = .ok (.fin rest)) :
    dumpClient now w q sd (fuel + 1) n s = ([], .ok) := by
  obtain ⟨x, hx⟩ := readLine_of_answer h
  simp only [dumpClient, h1, h2, hx, h, Bool.false_eq_true, if_false]

theorem dumpClient_err {now : Int64} {w q : Bytes} {sd : Nat → Bool} {fuel n : Nat} {s : Bytes}
    (h1 : sd n = false) (h2 : sd (n + 1) = false)
    (h : readAnswer now w q s = .error .err) :
    dumpClient now w q sd (fuel + 1) n s = ([], .failed) := by
  simp only [dumpClient, h1, h2, h, Bool.false_eq_true, if_false]
  cases readLine s <;> rfl

/-- Success without a shutdown is exactly the reading of answers up to the end. -/
theorem dumpClient_ok {now : Int64} {w q : Bytes} {sd : Nat → Bool} (hsd : ∀ n, sd n = false)
    (fuel n : Nat) (s : Bytes) (es : List Entry) :
    dumpClient now w q sd fuel n s = (es, .ok) ↔
      ∃ rest, readAnswers now w q fuel s = .ok (es, rest) := by
  induction fuel generalizing n s es with
  | zero => simp [dumpClient, readAnswers]
  | succ fuel ih =>
    cases ha : readAnswer now w q s with
    | error f =>
      simp only [readAnswers, ha]
      cases f with
      | err => rw [dumpClient_err (hsd _) (hsd _) ha]; simp
      | ub =>
        simp only [dumpClient, hsd, ha, Bool.false_eq_true, if_false]
        cases readLine s <;> simp
    | ok a =>
      cases a with
      | fin r =>
        rw [dumpClient_fin (hsd _) (hsd _) ha]
        simp only [readAnswers, ha, Prod.mk.injEq, and_true, Except.ok.injEq, exists_eq_right']
      | value e r =>
        rw [dumpClient_value (hsd _) (hsd _) ha]
        simp only [readAnswers, ha]
        constructor
        · intro h
          simp only [Prod.mk.injEq] at h
          obtain ⟨rest, hr⟩ := (ih (n + 2) r (dumpClient now w q sd fuel (n + 2) r).1).1
            (Prod.ext rfl h.2)
          exact ⟨rest, by rw [hr]; simp only [h.1]⟩
        · rintro ⟨rest, h⟩
          cases hr : readAnswers now w q fuel r with
          | error f => simp [hr] at h
          | ok x =>
            obtain ⟨es', rest'⟩ := x
            simp only [hr, Except.ok.injEq, Prod.mk.injEq] at h
            have := (ih (n + 2) r es').2 ⟨rest', hr⟩
            rw [this]
            simp only [h.1]

theorem readLine_rest {s l rest : Bytes} (h : readLine s = some (l, rest)) :
    ∃ x, s = x ++ chNl :: rest ∧ l = stripCr x ++ [chNl] := by
  by_cases hn : chNl ∈ s
  · obtain ⟨a, c, rfl, ha⟩ := List.eq_append_cons_of_mem hn
    rw [readLine_nl ha] at h
    simp only [Option.some.injEq, Prod.mk.injEq] at h
    exact ⟨a, by rw [h.2], h.1.symm⟩
  · rw [readLine_none hn] at h
    exact nomatch h

theorem readAnswer_value_rest {now : Int64} {w q s : Bytes} {e : Entry} {rest : Bytes}
    (h : readAnswer now w q s = .ok (.value e rest)) : ∃ x, s = x ++ rest := by
  simp only [readAnswer] at h
  cases hl : readLine s with
  | none => simp [hl] at h
  | some x =>
    obtain ⟨line, s1⟩ := x
    obtain ⟨x, hx, -⟩ := readLine_rest hl
    simp only [hl] at h
    split at h
    · exact nomatch h
    · cases hw : scanWord line w with
      | error f => simp [hw] at h
      | ok y =>
        simp only [hw] at h
        split at h
        · exact nomatch h
        · cases he : entryParse now .get y.1 q { key := [] } with
          | error f => simp [he] at h
          | ok e =>
            simp only [he] at h
            cases hz : readSize (e.size.toNat + 2) s1 with
            | error f => simp [hz] at h
            | ok z =>
              obtain ⟨d, s2⟩ := z
              simp only [hz, Except.ok.injEq, Answer.value.injEq] at h
              simp only [readSize] at hz
              split at hz
              · exact nomatch hz
              · split at hz
                · exact nomatch hz
                · simp only [Except.ok.injEq, Prod.mk.injEq] at hz
                  refine ⟨x ++ chNl :: s1.take (e.size.toNat + 2), ?_⟩
                  rw [hx, ← h.2, ← hz.2]
                  simp

theorem readAnswer_fin_rest {now : Int64} {w q s : Bytes} {rest : Bytes}
    (h : readAnswer now w q s = .ok (.fin rest)) :
    s = strEnd ++ crlf ++ rest ∨ s = strEnd ++ [chNl] ++ rest := by
  simp only [readAnswer] at h
  cases hl : readLine s with
  | none => simp [hl] at h
  | some x =>
    obtain ⟨line, s1⟩ := x
    obtain ⟨x, hx, hline⟩ := readLine_rest hl
    simp only [hl] at h
    split at h
    · rename_i he
      simp only [Except.ok.injEq, Answer.fin.injEq] at h
      rw [hline] at he
      have he := List.append_cancel_right he
      simp only [stripCr] at he
      split at he
      · rename_i hc
        left
        have : x = x.dropLast ++ [chCr] := by
          rw [List.getLast?_eq_some_iff] at hc
          obtain ⟨ys, rfl⟩ := hc
          simp
        rw [hx, this, he, h]
        simp [crlf]
      · right
        rw [hx, he, h]; simp
    · exfalso
      cases hw : scanWord line w with
      | error f => simp [hw] at h
      | ok y =>
        simp only [hw] at h
        split at h
        · exact nomatch h
        · cases he : entryParse now .get y.1 q { key := [] } with
          | error f => simp [he] at h
          | ok e =>
            simp only [he] at h
            cases hz : readSize (e.size.toNat + 2) s1 with
            | error f => simp [hz] at h
            | ok z => simp [hz] at h

theorem readAnswer_error_line {now : Int64} {w q : Bytes} (hw : 12 < w.length) (msg more : Bytes)
    (hm : ∀ c ∈ msg, c ≠ chNl) :
    readAnswer now w q (ascii "SERVER_ERROR" ++ chSpace :: msg ++ crlf ++ more) = .error .err := by
  have hl : ∀ c ∈ ascii "SERVER_ERROR" ++ chSpace :: msg, c ≠ chNl := by
    intro c hc
    rcases List.mem_append.1 hc with h | h
    · exact (show ∀ c ∈ ascii "SERVER_ERROR", c ≠ chNl by decide) c h
    · rcases List.mem_cons.1 h with rfl | h
      · decide
      · exact hm c h
  obtain ⟨w', h1, h2, -⟩ := scanWord_tok (w := ascii "SERVER_ERROR") (c := chSpace)
    (rest := msg ++ [chNl]) (q := w) 0 (by decide) (by decide) (by simpa [ascii] using hw)
    (fun h => absurd h (by decide))
  simp only [List.replicate_zero, List.nil_append] at h1
  simp only [readAnswer, readLine_crlf hl]
  rw [if_neg, List.append_assoc, List.cons_append, h1]
  · dsimp only
    rw [if_pos]
    rw [h2]; decide
  · intro h
    have : (ascii "SERVER_ERROR" ++ chSpace :: msg ++ [chNl]).head? = (strEnd ++ [chNl]).head? := by
      rw [h]
    rw [show ascii "SERVER_ERROR" = 83 :: ascii "ERVER_ERROR" by decide] at this
    simp [strEnd] at this

theorem copySteps_append (n : Int) (xs ys : List CopyStep) :
    copySteps n (xs ++ ys) = ((copySteps (copySteps n xs).1 ys).1,
      (copySteps n xs).2 ++ (copySteps (copySteps n xs).1 ys).2) := by
  induction xs generalizing n with
  | nil => rfl
  | cons x xs ih =>
    simp only [List.cons_append, copySteps, ih, List.append_assoc]

theorem copySteps_count (n : Int) (cs : List CopyStep) :
    (copySteps n cs).1 = n + cs.count .start - cs.count .done := by
  induction cs generalizing n with
  | nil => simp [copySteps]
  | cons c cs ih =>
    simp only [copySteps, ih]
    cases c <;> simp [CopyStep.apply] <;> omega

end Flare
