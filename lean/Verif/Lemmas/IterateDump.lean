import Verif.Lemmas.IterateWalk
import Verif.Props.Dump

namespace Flare

/-! ### Dumps with nobody else at work -/

/-- What reading a key leaves of the records. -/
theorem get_leaves {b : Bytes → Option Bool} {s : Store} (hs : s.Ok) (env : Env) {k : Bytes} (hb : b k = some true) (x : Bytes) :
    dbGet (get s env { key := k } {}).1.db x = if x = k ∧ readGone b s env x = true then none else dbGet s.db x := by
  by_cases hx : x = k
  · subst hx
    cases hd : dbGet s.db x with
    | none => rw [get_absent (e := { key := x }) hd]; simp [hd]
    | some raw =>
      cases he : isExpired false (itemOf raw).expire env.now with
      | false =>
        rw [get_live (e := { key := x }) hs hd he]
        simp [readGone, hd, he, lookup_of_raw hd (hs.1 _ _ hd)]
      | true =>
        cases ho : env.outOk with
        | true =>
          rw [get_expired (e := { key := x }) hs hd ho he]
          have : readGone b s env x = true := by simp [readGone, hb, ho, hd, he, lookup_of_raw hd (hs.1 _ _ hd)]
          rw [if_pos ⟨rfl, this⟩]
          exact dbGet_dbOut_self _ _
        | false =>
          have : (get s env { key := x } {}).1 = s := by
            have hg : get s env { key := x } {} = ((removeExpired s env (fill raw { key := x })).1,
                ⟨.ok, some .notFound, (removeExpired s env (fill raw { key := x })).2⟩) := by
              simp [get, getRead_some (e := { key := x }) hd (hs.1 _ _ hd), he]
            rw [hg]
            exact removeExpired_fail (e := fill raw { key := x }) hs hd ho
          rw [this, hd]
          simp [readGone, ho]
  · have : dbGet (step s env (.get { key := k } {})).1.db x = dbGet s.db x :=
      step_db_ne (by simp) (by simpa [Cmd.key?] using fun e => hx e.symm)
    rw [if_neg (fun h => hx h.1)]
    exact this

theorem readGone_congr {b : Bytes → Option Bool} {s s' : Store} {env : Env} {x : Bytes} (h : dbGet s'.db x = dbGet s.db x) :
    readGone b s' env x = readGone b s env x := by
  simp only [readGone, h, lookup_congr_db x h env.now]

theorem quiet_loop (b : Bytes → Option Bool) (env : Env) (ks : List Bytes) (hnul : ∀ k ∈ ks, (0 : UInt8) ∉ k)
    (hb : ∀ k ∈ ks, b k ≠ none) {s : Store} (hs : s.Ok) (hl : s.iterLock = true) (e : Entry) :
    (dumpLoop b s e (quietRounds env ks)).ended = some .fin ∧
    (∀ x, dbGet (dumpLoop b s e (quietRounds env ks)).store.db x ≠ none ↔
      dbGet s.db x ≠ none ∧ ¬ (readGone b s env x = true ∧ x ∈ ks)) ∧
    ∀ x, x ∉ ks → dbGet (dumpLoop b s e (quietRounds env ks)).store.db x = dbGet s.db x := by
  induction ks generalizing s e with
  | nil =>
    simp only [quietRounds, List.map_nil, List.nil_append, dumpLoop, run, iterNext_locked hl, dumpEnd, Bool.or_self,
      Bool.false_eq_true, if_false, List.not_mem_nil, and_false, not_false_eq_true, and_true, true_and]
    exact ⟨fun x => trivial, fun x _ => trivial⟩
  | cons k ks ih =>
    have hnul' : ∀ k ∈ ks, (0 : UInt8) ∉ k := fun x hx => hnul x (List.mem_cons_of_mem _ hx)
    have hb' : ∀ k ∈ ks, b k ≠ none := fun x hx => hb x (List.mem_cons_of_mem _ hx)
    have hkk := takeWhile_nonzero (hnul k List.mem_cons_self)
    have hq : quietRounds env (k :: ks) = { ans := .continue_ k, env := env } :: quietRounds env ks := rfl
    have hit : iterNext s (.continue_ k) = .continue_ k := by
      rw [iterNext_locked hl]; simp only [hkk]
    rw [hq]
    cases hbk : b k with
    | none => exact absurd hbk (hb k List.mem_cons_self)
    | some v =>
      cases v with
      | false =>
        have hng : readGone b s env k = false := by simp [readGone, hbk]
        have : dumpLoop b s e ({ ans := .continue_ k, env := env } :: quietRounds env ks) =
            dumpLoop b s { e with key := k } (quietRounds env ks) := by
          rw [dumpLoop]
          simp only [run, hit, hbk, Bool.false_eq_true, if_false]
        rw [this]
        obtain ⟨h1, h2, h3⟩ := ih hnul' hb' hs hl { e with key := k }
        refine ⟨h1, fun x => (h2 x).trans ?_, fun x hx => h3 x (fun h => hx (List.mem_cons_of_mem _ h))⟩
        constructor
        · rintro ⟨g1, g2⟩
          refine ⟨g1, fun ⟨g, m⟩ => ?_⟩
          rcases List.mem_cons.1 m with rfl | m
          · rw [hng] at g; exact nomatch g
          · exact g2 ⟨g, m⟩
        · rintro ⟨g1, g2⟩
          exact ⟨g1, fun ⟨g, m⟩ => g2 ⟨g, List.mem_cons_of_mem _ m⟩⟩
      | true =>
        obtain ⟨f1, -⟩ := get_reused hs env e k
        have hleft := get_leaves hs env hbk
        have hs2 : (get s env { key := k } {}).1.Ok := step_ok hs env (.get { key := k } {})
        have hl2 : (get s env { key := k } {}).1.iterLock = true := (step_iterLock s env (.get { key := k } {})).trans hl
        obtain ⟨e', he', hst⟩ : ∃ e',
            (dumpLoop b s e ({ ans := .continue_ k, env := env } :: quietRounds env ks)).ended =
              (dumpLoop b (get s env { key := k } {}).1 e' (quietRounds env ks)).ended ∧
            (dumpLoop b s e ({ ans := .continue_ k, env := env } :: quietRounds env ks)).store =
              (dumpLoop b (get s env { key := k } {}).1 e' (quietRounds env ks)).store := by
          refine ⟨(get s env { e with key := k } {}).2.e, ?_⟩
          rw [dumpLoop]
          simp only [run, hit, hbk, Bool.false_eq_true, if_false, Bool.not_true]
          split
          · rw [f1]; exact ⟨rfl, rfl⟩
          · rw [f1]; exact ⟨rfl, rfl⟩
        rw [he', hst]
        obtain ⟨h1, h2, h3⟩ := ih hnul' hb' hs2 hl2 e'
        refine ⟨h1, fun x => (h2 x).trans ?_, fun x hx => (h3 x (fun h => hx (List.mem_cons_of_mem _ h))).trans (by
          rw [hleft x]
          exact if_neg (fun h => hx (by rw [h.1]; exact List.mem_cons_self)))⟩
        have hx := hleft x
        by_cases hc : x = k ∧ readGone b s env x = true
        · rw [if_pos hc] at hx
          constructor
          · rintro ⟨g1, -⟩; exact absurd hx g1
          · rintro ⟨-, g2⟩
            exact absurd ⟨hc.2, hc.1 ▸ List.mem_cons_self⟩ g2
        · rw [if_neg hc] at hx
          rw [hx, readGone_congr hx]
          constructor
          · rintro ⟨g1, g2⟩
            refine ⟨g1, fun ⟨g, m⟩ => ?_⟩
            rcases List.mem_cons.1 m with e | m
            · exact hc ⟨e, g⟩
            · exact g2 ⟨g, m⟩
          · rintro ⟨g1, g2⟩
            exact ⟨g1, fun ⟨g, m⟩ => g2 ⟨g, List.mem_cons_of_mem _ m⟩⟩

/-- A dump with nobody else at work, by what the iteration returns. -/
theorem quiet_dump {b : Bytes → Option Bool} {s : Store} (hs : s.Ok) (hl : s.iterLock = false) (env : Env) {ks : List Bytes}
    (hn : ks.Nodup) (hnul : ∀ k ∈ ks, (0 : UInt8) ∉ k) (hb : ∀ k ∈ ks, b k ≠ none) :
    (dumpServer b s true (quietRounds env ks)).ended = some .fin ∧
    ((dumpServer b s true (quietRounds env ks)).sent.map (·.key)).Nodup ∧
    (∀ e, e ∈ (dumpServer b s true (quietRounds env ks)).sent ↔
      b e.key = some true ∧ e.key ∈ ks ∧ ∃ it, lookup s env.now e.key = some it ∧ e = it.entry e.key) ∧
    (∀ x, dbGet (dumpServer b s true (quietRounds env ks)).store.db x ≠ none ↔
      dbGet s.db x ≠ none ∧ ¬ (readGone b s env x = true ∧ x ∈ ks)) ∧
    ∀ x, x ∉ ks → dbGet (dumpServer b s true (quietRounds env ks)).store.db x = dbGet s.db x := by
  obtain ⟨h1, h2, hdb⟩ := begun hs hl
  obtain ⟨q1, q2, q3⟩ := quiet_loop b env ks hnul hb h1 h2 { key := [] }
  have hfin : (dumpServer b s true (quietRounds env ks)).ended = some .fin := by
    rw [(dumpServer_eq hl _).2]; exact q1
  have hst : (dumpServer b s true (quietRounds env ks)).store.db =
      (dumpLoop b (iterBegin s true).1 { key := [] } (quietRounds env ks)).store.db := by
    have : iterBegin s true = ((iterBegin s true).1, .ok) := by simp [iterBegin, hl]
    rw [dumpServer, this]
    simp only [q1, Option.isSome_some, if_true, iterEnd]
    split <;> rfl
  obtain ⟨d1, d2⟩ := dump_at_rest (b := b) hs hl (rounds := ks.map fun k => { ans := .continue_ k, env := env })
    (last := { ans := .end_, env := env }) (post := []) ks (by simp [List.map_map, Function.comp_def]) hn hnul (by
      intro r hr
      obtain ⟨k, -, rfl⟩ := List.mem_map.1 hr
      exact ⟨rfl, rfl⟩) rfl hfin
  refine ⟨hfin, d1, fun e => (d2 e).trans ⟨?_, ?_⟩, fun x => ?_, fun x hx => by rw [hst, q3 x hx, hdb]⟩
  · rintro ⟨g1, r, hr, ha, it, hit, he⟩
    obtain ⟨k, hk, rfl⟩ := List.mem_map.1 hr
    simp only [Iteration.continue_.injEq] at ha
    exact ⟨g1, ha ▸ hk, it, hit, he⟩
  · rintro ⟨g1, hk, it, hit, he⟩
    exact ⟨g1, _, List.mem_map_of_mem (f := fun k => ({ ans := .continue_ k, env := env } : DumpRound)) hk, rfl, it, hit, he⟩
  · rw [hst, q2 x, readGone_congr (s := s) (by rw [hdb]), hdb]

end Flare
