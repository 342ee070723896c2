import Verif.Model.Retry
import Verif.Props.Storage3
import Verif.Lemmas.Dump

/-! Property theorems about writes that are repeated: C58. -/
namespace Flare

/-- How often the command is executed. -/
def forwardExecs : Nat → List FwdTry → Nat
  | 0, _ => 0
  | _ + 1, [] => 0
  | n + 1, t :: ts =>
    match t.ends with
    | .unsent => forwardExecs n ts
    | .unanswered => forwardExecs n ts + 1
    | .answered => 1

/-- All that the receiver's storage executes, in order. -/
def forwardHistory (c : Cmd) : Nat → List FwdTry → List (Env × Cmd)
  | 0, _ => []
  | _ + 1, [] => []
  | n + 1, t :: ts =>
    t.before ++ match t.ends with
    | .unsent => forwardHistory c n ts
    | .unanswered => (t.env, c) :: forwardHistory c n ts
    | .answered => [(t.env, c)]

theorem fwd_run_append (s : Store) (a b : List (Env × Cmd)) : run s (a ++ b) = run (run s a) b := by
  induction a generalizing s with
  | nil => rfl
  | cons x a ih => exact ih _

/-- The receiver executes the command at most as often as there are tries, and nothing else happens
to its storage than what others do; if an answer arrives it has been executed. -/
theorem C58_bounded (c : Cmd) (n : Nat) (ts : List FwdTry) (s : Store) :
    (forwardRun c n ts s).1 = run s (forwardHistory c n ts) ∧ forwardExecs n ts ≤ n ∧
      ((forwardRun c n ts s).2 ≠ none → 1 ≤ forwardExecs n ts) := by
  induction n generalizing ts s with
  | zero => exact ⟨rfl, Nat.le_refl 0, fun h => absurd rfl h⟩
  | succ n ih =>
    cases ts with
    | nil => exact ⟨rfl, Nat.zero_le _, fun h => absurd rfl h⟩
    | cons t ts =>
      simp only [forwardRun, forwardExecs, forwardHistory]
      rw [fwd_run_append]
      cases t.ends with
      | unsent =>
        obtain ⟨h1, h2, h3⟩ := ih ts (run s t.before)
        exact ⟨h1, by dsimp only; omega, h3⟩
      | unanswered =>
        obtain ⟨h1, h2, h3⟩ := ih ts (step (run s t.before) t.env c).1
        exact ⟨h1, by dsimp only; omega, fun _ => Nat.succ_le_succ (Nat.zero_le _)⟩
      | answered => exact ⟨rfl, by dsimp only; omega, fun _ => Nat.le_refl 1⟩

/-- The loop tries four times: no command is executed more often, however the tries end. -/
theorem C58_at_most_four (ts : List FwdTry) : forwardExecs maxRetry ts ≤ 4 :=
  (C58_bounded (.remove { key := [] } {}) maxRetry ts { cacheSize := 0 }).2.1

/-- If no answer is lost it is executed at most once.  Missing for the full claim: answers can be
lost, see the theorems below. -/
theorem C58_once_partial (n : Nat) (ts : List FwdTry) (h : ∀ t ∈ ts, t.ends ≠ .unanswered) :
    forwardExecs n ts ≤ 1 := by
  induction n generalizing ts with
  | zero => exact Nat.zero_le _
  | succ n ih =>
    cases ts with
    | nil => exact Nat.zero_le _
    | cons t ts =>
      simp only [forwardExecs]
      have := h t List.mem_cons_self
      cases he : t.ends with
      | unsent => exact ih ts fun u hu => h u (List.mem_cons_of_mem _ hu)
      | unanswered => exact absurd he this
      | answered => exact Nat.le_refl 1

/-- incr counts every execution: a number `m` becomes `m` plus as many times the amount as there were
executions (up to saturation). -/
theorem C58_incr_counted {e : Entry} {v : UInt64} (n : Nat) (ts : List FwdTry) {s : Store} (hs : s.Ok)
    (hb : ∀ t ∈ ts, t.before = []) (hp : ∀ t ∈ ts, t.env.putOk = true) {it : Item} {m : Nat}
    (hm : m < 2 ^ 64) (hd : HoldsNumber it.data m)
    (hx : ∀ t ∈ ts, ¬ (0 < it.expire ∧ it.expire ≤ t.env.now))
    (hl : ∀ t, lookup s t e.key = if 0 < it.expire ∧ it.expire ≤ t then none else some it) :
    ∃ it', it'.expire = it.expire ∧
      HoldsNumber it'.data (min (m + forwardExecs n ts * v.toNat) (2 ^ 64 - 1)) ∧
      ∀ t, lookup (forwardRun (.incr e v true {}) n ts s).1 t e.key =
        if 0 < it.expire ∧ it.expire ≤ t then none else some it' := by
  induction n generalizing ts s it m with
  | zero =>
    refine ⟨it, rfl, ?_, hl⟩
    rw [show forwardExecs 0 ts = 0 from rfl, Nat.zero_mul, Nat.add_zero, Nat.min_eq_left (by omega)]
    exact hd
  | succ n ih =>
    cases ts with
    | nil =>
      refine ⟨it, rfl, ?_, hl⟩
      rw [show forwardExecs (n + 1) [] = 0 from rfl, Nat.zero_mul, Nat.add_zero,
        Nat.min_eq_left (by omega)]
      exact hd
    | cons t ts =>
      have hb0 := hb t List.mem_cons_self
      have hl0 : lookup s t.env.now e.key = some it := by
        rw [hl, if_neg (hx t List.mem_cons_self)]
      obtain ⟨-, -, -, h4⟩ := C07_incr_decr (v := v) (b := true) hs (hp t List.mem_cons_self) hl0 hm hd
      have hok : (incr s t.env e v true {}).1.Ok := incr_ok hs ..
      have htl : ∀ {P : FwdTry → Prop}, (∀ u ∈ t :: ts, P u) → ∀ u ∈ ts, P u :=
        fun h u hu => h u (List.mem_cons_of_mem _ hu)
      simp only [forwardRun, forwardExecs, hb0, run]
      simp only [if_true] at h4
      have e1 : (step s t.env (.incr e v true {})) = incr s t.env e v true {} := rfl
      rw [e1]
      cases t.ends with
      | unsent => exact ih ts hs (htl hb) (htl hp) hm hd (htl hx) hl
      | answered =>
        refine ⟨⟨decimal (min (m + v.toNat) (2 ^ 64 - 1)), it.flag, it.expire, it.version + 1⟩, rfl, ?_,
          h4⟩
        dsimp only
        rw [Nat.one_mul]
        exact C07_result_is_number _
      | unanswered =>
        dsimp only
        obtain ⟨it', g1, g2, g3⟩ := ih (it := ⟨decimal (min (m + v.toNat) (2 ^ 64 - 1)), it.flag,
          it.expire, it.version + 1⟩) (m := min (m + v.toNat) (2 ^ 64 - 1)) ts hok (htl hb) (htl hp)
          (by omega) (C07_result_is_number _) (htl hx) h4
        refine ⟨it', g1, ?_, g3⟩
        rw [Nat.succ_mul]
        have e2 : min (min (m + v.toNat) (2 ^ 64 - 1) + forwardExecs n ts * v.toNat) (2 ^ 64 - 1) =
            min (m + (forwardExecs n ts * v.toNat + v.toNat)) (2 ^ 64 - 1) := by
          generalize forwardExecs n ts * v.toNat = x
          omega
        rw [← e2]; exact g2

/-- So one `incr` of a client can add its amount four times. -/
theorem C58_incr_four_times :
    ∃ ts : List FwdTry, forwardExecs maxRetry ts = 4 ∧ (∀ t ∈ ts, t.before = []) ∧
      lookup (forwardRun (.incr { key := [97] } 5 true {}) maxRetry ts exStore).1 100 [97] =
        some ⟨[50, 55], 5, 200, 7⟩ := by
  refine ⟨[⟨[], exEnv, .unanswered⟩, ⟨[], exEnv, .unanswered⟩, ⟨[], exEnv, .unanswered⟩,
    ⟨[], exEnv, .answered⟩], rfl, by simp, by decide⟩

/-- add: if the answer to the execution that stored the value is lost, the repetition answers
NOT_STORED: the client is told so although its value is there. -/
theorem C58_add_wrong_answer {s : Store} (hs : s.Ok) {e : Entry} (he : e.Ok) (env env' : Env)
    (hp : env.putOk = true) (hp' : env'.putOk = true) (ha : lookup s env.now e.key = none)
    (hh : ¬ Held s env.now e.key) (hx : ¬ (0 < e.expire ∧ e.expire ≤ env'.now)) :
    ∃ s' o, forwardRun (.set e .ofAdd) maxRetry [⟨[], env, .unanswered⟩, ⟨[], env', .answered⟩] s =
        (s', some o) ∧ o.r = some .notStored ∧
      ∃ v, lookup s' env'.now e.key = some ⟨e.data, e.flag, e.expire, v⟩ := by
  obtain ⟨h1, h2, -⟩ := C06_add hs he hp
  have hst := h1.2 ⟨ha, hh⟩
  obtain ⟨v, hv⟩ := h2 hst
  have hv' := hv env'.now
  rw [if_neg hx] at hv'
  have hok : (set s env e .ofAdd).1.Ok := set_ok hs ..
  obtain ⟨k1, -, k3⟩ := C06_add hok he hp'
  have hne : (set (set s env e .ofAdd).1 env' e .ofAdd).2.r ≠ some .stored := by
    intro hc
    have := (k1.1 hc).1
    rw [hv'] at this; cases this
  obtain ⟨k4, k5⟩ := k3 hne
  refine ⟨_, _, rfl, k4, v, ?_⟩
  show lookup (set (set s env e .ofAdd).1 env' e .ofAdd).1 env'.now e.key = _
  rw [k5, hv']

/-- cas: the repetition answers EXISTS although the first execution was successful. -/
theorem C58_cas_wrong_answer {s : Store} (hs : s.Ok) {e : Entry} (he : e.Ok) (env env' : Env)
    (hp : env.putOk = true) (hp' : env'.putOk = true) {it : Item}
    (ha : lookup s env.now e.key = some it) (hv : e.version = it.version)
    (hx : ¬ (0 < e.expire ∧ e.expire ≤ env'.now)) :
    ∃ s' o, forwardRun (.set e .ofCas) maxRetry [⟨[], env, .unanswered⟩, ⟨[], env', .answered⟩] s =
        (s', some o) ∧ o.r = some .exists_ ∧
      lookup s' env'.now e.key = some ⟨e.data, e.flag, e.expire, e.version + 1⟩ := by
  obtain ⟨-, -, h3⟩ := (C04_cas_visible hs he hp ha).1 hv
  have h3' := h3 env'.now
  rw [if_neg hx] at h3'
  have hok : (set s env e .ofCas).1.Ok := set_ok hs ..
  obtain ⟨-, k2, k3⟩ := (C04_cas_visible hok he hp' h3').2 (by
    intro hc
    have := congrArg UInt64.toNat hc
    simp only [UInt64.toNat_add] at this
    have h1 : (1 : UInt64).toNat = 1 := rfl
    rw [h1] at this
    have := e.version.toNat_lt
    omega)
  refine ⟨_, _, rfl, k2, ?_⟩
  show lookup (set (set s env e .ofCas).1 env' e .ofCas).1 env'.now e.key = _
  rw [k3, h3']

/-- delete: the repetition does not answer DELETED although the first execution deleted the key. -/
theorem C58_delete_wrong_answer {s : Store} (hs : s.Ok) {e : Entry} (env env' : Env)
    (ho : env.outOk = true) (ho' : env'.outOk = true) {it : Item}
    (ha : lookup s env.now e.key = some it) (hv : e.version = 0 ∨ it.version ≤ e.version) :
    (remove s env e {}).2.r = some .deleted ∧
    ∃ s' o, forwardRun (.remove e {}) maxRetry [⟨[], env, .unanswered⟩, ⟨[], env', .answered⟩] s =
        (s', some o) ∧ o.r ≠ some .deleted := by
  have h1 := (C08_deleted_iff hs (env := env) (e := e) ho).2 ⟨it, ha, hv⟩
  have hok : (remove s env e {}).1.Ok := remove_ok hs ..
  refine ⟨h1, _, _, rfl, fun hc => ?_⟩
  obtain ⟨it', h2, -⟩ := (C08_deleted_iff hok (env := env') (e := e) ho').1 hc
  rw [C08_absent_afterwards h1] at h2; cases h2

/-- append: the repetition appends again. -/
theorem C58_append_twice {s : Store} (hs : s.Ok) {e : Entry} (env env' : Env)
    (hp : env.putOk = true) (hp' : env'.putOk = true) (he : e.data.length = e.size.toNat)
    (hv : e.version = 0) {it : Item} (ha : lookup s env.now e.key = some it)
    (hx : ¬ (0 < it.expire ∧ it.expire ≤ env'.now))
    (hfit : headerSize + (e.data.length + (it.data ++ e.data).length) ≤ intMax) :
    ∃ s' o, forwardRun (.set e .ofAppend) maxRetry [⟨[], env, .unanswered⟩, ⟨[], env', .answered⟩] s =
        (s', some o) ∧ o.r = some .stored ∧
      lookup s' env'.now e.key =
        some ⟨it.data ++ e.data ++ e.data, it.flag, it.expire, it.version + 1 + 1⟩ := by
  have hfit1 : headerSize + (e.data.length + it.data.length) ≤ intMax := by
    rw [List.length_append] at hfit; omega
  obtain ⟨⟨-, h2⟩, -⟩ := C06_append_prepend hs he hv hp ha hfit1
  have h2' := h2 env'.now
  rw [if_neg hx] at h2'
  have hok : (set s env e .ofAppend).1.Ok := set_ok hs ..
  obtain ⟨⟨k1, k2⟩, -⟩ := C06_append_prepend hok he hv hp' h2' hfit
  refine ⟨_, _, rfl, k1, ?_⟩
  have := k2 env'.now
  rw [if_neg hx] at this
  exact this

/-- set without a version: however often it is executed, the value is the client's, and so is the
answer. -/
theorem C58_set_value {e : Entry} (he : e.Ok) (hv : e.version = 0) (n : Nat) (ts : List FwdTry)
    (s : Store) (hb : ∀ t ∈ ts, t.before = []) (hp : ∀ t ∈ ts, t.env.putOk = true)
    (hx : 1 ≤ forwardExecs n ts) :
    (∃ v, ∀ t, lookup (forwardRun (.set e .ofSet) n ts s).1 t e.key =
      if 0 < e.expire ∧ e.expire ≤ t then none else some ⟨e.data, e.flag, e.expire, v⟩) ∧
    (∀ o, (forwardRun (.set e .ofSet) n ts s).2 = some o → o.rc = .ok ∧ o.r = some .stored) := by
  induction n generalizing ts s with
  | zero => exact absurd hx (by simp [forwardExecs])
  | succ n ih =>
    cases ts with
    | nil => exact absurd hx (by simp [forwardExecs])
    | cons t ts =>
      have htl : ∀ {P : FwdTry → Prop}, (∀ u ∈ t :: ts, P u) → ∀ u ∈ ts, P u :=
        fun h u hu => h u (List.mem_cons_of_mem _ hu)
      obtain ⟨h1, h2, h3⟩ := C06_set (s := s) he hv (hp t List.mem_cons_self)
      simp only [forwardRun, forwardExecs, hb t List.mem_cons_self, run] at hx ⊢
      have e1 : step s t.env (.set e .ofSet) = set s t.env e .ofSet := rfl
      rw [e1]
      cases he : t.ends with
      | unsent =>
        rw [he] at hx
        exact ih ts s (htl hb) (htl hp) hx
      | answered => exact ⟨h3, fun o ho => by cases ho; exact ⟨h1, h2⟩⟩
      | unanswered =>
        dsimp only
        by_cases hz : 1 ≤ forwardExecs n ts
        · exact ih ts _ (htl hb) (htl hp) hz
        · have hh : forwardHistory (.set e .ofSet) n ts = [] ∧
              (forwardRun (.set e .ofSet) n ts (set s t.env e .ofSet).1).2 = none := by
            clear ih h1 h2 h3 hx
            have hb' := htl hb
            clear hb hp htl
            generalize (set s t.env e .ofSet).1 = s'
            induction n generalizing ts with
            | zero => exact ⟨rfl, rfl⟩
            | succ n ihn =>
              cases ts with
              | nil => exact ⟨rfl, rfl⟩
              | cons u ts =>
                simp only [forwardExecs, forwardHistory, forwardRun, hb' u List.mem_cons_self, run] at hz ⊢
                cases hu : u.ends with
                | unsent =>
                  rw [hu] at hz
                  exact ihn ts hz fun w hw => hb' w (List.mem_cons_of_mem _ hw)
                | unanswered => rw [hu] at hz; exact absurd (Nat.succ_le_succ (Nat.zero_le _)) hz
                | answered => rw [hu] at hz; exact absurd (Nat.le_refl 1) hz
          obtain ⟨k1, -, -⟩ := C58_bounded (.set e .ofSet) n ts (set s t.env e .ofSet).1
          rw [k1, hh.1, hh.2]
          exact ⟨h3, fun o ho => by cases ho⟩

/-- A copy (a set with a version): once the replica has it, repetitions change nothing. -/
theorem C58_copy_repeated {e : Entry} (h0 : e.version ≠ 0) (n : Nat) (ts : List FwdTry) {s : Store}
    (hs : s.Ok) (hb : ∀ t ∈ ts, t.before = []) {it : Item} (hle : e.version ≤ it.version)
    (hl : ∀ t ∈ ts, lookup s t.env.now e.key = some it) :
    (forwardRun (.set e .ofSet) n ts s).1 = s := by
  induction n generalizing ts with
  | zero => rfl
  | succ n ih =>
    cases ts with
    | nil => rfl
    | cons t ts =>
      have h1 : step s t.env (.set e .ofSet) = (s, ⟨.ok, some .notStored, e⟩) :=
        C10_stale_set hs .ofSet (Or.inl rfl) h0 (hl t List.mem_cons_self) hle
      have h2 := ih ts (fun u hu => hb u (List.mem_cons_of_mem _ hu))
        (fun u hu => hl u (List.mem_cons_of_mem _ hu))
      simp only [forwardRun, hb t List.mem_cons_self, run, h1]
      cases t.ends with
      | unsent => exact h2
      | unanswered => exact h2
      | answered => rfl

/-! The first three theorems on concrete stores. -/
example : (forwardRun (.set { exEntry with key := [98] } .ofAdd) maxRetry
    [⟨[], exEnv, .unanswered⟩, ⟨[], exEnv, .answered⟩] exStore).2.map (·.r) = some (some .notStored) := by
  decide
example : (forwardRun (.remove { key := [97] } {}) maxRetry
    [⟨[], exEnv, .unanswered⟩, ⟨[], exEnv, .answered⟩] exStore).2.map (·.r) = some (some .notFound) := by
  decide

end Flare
