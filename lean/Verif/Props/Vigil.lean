import Verif.Model.Vigil

/-! # C107: how long it takes until a node that is silent is asked to be taken down -/

namespace Flare

/-- The kinds of rounds that happen while the options stay: a check, or a node map that comes within the interval. -/
def VigilGot.Usual (i : Nat) : VigilGot → Prop
  | .nothing => 0 < i
  | .nodeMap w => w ≤ i * 1000
  | .options .. => False

/-- How long a round with a silent node takes: a check takes the interval and the timeout of checks, a node map the time
until it comes and the timeout of the network. -/
def silentCost (i p n : Nat) : VigilGot → Nat
  | .nothing => i * 1000 + p
  | .nodeMap w => w + n
  | .options w .. => w

/-- Rounds with a node that does not answer, and that the map does not say is down. -/
def silentRounds (l : List VigilGot) : List (MonView × Option Nat × VigilGot) := l.map fun a => (some false, none, a)

theorem Vigil.silent_round {v : Vigil} {a : VigilGot} (ha : a.Usual v.interval) (hf : v.mon.failed < v.mon.threshold) :
    v.round (some false) none a =
      some ({ v with mon := ⟨v.mon.threshold, v.mon.failed + 1⟩,
                     now := v.now + silentCost v.interval v.pingWait v.netWait a },
        if v.mon.failed + 1 = v.mon.threshold then [.down] else []) := by
  have hl : v.mon.look (some false) = v.mon := by
    unfold Mon.look
    rw [if_neg (by omega)]
  cases a with
  | nothing =>
    have : v.interval ≠ 0 := Nat.pos_iff_ne_zero.1 ha
    simp only [Vigil.round, if_neg this, awaitLine, Mon.step, hl, Mon.work, Bool.false_eq_true, if_false, Option.map_some,
      Mon.countFailure, silentCost, Nat.add_assoc]
  | nodeMap w =>
    simp only [Vigil.round, awaitLine, Mon.step, hl, Mon.work, Bool.false_eq_true, Bool.true_eq_false, and_false, if_false,
      Option.map_some, Mon.countFailure, silentCost, Nat.add_assoc]
  | options => exact absurd ha (by simp [VigilGot.Usual])

/-- **When a silent node is asked to be taken down**: exactly once in the rounds up to the threshold, at the end of the
last of them, and that is the sum of what the rounds take. -/
theorem C107_when (l : List VigilGot) (v : Vigil) (hl : ∀ a ∈ l, a.Usual v.interval) (hne : l ≠ [])
    (hlen : v.mon.failed + l.length = v.mon.threshold) :
    ∃ v', v.run (silentRounds l) =
      some (v', [(v.now + (l.map (silentCost v.interval v.pingWait v.netWait)).sum, .down)]) := by
  induction l generalizing v with
  | nil => exact absurd rfl hne
  | cons a l ih =>
    simp only [List.length_cons] at hlen
    have hr := Vigil.silent_round (hl a (by simp)) (v := v) (by omega)
    simp only [silentRounds, List.map_cons, Vigil.run, hr]
    cases l with
    | nil =>
      rw [if_pos (by simpa using hlen)]
      refine ⟨{ v with mon := ⟨v.mon.threshold, v.mon.failed + 1⟩,
                       now := v.now + silentCost v.interval v.pingWait v.netWait a }, ?_⟩
      simp [Vigil.run]
    | cons b l =>
      simp only [List.length_cons] at hlen
      rw [if_neg (by omega)]
      obtain ⟨v', h⟩ := ih { v with mon := ⟨v.mon.threshold, v.mon.failed + 1⟩,
                                     now := v.now + silentCost v.interval v.pingWait v.netWait a }
        (fun c hc => hl c (by simp [hc])) (by simp) (by simp only [List.length_cons]; omega)
      refine ⟨v', ?_⟩
      simp only [silentRounds] at h
      simp only [List.map_cons] at h ⊢
      rw [h]
      simp [Nat.add_assoc]

theorem silentCost_le {i p n : Nat} {a : VigilGot} (ha : a.Usual i) : silentCost i p n a ≤ i * 1000 + max p n := by
  cases a with
  | nothing => simp only [silentCost]; omega
  | nodeMap w => simp only [VigilGot.Usual] at ha; simp only [silentCost]; omega
  | options => exact absurd ha (by simp [VigilGot.Usual])

theorem sum_le_mul {l : List VigilGot} {f : VigilGot → Nat} {c : Nat} (h : ∀ a ∈ l, f a ≤ c) :
    (l.map f).sum ≤ l.length * c := by
  induction l with
  | nil => simp
  | cons a l ih =>
    have := ih (fun b hb => h b (by simp [hb]))
    have := h a (by simp)
    simp only [List.map_cons, List.sum_cons, List.length_cons, Nat.add_mul]
    omega

/-- Whatever node maps come in between: a silent node is asked to be taken down within threshold times the interval and the
larger timeout. -/
theorem C107_bound (l : List VigilGot) (v : Vigil) (hl : ∀ a ∈ l, a.Usual v.interval) (hne : l ≠ [])
    (hlen : v.mon.failed + l.length = v.mon.threshold) :
    ∃ v' t, v.run (silentRounds l) = some (v', [(t, .down)]) ∧
      t ≤ v.now + l.length * (v.interval * 1000 + max v.pingWait v.netWait) := by
  obtain ⟨v', h⟩ := C107_when l v hl hne hlen
  exact ⟨v', _, h, Nat.add_le_add_left (sum_le_mul fun a ha => silentCost_le (hl a ha)) _⟩

/-- With checks only it takes exactly the threshold times interval and timeout of checks. -/
theorem C107_checks (v : Vigil) (k : Nat) (hk : 0 < k) (hi : 0 < v.interval)
    (ht : v.mon.failed + k = v.mon.threshold) :
    ∃ v', v.run (silentRounds (List.replicate k .nothing)) =
      some (v', [(v.now + k * (v.interval * 1000 + v.pingWait), .down)]) := by
  obtain ⟨v', h⟩ := C107_when (List.replicate k .nothing) v
    (fun a ha => by rw [List.eq_of_mem_replicate ha]; exact hi) (by simp; omega) (by simpa using ht)
  refine ⟨v', ?_⟩
  rw [h]
  rw [List.map_replicate, List.sum_replicate_nat]
  rfl

/-- A node map that is to be sent to a silent node keeps its watcher busy for the timeout of the network, and no check
happens in this time: the node is not asked to be taken down earlier, whatever the options of checks say. -/
theorem C107_blocked (l l' : List VigilGot) (w : Nat) (v : Vigil)
    (hl : ∀ a ∈ l ++ .nodeMap w :: l', a.Usual v.interval)
    (hlen : v.mon.failed + (l ++ .nodeMap w :: l').length = v.mon.threshold) :
    ∃ v' t, v.run (silentRounds (l ++ .nodeMap w :: l')) = some (v', [(t, .down)]) ∧ v.now + v.netWait ≤ t := by
  obtain ⟨v', h⟩ := C107_when _ v hl (by simp) hlen
  refine ⟨v', _, h, ?_⟩
  simp only [List.map_append, List.map_cons, List.sum_append, List.sum_cons, silentCost]
  omega

/-- With the defaults of an index server a silent node is asked to be taken down after 18 seconds if nothing else happens,
but after about a week at the earliest if one node map is to be sent to it in this time. -/
theorem C107_week (now : Nat) :
    ∃ v, (startIndexRun {} {}).vigil now = some v ∧
      (∃ v', v.run (silentRounds [.nothing, .nothing, .nothing]) = some (v', [(now + 18000, .down)])) ∧
      ∀ l : List VigilGot, l.length = 3 → (∀ a ∈ l, a.Usual 5) → (∃ w, .nodeMap w ∈ l) →
        ∃ v' t, v.run (silentRounds l) = some (v', [(t, .down)]) ∧ now + 600000 * 1000 ≤ t := by
  refine ⟨⟨⟨3, 0⟩, 5, 1000, 600000 * 1000, now⟩, ?_, ?_, ?_⟩
  · simp only [IndexRun.vigil, startIndexRun, loadIndex, IndexGiven.over, indexDefaults]
    rfl
  · obtain ⟨v', h⟩ := C107_checks ⟨⟨3, 0⟩, 5, 1000, 600000 * 1000, now⟩ 3 (by omega) (show 0 < 5 by omega) rfl
    refine ⟨v', ?_⟩
    simp only [List.replicate] at h
    rw [h]
  · rintro l h3 hu ⟨w, hw⟩
    obtain ⟨a, b, rfl⟩ := List.append_of_mem hw
    exact C107_blocked a b w ⟨⟨3, 0⟩, 5, 1000, 600000 * 1000, now⟩ hu (by rw [h3]; rfl)

/-- A node that answers in time is never asked to be taken down, whatever node maps are sent to it. -/
theorem C107_alive (l : List (Nat × VigilGot)) (v : Vigil) (hf : v.mon.failed < v.mon.threshold) (h0 : 0 ≤ v.mon.failed)
    (hl : ∀ x ∈ l, x.2.Usual v.interval ∧ x.1 < v.pingWait ∧ x.1 < v.netWait) :
    ∃ v', v.run (l.map fun x => (some false, some x.1, x.2)) = some (v', []) := by
  induction l generalizing v with
  | nil => exact ⟨v, rfl⟩
  | cons x l ih =>
    obtain ⟨d, a⟩ := x
    obtain ⟨ha, hp, hn⟩ := hl (d, a) (by simp)
    simp only at ha hp hn
    have hlook : v.mon.look (some false) = v.mon := by
      unfold Mon.look
      rw [if_neg (by omega)]
    have hr : ∃ m t, v.round (some false) (some d) a = some ({ v with mon := m, now := t }, []) ∧
        m.threshold = v.mon.threshold ∧ m.failed < m.threshold ∧ 0 ≤ m.failed := by
      cases a with
      | nothing =>
        have : v.interval ≠ 0 := Nat.pos_iff_ne_zero.1 ha
        refine ⟨⟨v.mon.threshold, 0⟩, v.now + v.interval * 1000 + d, ?_, rfl, ?_, ?_⟩
        · simp only [Vigil.round, if_neg this, awaitLine, if_pos hp, Mon.step, hlook, Mon.work, if_true, Option.map_some,
            Mon.countSuccess]
          rw [if_neg (by omega)]
        · show (0 : Int) < v.mon.threshold; omega
        · exact Int.le_refl 0
      | nodeMap w =>
        refine ⟨v.mon, v.now + w + d, ?_, rfl, hf, h0⟩
        simp only [Vigil.round, awaitLine, if_pos hn, Mon.step, hlook, Mon.work, Bool.true_eq_false, and_false, if_false,
          if_true, Option.map_some]
      | options => exact absurd ha (by simp [VigilGot.Usual])
    obtain ⟨m, t, e, h1, h2, h3⟩ := hr
    obtain ⟨v', h⟩ := ih { v with mon := m, now := t } h2 h3 (fun x hx => hl x (by simp [hx]))
    refine ⟨v', ?_⟩
    simp only [List.map_cons, Vigil.run, e, h, List.map_nil, List.nil_append]

/-- A node that answers, but later than the timeout of checks, is taken for silent. -/
theorem C107_late (v : Vigil) (view : MonView) (d : Nat) (h : v.pingWait ≤ d) :
    v.round view (some d) .nothing = v.round view none .nothing := by
  simp only [Vigil.round, awaitLine, if_neg (Nat.not_lt.2 h)]

/-- While options come one after the other, each within the interval, a silent node is never checked: there is no bound for
the time that passes without a request. -/
theorem C107_starved (v : Vigil) (l : List (Nat × Int × Nat × Nat)) (view : MonView) (answer : Option Nat) :
    ∃ v', v.run (l.map fun x => (view, answer, .options x.1 x.2.1 x.2.2.1 x.2.2.2)) = some (v', []) ∧
      v'.now = v.now + (l.map (·.1)).sum := by
  induction l generalizing v with
  | nil => exact ⟨v, rfl, rfl⟩
  | cons x l ih =>
    obtain ⟨w, t, i, p⟩ := x
    have hr : ∃ m, v.round view answer (.options w t i p) =
        some ({ v with mon := m, interval := i, pingWait := p, now := v.now + w }, []) := by
      simp only [Vigil.round, Mon.step, Mon.work, Option.map_some]
      exact ⟨_, rfl⟩
    obtain ⟨m, e⟩ := hr
    obtain ⟨v', h, hn⟩ := ih { v with mon := m, interval := i, pingWait := p, now := v.now + w }
    refine ⟨v', ?_, ?_⟩
    · simp only [List.map_cons, Vigil.run, e, h, List.map_nil, List.nil_append]
    · rw [hn]; simp [Nat.add_assoc]

/-- An index server accepts the interval 0, and then never checks a node: its watcher waits until a node map or options
come. -/
theorem C107_interval_zero (cli f : IndexGiven) (now : Nat) (hc : cli.monitorInterval = some 0) (v : Vigil)
    (hv : (startIndexRun cli f).vigil now = some v) (l : List (MonView × Option Nat × VigilGot)) (r)
    (hopt : ∀ x ∈ l, ∀ w t i p, x.2.2 ≠ .options w t i p) (hr : v.run l = some r) :
    ∀ x ∈ l, ∃ w, x.2.2 = .nodeMap w := by
  have hi : v.interval = 0 := by
    simp only [IndexRun.vigil, startIndexRun, loadIndex, IndexGiven.over, hc] at hv
    cases e : millis ((cli.netReadTimeout <|> f.netReadTimeout).getD indexDefaults.netReadTimeout) with
    | none => rw [e] at hv; cases hv
    | some t =>
      rw [e] at hv
      simp only [Option.map_some, Option.some.injEq] at hv
      rw [← hv]
      rfl
  clear hv
  induction l generalizing v r with
  | nil => simp
  | cons x l ih =>
    obtain ⟨view, answer, a⟩ := x
    cases a with
    | nothing => simp only [Vigil.run, Vigil.round, hi, if_true] at hr; cases hr
    | options w t i p => exact absurd rfl (hopt _ List.mem_cons_self w t i p)
    | nodeMap w =>
      cases e : v.round view answer (.nodeMap w) with
      | none => simp only [Vigil.run, e] at hr; cases hr
      | some q =>
        obtain ⟨v1, r1⟩ := q
        have h1 : v1.interval = 0 := by
          simp only [Vigil.round, Option.map_eq_some_iff] at e
          obtain ⟨q, _, e⟩ := e
          injection e with e _
          rw [← e]; exact hi
        simp only [Vigil.run, e] at hr
        cases e2 : v1.run l with
        | none => rw [e2] at hr; cases hr
        | some r2 =>
          intro x hx
          rcases List.mem_cons.1 hx with rfl | hx
          · exact ⟨w, rfl⟩
          · exact ih v1 r2 (fun y hy => hopt y (by simp [hy])) e2 h1 x hx

/-! ## Examples -/

example : (⟨⟨3, 0⟩, 5, 1000, 30000, 0⟩ : Vigil).run (silentRounds [.nothing, .nodeMap 100, .nothing]) =
    some (⟨⟨3, 3⟩, 5, 1000, 30000, 42100⟩, [(42100, .down)]) := by decide +kernel

example : (⟨⟨2, 0⟩, 5, 1000, 30000, 0⟩ : Vigil).run [(some false, some 20, .nothing), (some false, some 30, .nodeMap 7)] =
    some (⟨⟨2, 0⟩, 5, 1000, 30000, 5057⟩, []) := by decide +kernel

end Flare
