import Verif.Lemmas.WardWatch
import Verif.Lemmas.ClusterVersion

/-! The index server takes the nodes that fail down, and no others (C90). -/
namespace Flare

theorem Index.InOrder.inv {s : Index} (h : s.InOrder) : ∃ N, IxInv true N s := by
  obtain ⟨as, h1, h2, rfl⟩ := h
  obtain ⟨N, h3⟩ := run_inv as true 0 Index.init init_inv h1
  rw [h2] at h3
  exact ⟨N, h3⟩

theorem wardRun_append (a b : List WardEv) : ∀ s : Ward, s.run (a ++ b) = (s.run a).bind fun s' => s'.run b := by
  induction a with
  | nil => intro s; rfl
  | cons e a ih =>
    intro s
    simp only [List.cons_append, Ward.run]
    cases s.step e with
    | none => rfl
    | some s' => exact ih s'

theorem calmRun_append {k : NodeKey} {ok : Bool} (a b : List WardEv) : ∀ {s : Ward}, s.CalmRun k ok (a ++ b) →
    s.CalmRun k ok a ∧ ∀ s', s.run a = some s' → s'.CalmRun k ok b := by
  induction a with
  | nil => intro s h; exact ⟨trivial, fun s' e => by cases e; exact h⟩
  | cons e a ih =>
    intro s h
    refine ⟨⟨h.1, fun s1 h1 => (ih (h.2 s1 h1)).1⟩, fun s' hs' => ?_⟩
    simp only [Ward.run] at hs'
    cases h1 : s.step e with
    | none => rw [h1] at hs'; cases hs'
    | some s1 => rw [h1] at hs'; exact (ih (h.2 s1 h1)).2 s' hs'

/-- Whatever came before and whatever else goes on: when the controller has worked off its queue, then enough
rounds have shown the condition of the node, and the controller has worked off its queue again, the map says
what the node's condition is. -/
theorem ward_settles {k : NodeKey} {t : Int} {ok : Bool} {s s2 : Ward} {l1 l2 l3 : List WardEv}
    (hs : s.ix.InOrder) (hw : s.Watches k t) (hc : s.CalmRun k ok (l1 ++ (l2 ++ l3)))
    (h1 : s.queue.length ≤ controls l1) (h2 : (if ok then 1 else t) ≤ (showings k ok l2 : Int))
    (e2 : s.run (l1 ++ l2) = some s2) (h3 : s2.queue.length ≤ controls l3) :
    ∃ s', s.run (l1 ++ (l2 ++ l3)) = some s' ∧ s'.view k = some (!ok) := by
  obtain ⟨N, hi⟩ := hs.inv
  obtain ⟨c1, c23⟩ := calmRun_append _ _ hc
  obtain ⟨s1, r1, ⟨N1, i1⟩, w1, q1⟩ := calm_drained hi hw c1 h1
  obtain ⟨c2, c3⟩ := calmRun_append _ _ (c23 s1 r1)
  obtain ⟨s2', r2, ⟨N2, i2⟩, w2, q2, a2⟩ := calm_asked i1 w1 c2 q1 h2
  have : s2' = s2 := by
    rw [wardRun_append, r1] at e2
    exact Option.some.inj (r2.symm.trans e2)
  subst this
  obtain ⟨s3, r3, v3⟩ := calm_done (n := s2'.queue.length) i2 w2 (c3 s2' r2) q2 (by rw [List.take_length]; exact a2) h3
  refine ⟨s3, ?_, v3⟩
  rw [wardRun_append, r1, Option.bind_some, wardRun_append, r2, Option.bind_some, r3]

/-- A node that no longer answers is taken down: when the requests from before are done, the node has failed as
often as the threshold says, and the requests that waited then are done, the map says it is down - and still
does after any further steps, as long as the node does not answer. -/
theorem C90_taken_down {k : NodeKey} {t : Int} {s s2 : Ward} {l1 l2 l3 : List WardEv}
    (hs : s.ix.InOrder) (hw : s.Watches k t) (hc : s.CalmRun k false (l1 ++ (l2 ++ l3)))
    (h1 : s.queue.length ≤ controls l1) (h2 : t ≤ (showings k false l2 : Int))
    (e2 : s.run (l1 ++ l2) = some s2) (h3 : s2.queue.length ≤ controls l3) :
    ∃ s', s.run (l1 ++ (l2 ++ l3)) = some s' ∧ s'.Down k := by
  obtain ⟨s', r, v⟩ := ward_settles hs hw hc h1 (by simpa using h2) e2 h3
  refine ⟨s', r, ?_⟩
  simp only [Ward.view] at v
  cases hm : mfind s'.ix.nodes k with
  | none => rw [hm] at v; cases v
  | some n => rw [hm] at v; exact ⟨n, hm, by simpa using v⟩

/-- A node that answers again is brought up: one successful check is enough. -/
theorem C90_brought_up {k : NodeKey} {t : Int} {s s2 : Ward} {l1 l2 l3 : List WardEv}
    (hs : s.ix.InOrder) (hw : s.Watches k t) (hc : s.CalmRun k true (l1 ++ (l2 ++ l3)))
    (h1 : s.queue.length ≤ controls l1) (h2 : 1 ≤ showings k true l2)
    (e2 : s.run (l1 ++ l2) = some s2) (h3 : s2.queue.length ≤ controls l3) :
    ∃ s', s.run (l1 ++ (l2 ++ l3)) = some s' ∧ s'.Alive k := by
  obtain ⟨s', r, v⟩ := ward_settles hs hw hc h1 (by rw [if_pos rfl]; omega) e2 h3
  refine ⟨s', r, ?_⟩
  simp only [Ward.view] at v
  cases hm : mfind s'.ix.nodes k with
  | none => rw [hm] at v; cases v
  | some n => rw [hm] at v; exact ⟨n, hm, by simpa using v⟩

theorem quiet_run {k : NodeKey} {T : Int} : ∀ (l : List WardEv) {n : Nat} {s s' : Ward}, WardQuiet k T n s →
    (∀ p q, l = p ++ q → (streak k n p : Int) < T) → (∀ e ∈ l, e.steady = true) →
    (∀ env c, .cmd env c ∈ l → c.takesDown k = false) → s.run l = some s' → ∃ n', WardQuiet k T n' s' := by
  intro l
  induction l with
  | nil => intro n s s' h _ _ _ hs; cases hs; exact ⟨n, h⟩
  | cons e l ih =>
    intro n s s' h hn he hc hs
    simp only [Ward.run] at hs
    cases h1 : s.step e with
    | none => rw [h1] at hs; cases hs
    | some s1 =>
      rw [h1] at hs
      have hq := quiet_step h (hn [] (e :: l) rfl) (hn [e] l rfl) (he e (List.mem_cons_self ..))
        (fun env c x => hc env c (by rw [x]; exact List.mem_cons_self ..)) h1
      refine ih hq ?_ (fun x hx => he x (List.mem_cons_of_mem _ hx))
        (fun env c hx => hc env c (List.mem_cons_of_mem _ hx)) hs
      intro p q e'
      have := hn (e :: p) q (by rw [e']; rfl)
      cases e <;> exact this

/-- A node that does not fail as often as the threshold says, without a successful check in between, is left
alone: the controller is not asked to take it down, and it does not - whatever else fails or is done, unless
somebody gives the command or the threshold is changed (`C90_raised`). -/
theorem C90_left_alone {k : NodeKey} {T : Int} {saved : Option (Nat × NodeMap × Int)} {s s' : Ward}
    {l : List WardEv} (hs : Ward.start saved T = some s) (hk : ¬ s.Down k)
    (hn : ∀ p q, l = p ++ q → (streak k 0 p : Int) < T) (he : ∀ e ∈ l, e.steady = true)
    (hc : ∀ env c, .cmd env c ∈ l → c.takesDown k = false) (hr : s.run l = some s') :
    (k, .down) ∉ s'.queue ∧ ¬ s'.Down k := by
  have hq : WardQuiet k T 0 s := by
    simp only [Ward.start] at hs
    cases h0 : startup saved with
    | none => rw [h0] at hs; cases hs
    | some ix =>
      rw [h0] at hs
      cases hs
      have hnd : NotDown ix.nodes k := fun n hn hd => hk ⟨n, hn, hd⟩
      refine ⟨⟨hnd, ?_⟩, rfl, by simp, ?_⟩
      · intro v nm tt e
        dsimp only at e
        rw [startup_keeps_saved saved ix h0] at e
        subst e
        have : ix.nodes = nm := by
          simp only [startup, load, if_true] at h0
          split at h0
          next e1 =>
            have e2 := (Prod.mk.inj e1).1
            split at h0
            · split at h0
              · cases h0; rw [← e2]
              · cases h0
            · cases h0
          · cases h0
        rw [← this]; exact hnd
      · intro w hw
        dsimp only at hw
        cases hm : mfind ix.nodes k with
        | none => rw [hm] at hw; cases hw
        | some n => rw [hm] at hw; cases hw; exact ⟨rfl, Int.le_refl 0⟩
  obtain ⟨n', h⟩ := quiet_run l hq hn he hc hr
  exact ⟨h.queue, fun ⟨n, h1, h2⟩ => h.map.mem n h1 h2⟩

/-- Every node of the map is watched, and no other, once a map has been stored and as long as the history is
orderly.  Missing: a first node whose storing failed (`C90_first_failed`). -/
theorem C90_watched_partial {saved : Nat × NodeMap × Int} {T : Int} {s s' : Ward} {l : List WardEv}
    (hs : Ward.start (some saved) T = some s) (ho : s.ix.InOrder) (hl : Ward.OrderlyRun true s l)
    (hf : WardEv.freshAfter true l = true) (hr : s.run l = some s') (k : NodeKey) :
    (s'.watchers k).isSome = (mfind s'.ix.nodes k).isSome := by
  have hw : Watching true s := by
    obtain ⟨N, hi⟩ := ho.inv
    simp only [Ward.start] at hs
    cases h0 : startup (some saved) with
    | none => rw [h0] at hs; cases hs
    | some ix =>
      rw [h0] at hs
      cases hs
      refine ⟨⟨N, hi⟩, ⟨saved.1, saved.2.1, saved.2.2, startup_keeps_saved _ ix h0, ?_⟩, ?_⟩
      · intro k h1 _
        dsimp only at h1 ⊢
        rw [Option.isSome_map]; exact h1
      · intro k h1
        dsimp only at h1 ⊢
        rw [Option.isSome_map] at h1; exact h1
  have := watching_run l hw hl hr
  rw [hf] at this
  exact this.exact k

/-! ### Where it fails -/

/-- A new installation whose first map cannot be stored: the node stays in memory without a thread that watches
it, because there is nothing to load it from; the next command that succeeds stores it.  It is in the map for
good and never watched. -/
theorem C90_first_failed : ∃ s s', Ward.start none 3 = some s ∧
    s.run [.cmd { storeOk := false } (.add 1), .cmd {} (.add 2)] = some s' ∧
    (mfind s'.ix.nodes 1).isSome = true ∧ s'.watchers 1 = none ∧ (s'.watchers 2).isSome = true ∧
    s'.ix.saved = some (2, s'.ix.nodes, s'.ix.threadType) := by
  refine ⟨_, _, rfl, rfl, ?_⟩
  decide +kernel

/-- A watcher that sees the node as down asks to bring it up after each successful check, so the request can wait
twice.  The first brings the node up as a proxy, an operator makes it a slave, which is to copy the data first
- and the second request makes it active at once. -/
theorem C90_stale_up : ∃ s s1 s2, Ward.start none 1 = some s ∧
    s.run [.cmd {} (.add 1), .cmd {} (.add 2), .cmd {} (.role 1 .master 1 0), .connect 1 true, .connect 2 false,
      .control {}, .round 2 (.check true), .round 2 (.check true), .control {}, .cmd {} (.role 2 .slave 1 0)] = some s1 ∧
    mfind s1.ix.nodes 2 = some ⟨.slave, .prepare, 0, 0, 17⟩ ∧ s1.queue = [(2, .up)] ∧
    s1.run [.control {}] = some s2 ∧ mfind s2.ix.nodes 2 = some ⟨.slave, .active, 0, 0, 17⟩ := by
  refine ⟨_, _, _, rfl, rfl, ?_, ?_, rfl, ?_⟩ <;> decide +kernel

/-- The counter of a node that is down is set to the threshold of that time; when the threshold is then raised
and an operator brings the node up, fewer failures than the threshold take it down: three here, where five are
asked for. -/
theorem C90_raised : ∃ s s1 s2, Ward.start none 2 = some s ∧
    s.run [.cmd {} (.add 1), .connect 1 false, .round 1 (.check false), .control {}, .threshold 5,
      .round 1 (.option 5), .cmd {} (.up 1)] = some s1 ∧
    (mfind s1.ix.nodes 1).map (·.state) = some .active ∧ s1.threshold = 5 ∧ s1.queue = [] ∧
    (s1.watchers 1).map (·.mon.threshold) = some 5 ∧
    s1.run [.round 1 (.check false), .round 1 (.check false), .round 1 (.check false), .control {}] = some s2 ∧
    (mfind s2.ix.nodes 1).map (·.state) = some .down := by
  refine ⟨_, _, _, rfl, rfl, ?_, ?_, ?_, ?_, rfl, ?_⟩ <;> decide +kernel

/-- A node whose last check succeeded may be taken down: the request waits, and nothing takes it back.  The
watcher has not even asked to bring it up again; it does so after its next check. -/
theorem C90_late_down : ∃ s s1 s2, Ward.start none 2 = some s ∧
    s.run [.cmd {} (.add 1), .connect 1 false, .round 1 (.check false), .round 1 (.check true), .control {}] = some s1 ∧
    (mfind s1.ix.nodes 1).map (·.state) = some .down ∧ s1.queue = [] ∧
    s1.run [.round 1 (.check true), .control {}] = some s2 ∧
    (mfind s2.ix.nodes 1).map (·.state) = some .active := by
  refine ⟨_, _, _, rfl, rfl, ?_, ?_, rfl, ?_⟩ <;> decide +kernel

/-! ### Examples -/

/-- An index server that knows nodes 1 (master), 2 and 3. -/
private def threeNodes : List IAct :=
  [.cmd {} (.add 1), .cmd {} (.add 2), .cmd {} (.add 3), .cmd {} (.role 1 .master 1 0), .cmd {} (.role 2 .slave 1 0),
   .cmd {} (.up 2)]

private def atWork : Ward :=
  { ix := ixRun Index.init threeNodes, watchers := fun _ => some ⟨⟨2, 0⟩, true⟩, queue := [(3, .down)], threshold := 2 }

private theorem atWork_order : atWork.ix.InOrder := by
  refine ⟨threeNodes, ?_, by decide +kernel, rfl⟩
  refine ⟨rfl, trivial, rfl, trivial, rfl, trivial, rfl, trivial, rfl, trivial, rfl, ?_, trivial⟩
  rintro ⟨n, h1, h2, -⟩
  have : n = ⟨.slave, .prepare, 0, 0, 17⟩ := Option.some.inj (h1.symm.trans (by decide +kernel))
  subst this
  cases h2

/-- The master, node 1, stops answering, while node 2 answers and a command about node 3 is still to be done:
node 1 is taken down, and node 2 takes its place. -/
example : ∃ s', atWork.run ([.control {}] ++ ([.round 1 (.check false), .round 2 (.check true), .round 1 .unknown] ++ [.control {}])) = some s' ∧
    s'.Down 1 :=
  C90_taken_down (t := 2) atWork_order ⟨⟨⟨.master, .active, 0, 1, 16⟩, by decide +kernel⟩, ⟨⟨2, 0⟩, rfl, rfl, by decide⟩, by decide⟩
    ⟨⟨⟨rfl, rfl, rfl⟩, fun j r q h => by cases h; trivial⟩, fun s1 h1 => by
      cases h1
      refine ⟨⟨nofun, fun _ => ⟨rfl, by simp⟩⟩, fun s2 h2 => ?_⟩
      cases h2
      refine ⟨⟨nofun, fun e => by cases e⟩, fun s3 h3 => ?_⟩
      cases h3
      refine ⟨⟨nofun, fun _ => ⟨rfl, by simp⟩⟩, fun s4 h4 => ?_⟩
      cases h4
      refine ⟨⟨⟨rfl, rfl, rfl⟩, fun j r q h => ?_⟩, fun _ _ => trivial⟩
      have : r = .down := by
        have h5 := congrArg List.head? h
        exact (congrArg Prod.snd (Option.some.inj h5)).symm.trans (by decide +kernel)
      subst this
      trivial⟩
    (by decide) (by decide) rfl (by decide +kernel)

/-- Node 3 is down and answers again. -/
example : ∃ s', atWork.run ([.control {}] ++ ([.round 3 (.check true), .round 1 (.check false)] ++ [.control {}])) = some s' ∧
    s'.Alive 3 :=
  C90_brought_up (t := 2) atWork_order ⟨⟨⟨.proxy, .active, -1, 0, 18⟩, by decide +kernel⟩, ⟨⟨2, 0⟩, rfl, rfl, by decide⟩, by decide⟩
    ⟨⟨⟨rfl, rfl, rfl⟩, fun j r q h => by cases h; trivial⟩, fun s1 h1 => by
      cases h1
      refine ⟨⟨nofun, fun _ => ⟨rfl, by simp [MonGot.fails]⟩⟩, fun s2 h2 => ?_⟩
      cases h2
      refine ⟨⟨nofun, fun e => by cases e⟩, fun s3 h3 => ?_⟩
      cases h3
      refine ⟨⟨⟨rfl, rfl, rfl⟩, fun j r q h => ?_⟩, fun _ _ => trivial⟩
      have h5 : (j, r) = (3, .up) := (Option.some.inj (congrArg List.head? h)).symm.trans (by decide +kernel)
      cases h5
      rintro ⟨n, h6, h7, -⟩
      exact absurd ((congrArg (Option.map Node.role) h6).trans (congrArg some h7)) (by decide +kernel)⟩
    (by decide) (by decide) rfl (by decide +kernel)

/-- A node that fails now and then, on a server whose storage fails too, is left alone. -/
example : ∃ s s', Ward.start none 2 = some s ∧
    s.run [.cmd {} (.add 1), .connect 1 false, .round 1 (.check true), .round 1 (.check false), .cmd { storeOk := false } (.add 2),
      .round 1 (.check true), .round 1 (.sync true false)] = some s' ∧ (1, .down) ∉ s'.queue ∧ ¬ s'.Down 1 := by
  refine ⟨_, _, rfl, rfl, ?_⟩
  refine C90_left_alone (saved := none) (T := 2) (l := [.cmd {} (.add 1), .connect 1 false, .round 1 (.check true), .round 1 (.check false),
    .cmd { storeOk := false } (.add 2), .round 1 (.check true), .round 1 (.sync true false)]) rfl ?_ ?_ (by decide) ?_ rfl
  · rintro ⟨n, h, -⟩; cases h
  · intro p q h
    have h2 : p.length ≤ 7 := by have := congrArg List.length h; simp at this; omega
    have h1 := List.take_left (l₁ := p) (l₂ := q)
    rw [← h] at h1
    rw [← h1]
    clear h h1
    generalize p.length = i at h2
    revert i
    decide
  · intro env c h
    simp only [List.mem_cons, List.not_mem_nil, or_false, WardEv.cmd.injEq, reduceCtorEq, false_or] at h
    rcases h with ⟨-, rfl⟩ | ⟨-, rfl⟩ <;> rfl

/-- Nodes come and go, and storing fails in between. -/
example : ∃ s s', Ward.start (some (1, [(1, ⟨.proxy, .active, -1, 0, 16⟩)], 17)) 2 = some s ∧
    s.run [.cmd {} (.add 2), .cmd { storeOk := false } (.add 3), .update {}, .cmd {} (.add 4), .cmd {} (.down 1), .cmd {} (.remove 1)] = some s' ∧
    ∀ k, (s'.watchers k).isSome = (mfind s'.ix.nodes k).isSome := by
  refine ⟨_, _, rfl, rfl, ?_⟩
  intro k
  refine C90_watched_partial (saved := (1, [(1, ⟨.proxy, .active, -1, 0, 16⟩)], 17)) (T := 2)
    (l := [.cmd {} (.add 2), .cmd { storeOk := false } (.add 3), .update {}, .cmd {} (.add 4), .cmd {} (.down 1), .cmd {} (.remove 1)])
    rfl ?_ ?_ rfl rfl k
  · exact ⟨[.cmd {} (.add 1), .restart], ⟨rfl, trivial, trivial⟩, rfl, rfl⟩
  · refine ⟨⟨rfl, trivial⟩, fun s1 h1 => ?_⟩
    cases h1
    refine ⟨⟨rfl, trivial⟩, fun s2 h2 => ?_⟩
    cases h2
    refine ⟨trivial, fun s3 h3 => ?_⟩
    cases h3
    refine ⟨⟨rfl, trivial⟩, fun s4 h4 => ?_⟩
    cases h4
    refine ⟨⟨rfl, trivial⟩, fun s5 h5 => ?_⟩
    cases h5
    refine ⟨⟨rfl, ?_⟩, fun _ _ => trivial⟩
    rintro ⟨n, h6, h7, -⟩
    exact absurd ((congrArg (Option.map Node.role) h6).trans (congrArg some h7)) (by decide +kernel)

end Flare
