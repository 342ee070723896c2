import Verif.Spec.Ward
import Verif.Lemmas.ClusterInv
import Verif.Lemmas.Monitor

/-! Lemmas about the index server that watches its nodes. -/
namespace Flare

/-! ### What a command does to the other nodes -/

theorem mfind_nmodify_ne (m : NodeMap) {j k : NodeKey} (f : Node → Node) (h : j ≠ k) :
    mfind (nmodify m j f) k = mfind m k := by
  rw [nmodify, mfind_mset, if_neg h]

theorem finish_nodes (env : IEnv) (s : Index) : (finish env s).1.nodes = s.nodes := by
  rw [finish_eq]
  have h : (install s).nodes = s.nodes := by simp only [install]; split <;> rfl
  simp only [save]
  split <;> exact h

theorem store_nodes (env : IEnv) (s : Index) : (store env s).1.nodes = s.nodes := by
  rw [store_eq]
  simp only [save]
  split <;> rfl

/-- As far as being down goes, node `k` is the same in both maps. -/
def SameFor (k : NodeKey) (a b : NodeMap) : Prop :=
  (mfind b k).map (fun n => decide (n.state = .down)) = (mfind a k).map fun n => decide (n.state = .down)

theorem SameFor.refl (k : NodeKey) (a : NodeMap) : SameFor k a a := rfl

theorem SameFor.of_eq {k : NodeKey} {a b : NodeMap} (h : mfind b k = mfind a k) : SameFor k a b := by
  rw [SameFor, h]

theorem SameFor.cleared {k : NodeKey} {nodes : NodeMap} (hs : Sorted nodes) (p : Int) :
    SameFor k nodes (clearSlaves nodes (slavesOf nodes p)) := by
  have hp : ∀ e ∈ slavesOf nodes p, ∃ n, mfind nodes e.1 = some n := fun e he => by
    obtain ⟨m, h1, -⟩ := slavesOf_present hs p e he; exact ⟨m, h1⟩
  rw [SameFor, mfind_clearSlaves _ _ hp]
  split
  next hk =>
    obtain ⟨⟨x, b⟩, he, rfl⟩ := List.mem_map.1 hk
    obtain ⟨n, h1, -, h2, -⟩ := (mem_slavesOf hs).1 he
    simp only [h1, Option.map_some, h2, decide_false, reduceCtorEq]
  next => rfl

theorem SameFor.other {k j : NodeKey} {a b : NodeMap} (h : SameFor k a b) (f : Node → Node) (hj : j ≠ k) :
    SameFor k a (nmodify b j f) := by
  rw [SameFor, mfind_nmodify_ne _ _ hj]; exact h

theorem setRole_nodes {N : Nat} {s : Index} (h : IxInv true N s) (env : IEnv) (j : NodeKey) (r : Role)
    (b p : Int) (P : NodeMap → Prop) (h0 : P s.nodes) (h1 : ∀ f, P (nmodify s.nodes j f))
    (h2 : ∀ f g, P (nmodify (nmodify s.nodes j f) j g))
    (h3 : ∀ f n, mfind s.nodes j = some n → n.role = .master → n.state = .prepare ∨ n.state = .ready →
      P (nmodify (clearSlaves s.nodes (pget s.nppm n.partition).slaves) j f)) :
    P (setRole env s j r b p).1.nodes := by
  have hact : ∀ (s : Index) (n : Node), P s.nodes → (∀ f, P (nmodify s.nodes j f)) →
      P (setRole.setActive j r b p s n (fun s f => finish env { s with nodes := nmodify s.nodes j f })
        (fun s => if checkBalance s.nodes j b then
          finish env { s with nodes := nmodify s.nodes j (fun n => { n with balance := b }) }
          else (s, -1))).1.nodes := by
    intro s n h1 h2
    simp only [setRole.setActive]
    split <;> (try (split)) <;> (try (split)) <;> (try rw [finish_nodes]) <;> (try dsimp only) <;>
      first | exact h1 | exact h2 _
  simp only [setRole, h.withLoad]
  by_cases hb : env.beginOk ∧ env.loadOk
  swap
  · rw [if_neg hb]; exact h0
  rw [if_pos hb]
  cases hj : mfind s.nodes j with
  | none => exact h0
  | some n =>
    simp only
    by_cases hd : n.state = .down
    · rw [if_pos hd]; exact h0
    rw [if_neg hd]
    by_cases hpr : n.state = .prepare ∨ n.state = .ready
    swap
    · rw [if_neg hpr]
      exact hact s n h0 h1
    rw [if_pos hpr]
    split
    · split
      · rw [finish_nodes]; dsimp only; exact h1 _
      · exact h0
    · exact h0
    next hr => rw [finish_nodes, pget_ptouch]; dsimp only; exact h3 _ n hj hr hpr
    · exact h0
    · split
      · split
        · rw [finish_nodes]; dsimp only; exact h1 _
        · exact h0
      · exact h0
    · rw [finish_nodes]; dsimp only; exact h1 _
    · exact hact { s with nodes := nmodify s.nodes j fun n => { n with state := .active } }
        { n with state := .active } (by dsimp only; exact h1 _) (by dsimp only; exact h2 _)

/-- A command about another node leaves a node down, or not down, as it is. -/
theorem ixStep_other {N : Nat} {s : Index} (h : IxInv true N s) (env : IEnv) (c : ICmd) (k : NodeKey)
    (hc : c.node ≠ k) : SameFor k s.nodes (ixStep env s c).1.nodes := by
  have hdown : ∀ j, j ≠ k → SameFor k s.nodes (downNode env s j).1.nodes := by
    intro j hj
    by_cases hb : env.beginOk ∧ env.loadOk
    swap
    · simp only [downNode, h.withLoad, if_neg hb]; exact .refl _ _
    cases hn : mfind s.nodes j with
    | none => simp only [downNode, h.withLoad, if_pos hb, hn]; exact .refl _ _
    | some n =>
      by_cases hd : n.state = .down
      · simp only [downNode, h.withLoad, if_pos hb, hn, hd, if_true]; exact .refl _ _
      by_cases hr : n.role = .master
      · by_cases hst : n.state = .active
        · rcases downNode_active h env hb.1 hb.2 hn hr hst with
            ⟨-, s1, -, -, -, e4, e5⟩ | ⟨f, m, b, sum, s1, -, hm, -, -, ham, -, -, -, -, e4, e5⟩
          · rw [e5, finish_nodes, e4]; exact (SameFor.refl _ _).other _ hj
          · rw [e5, finish_nodes, e4]
            refine SameFor.other ?_ _ hj
            rw [SameFor, mfind_nmodify _ _ _ _ hm]
            by_cases hf : f = k
            · subst hf; simp [upd_self, hm]
            · rw [upd_ne _ _ hf]
        · have hpr : n.state = .prepare ∨ n.state = .ready := by
            cases hs : n.state <;> simp [hs] at hd hst ⊢
          have hsl := prepare_slaves h hn hr hpr
          have : (downNode env s j).1.nodes = nmodify (clearSlaves s.nodes (slavesOf s.nodes n.partition)) j
              fun n => { n.clear with state := .down } := by
            simp only [downNode, h.withLoad, if_pos hb, hn, hd, hr, if_false, if_true, pget_ptouch]
            rcases hpr with hs | hs <;> simp only [hs, hsl, finish_nodes] <;> rfl
          rw [this]
          exact (SameFor.cleared h.map.sorted _).other _ hj
      · simp only [downNode, h.withLoad, if_pos hb, hn, hd, hr, if_false, finish_nodes]
        exact (SameFor.refl _ _).other _ hj
  have hready : ∀ j, j ≠ k → SameFor k s.nodes (readyNode env s j).1.nodes := by
    intro j hj
    simp only [readyNode, h.withLoad]
    split
    · split
      · exact .refl _ _
      · split
        · exact .refl _ _
        · rw [finish_nodes]; dsimp only; exact (SameFor.refl _ _).other _ hj
    · exact .refl _ _
  have hup : ∀ j, j ≠ k → SameFor k s.nodes (upNode env s j).1.nodes := by
    intro j hj
    simp only [upNode, h.withLoad]
    split
    · split
      · exact .refl _ _
      · split
        · exact .refl _ _
        · split
          · exact .refl _ _
          · rw [finish_nodes]; dsimp only; exact (SameFor.refl _ _).other _ hj
    · exact .refl _ _
  cases c with
  | add j =>
    simp only [ixStep, addNode, h.withLoad]
    split
    · split
      · split
        · rw [store_nodes]; exact .refl _ _
        · exact .refl _ _
      · rw [store_nodes]
        refine .of_eq ?_
        rw [mfind_mset, if_neg (show j ≠ k from hc)]
    · exact .refl _ _
  | down j => exact hdown j hc
  | ready j => exact hready j hc
  | up j => exact hup j hc
  | remove j =>
    simp only [ixStep, removeNode, h.withLoad]
    split
    · split
      · exact .refl _ _
      · split
        · exact .refl _ _
        · split
          · exact .refl _ _
          · rw [finish_nodes]; dsimp only
            refine .of_eq ?_
            rw [mfind_merase, if_neg (show j ≠ k from hc)]
    · exact .refl _ _
  | role j r b p =>
    have hj : j ≠ k := hc
    simp only [ixStep]
    refine setRole_nodes h env j r b p (SameFor k s.nodes) (.refl _ _) (fun f => (SameFor.refl _ _).other _ hj)
      (fun f g => ((SameFor.refl _ _).other _ hj).other _ hj) fun f n h1 h2 h3 => ?_
    rw [prepare_slaves h h1 h2 h3]
    exact (SameFor.cleared h.map.sorted _).other _ hj
  | state j st =>
    have hj : j ≠ k := hc
    cases st with
    | prepare => exact .refl _ _
    | down => exact hdown j hj
    | active => exact hup j hj
    | ready => exact hready j hj

/-- After `down_node` the node is down. -/
theorem downNode_view {N : Nat} {s : Index} (h : IxInv true N s) {env : IEnv} {k : NodeKey} {n : Node}
    (hb : env.beginOk ∧ env.loadOk) (hk : mfind s.nodes k = some n) :
    ∃ n', mfind (downNode env s k).1.nodes k = some n' ∧ n'.state = .down := by
  by_cases hd : n.state = .down
  · simp only [downNode, h.withLoad, if_pos hb, hk, hd, if_true]; exact ⟨n, rfl, hd⟩
  have hlast : ∀ (m : NodeMap) (f : Node → Node), (∀ n, (f n).state = .down) →
      ∃ n', mfind (nmodify m k f) k = some n' ∧ n'.state = .down := by
    intro m f hf
    rw [nmodify, mfind_mset, if_pos rfl]
    exact ⟨_, rfl, hf _⟩
  by_cases hr : n.role = .master
  · by_cases hst : n.state = .active
    · rcases downNode_active h env hb.1 hb.2 hk hr hst with
        ⟨-, s1, -, -, -, e4, e5⟩ | ⟨f, m, b, sum, s1, -, hm, -, -, ham, -, -, -, -, e4, e5⟩
      · rw [e5, finish_nodes, e4]; exact hlast _ _ fun _ => rfl
      · rw [e5, finish_nodes, e4]; exact hlast _ _ fun _ => rfl
    · have hpr : n.state = .prepare ∨ n.state = .ready := by
        cases hs : n.state <;> simp [hs] at hd hst ⊢
      have hsl := prepare_slaves h hk hr hpr
      have : (downNode env s k).1.nodes = nmodify (clearSlaves s.nodes (slavesOf s.nodes n.partition)) k
          fun n => { n.clear with state := .down } := by
        simp only [downNode, h.withLoad, if_pos hb, hk, hd, hr, if_false, if_true, pget_ptouch]
        rcases hpr with hs | hs <;> simp only [hs, hsl, finish_nodes] <;> rfl
      rw [this]
      exact hlast _ _ fun _ => rfl
  · simp only [downNode, h.withLoad, if_pos hb, hk, hd, hr, if_false, finish_nodes]
    exact hlast _ _ fun _ => rfl

/-- After `up_node` the node is not down. -/
theorem upNode_view {N : Nat} {s : Index} (h : IxInv true N s) {env : IEnv} {k : NodeKey} {n : Node}
    (hb : env.beginOk ∧ env.loadOk) (hk : mfind s.nodes k = some n) :
    ∃ n', mfind (upNode env s k).1.nodes k = some n' ∧ n'.state ≠ .down := by
  simp only [upNode, h.withLoad, if_pos hb, hk]
  split
  next ha => exact ⟨n, hk, by rw [ha]; exact nofun⟩
  next =>
    split
    next hp => exact ⟨n, hk, by rw [hp.2]; exact nofun⟩
    next =>
      rw [finish_nodes]; dsimp only
      rw [nmodify, mfind_mset, if_pos rfl]
      exact ⟨_, rfl, nofun⟩

/-! ### One step in a calm time -/

/-- The watcher of another node, or of this one in a command about another node. -/
theorem watchers_command {N : Nat} {s : Ward} (h : IxInv true N s.ix) {env : IEnv} {c : ICmd}
    {k : NodeKey} {n : Node} (hk : mfind s.ix.nodes k = some n)
    (hc : ∀ j, (c = .add j ∨ c = .remove j) → j ≠ k) : s.watchersAfter env c k = s.watchers k := by
  have hw : s.watchersLoaded env k = s.watchers k := by
    simp only [Ward.watchersLoaded, h.load]
    cases env.loadOk
    · rfl
    · simp only [hk]
  have hw' : (if env.beginOk then s.watchersLoaded env else s.watchers) k = s.watchers k := by
    split
    · exact hw
    · rfl
  simp only [Ward.watchersAfter]
  cases c with
  | add j =>
    simp only
    split
    · dsimp only
      rw [if_neg (fun e : k = j => hc j (.inl rfl) e.symm)]; exact hw'
    · exact hw'
  | remove j =>
    simp only
    split
    · dsimp only
      rw [if_neg (fun e : k = j => hc j (.inr rfl) e.symm)]; exact hw'
    · exact hw'
  | state j st => cases st <;> first | exact hw' | rfl
  | _ => exact hw'

/-- What a round of the watcher of `k` does to its counter and what it asks for. -/
theorem calm_round {ok : Bool} {m : Mon} {d : Bool} {g : MonGot} (ht : 0 < m.threshold) (h0 : 0 ≤ m.failed)
    (hg : g.steady = true) (hc : if ok then g.fails = false ∧ g ≠ .unknown else g ≠ .check true) :
    ∃ m' r, m.step (some d) g = some (m', r) ∧ m'.threshold = m.threshold ∧ 0 ≤ m'.failed ∧
      (∀ q ∈ r, q = if ok then .up else .down) ∧
      (ok = true → g = .check true → d = true → .up ∈ r) ∧
      (ok = false → d = false →
        (.down ∈ r ∨ (m'.failed < m.threshold ∧ (if m.failed ≥ m.threshold then 0 else m.failed) +
          (if g.fails then 1 else 0) ≤ m'.failed))) := by
  have hlook : 0 ≤ (m.look (some d)).failed ∧ (m.look (some d)).threshold = m.threshold ∧
      (d = true → (m.look (some d)).failed = m.threshold) ∧
      (d = false → (m.look (some d)).failed < m.threshold ∧
        (m.look (some d)).failed = if m.failed ≥ m.threshold then 0 else m.failed) := by
    cases d with
    | true => exact ⟨by simp only [Mon.look]; omega, rfl, fun _ => rfl, nofun⟩
    | false =>
      simp only [Mon.look]
      by_cases hf : m.failed ≥ m.threshold
      · simp only [if_pos hf]; exact ⟨Int.le_refl 0, trivial, nofun, fun _ => ⟨ht, trivial⟩⟩
      · simp only [if_neg hf]; exact ⟨h0, trivial, nofun, fun _ => ⟨by omega, trivial⟩⟩
  obtain ⟨l0, l1, l2, l3⟩ := hlook
  simp only [Mon.step]
  generalize hm : m.look (some d) = a at l0 l1 l2 l3
  have hfail : ok = false → ∃ m' r, some a.countFailure = some (m', r) ∧ m'.threshold = m.threshold ∧ 0 ≤ m'.failed ∧
      (∀ q ∈ r, q = if ok then .up else .down) ∧ (d = false → (.down ∈ r ∨ (m'.failed < m.threshold ∧
        (if m.failed ≥ m.threshold then 0 else m.failed) + 1 ≤ m'.failed))) := by
    intro hok
    refine ⟨_, _, rfl, l1, by dsimp only; omega, ?_, ?_⟩
    · intro q hq
      rw [hok, if_neg (by simp)]
      split at hq
      · exact List.mem_singleton.1 hq
      · cases hq
    · intro hd
      obtain ⟨l4, l5⟩ := l3 hd
      rw [← l5]
      dsimp only
      by_cases he : a.failed + 1 = a.threshold
      · left; rw [if_pos he]; exact List.mem_singleton.2 rfl
      · right; exact ⟨by omega, Int.le_refl _⟩
  cases ok with
  | true =>
    rw [if_pos rfl] at hc
    cases g with
    | check b =>
      cases b with
      | false => exact absurd hc.1 (by simp [MonGot.fails])
      | true =>
        refine ⟨_, _, rfl, l1, Int.le_refl 0, ?_, ?_, nofun⟩
        · intro q hq
          split at hq
          · exact List.mem_singleton.1 hq
          · cases hq
        · intro _ _ hd
          rw [if_pos (by rw [l2 hd, l1]; exact Int.le_refl _)]
          exact List.mem_singleton.2 rfl
    | sync av b =>
      cases b with
      | false => exact absurd hc.1 (by simp [MonGot.fails])
      | true =>
        simp only [Mon.work]
        by_cases hx : a.failed ≥ a.threshold ∧ av = false
        · rw [if_pos hx]
          refine ⟨_, _, rfl, l1, by dsimp only; omega, ?_, nofun, nofun⟩
          intro q hq
          have hx1 := hx.1
          rw [if_neg (show ¬ a.failed + 1 = a.threshold by omega)] at hq
          cases hq
        · rw [if_neg hx]
          exact ⟨_, _, if_pos trivial, l1, l0, by simp, nofun, nofun⟩
    | unknown => exact absurd rfl hc.2
    | option t => cases hg
    | nothing => cases hg
  | false =>
    rw [if_neg (by simp)] at hc
    cases g with
    | check b =>
      cases b with
      | true => exact absurd rfl hc
      | false =>
        obtain ⟨m', r, e1, e2, e3, e4, e5⟩ := hfail rfl
        exact ⟨m', r, e1, e2, e3, e4, nofun, fun _ hd => e5 hd⟩
    | unknown =>
      obtain ⟨m', r, e1, e2, e3, e4, e5⟩ := hfail rfl
      exact ⟨m', r, e1, e2, e3, e4, nofun, fun _ hd => e5 hd⟩
    | sync av b =>
      simp only [Mon.work]
      cases b with
      | false =>
        obtain ⟨m', r, e1, e2, e3, e4, e5⟩ := hfail rfl
        refine ⟨m', r, ?_, e2, e3, e4, nofun, fun _ hd => e5 hd⟩
        split
        · exact e1
        · exact e1
      | true =>
        by_cases hx : a.failed ≥ a.threshold ∧ av = false
        · rw [if_pos hx]
          obtain ⟨m', r, e1, e2, e3, e4, e5⟩ := hfail rfl
          refine ⟨m', r, e1, e2, e3, e4, nofun, fun _ hd => ?_⟩
          have := (l3 hd).1
          omega
        · rw [if_neg hx]
          refine ⟨_, _, rfl, l1, l0, by simp, nofun, fun _ hd => .inr ?_⟩
          obtain ⟨l4, l5⟩ := l3 hd
          exact ⟨l4, by rw [← l5]; simp [MonGot.fails]⟩
    | option t => cases hg
    | nothing => cases hg

/-- The failures that count towards the threshold. -/
def Ward.counted (s : Ward) (k : NodeKey) (t : Int) : Int :=
  match s.watchers k with
  | some w => if w.mon.failed ≥ t then 0 else w.mon.failed
  | none => 0

theorem Ward.counted_lt (s : Ward) (k : NodeKey) {t : Int} (ht : 0 < t) : s.counted k t < t := by
  simp only [Ward.counted]
  split
  · split <;> omega
  · exact ht

theorem Ward.counted_same {s s' : Ward} {k : NodeKey} (t : Int) (h : s'.watchers k = s.watchers k) :
    s'.counted k t = s.counted k t := by
  simp only [Ward.counted, h]

/-- What the watcher of a node that answers asks for, and that of one that does not. -/
def wardAsk (ok : Bool) : MonReq := if ok then .up else .down

theorem view_of_same {s s' : Ward} {k : NodeKey} (h : SameFor k s.ix.nodes s'.ix.nodes) :
    s'.view k = s.view k := h

theorem view_present {s s' : Ward} {k : NodeKey} {n : Node} (h : s'.view k = s.view k)
    (hn : mfind s.ix.nodes k = some n) : ∃ n', mfind s'.ix.nodes k = some n' := by
  simp only [Ward.view, hn, Option.map_some] at h
  cases hm : mfind s'.ix.nodes k with
  | none => rw [hm] at h; cases h
  | some n' => exact ⟨n', rfl⟩

/-- One step in a calm time: either something is appended to the queue of the controller, for this node only
what fits, and the map says the same of the node; or the controller takes the first request. -/
theorem calm_step {k : NodeKey} {t : Int} {ok : Bool} {N : Nat} {s : Ward} {e : WardEv}
    (hi : IxInv true N s.ix) (hw : s.Watches k t) (hc : e.Calm k ok s) :
    ∃ s', s.step e = some s' ∧ (∃ N', IxInv true N' s'.ix) ∧ s'.Watches k t ∧
      ((∃ r, s'.queue = s.queue ++ r ∧ (∀ q, (k, q) ∈ r → q = wardAsk ok) ∧ s'.view k = s.view k ∧
          (e.isControl = true → s.queue = []) ∧
          (e.shows k ok = true → ok = true → s.view k = some true → (k, .up) ∈ r) ∧
          (ok = false → s.view k = some false → (k, .down) ∈ r ∨
            s.counted k t + (if e.shows k ok then 1 else 0) ≤ s'.counted k t)) ∨
        (e.isControl = true ∧ ∃ j q, s.queue = (j, q) :: s'.queue ∧
          s'.view k = (if j = k then some (decide (q = .down)) else s.view k) ∧
          s'.watchers k = s.watchers k)) := by
  obtain ⟨⟨n, hn⟩, ⟨m, hm, hmt, hm0⟩, ht⟩ := hw
  have hw : s.Watches k t := ⟨⟨n, hn⟩, ⟨m, hm, hmt, hm0⟩, ht⟩
  -- nothing that matters happens
  have quiet : ∀ (s' : Ward) (r : List (NodeKey × MonReq)), s.step e = some s' → s'.ix = s.ix → s'.watchers k = s.watchers k →
      s'.queue = s.queue ++ r → (∀ q, (k, q) ∉ r) → e.shows k ok = false → (e.isControl = true → s.queue = []) →
      ∃ s', s.step e = some s' ∧ (∃ N', IxInv true N' s'.ix) ∧ s'.Watches k t ∧
      ((∃ r, s'.queue = s.queue ++ r ∧ (∀ q, (k, q) ∈ r → q = wardAsk ok) ∧ s'.view k = s.view k ∧
          (e.isControl = true → s.queue = []) ∧
          (e.shows k ok = true → ok = true → s.view k = some true → (k, .up) ∈ r) ∧
          (ok = false → s.view k = some false → (k, .down) ∈ r ∨
            s.counted k t + (if e.shows k ok then 1 else 0) ≤ s'.counted k t)) ∨
        (e.isControl = true ∧ ∃ j q, s.queue = (j, q) :: s'.queue ∧
          s'.view k = (if j = k then some (decide (q = .down)) else s.view k) ∧
          s'.watchers k = s.watchers k)) := by
    intro s' r h1 h2 h3 h4 h5 h6 h7
    refine ⟨s', h1, ⟨N, by rw [h2]; exact hi⟩, ⟨⟨n, by rw [h2]; exact hn⟩, ⟨m, by rw [h3]; exact hm, hmt, hm0⟩, ht⟩, .inl ⟨r, h4, ?_, ?_, h7, ?_, ?_⟩⟩
    · intro q hq; exact absurd hq (h5 q)
    · simp only [Ward.view, h2]
    · rw [h6]; exact nofun
    · intro _ _
      right
      rw [Ward.counted_same t h3, h6, if_neg (by simp)]
      omega
  cases e with
  | connect j b =>
    by_cases hj : j = k
    · subst hj
      refine quiet s [] ?_ rfl rfl (by simp) (by simp) rfl nofun
      simp only [Ward.step, hm]
    · cases hwj : s.watchers j with
      | none => exact quiet s [] (by simp only [Ward.step, hwj]) rfl rfl (by simp) (by simp) rfl nofun
      | some w =>
        obtain ⟨mj, bj⟩ := w
        cases bj with
        | true => exact quiet s [] (by simp only [Ward.step, hwj]) rfl rfl (by simp) (by simp) rfl nofun
        | false =>
          refine quiet (s.goOn j (Mon.start mj.threshold b).1 (Mon.start mj.threshold b).2)
            ((Mon.start mj.threshold b).2.map fun q => (j, q)) (by simp only [Ward.step, hwj]) rfl
            (if_neg (fun e : k = j => hj e.symm)) rfl ?_ rfl nofun
          intro q hq
          obtain ⟨_, _, e⟩ := List.mem_map.1 hq
          exact hj (Prod.mk.inj e).1
  | round j g =>
    by_cases hj : j = k
    · subst hj
      obtain ⟨hg, hc⟩ := hc.2 rfl
      obtain ⟨m', r, e1, e2, e3, e4, e5, e6⟩ := calm_round (d := decide (n.state = .down)) (by rw [hmt]; exact ht) hm0 hg hc
      have hv : s.view j = some (decide (n.state = .down)) := by simp only [Ward.view, hn, Option.map_some]
      refine ⟨s.goOn j m' r, ?_, ⟨N, hi⟩, ⟨⟨n, hn⟩, ⟨m', if_pos rfl, by rw [e2, hmt], e3⟩, ht⟩, .inl ⟨_, rfl, ?_, rfl, nofun, ?_, ?_⟩⟩
      · simp only [Ward.step, hm, hv, e1, Option.map_some]
      · intro q hq
        obtain ⟨q', hq', e⟩ := List.mem_map.1 hq
        rw [← (Prod.mk.inj e).2]
        exact e4 q' hq'
      · intro hs hok hd
        rw [hv] at hd
        subst hok
        simp only [WardEv.shows, decide_true, Bool.true_and, if_true, decide_eq_true_eq] at hs
        exact List.mem_map.2 ⟨_, e5 rfl hs (Option.some.inj hd), rfl⟩
      · intro hok hd
        rw [hv] at hd
        subst hok
        rcases e6 rfl (Option.some.inj hd) with h | ⟨h1, h2⟩
        · left; exact List.mem_map.2 ⟨_, h, rfl⟩
        · right
          rw [hmt] at h1 h2
          have c1 : s.counted j t = if m.failed ≥ t then 0 else m.failed := by simp only [Ward.counted, hm]
          have c2 : (s.goOn j m' r).counted j t = m'.failed := by
            simp only [Ward.counted, Ward.goOn, if_true]
            rw [if_neg (by omega)]
          rw [c1, c2]
          simp only [WardEv.shows, decide_true, Bool.true_and, Bool.false_eq_true, if_false]
          exact h2
    · have hsh : (WardEv.round j g).shows k ok = false := by
        simp only [WardEv.shows, hj, decide_false, Bool.false_and]
      cases hwj : s.watchers j with
      | none => exact quiet s [] (by simp only [Ward.step, hwj]) rfl rfl (by simp) (by simp) hsh nofun
      | some w =>
        obtain ⟨mj, bj⟩ := w
        cases bj with
        | false => exact quiet s [] (by simp only [Ward.step, hwj]) rfl rfl (by simp) (by simp) hsh nofun
        | true =>
          have hstep : ∃ mr : Mon × List MonReq, mj.step (s.view j) g = some mr := by
            have := hc.1
            cases g with
            | nothing => exact absurd rfl this
            | check b => exact ⟨_, rfl⟩
            | option t => exact ⟨_, rfl⟩
            | unknown => exact ⟨_, rfl⟩
            | sync a b =>
              simp only [Mon.step, Mon.work]
              split
              · exact ⟨_, rfl⟩
              · split <;> exact ⟨_, rfl⟩
          obtain ⟨⟨m', r⟩, hr⟩ := hstep
          refine quiet (s.goOn j m' r) (r.map fun q => (j, q)) (by simp only [Ward.step, hwj, hr, Option.map_some]) rfl
            (if_neg (fun e : k = j => hj e.symm)) rfl ?_ hsh nofun
          intro q hq
          obtain ⟨_, _, e⟩ := List.mem_map.1 hq
          exact hj (Prod.mk.inj e).1
  | control env =>
    obtain ⟨⟨hb, hl, hst⟩, hsafe⟩ := hc
    cases hq : s.queue with
    | nil =>
      have := quiet s [] (by simp only [Ward.step, hq]) rfl rfl (by simp) (by simp) rfl (fun _ => hq)
      rwa [hq] at this
    | cons x q =>
      obtain ⟨j, r⟩ := x
      have hs := hsafe j r q hq
      obtain ⟨N', -, hi'⟩ := (step_result hi env (r.command j) hs).inv hi
      rw [hst] at hi'
      have hwk : ({ s with queue := q } : Ward).watchersAfter env (r.command j) k = s.watchers k := by
        refine watchers_command (s := { s with queue := q }) hi hn ?_
        intro j' hj'
        cases r <;> rcases hj' with e | e <;> cases e
      have hview : (({ s with queue := q } : Ward).command env (r.command j)).view k =
          if j = k then some (decide (r = .down)) else s.view k := by
        by_cases hj : j = k
        · subst hj
          rw [if_pos rfl]
          cases r with
          | down =>
            obtain ⟨n', h1, h2⟩ := downNode_view hi ⟨hb, hl⟩ hn
            have h1' : mfind ((({ s with queue := q } : Ward).command env (MonReq.down.command j)).ix.nodes) j = some n' := h1
            simp only [Ward.view, h1', Option.map_some, h2, decide_true]
          | up =>
            obtain ⟨n', h1, h2⟩ := upNode_view hi ⟨hb, hl⟩ hn
            have h1' : mfind ((({ s with queue := q } : Ward).command env (MonReq.up.command j)).ix.nodes) j = some n' := h1
            simp only [Ward.view, h1', Option.map_some, h2, reduceCtorEq, decide_false]
        · rw [if_neg hj]
          refine view_of_same (ixStep_other hi env (r.command j) k ?_)
          cases r <;> exact hj
      refine ⟨({ s with queue := q } : Ward).command env (r.command j), ?_, ⟨N', hi'⟩, ⟨?_, ⟨m, hwk.trans hm, hmt, hm0⟩, ht⟩,
        .inr ⟨rfl, j, r, rfl, hview, hwk⟩⟩
      · simp only [Ward.step, hq]
      · have : (({ s with queue := q } : Ward).command env (r.command j)).view k ≠ none := by
          rw [hview]
          split
          · exact nofun
          · simp only [Ward.view, hn, Option.map_some]; exact nofun
        simp only [Ward.view] at this
        cases hx : mfind (({ s with queue := q } : Ward).command env (r.command j)).ix.nodes k with
        | none => rw [hx] at this; exact absurd rfl this
        | some n' => exact ⟨n', rfl⟩
  | cmd env c =>
    obtain ⟨⟨hb, hl, hst⟩, hck, hs⟩ := hc
    obtain ⟨N', -, hi'⟩ := (step_result hi env c hs).inv hi
    rw [hst] at hi'
    have hwk : s.watchersAfter env c k = s.watchers k := by
      refine watchers_command hi hn ?_
      intro j' hj'
      rcases hj' with e | e <;> subst e <;> exact hck
    have hview : (s.command env c).view k = s.view k := view_of_same (ixStep_other hi env c k hck)
    refine ⟨s.command env c, rfl, ⟨N', hi'⟩, ⟨view_present hview hn, ⟨m, hwk.trans hm, hmt, hm0⟩, ht⟩,
      .inl ⟨[], by simp [Ward.command], by simp, hview, nofun, nofun, ?_⟩⟩
    intro _ _
    right
    rw [Ward.counted_same (s := s) (s' := s.command env c) t hwk]
    simp [WardEv.shows]
  | update env =>
    have hix : update env s.ix = s.ix := by
      simp only [update, hi.load]
      cases env.loadOk
      · rfl
      · exact install_same hi.tables
    have hwk : s.watchersLoaded env k = s.watchers k := by
      simp only [Ward.watchersLoaded, hi.load]
      cases env.loadOk
      · rfl
      · simp only [hn]
    exact quiet { s with ix := update env s.ix, watchers := s.watchersLoaded env } [] rfl hix hwk (by simp) (by simp) rfl nofun
  | threshold t' => exact quiet _ [] rfl rfl rfl (by simp) (by simp) rfl nofun

/-! ### A calm time -/

/-- What a step in a calm time does, as far as node `k` is concerned (`calm_step`). -/
def CalmDoes (k : NodeKey) (t : Int) (ok : Bool) (s : Ward) (e : WardEv) (s' : Ward) : Prop :=
  (∃ r, s'.queue = s.queue ++ r ∧ (∀ q, (k, q) ∈ r → q = wardAsk ok) ∧ s'.view k = s.view k ∧
      (e.isControl = true → s.queue = []) ∧
      (e.shows k ok = true → ok = true → s.view k = some true → (k, .up) ∈ r) ∧
      (ok = false → s.view k = some false → (k, .down) ∈ r ∨
        s.counted k t + (if e.shows k ok then 1 else 0) ≤ s'.counted k t)) ∨
    (e.isControl = true ∧ ∃ j q, s.queue = (j, q) :: s'.queue ∧
      s'.view k = (if j = k then some (decide (q = .down)) else s.view k) ∧
      s'.watchers k = s.watchers k)

theorem calm_run {k : NodeKey} {t : Int} {ok : Bool} (P : Ward → Nat → Nat → Prop)
    (hstep : ∀ s e s' c n, CalmDoes k t ok s e s' → (∃ b, s.view k = some b) → P s c n →
      P s' (c + if e.isControl then 1 else 0) (n + if e.shows k ok then 1 else 0))
    (l : List WardEv) : ∀ {N : Nat} {s : Ward} {c n : Nat}, IxInv true N s.ix → s.Watches k t →
      s.CalmRun k ok l → P s c n →
      ∃ s', s.run l = some s' ∧ (∃ N', IxInv true N' s'.ix) ∧ s'.Watches k t ∧
        P s' (c + controls l) (n + showings k ok l) := by
  induction l with
  | nil => intro N s c n hi hw _ hp; exact ⟨s, rfl, ⟨N, hi⟩, hw, hp⟩
  | cons e l ih =>
    intro N s c n hi hw hc hp
    obtain ⟨s1, h1, ⟨N1, h2⟩, h3, h4⟩ := calm_step hi hw hc.1
    have hv : ∃ b, s.view k = some b := by
      obtain ⟨n, hn⟩ := hw.map
      exact ⟨_, by simp only [Ward.view, hn, Option.map_some]; rfl⟩
    obtain ⟨s', h5, h6, h7, h8⟩ := ih h2 h3 (hc.2 s1 h1) (hstep s e s1 c n h4 hv hp)
    refine ⟨s', by simp only [Ward.run, h1]; exact h5, h6, h7, ?_⟩
    have e1 : c + controls (e :: l) = c + (if e.isControl then 1 else 0) + controls l := by
      simp only [controls, List.countP_cons]; omega
    have e2 : n + showings k ok (e :: l) = n + (if e.shows k ok then 1 else 0) + showings k ok l := by
      simp only [showings, List.countP_cons]; omega
    rw [e1, e2]
    exact h8

/-- Requests that do not fit are gone when the controller has worked off the queue. -/
theorem calm_drained {k : NodeKey} {t : Int} {ok : Bool} {N : Nat} {s : Ward} {l : List WardEv}
    (hi : IxInv true N s.ix) (hw : s.Watches k t) (hc : s.CalmRun k ok l) (hd : s.queue.length ≤ controls l) :
    ∃ s', s.run l = some s' ∧ (∃ N', IxInv true N' s'.ix) ∧ s'.Watches k t ∧
      ∀ q, (k, q) ∈ s'.queue → q = wardAsk ok := by
  have hrun := calm_run (k := k) (t := t) (ok := ok)
    (fun s' c _ => ∀ q, (k, q) ∈ s'.queue.drop (s.queue.length - c) → q = wardAsk ok) ?_ l (c := 0) (n := 0) hi hw hc
    (by simp)
  · obtain ⟨s', h1, h2, h3, h4⟩ := hrun
    refine ⟨s', h1, h2, h3, ?_⟩
    rw [Nat.zero_add, show s.queue.length - controls l = 0 by omega, List.drop_zero] at h4
    exact h4
  · intro a e a' c _ hdo _ hp q hq
    rcases hdo with ⟨r, e1, e2, -, e4, -, -⟩ | ⟨e1, j, q', e2, -, -⟩
    · rw [e1, List.drop_append] at hq
      rcases List.mem_append.1 hq with hq | hq
      · by_cases hctl : e.isControl = true
        · rw [e4 hctl] at hq; simp at hq
        · rw [if_neg hctl] at hq; exact hp q hq
      · exact e2 q (List.mem_of_mem_drop hq)
    · rw [if_pos e1] at hq
      refine hp q ?_
      rw [e2]
      by_cases h0 : s.queue.length - c = 0
      · rw [h0, List.drop_zero]
        rw [show s.queue.length - (c + 1) = 0 by omega, List.drop_zero] at hq
        exact List.mem_cons_of_mem _ hq
      · obtain ⟨d, hd⟩ : ∃ d, s.queue.length - c = d + 1 := ⟨s.queue.length - c - 1, by omega⟩
        rw [hd, List.drop_succ_cons]
        rwa [show s.queue.length - (c + 1) = d by omega] at hq

/-- Once the right request is among the first `n`, and no other one is in the queue, the map is right after
`n` steps of the controller, and stays so. -/
theorem calm_done {k : NodeKey} {t : Int} {ok : Bool} {N : Nat} {s : Ward} {l : List WardEv} {n : Nat}
    (hi : IxInv true N s.ix) (hw : s.Watches k t) (hc : s.CalmRun k ok l)
    (hq : ∀ q, (k, q) ∈ s.queue → q = wardAsk ok)
    (hr : s.view k = some (!ok) ∨ (k, wardAsk ok) ∈ s.queue.take n) (hd : n ≤ controls l) :
    ∃ s', s.run l = some s' ∧ s'.view k = some (!ok) := by
  have hrun := calm_run (k := k) (t := t) (ok := ok)
    (fun s' c _ => (∀ q, (k, q) ∈ s'.queue → q = wardAsk ok) ∧
      (s'.view k = some (!ok) ∨ (k, wardAsk ok) ∈ s'.queue.take (n - c))) ?_ l (c := 0) (n := 0) hi hw hc
    ⟨hq, by simpa using hr⟩
  · obtain ⟨s', h1, h2, h3, h4⟩ := hrun
    refine ⟨s', h1, ?_⟩
    rcases h4.2 with h | h
    · exact h
    · rw [Nat.zero_add, show n - controls l = 0 by omega] at h; simp at h
  · rintro a e a' c _ hdo _ ⟨hp, hp'⟩
    rcases hdo with ⟨r, e1, e2, e3, e4, -, -⟩ | ⟨e1, j, q', e2, e3, -⟩
    · constructor
      · intro q hq
        rw [e1] at hq
        rcases List.mem_append.1 hq with hq | hq
        · exact hp q hq
        · exact e2 q hq
      · rw [e3]
        rcases hp' with h | h
        · exact .inl h
        · right
          by_cases hctl : e.isControl = true
          · rw [e4 hctl] at h; simp at h
          · rw [if_neg hctl, e1, List.take_append]
            exact List.mem_append.2 (.inl h)
    · rw [if_pos e1]
      have hq' : j = k → q' = wardAsk ok := by
        intro hj; subst hj; exact hp q' (by rw [e2]; exact List.mem_cons_self)
      constructor
      · intro q hq; exact hp q (by rw [e2]; exact List.mem_cons_of_mem _ hq)
      · rw [e3]
        by_cases hj : j = k
        · left
          rw [if_pos hj, hq' hj]
          cases ok <;> rfl
        · rw [if_neg hj]
          rcases hp' with h | h
          · exact .inl h
          · right
            rw [e2] at h
            cases hnc : n - c with
            | zero => rw [hnc] at h; simp at h
            | succ d =>
              rw [hnc, List.take_succ_cons] at h
              rw [show n - (c + 1) = d by omega]
              rcases List.mem_cons.1 h with h | h
              · exact absurd (Prod.mk.inj h).1.symm hj
              · exact h

/-- Enough rounds that show the node's condition: the map is right, or the controller has been asked. -/
theorem calm_asked {k : NodeKey} {t : Int} {ok : Bool} {N : Nat} {s : Ward} {l : List WardEv}
    (hi : IxInv true N s.ix) (hw : s.Watches k t) (hc : s.CalmRun k ok l)
    (hq : ∀ q, (k, q) ∈ s.queue → q = wardAsk ok)
    (hn : (if ok then 1 else t) ≤ (showings k ok l : Int)) :
    ∃ s', s.run l = some s' ∧ (∃ N', IxInv true N' s'.ix) ∧ s'.Watches k t ∧
      (∀ q, (k, q) ∈ s'.queue → q = wardAsk ok) ∧
      (s'.view k = some (!ok) ∨ (k, wardAsk ok) ∈ s'.queue) := by
  have hrun := calm_run (k := k) (t := t) (ok := ok)
    (fun s' _ n => (∀ q, (k, q) ∈ s'.queue → q = wardAsk ok) ∧
      ((s'.view k = some (!ok) ∨ (k, wardAsk ok) ∈ s'.queue) ∨
        (if ok then n = 0 else (n : Int) ≤ s'.counted k t))) ?_ l (c := 0) (n := 0) hi hw hc
    ⟨hq, .inr ?_⟩
  · obtain ⟨s', h1, h2, h3, h4⟩ := hrun
    refine ⟨s', h1, h2, h3, h4.1, ?_⟩
    rcases h4.2 with h | h
    · exact h
    · exfalso
      rw [Nat.zero_add] at h
      cases ok with
      | true => simp only [if_true] at h hn; omega
      | false =>
        simp only [Bool.false_eq_true, if_false] at h hn
        have := s'.counted_lt k hw.positive
        omega
  · rintro a e a' c n hdo ⟨b, hb⟩ ⟨hp, hp'⟩
    rcases hdo with ⟨r, e1, e2, e3, e4, e5, e6⟩ | ⟨e1, j, q', e2, e3, e4⟩
    · refine ⟨?_, ?_⟩
      · intro q hq
        rw [e1] at hq
        rcases List.mem_append.1 hq with hq | hq
        · exact hp q hq
        · exact e2 q hq
      · rcases hp' with (h | h) | h
        · left; left; rw [e3]; exact h
        · left; right; rw [e1]; exact List.mem_append.2 (.inl h)
        · cases ok with
          | true =>
            rw [if_pos rfl] at h
            by_cases hsh : e.shows k true = true
            · left
              cases b with
              | false => left; rw [e3, hb]; rfl
              | true => right; rw [e1]; exact List.mem_append.2 (.inr (e5 hsh rfl hb))
            · right; rw [if_pos rfl, if_neg hsh]; exact h
          | false =>
            simp only [Bool.false_eq_true, if_false] at h
            cases b with
            | true => left; left; rw [e3, hb]; rfl
            | false =>
              rcases e6 rfl hb with h' | h'
              · left; right; rw [e1]; exact List.mem_append.2 (.inr h')
              · right
                simp only [Bool.false_eq_true, if_false]
                split
                · next hsh => rw [if_pos hsh] at h'; omega
                · next hsh => rw [if_neg hsh] at h'; omega
    · have hq' : j = k → q' = wardAsk ok := by
        intro hj; subst hj; exact hp q' (by rw [e2]; exact List.mem_cons_self)
      have hns : e.shows k ok = false := by cases e <;> first | rfl | cases e1
      refine ⟨fun q hq => hp q (by rw [e2]; exact List.mem_cons_of_mem _ hq), ?_⟩
      rw [e3]
      by_cases hj : j = k
      · left; left
        rw [if_pos hj, hq' hj]
        cases ok <;> rfl
      · rw [if_neg hj]
        rcases hp' with (h | h) | h
        · exact .inl (.inl h)
        · left; right
          rw [e2] at h
          rcases List.mem_cons.1 h with h | h
          · exact absurd (Prod.mk.inj h).1.symm hj
          · exact h
        · right
          rw [hns, Ward.counted_same t e4]
          simpa using h
  · cases ok with
    | true => simp
    | false =>
      obtain ⟨m, hm, hmt, h0⟩ := hw.watcher
      simp only [Bool.false_eq_true, if_false, Ward.counted, hm, Int.ofNat_zero]
      split <;> omega

end Flare
