import Verif.Lemmas.Ward

/-! A node is made down only by a command that says so. -/
namespace Flare

def NotDown (nodes : NodeMap) (k : NodeKey) : Prop := ∀ n, mfind nodes k = some n → n.state ≠ .down

/-- Neither in memory nor in the stored map. -/
structure IxNotDown (k : NodeKey) (s : Index) : Prop where
  mem : NotDown s.nodes k
  saved : ∀ v nm tt, s.saved = some (v, nm, tt) → NotDown nm k

theorem NotDown.nmodify {nodes : NodeMap} {k : NodeKey} (h : NotDown nodes k) (j : NodeKey) {f : Node → Node}
    (hf : j = k → ∀ n, n.state ≠ .down → (f n).state ≠ .down) : NotDown (nmodify nodes j f) k := by
  intro n hn
  rw [Flare.nmodify, mfind_mset] at hn
  by_cases hj : j = k
  · rw [if_pos hj] at hn
    cases hn
    refine hf hj _ ?_
    subst hj
    simp only [nget]
    cases hm : mfind nodes j with
    | none => exact nofun
    | some n => exact h n hm
  · rw [if_neg hj] at hn; exact h n hn

theorem NotDown.ntouch {nodes : NodeMap} {k : NodeKey} (h : NotDown nodes k) (j : NodeKey) :
    NotDown (ntouch nodes j) k := by
  simp only [Flare.ntouch]
  split
  · exact h
  · intro n hn
    rw [mfind_mset] at hn
    split at hn
    · cases hn; exact nofun
    · exact h n hn

theorem NotDown.pickSlave {k : NodeKey} (l : List (NodeKey × Int)) : ∀ {nodes : NodeMap} {best : Option (NodeKey × Int)} {sum : Int},
    NotDown nodes k → NotDown (pickSlave nodes l best sum).2.2 k := by
  induction l with
  | nil => intro nodes best sum h; exact h
  | cons e l ih =>
    obtain ⟨j, b⟩ := e
    intro nodes best sum h
    simp only [Flare.pickSlave]
    exact ih (h.ntouch j)

theorem NotDown.clearSlaves {k : NodeKey} (l : List (NodeKey × Int)) : ∀ {nodes : NodeMap},
    NotDown nodes k → NotDown (clearSlaves nodes l) k := by
  induction l with
  | nil => intro nodes h; exact h
  | cons e l ih =>
    intro nodes h
    exact ih (h.nmodify e.1 (fun _ _ _ => nofun))

theorem IxNotDown.load {k : NodeKey} {s : Index} (h : IxNotDown k s) (env : IEnv) : IxNotDown k (load env s).1 := by
  simp only [Flare.load]
  split
  · cases hs : s.saved with
    | none => exact ⟨h.mem, by intro v nm tt e; simp only at e; rw [hs] at e; cases e⟩
    | some q =>
      obtain ⟨v, nm, tt⟩ := q
      exact ⟨h.saved v nm tt hs, by intro v' nm' tt' e; simp only at e; exact h.saved v' nm' tt' (hs.trans e)⟩
  · exact h

theorem IxNotDown.store {k : NodeKey} {s : Index} (h : IxNotDown k s) (env : IEnv) :
    IxNotDown k (store env s).1 := by
  rw [store_eq]
  simp only [save]
  split
  · refine ⟨h.mem, ?_⟩
    intro v nm tt e
    simp only [Option.some.injEq, Prod.mk.injEq] at e
    obtain ⟨-, rfl, -⟩ := e
    exact h.mem
  · exact ⟨h.mem, h.saved⟩

theorem IxNotDown.finish {k : NodeKey} {s : Index} (h : IxNotDown k s) (env : IEnv) :
    IxNotDown k (finish env s).1 := by
  refine IxNotDown.store ⟨?_, ?_⟩ env
  · simp only [install]; split <;> exact h.mem
  · simp only [install]; split <;> exact h.saved

theorem IxNotDown.withLoad {k : NodeKey} {s : Index} (h : IxNotDown k s) (env : IEnv)
    {f : Index → Index × Int} (hf : ∀ s, IxNotDown k s → IxNotDown k (f s).1) :
    IxNotDown k (withLoad env s f).1 := by
  simp only [Flare.withLoad]
  split
  · split
    · next he => exact hf _ (by have := h.load env; rwa [he] at this)
    · next he => have := h.load env; rwa [he] at this
  · exact h

theorem IxNotDown.with {k : NodeKey} {s : Index} (h : IxNotDown k s) {m : NodeMap} {npm nppm : PMap} {tt : Int}
    (hm : NotDown m k) : IxNotDown k { s with nodes := m, npm := npm, nppm := nppm, threadType := tt } :=
  ⟨hm, h.saved⟩

theorem IxNotDown.set {k : NodeKey} {s : Index} (h : IxNotDown k s) (env : IEnv) (j : NodeKey) (f : Node → Node)
    (hf : ∀ n, n.state ≠ .down → (f n).state ≠ .down) :
    IxNotDown k (Flare.finish env { s with nodes := nmodify s.nodes j f }).1 :=
  IxNotDown.finish (s := { s with nodes := nmodify s.nodes j f }) ⟨h.mem.nmodify j fun _ => hf, h.saved⟩ env

theorem ready_notDown {k : NodeKey} {s : Index} (h : IxNotDown k s) (env : IEnv) (j : NodeKey) :
    IxNotDown k (readyNode env s j).1 := by
  refine h.withLoad env fun s h => ?_
  split
  · exact h
  · split
    · exact h
    · exact h.set env j _ (fun _ _ => by simp)

theorem up_notDown {k : NodeKey} {s : Index} (h : IxNotDown k s) (env : IEnv) (j : NodeKey) :
    IxNotDown k (upNode env s j).1 := by
  refine h.withLoad env fun s h => ?_
  split
  · exact h
  · split
    · exact h
    · split
      · exact h
      · exact h.set env j _ (fun _ _ => by simp)

theorem down_notDown {k : NodeKey} {s : Index} (h : IxNotDown k s) (env : IEnv) {j : NodeKey} (hj : j ≠ k) :
    IxNotDown k (downNode env s j).1 := by
  refine h.withLoad env fun s h => ?_
  cases hn : mfind s.nodes j with
  | none => exact h
  | some n =>
    by_cases hd : n.state = .down
    · simp only [hd, if_true]; exact h
    simp only [hd, if_false]
    refine IxNotDown.finish ?_ env
    have key : ∀ q : Index × Bool, IxNotDown k q.1 → IxNotDown k { q.1 with nodes := nmodify q.1.nodes j fun n =>
        if q.2 = true then { n with state := .down } else { n.clear with state := .down } } :=
      fun q hq => ⟨by dsimp only; exact hq.mem.nmodify j fun e => absurd e hj, by dsimp only; exact hq.saved⟩
    refine key _ ?_
    by_cases hr : n.role = .master
    · simp only [hr, if_true]
      cases hst : n.state <;> simp only
      case active =>
        by_cases hl : (pget (ptouch s.npm n.partition) n.partition).slaves.length = 0
        · simp only [hl, if_true]; exact ⟨h.mem, h.saved⟩
        · simp only [hl, if_false]
          have hp := h.mem.pickSlave (pget (ptouch s.npm n.partition) n.partition).slaves (best := none) (sum := 0)
          rcases hq : pickSlave s.nodes (pget (ptouch s.npm n.partition) n.partition).slaves none 0 with ⟨f, sum, nodes⟩
          rw [hq] at hp
          cases f with
          | none => exact ⟨hp, h.saved⟩
          | some f => exact ⟨by dsimp only; exact NotDown.nmodify hp f fun _ _ hm => hm, h.saved⟩
      all_goals exact ⟨h.mem.clearSlaves _, h.saved⟩
    · simp only [hr, if_false]; exact h

theorem setActive_notDown {k : NodeKey} (env : IEnv) (j : NodeKey) (r : Role) (b p : Int) {s : Index} (n : Node)
    (h : IxNotDown k s) :
    IxNotDown k (setRole.setActive j r b p s n (fun s f => finish env { s with nodes := nmodify s.nodes j f })
      (fun s => if checkBalance s.nodes j b then
        finish env { s with nodes := nmodify s.nodes j (fun n => { n with balance := b }) }
        else (s, -1))).1 := by
  simp only [setRole.setActive]
  have hb : IxNotDown k (if checkBalance s.nodes j b then
      finish env { s with nodes := nmodify s.nodes j (fun n => { n with balance := b }) } else (s, -1)).1 := by
    split
    · exact h.set env j _ (fun _ hn => hn)
    · exact h
  split
  · exact hb
  · exact h
  · exact h
  · exact hb
  · split
    · exact h.set env j _ (fun _ _ => by simp)
    · exact h
  · split
    · exact h
    · split
      · exact h
      · refine h.set env j _ (fun _ _ => ?_)
        dsimp only
        split <;> simp
  · split
    · exact h
    · exact h.set env j _ (fun _ _ => by simp)
  · exact h.set env j _ (fun _ hn => hn)

theorem role_notDown {k : NodeKey} {s : Index} (h : IxNotDown k s) (env : IEnv) (j : NodeKey) (r : Role) (b p : Int) :
    IxNotDown k (setRole env s j r b p).1 := by
  refine h.withLoad env fun s h => ?_
  cases hn : mfind s.nodes j with
  | none => exact h
  | some n =>
    have hb : IxNotDown k (if checkBalance s.nodes j b then
        finish env { s with nodes := nmodify s.nodes j (fun n => { n with balance := b }) } else (s, -1)).1 := by
      split
      · exact h.set env j _ (fun _ hn => hn)
      · exact h
    simp only
    by_cases hd : n.state = .down
    · rw [if_pos hd]; exact h
    rw [if_neg hd]
    by_cases hp : n.state = .prepare ∨ n.state = .ready
    · rw [if_pos hp]
      cases n.role <;> cases r <;> simp only
      case slave.slave =>
        split
        · exact hb
        · exact h
      case master.proxy =>
        exact IxNotDown.set (s := { s with nppm := ptouch s.nppm n.partition, nodes := clearSlaves s.nodes (pget (ptouch s.nppm n.partition) n.partition).slaves })
          ⟨h.mem.clearSlaves _, h.saved⟩ env j _ (fun _ _ => by simp)
      case slave.proxy => exact h.set env j _ (fun _ _ => by simp)
      case proxy.master | proxy.slave | proxy.proxy =>
        refine setActive_notDown env j _ b p _ (s := { s with nodes := nmodify s.nodes j fun n => { n with state := .active } })
          ⟨by dsimp only; exact h.mem.nmodify j (fun _ _ _ => by simp), h.saved⟩
      all_goals first | exact h | exact hb
    · rw [if_neg hp]; exact setActive_notDown env j r b p n h

theorem step_notDown {k : NodeKey} {s : Index} (h : IxNotDown k s) (env : IEnv) (c : ICmd)
    (hc : c.takesDown k = false) : IxNotDown k (ixStep env s c).1 := by
  cases c with
  | add j =>
    refine h.withLoad env fun s h => ?_
    split
    · split
      · exact h.store env
      · exact h
    · refine IxNotDown.store (s := { s with nodes := mset s.nodes j _, threadType := s.threadType + 1 }) ⟨?_, h.saved⟩ env
      intro n hn
      dsimp only at hn
      rw [mfind_mset] at hn
      split at hn
      · cases hn; simp
      · exact h.mem n hn
  | down j => exact down_notDown h env (by simpa [ICmd.takesDown] using hc)
  | ready j => exact ready_notDown h env j
  | up j => exact up_notDown h env j
  | remove j =>
    refine h.withLoad env fun s h => ?_
    split
    · exact h
    · split
      · exact h
      · split
        · exact h
        · refine IxNotDown.finish (s := { s with nodes := merase s.nodes j }) ⟨?_, h.saved⟩ env
          intro n hn
          dsimp only at hn
          rw [mfind_merase] at hn
          split at hn
          · cases hn
          · exact h.mem n hn
  | role j r b p => exact role_notDown h env j r b p
  | state j st =>
    cases st with
    | prepare => exact h
    | down => exact down_notDown h env (by simpa [ICmd.takesDown] using hc)
    | active => exact up_notDown h env j
    | ready => exact ready_notDown h env j

/-! ### A node that does not fail often enough is left alone -/

/-- `n`: failures since the last successful check. -/
structure WardQuiet (k : NodeKey) (T : Int) (n : Nat) (s : Ward) : Prop where
  map : IxNotDown k s.ix
  threshold : s.threshold = T
  queue : (k, MonReq.down) ∉ s.queue
  watcher : ∀ w, s.watchers k = some w → w.mon.threshold = T ∧ w.mon.failed ≤ (if w.begun then n else 0 : Nat)

theorem WardQuiet.mono {k : NodeKey} {T : Int} {n n' : Nat} {s : Ward} (h : WardQuiet k T n s) (hn : n ≤ n') : WardQuiet k T n' s :=
  ⟨h.map, h.threshold, h.queue, fun w hw => ⟨(h.watcher w hw).1, by
    have := (h.watcher w hw).2
    cases hb : w.begun
    · rw [hb] at this; exact this
    · rw [hb] at this; simp only [if_true] at this ⊢; omega⟩⟩

theorem WardQuiet.loaded {k : NodeKey} {T : Int} {n : Nat} {s : Ward} (h : WardQuiet k T n s) (env : IEnv) {w : Watcher}
    (hw : s.watchersLoaded env k = some w) : w.mon.threshold = T ∧ w.mon.failed ≤ (if w.begun then n else 0 : Nat) := by
  have hnew : s.watcher = w → w.mon.threshold = T ∧ w.mon.failed ≤ (if w.begun then n else 0 : Nat) := by
    rintro rfl
    exact ⟨h.threshold, Int.le_refl 0⟩
  simp only [Ward.watchersLoaded] at hw
  rcases hl : load env s.ix with ⟨ix, b⟩
  rw [hl] at hw
  cases b with
  | false => exact h.watcher w hw
  | true =>
    dsimp only at hw
    cases h1 : mfind s.ix.nodes k <;> cases h2 : mfind ix.nodes k <;> rw [h1, h2] at hw
    · exact h.watcher w hw
    · exact hnew (Option.some.inj hw)
    · cases hw
    · exact h.watcher w hw

theorem WardQuiet.after {k : NodeKey} {T : Int} {n : Nat} {s : Ward} (h : WardQuiet k T n s) (env : IEnv) (c : ICmd) {w : Watcher}
    (hw : s.watchersAfter env c k = some w) : w.mon.threshold = T ∧ w.mon.failed ≤ (if w.begun then n else 0 : Nat) := by
  have hl : ∀ w, (if env.beginOk then s.watchersLoaded env else s.watchers) k = some w →
      w.mon.threshold = T ∧ w.mon.failed ≤ (if w.begun then n else 0 : Nat) := by
    intro w hw
    split at hw
    · exact h.loaded env hw
    · exact h.watcher w hw
  simp only [Ward.watchersAfter] at hw
  cases c with
  | add j =>
    simp only at hw
    split at hw
    · dsimp only at hw
      split at hw
      · cases hw; exact ⟨h.threshold, Int.le_refl 0⟩
      · exact hl w hw
    · exact hl w hw
  | remove j =>
    simp only at hw
    split at hw
    · dsimp only at hw
      split at hw
      · cases hw
      · exact hl w hw
    · exact hl w hw
  | state j st => cases st <;> first | exact hl w hw | exact h.watcher w hw
  | _ => exact hl w hw

theorem WardQuiet.command {k : NodeKey} {T : Int} {n : Nat} {s : Ward} (h : WardQuiet k T n s) (env : IEnv) (c : ICmd)
    (hc : c.takesDown k = false) : WardQuiet k T n (s.command env c) :=
  ⟨step_notDown h.map env c hc, h.threshold, h.queue, fun _ hw => h.after env c hw⟩

/-- What a watcher counts when the map does not say that the node is down. -/
theorem quiet_round {m m' : Mon} {v : MonView} {g : MonGot} {r : List MonReq} (hv : v ≠ some true)
    (hg : g.steady = true) (hm : m.failed < m.threshold) (h : m.step v g = some (m', r)) :
    m'.threshold = m.threshold ∧
      m'.failed = (if g = .check true then 0 else if g.fails then m.failed + 1 else m.failed) ∧
      (.down ∈ r → m'.failed = m.threshold) := by
  have hl : m.look v = m := by
    cases v with
    | none => rfl
    | some b =>
      cases b with
      | true => exact absurd rfl hv
      | false => simp only [Mon.look, if_neg (show ¬ m.failed ≥ m.threshold by omega)]
  simp only [Mon.step, hl] at h
  have hf : some m.countFailure = some (m', r) → m'.threshold = m.threshold ∧ m'.failed = m.failed + 1 ∧
      (.down ∈ r → m'.failed = m.threshold) := by
    intro h
    cases h
    refine ⟨rfl, rfl, ?_⟩
    intro hd
    split at hd
    next he => exact he
    · cases hd
  cases g with
  | check ok =>
    cases ok with
    | true =>
      cases h
      refine ⟨rfl, rfl, ?_⟩
      intro hd
      split at hd
      · cases hd with | tail _ h => cases h
      · cases hd
    | false => exact hf h
  | option t => cases hg
  | nothing => cases hg
  | unknown => exact hf h
  | sync av ok =>
    simp only [Mon.work] at h
    rw [if_neg (fun x => by have := x.1; omega)] at h
    cases ok with
    | true => cases h; exact ⟨rfl, rfl, nofun⟩
    | false => exact hf h

theorem quiet_step {k : NodeKey} {T : Int} {n : Nat} {s s' : Ward} {e : WardEv} (h : WardQuiet k T n s)
    (hn : (n : Int) < T) (hn' : (streak k n [e] : Int) < T) (he : e.steady = true)
    (hc : ∀ env c, e = .cmd env c → c.takesDown k = false) (hs : s.step e = some s') :
    WardQuiet k T (streak k n [e]) s' := by
  have hother : ∀ (j : NodeKey) (m : Mon) (r : List MonReq), j ≠ k → WardQuiet k T n (s.goOn j m r) := by
    intro j m r hj
    refine ⟨h.map, h.threshold, ?_, ?_⟩
    · intro hq
      simp only [Ward.goOn, List.mem_append, List.mem_map, Prod.mk.injEq] at hq
      rcases hq with hq | ⟨q, -, hq, -⟩
      · exact h.queue hq
      · exact hj hq
    · intro w hw
      simp only [Ward.goOn, if_neg (fun x : k = j => hj x.symm)] at hw
      exact h.watcher w hw
  have hown : ∀ (m : Mon) (r : List MonReq) (n' : Nat), m.threshold = T → m.failed ≤ n' → MonReq.down ∉ r →
      WardQuiet k T n' (s.goOn k m r) := by
    intro m r n' h1 h2 h3
    refine ⟨h.map, h.threshold, ?_, ?_⟩
    · intro hq
      simp only [Ward.goOn, List.mem_append, List.mem_map, Prod.mk.injEq] at hq
      rcases hq with hq | ⟨q, hq, -, rfl⟩
      · exact h.queue hq
      · exact h3 hq
    · intro w hw
      simp only [Ward.goOn, if_true] at hw
      cases hw
      exact ⟨h1, by simpa using h2⟩
  cases e with
  | connect j ok =>
    simp only [Ward.step] at hs
    have hle : n ≤ streak k n [.connect j ok] := by simp only [streak]; split <;> omega
    split at hs
    next m hm =>
      simp only [Option.some.injEq] at hs
      subst hs
      by_cases hj : j = k
      · subst hj
        obtain ⟨w1, w2⟩ := h.watcher _ hm
        dsimp only at w1 w2
        cases ok with
        | true => exact hown ⟨m.threshold, 0⟩ [] _ w1 (by dsimp only; omega) (by simp)
        | false =>
          have e1 : streak j n [.connect j false] = n + 1 := by simp [streak]
          rw [e1] at hn' ⊢
          refine hown ⟨m.threshold, 0 + 1⟩ (if (0 : Int) + 1 = m.threshold then [.down] else []) _ w1 (by dsimp only; omega) ?_
          rw [if_neg (by omega)]
          simp
      · exact (hother j _ _ hj).mono hle
    next => cases hs; exact h.mono hle
  | round j g =>
    simp only [Ward.step] at hs
    by_cases hj : j = k
    · subst hj
      split at hs
      next m hm =>
        obtain ⟨w1, w2⟩ := h.watcher _ hm
        simp only [if_true] at w1 w2
        cases hst : m.step (s.view j) g with
        | none => rw [hst] at hs; cases hs
        | some x =>
          obtain ⟨m', r⟩ := x
          rw [hst] at hs
          cases hs
          have hv : s.view j ≠ some true := by
            intro hv
            simp only [Ward.view] at hv
            cases hmf : mfind s.ix.nodes j with
            | none => rw [hmf] at hv; cases hv
            | some x => rw [hmf] at hv; exact h.map.mem x hmf (by simpa using hv)
          obtain ⟨a1, a2, a3⟩ := quiet_round hv he (by omega) hst
          have hle : m'.failed ≤ (streak j n [.round j g] : Nat) := by
            rw [a2]
            simp only [streak, if_true]
            split
            · omega
            · split
              · push_cast; omega
              · exact w2
          exact hown _ _ _ (a1.trans w1) hle (fun hd => by have := a3 hd; omega)
      next hno =>
        cases hs
        refine ⟨h.map, h.threshold, h.queue, fun w hw => ⟨(h.watcher w hw).1, ?_⟩⟩
        have h2 := (h.watcher w hw).2
        obtain ⟨m, b⟩ := w
        cases b with
        | true => exact absurd hw (hno m)
        | false => exact h2
    · have hle : streak k n [.round j g] = n := by simp only [streak, if_neg hj]
      rw [hle]
      split at hs
      next m hm =>
        cases hst : m.step (s.view j) g with
        | none => rw [hst] at hs; cases hs
        | some x => rw [hst] at hs; cases hs; exact hother j _ _ hj
      next => cases hs; exact h
  | control env =>
    simp only [Ward.step] at hs
    split at hs
    next => cases hs; exact h
    next j r q hq =>
      cases hs
      refine WardQuiet.command (s := { s with queue := q }) ⟨h.map, h.threshold, fun hm => h.queue (by rw [hq]; exact List.mem_cons_of_mem _ hm), h.watcher⟩ env _ ?_
      cases r with
      | up => rfl
      | down =>
        simp only [MonReq.command, ICmd.takesDown, decide_eq_false_iff_not]
        rintro rfl
        exact h.queue (by rw [hq]; exact List.mem_cons_self ..)
  | cmd env c => cases hs; exact h.command env c (hc env c rfl)
  | update env =>
    cases hs
    refine ⟨?_, h.threshold, h.queue, fun w hw => h.loaded env hw⟩
    have hl := h.map.load env
    simp only [update]
    split
    next he =>
      rw [he] at hl
      refine ⟨?_, ?_⟩
      · simp only [install]; split <;> exact hl.mem
      · simp only [install]; split <;> exact hl.saved
    next he => rw [he] at hl; exact hl
  | threshold t => cases he

end Flare
