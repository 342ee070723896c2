import Verif.Lemmas.MultiIndex

/-! C69: several index servers with one stored node map. -/
namespace Flare

/-- Commands given to any of several index servers, which start and stop at any time, have the same
results, leave the same stored map, and leave the same map and tables in every server that has seen the
last change, as if one server had run them all.  What is missing: no change may be made while a server
has loaded the map but not set its watch yet, and the commands must form an orderly history (C20). -/
theorem C69_as_one_partial (evs : List MEv) (gap : NoGap {} evs) (cs : List ICmd)
    (hc : (mRun {} evs).done.map (·.1) = cs) (ho : Orderly true .init (plain cs)) :
    (mRun {} evs).saved = (ixRun .init (plain cs)).saved ∧
    (mRun {} evs).done.map (·.2) = rcs .init cs ∧
    ∀ i x, (mRun {} evs).servers i = some x → x.watch ≠ .fired →
      x.ix.nodes = (ixRun .init (plain cs)).nodes ∧ x.ix.npm = (ixRun .init (plain cs)).npm ∧
      x.ix.nppm = (ixRun .init (plain cs)).nppm ∧ x.ix.version = (ixRun .init (plain cs)).version := by
  obtain ⟨I, hr⟩ := mInv_run evs gap cs hc ho
  refine ⟨I.saved, hr, ?_⟩
  intro i x hx hw
  rw [← I.fresh i x hx hw]
  exact ⟨rfl, rfl, rfl, rfl⟩

/-- Under the same conditions a partition never has two live masters, on whichever servers the commands
ran. -/
theorem C69_one_master_partial (evs : List MEv) (gap : NoGap {} evs)
    (ho : Orderly true .init (plain ((mRun {} evs).done.map (·.1)))) (v : Nat) (nm : NodeMap) (tt : Int)
    (hs : (mRun {} evs).saved = some (v, nm, tt)) (p : Int) : (activeMasters nm p).length ≤ 1 := by
  have h := (C69_as_one_partial evs gap _ rfl ho).1
  exact (C20_one_master_partial _ ho nm (.inr ⟨v, tt, h ▸ hs⟩)).2 p

/-- The handler of a change on server `i` from its start to its end. -/
def handled (i : Nat) : List MEv := [.tell i, .arm i]

/-- Commands on server 0; server 1 sees each change. -/
def shared (cs : List ICmd) : List MEv := cs.flatMap fun c => .cmd 0 c :: (handled 0 ++ handled 1)

/-- Commands on server 0 while server 1 is still in the handler of the first of them. -/
def missed (c : ICmd) (cs : List ICmd) : List MEv :=
  .cmd 0 c :: handled 0 ++ [.tell 1] ++ (cs.flatMap fun c => .cmd 0 c :: handled 0) ++ [.arm 1]

def bootTwo : List MEv := [.boot 0, .arm 0, .boot 1, .arm 1]

/-- Defect: changes made while a server is between loading the map and setting its watch are never
reported to it.  It computes the next failover from its old tables: here it marks the master down and
promotes nobody, although an active slave exists, which a single server would have promoted. -/
theorem C69_gap_no_failover :
    let cs : List ICmd := [.add 1, .add 2, .role 1 .master 1 0, .role 2 .slave 1 0, .up 2]
    let m := mRun {} (bootTwo ++ shared (cs.take 2) ++ missed (.role 1 .master 1 0) (cs.drop 3) ++ [.cmd 1 (.down 1)])
    m.done = (cs ++ [ICmd.down 1]).map (fun c => (c, 0)) ∧
    (∃ v tt, m.saved = some (v, [(1, ⟨.master, .down, 0, 1, 16⟩), (2, ⟨.slave, .active, 0, 0, 17⟩)], tt)) ∧
    (ixRun .init (plain (cs ++ [.down 1]))).nodes =
      [(1, ⟨.proxy, .down, -1, 0, 16⟩), (2, ⟨.master, .active, 0, 1, 17⟩)] := by
  refine ⟨by decide +kernel, ⟨6, 18, by decide +kernel⟩, by decide +kernel⟩

/-- Defect: with old tables a server "promotes" a node that has long become master of another partition.
Every command is reported as done, and partition 0 is gone. -/
theorem C69_gap_partition_lost :
    let first : List ICmd := [.add 1, .add 2, .add 3, .add 4, .role 1 .master 1 0, .role 4 .slave 1 0, .up 4,
      .role 4 .slave 1 0]
    let late : List ICmd := [.role 3 .slave 1 0, .up 3, .role 4 .proxy 0 0, .role 4 .master 1 1, .ready 4, .up 4]
    let m := mRun {} (bootTwo ++ shared first ++ missed (.add 5) late ++ [.cmd 1 (.down 1)])
    (∀ e ∈ m.done, e.2 = 0) ∧ m.done.length = 16 ∧
    ((m.saved.map fun q => exists_ q.2.1 0) = some false) ∧
    exists_ (ixRun .init (plain (first ++ [.add 5] ++ late ++ [.down 1]))).nodes 0 = true := by
  refine ⟨by decide +kernel, by decide +kernel, by decide +kernel, by decide +kernel⟩

/-- Defect: the same gap at the start.  A server that starts while a slave is added does not hear of it,
and promotes nobody when the master fails. -/
theorem C69_gap_at_start :
    let cs : List ICmd := [.add 1, .add 2, .role 1 .master 1 0]
    let late : List ICmd := [.role 2 .slave 1 0, .up 2]
    let on0 (l : List ICmd) : List MEv := l.flatMap fun c => .cmd 0 c :: handled 0
    let m := mRun {} ([.boot 0, .arm 0] ++ on0 cs ++ [.boot 1] ++ on0 late ++ [.arm 1, .cmd 1 (.down 1)])
    m.done = (cs ++ late ++ [ICmd.down 1]).map (fun c => (c, 0)) ∧
    (m.saved.map fun q => q.2.1.map fun x => (x.1, x.2.role, x.2.state)) =
      some [(1, .master, .down), (2, .slave, .active)] ∧
    ((ixRun .init (plain (cs ++ late ++ [.down 1]))).nodes.map fun x => (x.1, x.2.role, x.2.state)) =
      [(1, .proxy, .down), (2, .master, .active)] := by
  refine ⟨by decide +kernel, by decide +kernel, by decide +kernel⟩

/-- A state that does not change between the two reads is read as it is, whatever its length. -/
theorem C69_restore_exact (d : Bytes) : zkRestore d d = d := by
  unfold zkRestore
  split
  · rfl
  · exact List.take_length

/-- Defect: if the state grows between the two reads, which happens when the handler of a change reads it
without the lock, what is returned is neither the old state nor the new one, but a part of the new. -/
theorem C69_restore_torn (d e : Bytes) (hd : 8192 < d.length) (he : d.length < e.length)
    (hp : ¬ d <+: e) : zkRestore d e ≠ d ∧ zkRestore d e ≠ e ∧ zkRestore d e <+: e := by
  unfold zkRestore
  rw [if_neg (Nat.not_le.2 hd)]
  refine ⟨?_, ?_, List.take_prefix _ _⟩
  · intro h; exact hp (h ▸ List.take_prefix _ _)
  · intro h
    have := congrArg List.length h
    rw [List.length_take] at this
    omega

/-! ### Examples -/

/-- Two servers take turns; the third starts late. -/
def exMulti : List MEv :=
  bootTwo ++ shared [.add 1, .add 2, .role 1 .master 1 0] ++ [.cmd 1 (.role 2 .slave 1 0)] ++ handled 0 ++
    handled 1 ++ [.boot 2, .arm 2, .cmd 2 (.up 2)] ++ handled 0 ++ handled 2 ++ handled 1 ++ [.cmd 0 (.down 1)]

/-- The server an event is about. -/
def MEv.at : MEv → Nat
  | .boot i => i
  | .cmd i _ => i
  | .tell i => i
  | .arm i => i

theorem mStep_none {m : Multi} {e : MEv} {j : Nat} (h : e.at ≠ j) (hj : m.servers j = none) :
    (mStep m e).servers j = none := by
  cases e with
  | boot i =>
    simp only [mStep]
    split <;> simp [Multi.put, Ne.symm (show i ≠ j from h), hj]
  | cmd i c =>
    simp only [mStep]
    split
    · simp only [Multi.write]
      split <;> simp [Multi.put, Ne.symm (show i ≠ j from h), hj]
    · exact hj
  | tell i =>
    simp only [mStep]
    split
    · simp [Multi.put, Ne.symm (show i ≠ j from h), hj]
    · exact hj
  | arm i =>
    simp only [mStep]
    split
    · simp [Multi.put, Ne.symm (show i ≠ j from h), hj]
    · exact hj

/-- `NoGap` for servers below `n`, as a computation. -/
def gapFree (n : Nat) : Multi → List MEv → Bool
  | _, [] => true
  | m, e :: l =>
    (decide ((mStep m e).saved = m.saved) ||
      (List.range n).all fun j => (m.servers j).all fun y => decide (y.watch ≠ .gap)) &&
    gapFree n (mStep m e) l

theorem noGap_of_gapFree (n : Nat) (evs : List MEv) (he : ∀ e ∈ evs, e.at < n) (m : Multi)
    (hm : ∀ j, n ≤ j → m.servers j = none) (h : gapFree n m evs = true) : NoGap m evs := by
  induction evs generalizing m with
  | nil => intro pre e post hp; cases pre <;> cases hp
  | cons a l ih =>
    simp only [gapFree, Bool.and_eq_true] at h
    intro pre e post hp hs j y hy
    cases pre with
    | nil =>
      cases hp
      have h1 := h.1
      rw [Bool.or_eq_true] at h1
      rcases h1 with h1 | h1
      · exact absurd (of_decide_eq_true h1) hs
      · rcases Nat.lt_or_ge j n with hj | hj
        · have hy' : m.servers j = some y := hy
          have := List.all_eq_true.1 h1 j (List.mem_range.2 hj)
          rw [hy'] at this
          exact of_decide_eq_true this
        · have hy' : m.servers j = some y := hy
          rw [hm j hj] at hy'; cases hy'
    | cons b pre =>
      cases hp
      refine ih (fun e h => he e (List.mem_cons_of_mem _ h)) (mStep m a) ?_ h.2 pre e post rfl hs j y hy
      intro j hj
      exact mStep_none (by have := he a List.mem_cons_self; omega) (hm j hj)

example : NoGap {} exMulti :=
  noGap_of_gapFree 3 _ (by decide +kernel) _ (fun _ _ => rfl) (by decide +kernel)

example : (mRun {} exMulti).done.map (·.2) = [0, 0, 0, 0, 0, 0] := by decide +kernel

example : ((mRun {} exMulti).saved.map fun q => (q.1, q.2.1)) =
    some (6, [(1, ⟨.proxy, .down, -1, 0, 16⟩), (2, ⟨.master, .active, 0, 1, 17⟩)]) := by decide +kernel

example : Orderly true .init (plain ((mRun {} exMulti).done.map (·.1))) := by decide +kernel

end Flare
