import Verif.Lemmas.ClusterInv
import Verif.Lemmas.ClusterVersion

/-!
Properties of the cluster map: C20–C27 and C53.

`Index.init` is a new index server, `ixRun` runs a history of commands, reloads and restarts, `Orderly`
excludes one kind of command (`Loses`) and commands between a failed save and the next reload.
-/
namespace Flare

/-! ### C20: at most one active master per partition -/

/-- In every orderly history, at every moment, two masters of one partition are never both not down, and
so there is at most one active master; the same holds for the stored map.  Missing for the full property:
histories that are not orderly, where it is false (`C20_split_brain`). -/
theorem C20_one_master_partial (as : List IAct) (ho : Orderly true .init as) (nodes : NodeMap)
    (hn : nodes = (ixRun .init as).nodes ∨ ∃ v tt, (ixRun .init as).saved = some (v, nodes, tt)) :
    (∀ k n k' n', mfind nodes k = some n → mfind nodes k' = some n' → n.role = .master →
      n'.role = .master → n.state ≠ .down → n'.state ≠ .down → n.partition = n'.partition → k = k') ∧
    ∀ p, (activeMasters nodes p).length ≤ 1 := by
  obtain ⟨N, h⟩ := run_inv as true 0 .init init_inv ho
  rcases hn with rfl | ⟨v, tt, hs⟩
  · exact ⟨h.map.good.unique, activeMasters_le_one h.map⟩
  · obtain ⟨M, hM⟩ := (h.saved v nodes tt hs).1
    exact ⟨hM.good.unique, activeMasters_le_one hM⟩

/-- Commands without failures of the surroundings. -/
def plain (cs : List ICmd) : List IAct := cs.map fun c => .cmd {} c

/-- The return values of commands. -/
def rcs : Index → List ICmd → List Int
  | _, [] => []
  | s, c :: cs => (ixStep {} s c).2 :: rcs (ixStep {} s c).1 cs

def splitBrain : List ICmd :=
  [.add 1, .add 2, .add 3, .add 4, .add 5,
   .role 1 .master 1 0, .role 2 .master 1 1, .ready 2, .up 2, .role 3 .master 1 2, .ready 3, .up 3,
   .role 4 .slave 1 0, .up 4, .role 5 .slave 1 1,
   .down 2, .up 2, .role 4 .proxy 0 0, .role 4 .slave 0 2, .up 4, .down 1]

/-- Without the restriction the property fails: a history of twenty-one commands, none refused and
nothing else going wrong, after which two nodes are active masters of partition 2. -/
theorem C20_split_brain :
    (∀ rc ∈ rcs .init splitBrain, rc = 0) ∧
    (activeMasters (ixRun .init (plain splitBrain)).nodes 2).map (·.1) = [3, 4] := by
  decide +kernel

/-- An orderly history with three partitions, a failover and a failed save. -/
def busy : List IAct :=
  plain [.add 1, .add 2, .add 3, .role 1 .master 1 0, .role 2 .master 1 1, .ready 2, .up 2,
    .role 3 .slave 1 1, .up 3, .role 3 .slave 2 1, .down 2] ++
  [.cmd { storeOk := false } (.up 2), .restart, .cmd {} (.up 2), .cmd {} (.role 2 .master 1 2)]

instance (nodes : NodeMap) (k : NodeKey) : Decidable (Loses nodes k) := by
  have h : Loses nodes k ↔
      (match mfind nodes k with
       | none => False
       | some n => n.role = .master ∧ n.state = .down ∧
          (∃ e ∈ nodes, e.1 ≠ k ∧ mfind nodes e.1 = some e.2 ∧ e.2.state ≠ .down ∧ e.2.partition = n.partition) ∧
          ¬ ∃ e ∈ nodes, mfind nodes e.1 = some e.2 ∧ e.2.role = .master ∧ e.2.state ≠ .down ∧
            e.2.partition = n.partition) := by
    have hmem : ∀ (l : NodeMap) x m, mfind l x = some m → (x, m) ∈ l := by
      intro l x m hx
      induction l with
      | nil => cases hx
      | cons e l ih =>
        obtain ⟨y, v⟩ := e
        simp only [mfind] at hx
        split at hx
        · next hy => cases hx; simp [hy]
        · simp [ih hx]
    simp only [Loses]
    cases hk : mfind nodes k with
    | none => simp
    | some n =>
      simp only [Option.some.injEq, exists_eq_left']
      refine and_congr Iff.rfl (and_congr Iff.rfl (and_congr ?_ (not_congr ?_)))
      · constructor
        · rintro ⟨x, m, h1, h2, h3⟩; exact ⟨(x, m), hmem _ _ _ h2, h1, h2, h3⟩
        · rintro ⟨e, -, h1, h2, h3⟩; exact ⟨e.1, e.2, h1, h2, h3⟩
      · constructor
        · rintro ⟨x, m, h2, h3⟩; exact ⟨(x, m), hmem _ _ _ h2, h2, h3⟩
        · rintro ⟨e, -, h2, h3⟩; exact ⟨e.1, e.2, h2, h3⟩
  refine @decidable_of_iff _ _ h.symm ?_
  split <;> infer_instance

instance (nodes : NodeMap) (c : ICmd) : Decidable (Safe nodes c) := by
  cases c with
  | state k st => cases st <;> simp only [Safe] <;> infer_instance
  | _ => simp only [Safe]; infer_instance

instance decOrderly : ∀ (fresh : Bool) (s : Index) (as : List IAct), Decidable (Orderly fresh s as)
  | _, _, [] => .isTrue trivial
  | fresh, s, .cmd env c :: as =>
    have := decOrderly env.storeOk (ixAct s (.cmd env c)) as
    inferInstanceAs (Decidable (fresh = true ∧ Safe s.nodes c ∧ Orderly env.storeOk (ixAct s (.cmd env c)) as))
  | fresh, s, .update env :: as => decOrderly (fresh || env.loadOk) (ixAct s (.update env)) as
  | _, s, .restart :: as => decOrderly true (ixAct s .restart) as

example : Orderly true .init busy := by decide +kernel

example : freshAfter true busy = true ∧
    (activeMasters (ixRun .init busy).nodes 0).map (·.1) = [1] ∧
    (activeMasters (ixRun .init busy).nodes 1).map (·.1) = [3] ∧
    (preparingMasters (ixRun .init busy).nodes 2).map (·.1) = [2] := by decide +kernel

/-- The history above ends with a state that does not survive a restart. -/
example : startup (ixRun .init (plain splitBrain)).saved = none := by decide +kernel

/-! ### C21: roles and partitions fit together -/

/-- In every orderly history the node map is consistent (`Good`): proxies have no partition, every slave's
partition has a master and no slave is down, masters not down are unique, the partitions that exist are
exactly 0 … N-1, and a partition being prepared is number N. -/
theorem C21_consistent_partial (as : List IAct) (ho : Orderly true .init as) :
    ∃ N, Good N (mfind (ixRun .init as).nodes) := by
  obtain ⟨N, h⟩ := run_inv as true 0 .init init_inv ho
  exact ⟨N, h.map.good⟩

/-- The history of `C23_partition_lost` also breaks this: a slave of a partition without master. -/
theorem C21_orphan_slave : ∃ cs : List ICmd, (∀ rc ∈ rcs .init cs, rc = 0) ∧
    ¬ ∃ N, Good N (mfind (ixRun .init (plain cs)).nodes) := by
  refine ⟨[.add 1, .add 2, .add 3, .role 1 .master 1 0, .role 2 .master 1 1, .ready 2, .up 2,
    .role 3 .slave 1 1, .down 2, .up 2], by decide +kernel, ?_⟩
  rintro ⟨N, h⟩
  obtain ⟨h1, h2, -, k', m, h3, h4, h5⟩ := h.slave 3 ⟨.slave, .prepare, 1, 0, 18⟩ (by decide +kernel) rfl
  have hk : ∀ e ∈ (ixRun .init (plain [.add 1, .add 2, .add 3, .role 1 .master 1 0, .role 2 .master 1 1,
      .ready 2, .up 2, .role 3 .slave 1 1, .down 2, .up 2])).nodes, e.2.role = .master → e.2.partition ≠ 1 := by
    decide +kernel
  have hmem : ∀ (l : NodeMap) x m, mfind l x = some m → (x, m) ∈ l := by
    intro l x m hx
    induction l with
    | nil => cases hx
    | cons e l ih =>
      obtain ⟨y, v⟩ := e
      simp only [mfind] at hx
      split at hx
      · next hy => cases hx; simp [hy]
      · simp [ih hx]
  exact hk (k', m) (hmem _ _ _ h3) h4 h5

/-! ### C22: failover -/

/-- What `down` does to an active master, in a state reached by an orderly history without a pending failed
save: with an active slave in the partition, the one with the largest balance (the first in key order among
equals) becomes the only active master and the old master a proxy that is down; without one the master
keeps its role and is marked down.  No other node changes. -/
theorem C22_failover_partial (as : List IAct) (ho : Orderly true .init as) (hf : freshAfter true as = true)
    (k : NodeKey) (n : Node) (hk : mfind (ixRun .init as).nodes k = some n) (hr : n.role = .master)
    (hst : n.state = .active) :
    let s := ixRun .init as
    let r := ixStep {} s (.down k)
    r.2 = 0 ∧
    ((∃ f m b, ActiveSlave s.nodes n.partition f m ∧
        (∀ x m', ActiveSlave s.nodes n.partition x m' →
          m'.balance < m.balance ∨ (m'.balance = m.balance ∧ f ≤ x)) ∧
        (b = m.balance ∨ b = m.balance + 1) ∧
        mfind r.1.nodes f = some { m with role := .master, balance := b } ∧
        mfind r.1.nodes k = some { n with role := .proxy, state := .down, partition := -1, balance := 0 } ∧
        (∀ x, x ≠ f → x ≠ k → mfind r.1.nodes x = mfind s.nodes x) ∧
        (activeMasters r.1.nodes n.partition).map (·.1) = [f]) ∨
     ((∀ x m', ¬ ActiveSlave s.nodes n.partition x m') ∧
        mfind r.1.nodes k = some { n with state := .down } ∧
        (∀ x, x ≠ k → mfind r.1.nodes x = mfind s.nodes x) ∧
        activeMasters r.1.nodes n.partition = [])) := by
  obtain ⟨N, h⟩ := run_inv as true 0 .init init_inv ho
  rw [hf] at h
  intro s r
  have hr0 : ∀ s1, (finish {} s1).2 = 0 := by intro s1; rw [finish_eq]; rfl
  have hn : ∀ s1 M, MapOk M s1.nodes s1.threadType → (finish {} s1).1.nodes = s1.nodes := by
    intro s1 M hm
    rw [finish_eq]
    exact (install_ok hm).2.1
  obtain ⟨N', -, hinv⟩ := (downNode_result h {} k).inv h
  rcases downNode_active h {} rfl rfl hk hr hst with
    ⟨hno, s1, e1, e2, e3, e4, e5⟩ | ⟨f, m, b, sum, s1, hfb, hm, hrm, hpm, ham, -, e1, e2, e3, e4, e5⟩
  · have hok : MapOk N s1.nodes s1.threadType := by
      rw [e3, e4]
      apply h.map.modify hk
      · rfl
      · apply h.map.good.keep k hk
        · rfl
        · rfl
        · exact (h.map.good.master k n hk hr).1
        · simp [hr]
        · simp [hr]
        · simp [hst]
        · simp
    have hnodes : r.1.nodes = nmodify s.nodes k (fun n => { n with state := .down }) := by
      show (downNode {} _ k).1.nodes = _
      rw [e5, hn s1 N hok, e4]
    have hfind := mfind_nmodify s.nodes k (fun n => { n with state := .down }) n hk
    refine ⟨by show (downNode {} _ k).2 = 0; rw [e5, hr0], Or.inr ⟨?_, ?_, ?_, ?_⟩⟩
    · rintro x m' ⟨g1, g2, g3, g4⟩
      exact hno x m' g1 g2 g4 g3
    · rw [hnodes, hfind, upd_self]
    · intro x hx
      rw [hnodes, hfind, upd_ne _ _ (Ne.symm hx)]
    · rw [List.eq_nil_iff_forall_not_mem]
      rintro ⟨x, m'⟩ hx
      have hs' : Sorted r.1.nodes := by rw [hnodes]; exact nmodify_sorted _ _ _ h.map.sorted
      obtain ⟨g1, g2, g3, g4⟩ := (activeMasters_mem hs').1 hx
      rw [hnodes, hfind] at g1
      by_cases hxk : k = x
      · subst hxk; rw [upd_self] at g1; cases g1; cases g3
      · rw [upd_ne _ _ hxk] at g1
        have := h.map.good.unique k n x m' hk g1 hr g2 (by simp [hst]) (by simp [g3]) g4.symm
        exact hxk this
  · have hok : MapOk N s1.nodes s1.threadType := by
      rw [e3, e4]
      exact down_active_master h.map hk hr hst hm hrm hpm ham sum
    have hne : f ≠ k := by rintro rfl; rw [hk] at hm; cases hm; rw [hr] at hrm; cases hrm
    have hnodes : r.1.nodes = s1.nodes := by
      show (downNode {} _ k).1.nodes = _
      rw [e5, hn s1 N hok]
    have f1 := mfind_nmodify s.nodes f (fun m => { m with role := .master, balance := if sum = 0 then m.balance + 1 else m.balance }) m hm
    have f2 := mfind_nmodify (nmodify s.nodes f (fun m => { m with role := .master, balance := if sum = 0 then m.balance + 1 else m.balance })) k
      (fun n => { n.clear with state := .down }) n (by rw [f1, upd_ne _ _ hne]; exact hk)
    obtain ⟨m', g1, g2, g3⟩ := firstBest_least h.map.sorted hfb
    have : m' = m := by have := g1.1; rw [hm] at this; cases this; rfl
    subst this
    have hff : mfind r.1.nodes f = some { m' with role := .master, balance := if sum = 0 then m'.balance + 1 else m'.balance } := by
      rw [hnodes, e4, f2, upd_ne _ _ (Ne.symm hne), f1, upd_self]
    refine ⟨by show (downNode {} _ k).2 = 0; rw [e5, hr0],
      Or.inl ⟨f, m', if sum = 0 then m'.balance + 1 else m'.balance, g1, g3, ?_, hff, ?_, ?_, ?_⟩⟩
    · split <;> simp
    · rw [hnodes, e4, f2, upd_self]; rfl
    · intro x hx hxk
      rw [hnodes, e4, f2, upd_ne _ _ (Ne.symm hxk), f1, upd_ne _ _ (Ne.symm hx)]
    · have := activeMasters_single hinv.map hff rfl ham
      simp only [hpm] at this
      show (activeMasters r.1.nodes _).map _ = _
      rw [show activeMasters r.1.nodes n.partition = _ from this]
      rfl

/-- A failover with two active slaves: the one with the larger balance is promoted. -/
example : let s := ixRun .init (plain [.add 1, .add 2, .add 3, .role 1 .master 1 0, .role 2 .slave 1 0, .up 2,
      .role 3 .slave 1 0, .up 3, .role 3 .slave 4 0])
    let r := ixStep {} s (.down 1)
    r.2 = 0 ∧ mfind r.1.nodes 3 = some ⟨.master, .active, 0, 4, 18⟩ ∧
      mfind r.1.nodes 1 = some ⟨.proxy, .down, -1, 0, 16⟩ := by decide +kernel

/-- After a failed save the partition tables come from the map that was not stored, while the next command
reloads the stored map: `down` then promotes node 2, which is stored as a proxy and holds no data. -/
theorem C22_failed_save_promotes_proxy :
    let s := ixRun .init (plain [.add 1, .add 2, .role 1 .master 1 0, .role 2 .slave 1 0, .up 2, .down 2, .up 2] ++
      [.cmd {} (.role 2 .slave 1 0), .cmd { storeOk := false } (.up 2), .cmd {} (.role 2 .proxy 0 0),
       .cmd { storeOk := false } (.role 2 .slave 1 0)])
    let r := ixStep {} s (.down 1)
    (∃ v nm tt, s.saved = some (v, nm, tt) ∧ mfind nm 2 = some ⟨.proxy, .active, -1, 0, 17⟩) ∧
    r.2 = 0 ∧ mfind r.1.nodes 2 = some ⟨.master, .active, -1, 1, 17⟩ := by
  refine ⟨⟨_, _, _, rfl, by decide +kernel⟩, by decide +kernel, by decide +kernel⟩

/-! ### C23: a partition does not disappear -/

/-- Along an orderly history the stored map never loses a partition: whatever partition it has at some
point it has at every later point. -/
theorem C23_partitions_stay_partial (as bs : List IAct) (ho : Orderly true .init (as ++ bs)) (p : Int)
    (v : Nat) (nm : NodeMap) (tt : Int) (hs : (ixRun .init as).saved = some (v, nm, tt))
    (hp : exists_ nm p = true) :
    ∃ v' nm' tt', (ixRun .init (as ++ bs)).saved = some (v', nm', tt') ∧ exists_ nm' p = true := by
  obtain ⟨ho1, ho2⟩ := (orderly_append as bs true .init).1 ho
  obtain ⟨N, h⟩ := run_inv as true 0 .init init_inv ho1
  obtain ⟨M, hM⟩ := (h.saved v nm tt hs).1
  obtain ⟨v', nm', tt', M', h1, h2, h3⟩ := run_saved bs _ N M _ h ho2 ⟨v, nm, tt, M, hs, Nat.le_refl _, hM⟩
  refine ⟨v', nm', tt', ?_, ?_⟩
  · rw [← h1]; simp only [ixRun, List.foldl_append]
  · rw [h3.good.exists_range h3.sorted]
    have := (hM.good.exists_range hM.sorted p).1 hp
    omega

/-- Without the restriction: partition 1 of two disappears from the table when its down master comes up
again while a slave of the partition is still being prepared, and the index server does not start again
from the stored map. -/
theorem C23_partition_lost :
    let cs : List ICmd := [.add 1, .add 2, .add 3, .role 1 .master 1 0, .role 2 .master 1 1, .ready 2, .up 2,
      .role 3 .slave 1 1, .down 2]
    (∀ rc ∈ rcs .init (cs ++ [.up 2]), rc = 0) ∧
    exists_ (ixRun .init (plain cs)).nodes 1 = true ∧
    exists_ (ixRun .init (plain (cs ++ [.up 2]))).nodes 1 = false ∧
    (ixRun .init (plain (cs ++ [.up 2]))).npm.length = 1 ∧
    startup (ixRun .init (plain (cs ++ [.up 2]))).saved = none := by
  decide +kernel

example : ∃ v nm tt, (ixRun .init busy).saved = some (v, nm, tt) ∧ exists_ nm 0 = true ∧
    exists_ nm 1 = true ∧ exists_ nm 2 = false := ⟨_, _, _, rfl, by decide +kernel⟩

/-! ### C25: the partition tables describe the node map -/

/-- Every node map, whatever its history: if the tables are rebuilt from it without complaint (and no down
master has a negative partition) then they describe it, the partitions are exactly 0 … n-1, the one being
prepared is number n, no partition has two active or two preparing masters, and every slave that is not
down belongs to one of these partitions. -/
theorem C25_accepted (near : NodeKey → Bool) (nodes : NodeMap) (t : Tables)
    (hd : ∀ e ∈ nodes, e.2.role = .master → e.2.state = .down → 0 ≤ e.2.partition)
    (hr : reconstruct near nodes = some t) (hok : t.ok = true) :
    Describes near nodes t.npm t.nppm ∧ (∀ p : Int, p ∈ t.npm.map (·.1) ↔ 0 ≤ p ∧ p < t.npm.length) ∧
      (∀ p : Int, p ∈ t.nppm.map (·.1) → p = t.npm.length) ∧
      (∀ p, (activeMasters nodes p).length ≤ 1) ∧ (∀ p, (preparingMasters nodes p).length ≤ 1) ∧
      ∀ e ∈ nodes, e.2.role = .slave → e.2.state ≠ .down → 0 ≤ e.2.partition ∧
        (exists_ nodes e.2.partition = true ∨ preparing nodes e.2.partition = true) :=
  reconstruct_ok near nodes t hd hr hok

/-- The condition on down masters is needed: a down master with partition -1 is accepted, and the table
then has the partition -1 and no partition 0. -/
theorem C25_down_negative : reconstruct (fun _ => false) [(1, ⟨.master, .down, -1, 1, 16⟩)] =
    some ⟨[(-1, Part.empty)], [], true⟩ := by decide

/-- A map with two masters of one partition is not accepted without complaint. -/
example : (reconstruct (fun _ => false)
    [(1, ⟨.master, .active, 0, 1, 16⟩), (2, ⟨.master, .active, 0, 1, 17⟩)]).map (·.ok) = some false ∧
  (reconstruct (fun k => k = 2)
    [(1, ⟨.master, .active, 0, 1, 16⟩), (2, ⟨.slave, .active, 0, 2, 17⟩)]).map (·.ok) = some true := by
  decide

/-- In every orderly history the tables of the index server list, for every partition, exactly the master,
the slaves and the balance lists that the node map says. -/
theorem C25_index_tables_partial (as : List IAct) (ho : Orderly true .init as) :
    Describes (fun _ => false) (ixRun .init as).nodes (ixRun .init as).npm (ixRun .init as).nppm := by
  obtain ⟨N, h⟩ := run_inv as true 0 .init init_inv ho
  exact (TablesOk.describes h.map h.tables).1

example : (pget (ixRun .init busy).npm 1).master = some 3 ∧
    (pget (ixRun .init busy).npm 1).balance = [3, 3] ∧
    (pget (ixRun .init busy).nppm 2).master = some 2 := by decide +kernel

/-! ### C26: a refused command changes nothing -/

/-- In a state reached by an orderly history without a pending failed save, a command (safe or not) that
answers with an error although the coordinator works leaves the index server exactly as it was. -/
theorem C26_rejected_unchanged_partial (as : List IAct) (ho : Orderly true .init as)
    (hf : freshAfter true as = true) (env : IEnv) (hst : env.storeOk = true) (c : ICmd)
    (hrc : (ixStep env (ixRun .init as) c).2 ≠ 0) :
    (ixStep env (ixRun .init as) c).1 = ixRun .init as := by
  obtain ⟨N, h⟩ := run_inv as true 0 .init init_inv ho
  rw [hf] at h
  rcases step_rejected h env c hst with h1 | h1
  · exact h1
  · exact absurd h1 hrc

example : (ixStep {} (ixRun .init busy) (.role 1 .proxy 0 0)).2 = -1 ∧
    (ixStep {} (ixRun .init busy) (.up 2)).2 = -1 ∧ (ixStep {} (ixRun .init busy) (.remove 1)).2 = -1 := by
  decide +kernel

/-- When storing fails, the command is refused but the changed map stays in memory, and is what clients
are told until the next command. -/
theorem C26_failed_save_stays : ∃ (as : List IAct) (c : ICmd), Orderly true .init as ∧
    freshAfter true as = true ∧ (ixStep { storeOk := false } (ixRun .init as) c).2 = -1 ∧
    (ixStep { storeOk := false } (ixRun .init as) c).1.nodes ≠ (ixRun .init as).nodes :=
  ⟨plain [.add 1], .role 1 .master 1 0, by decide +kernel, by decide +kernel, by decide +kernel, by decide +kernel⟩

/-! ### C27: a restarted index server -/

/-- An index server restarted after an orderly history without a pending failed save comes up, and (if it
ever stored anything) in exactly the state before. -/
theorem C27_restart_same_partial (as : List IAct) (ho : Orderly true .init as)
    (hf : freshAfter true as = true) : ∃ s', startup (ixRun .init as).saved = some s' ∧
      ((ixRun .init as).saved ≠ none → s' = ixRun .init as) := by
  obtain ⟨N, h⟩ := run_inv as true 0 .init init_inv ho
  rw [hf] at h
  obtain ⟨s', N', h1, h2, h3⟩ := startup_inv h.oldSaved
  refine ⟨s', h1, ?_⟩
  intro hne
  have h2t := h2.tables
  have ht := h.tables
  generalize ixRun Index.init as = s at *
  obtain ⟨nodes, tty, ver, npm, nppm, saved⟩ := s
  obtain ⟨nodes', tty', ver', npm', nppm', saved'⟩ := s'
  simp only at h3 hne
  cases hs : saved with
  | none => exact absurd hs hne
  | some q =>
    obtain ⟨v, nm, tt⟩ := q
    subst hs
    obtain ⟨a1, a2, a3⟩ := (h.saved v nm tt rfl).2 rfl
    obtain ⟨b1, b2, b3⟩ := (h2.saved v nm tt h3).2 rfl
    simp only at a1 a2 a3 b1 b2 b3
    subst a1; subst a2; subst a3; subst b1; subst b2; subst b3
    simp only [TablesOk] at ht h2t
    rw [ht] at h2t
    cases h2t
    rw [h3]

/-- Also after failed saves the index server comes up again. -/
theorem C27_restart_works_partial (as : List IAct) (ho : Orderly true .init as) :
    ∃ s', startup (ixRun .init as).saved = some s' ∧ s'.saved = (ixRun .init as).saved := by
  obtain ⟨N, h⟩ := run_inv as true 0 .init init_inv ho
  obtain ⟨s', N', h1, h2, h3⟩ := startup_inv h.oldSaved
  exact ⟨s', h1, h3⟩

example : startup (ixRun .init busy).saved = some (ixRun .init busy) := by decide +kernel

/-! ### C53: thread types -/

/-- In every orderly history all nodes have different thread types, not below 16 (where the types of
other threads are) and below the counter from which the next one is taken. -/
theorem C53_thread_types_partial (as : List IAct) (ho : Orderly true .init as) :
    let s := ixRun .init as
    (∀ k n, mfind s.nodes k = some n → 16 ≤ n.threadType ∧ n.threadType < s.threadType) ∧
    ∀ k n k' n', mfind s.nodes k = some n → mfind s.nodes k' = some n' → n.threadType = n'.threadType →
      k = k' := by
  obtain ⟨N, h⟩ := run_inv as true 0 .init init_inv ho
  exact ⟨h.map.types, h.map.distinct⟩

example : (ixRun .init busy).nodes.map (·.2.threadType) = [16, 17, 18] := by decide +kernel

def removedNodes : List ICmd :=
  [.add 1, .add 2, .add 3, .add 4, .add 5, .add 6,
   .role 1 .master 1 0, .role 2 .master 1 1, .ready 2, .up 2, .role 3 .master 1 2, .ready 3, .up 3,
   .role 4 .slave 1 0, .up 4, .role 6 .slave 1 2, .up 6, .role 5 .slave 1 1,
   .down 2, .up 2, .down 4, .remove 4, .down 6, .remove 6]

/-- Without the restriction: when partition 1 of three is lost, the tables are no longer rebuilt and go on listing
the slaves 4 and 6 after these have been removed.  When the masters of the other partitions go down, the removed
nodes are looked up with `operator[]`, come into being with all members zero, are taken for active slaves and made
masters: both of partition 0, both with thread type 0, and the old masters lose their data.  No command is
refused. -/
theorem C53_removed_nodes_promoted :
    (∀ rc ∈ rcs .init (removedNodes ++ [.down 1, .down 3]), rc = 0) ∧
    mfind (ixRun .init (plain removedNodes)).nodes 4 = none ∧
    mfind (ixRun .init (plain removedNodes)).nodes 6 = none ∧
    let s := ixRun .init (plain (removedNodes ++ [.down 1, .down 3]))
    mfind s.nodes 4 = some ⟨.master, .active, 0, 1, 0⟩ ∧ mfind s.nodes 6 = some ⟨.master, .active, 0, 1, 0⟩ ∧
    (mfind s.nodes 1).map (fun n => (n.role, n.partition)) = some (.proxy, -1) ∧
    (mfind s.nodes 3).map (fun n => (n.role, n.partition)) = some (.proxy, -1) := by
  decide +kernel

/-! ### C24: map versions -/

/-- Whatever the state and whatever fails: a command either leaves the stored map as it is, or stores the
map in memory with a version exactly one higher than the stored one (the first version is at least 1). -/
theorem C24_version_step (env : IEnv) (s : Index) (c : ICmd) :
    (ixStep env s c).1.saved = s.saved ∨
    ∃ v nm tt, (ixStep env s c).1.saved = some (v, nm, tt) ∧ (ixStep env s c).1.version = v ∧
      (ixStep env s c).1.nodes = nm ∧ 1 ≤ v ∧ ∀ v0 nm0 tt0, s.saved = some (v0, nm0, tt0) → v = v0 + 1 :=
  ixStep_stored env s c

/-- In every history, orderly or not, the messages sent to the nodes have strictly increasing versions, and
the last one carries the map that is stored. -/
theorem C24_messages (as : List IAct) :
    ((sent .init as).Pairwise fun a b => a.version < b.version) ∧
    ∀ m, (sent .init as).getLast? = some m → ∃ tt, (ixRun .init as).saved = some (m.version, m.nodes, tt) :=
  ⟨(sent_spec as .init).1, (sent_spec as .init).2.2.2.1⟩

/-- A node ignores a map older than the one it has. -/
theorem C24_stale_ignored (near : NodeKey → Bool) (me : NodeKey) (s : View) (m : NodeMsg)
    (h : m.version < s.version) : receive near me s m = (s, -1, []) := receive_refuse near me s m h

/-- A node that receives messages of a history in any order, repeated or dropped, has the map of the
newest one it received; if the last one sent is among them, the map that is stored. -/
theorem C24_newest_wins (as : List IAct) (near : NodeKey → Bool) (me : NodeKey) (ms : List NodeMsg)
    (hms : ∀ m ∈ ms, m ∈ sent .init as) (m : NodeMsg) (hm : m ∈ ms)
    (hmax : ∀ m' ∈ ms, m'.version ≤ m.version) :
    (receiveAll near me .init ms).version = m.version ∧
    (receiveAll near me .init ms).nodes = build m.nodes ∧
    ((sent .init as).getLast? = some m → Orderly true .init as →
      ∃ tt, (ixRun .init as).saved = some (m.version, (receiveAll near me .init ms).nodes, tt)) := by
  obtain ⟨h1, -, h3, h4, -⟩ := sent_spec as .init
  have hun : ∀ a ∈ sent .init as, ∀ b ∈ sent .init as, a.version = b.version → a = b := by
    intro a ha b hb hab
    obtain ⟨i, hi, rfl⟩ := List.mem_iff_getElem.1 ha
    obtain ⟨j, hj, rfl⟩ := List.mem_iff_getElem.1 hb
    rcases Nat.lt_trichotomy i j with h | rfl | h
    · have := List.pairwise_iff_getElem.1 h1 i j hi hj h; omega
    · rfl
    · have := List.pairwise_iff_getElem.1 h1 j i hj hi h; omega
  rcases receiveAll_spec near me ms .init with ⟨-, h⟩ | ⟨m', g1, -, g3, g4, g5⟩
  · have := h m hm; simp [View.init] at this
  · have : m' = m := hun m' (hms m' g1) m (hms m hm) (by
      have a := g3 m hm; have b := hmax m' g1; omega)
    subst this
    refine ⟨g4, g5, ?_⟩
    intro hl ho
    obtain ⟨tt, ht⟩ := h4 m' hl
    refine ⟨tt, ?_⟩
    obtain ⟨N, hinv⟩ := run_inv as true 0 .init init_inv ho
    obtain ⟨M, hM⟩ := (hinv.saved _ _ _ ht).1
    rw [g5, build_sorted _ hM.sorted]
    exact ht

example : (sent .init busy).length = 13 ∧
    (receiveAll (fun _ => false) 1 .init ((sent .init busy).reverse ++ sent .init busy)).nodes =
      (ixRun .init busy).nodes := by decide +kernel

/-- `queue_node_sync` reads the map and the version one after the other.  If a second command completes in
between, its first message carries the older map with the newer version, and a node that receives it after
the newer map goes back to the older one: here node 1, down in the stored map, is active again. -/
theorem C24_version_read_race :
    let s1 := ixRun .init (plain [.add 1, .role 1 .master 1 0, .add 2])
    let s2 := (ixStep {} s1 (.down 1)).1
    let m1 : NodeMsg := ⟨s1.nodes, s2.version⟩
    let m2 : NodeMsg := ⟨s2.nodes, s2.version⟩
    let v := receiveAll (fun _ => false) 2 .init [m2, m1]
    v.version = s2.version ∧ v.nodes = s1.nodes ∧
      mfind s2.nodes 1 = some ⟨.master, .down, 0, 1, 16⟩ ∧
      mfind v.nodes 1 = some ⟨.master, .active, 0, 1, 16⟩ := by decide +kernel

/-- A node that starts takes the current map with version 0, so an older message still under way replaces
it. -/
theorem C24_startup_version_zero :
    let s1 := ixRun .init (plain [.add 1, .role 1 .master 1 0, .add 2])
    let s2 := (ixStep {} s1 (.down 1)).1
    let v := receiveAll (fun _ => false) 2 .init [⟨s2.nodes, 0⟩, ⟨s1.nodes, s1.version⟩]
    v.nodes = s1.nodes ∧ v.nodes ≠ s2.nodes := by decide +kernel

/-! ### C25 on the nodes -/

/-- A node that accepts a consistent map has tables that describe it, with the nodes of its own network
(`near`) in the preferred lists. -/
theorem C25_node_tables (near : NodeKey → Bool) (me : NodeKey) (s : View) (m : NodeMsg) (N : Nat)
    (hv : s.version ≤ m.version) (hg : Good N (mfind (build m.nodes))) :
    Describes near (receive near me s m).1.nodes (receive near me s m).1.npm (receive near me s m).1.nppm := by
  have hn : ¬ (s.version > 0 ∧ s.version > m.version) := by omega
  have hsort : Sorted (build m.nodes) := by
    have : ∀ (l acc : NodeMap), Sorted acc → Sorted (l.foldl (fun m e => mset m e.1 e.2) acc) := by
      intro l
      induction l with
      | nil => intro acc h; exact h
      | cons e l ih => intro acc h; exact ih _ (mset_sorted _ _ _ h)
    exact this _ _ (by simp [Sorted])
  obtain ⟨t, h1, -, h2, -⟩ := hg.reconstruct near hsort
  have e := takeEntry_map m.nodes s.nodes [] []
  simp only [receive, hn, if_false, View.install]
  rw [show (m.nodes.foldl takeEntry (s.nodes, [], [])).2.1 = build m.nodes from e, h1]
  exact h2

example : (receive (fun k => k = 3) 1 .init ⟨(ixRun .init busy).nodes, 7⟩).1.npm =
    [(0, ⟨some 1, 1, [], [1], [], [1]⟩), (1, ⟨some 3, 2, [], [3, 3], [3, 3], [3]⟩)] := by decide +kernel

/-! ### C54: what a node copies when its role changes -/

/-- When a node that was a proxy becomes a master, it starts one copy from every other active master of the
new map, each into its new partition out of all partitions, existing or being prepared; nothing else is
started. -/
theorem C54_master_sources (near : NodeKey → Bool) (me : NodeKey) (s : View) (m : NodeMsg)
    (hv : s.version ≤ m.version) (hnd : (m.nodes.map (·.1)).Nodup) (o n : Node)
    (ho : mfind s.nodes me = some o) (hor : o.role = .proxy) (hn : (me, n) ∈ m.nodes)
    (hnr : n.role = .master) :
    let r := receive near me s m
    r.2.2 = ((r.1.nodes.filter fun e => e.1 ≠ me && e.2.role = .master && e.2.state = .active).map fun e =>
      Job.copy (some e.1) n.partition (r.1.npm.length + r.1.nppm.length) .master) := by
  have hnv : ¬ (s.version > 0 ∧ s.version > m.version) := by omega
  have h1 := shifts_of_me me m.nodes hnd s.nodes [] [] o n ho hn (Or.inl (by rw [hor, hnr]; simp))
  simp only [receive, hnv, if_false]
  rw [jobs_of_me, h1]
  simp only [List.filter_nil, List.flatMap_cons, List.flatMap_nil, List.append_nil, shiftRole, hor, hnr,
    ne_eq, not_true, reduceCtorEq, or_self, if_false, if_true]
  congr 1
  apply List.filter_congr
  rintro ⟨k, x⟩ -
  cases x.role <;> cases x.state <;> by_cases h : k = me <;> simp [h]

/-- When a node that was a proxy becomes a slave of a partition with a consistent map, it starts exactly
one copy, from the active master of its partition (or from the empty node name when that master is down),
or from the preparing master of a partition being added. -/
theorem C54_slave_source (near : NodeKey → Bool) (me : NodeKey) (s : View) (m : NodeMsg) (N : Nat)
    (hv : s.version ≤ m.version) (hnd : (m.nodes.map (·.1)).Nodup)
    (hg : Good N (mfind (build m.nodes))) (o n : Node)
    (ho : mfind s.nodes me = some o) (hor : o.role = .proxy) (hn : (me, n) ∈ m.nodes)
    (hnr : n.role = .slave) :
    let r := receive near me s m
    r.2.2 = if exists_ r.1.nodes n.partition then
        [.copy ((activeMasters r.1.nodes n.partition).head?.map (·.1)) n.partition r.1.npm.length .slave]
      else if preparing r.1.nodes n.partition then
        [.copy ((preparingMasters r.1.nodes n.partition).head?.map (·.1)) n.partition
          (r.1.npm.length + r.1.nppm.length) .slave]
      else [.deactivate] := by
  have hd := C25_node_tables near me s m N hv hg
  have hnv : ¬ (s.version > 0 ∧ s.version > m.version) := by omega
  have h1 := shifts_of_me me m.nodes hnd s.nodes [] [] o n ho hn (Or.inl (by rw [hor, hnr]; simp))
  simp only [receive, hnv, if_false] at hd ⊢
  rw [jobs_of_me, h1]
  simp only [List.filter_nil, List.flatMap_cons, List.flatMap_nil, List.append_nil, shiftRole, hor, hnr,
    ne_eq, not_true, reduceCtorEq, or_self, if_false]
  rw [hd.main, hd.prep]
  generalize exists_ _ n.partition = a
  generalize preparing _ n.partition = b
  cases a <;> cases b <;> rfl

/-- A node starts copying only when it was a proxy before and is a master or slave in the message: neither
a promotion of a slave, nor a demotion, nor a change at another node, nor an old message starts anything. -/
theorem C54_only_from_proxy (near : NodeKey → Bool) (me : NodeKey) (s : View) (m : NodeMsg)
    (h : (receive near me s m).2.2 ≠ []) :
    ∃ o n, mfind s.nodes me = some o ∧ o.role = .proxy ∧ (me, n) ∈ m.nodes ∧ n.role ≠ .proxy := by
  simp only [receive] at h
  split at h
  · exact absurd rfl h
  · dsimp only at h
    obtain ⟨j, hj⟩ := List.exists_mem_of_ne_nil _ h
    obtain ⟨x, hx, hj⟩ := List.mem_flatMap.1 hj
    have hc : x.key = me ∧ x.newRole ≠ .proxy ∧ x.oldRole = .proxy := by
      refine ⟨Classical.byContradiction fun hn => ?_, fun hn => ?_, Classical.byContradiction fun hn => ?_⟩ <;>
        simp [shiftRole, hn] at hj
    rcases shifts_from _ _ _ _ x hx with hx | ⟨o, n, h1, h2, h3, h4⟩
    · cases hx
    · rw [hc.1] at h1 h2
      exact ⟨o, n, h1, by rw [← h3]; exact hc.2.2, h2, by rw [← h4]; exact hc.2.1⟩

/-- A slave that is promoted to master copies nothing. -/
example :
    (receive (fun _ => false) 2 ⟨[(2, ⟨.slave, .active, 0, 0, 17⟩)], [], [], 1⟩
      ⟨[(1, ⟨.proxy, .down, -1, 0, 16⟩), (2, ⟨.master, .active, 0, 1, 17⟩)], 2⟩).2.2 = [] := by
  decide +kernel

/-- Node 2 joins as the master of a third partition: it copies from the masters of the other two. -/
example :
    let s := ixRun .init (busy.dropLast)
    let v := (receive (fun _ => false) 2 .init ⟨s.nodes, s.version⟩).1
    let s' := ixRun .init busy
    (receive (fun _ => false) 2 v ⟨s'.nodes, s'.version⟩).2.2 =
      [.copy (some 1) 2 3 .master, .copy (some 3) 2 3 .master] := by decide +kernel

/-- A slave assigned to a partition whose master is down copies from nowhere (the empty node name). -/
example :
    (receive (fun _ => false) 2 ⟨[(2, ⟨.proxy, .active, -1, 0, 17⟩)], [], [], 1⟩
      ⟨[(1, ⟨.master, .down, 0, 1, 16⟩), (2, ⟨.slave, .prepare, 0, 0, 17⟩)], 2⟩).2.2 =
      [.copy none 0 1 .slave] := by decide +kernel

end Flare
