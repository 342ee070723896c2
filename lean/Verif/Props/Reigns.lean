import Verif.Lemmas.Reigns
import Verif.Props.Failover

namespace Flare

theorem lastStart_concat (rep : Bool) (e : Era) : ∀ (es : List Era) (g : Group),
    lastStart rep g (es ++ [e]) = gRun rep g (es.flatMap Era.events ++ e.gap)
  | [], g => rfl
  | e' :: es, g => by
    have : lastStart rep g (e' :: (es ++ [e])) = lastStart rep (gRun rep g e'.events) (es ++ [e]) := by
      cases es <;> rfl
    rw [List.cons_append, this, lastStart_concat rep e es, ← gRun_append]
    simp

/-- The master is lost any number of times, each time a node that has everything takes over, nodes that are new or come back
are added and rebuilt from the master, and clients write all the time: a write that any of these masters answered with `STORED`
after waiting for the copies is at every node that has everything at the end, or a later one is, and this stays so whatever
happens afterwards.  A node has everything if it is the master, if it has been a slave all the time, or if the master's dump
came to the key after the master had begun to send copies to the node (`C70_dump_too_early` shows what happens otherwise), and
the record has arrived.  What is missing: the new master has to be one with the newest value of the key among the nodes that
are left (`C70_equal_versions` shows what happens otherwise, and nothing in the index server looks for such a node); a node
that comes back may only hold values older than the master's (`C70_leftover_wins`); in each era the conditions of
`C70_kept_partial` hold for the copies; deletions, values that expire. -/
theorem C70_succession_partial (rep : Bool) (k : Bytes) (x : Option Item) (g : Group)
    (hnode : ∀ i, KnownAt k x (g.store i)) (hf : g.flying = []) (hop : g.open_ = []) (hac : g.acked = [])
    (hdu : g.dumps = []) (es : List Era) (e : Era) (after : List GEv)
    (hfine : Fine rep k g ((es ++ [e]).flatMap Era.events ++ after)) (hr : Reigned rep k (fun _ => True) g (es ++ [e]))
    (hlen : x.elim 0 (·.version.toNat) + ((es ++ [e]).flatMap Era.events ++ after).length < 2 ^ 64)
    (r : WriteReq) (o : Out) (ha : (r, o) ∈ (gRun rep g ((es ++ [e]).flatMap Era.events)).acked) (hk : r.entry.key = k)
    (hst : o.r = some .stored) (hsync : isSync r.entry.option rep = true) :
    ∀ j, Whole rep k e (gRun rep g (es.flatMap Era.events ++ e.gap)) j →
      ∃ y, (∀ t, lookup ((gRun rep g ((es ++ [e]).flatMap Era.events ++ after)).store j) t k = some y) ∧
        (y = o.e.item ∨ o.e.version < y.version) := by
  intro j hj
  have hg : GInv k (x.elim 0 (·.version.toNat)) g := by
    refine ⟨fun i => ?_, (by rw [hf]; intro f h; cases h), (by rw [hdu]; intro f h; cases h)⟩
    obtain ⟨h1, h2⟩ := knownAt_kstate (hnode i)
    refine ⟨h1, ?_⟩
    rw [h2]
    cases x <;> exact Nat.le_refl _
  have hp : Past rep k (fun _ => True) (fun _ => 0) g (fun y => x = some y) := by
    refine ⟨?_, ?_, ?_, (by rw [hf]; intro f h; cases h), (by rw [hdu]; intro f h; cases h),
      (by rw [hac]; intro f h; cases h), (by rw [hop]; intro f h; cases h)⟩
    · intro y z hy hz _
      rw [hy] at hz; exact Option.some.inj hz
    · intro y hy
      have := (hnode 0).2.2.2
      rw [hy] at this
      exact this.1
    · intro i _ y hy
      rw [(knownAt_kstate (hnode i)).2] at hy
      cases x with
      | none => cases hy
      | some x => cases hy; exact .inl rfl
  obtain ⟨hf1, hf2⟩ := fine_append.1 hfine
  rw [List.length_append] at hlen
  obtain ⟨hg1, -⟩ := hg.run (evs := (es ++ [e]).flatMap Era.events) (by omega) hf1
  obtain ⟨L, base, hist, h1, hW⟩ := reigned_run (es ++ [e]) _ g _ _ _ _ hp (fun _ _ => ⟨trivial, UInt64.zero_le⟩) hg
    (by omega) hf1 hr
  obtain ⟨hg2, hup⟩ := hg1.run (evs := after) (by omega) hf2
  rw [gRun_append]
  rw [List.getLast?_concat, lastStart_concat] at hW
  obtain ⟨hL, hB⟩ := hW j hj
  obtain ⟨a, b⟩ := h1.acked _ ha hk hst hsync
  have hv : o.e.version ≤ _ := (b j hL).elim (fun h => UInt64.le_trans h hB) id
  have hpos := h1.pos _ a
  rcases (hg1.nodes j).1.bare with hb | ⟨y, hb, hy, -⟩
  · rw [hb] at hv
    exact absurd (UInt64.le_zero_iff.1 hv) hpos
  · rw [hb] at hv hB
    have hyh : hist y := by
      rcases h1.nodes j hL y hb with h | h
      · exact h
      · exact absurd (UInt64.lt_of_lt_of_le h hB) (UInt64.lt_irrefl _)
    have hy' : y = o.e.item ∨ o.e.version < y.version := by
      rcases UInt64.le_iff_lt_or_eq.1 hv with h | h
      · exact .inr h
      · exact .inl (h1.unique _ _ hyh a h.symm)
    rcases hup j with e' | ⟨z, e', hz, hlt⟩
    · rw [hb] at e'
      exact ⟨y, bare_lookup (hg2.nodes j).1.ok e' hy, hy'⟩
    · rw [hb] at hlt
      refine ⟨z, bare_lookup (hg2.nodes j).1.ok e' hz, .inr (UInt64.lt_of_le_of_lt hv hlt)⟩

/-! ### An example: two masters are lost one after the other -/

/-- The write of 55 is answered; the write of 56 reaches one slave only when the master is lost. -/
def firstEra : Era :=
  { master := 0, slaves := [1, 2]
    evs := [.write 0 { now := 3000000 } [] (setReq [55]) [], .arrive 0 { now := 3000001 }, .arrive 0 { now := 3000002 },
      .answer 0, .write 0 { now := 3000003 } [] (setReq [56]) [], .arrive 0 { now := 3000004 }] }

def secondEra : Era :=
  { gap := [.role 0 none, .lose 0, .role 1 (some [2])], master := 1, slaves := [2]
    evs := [.write 1 { now := 3000005 } [] (setReq [57, 57]) [], .arrive 0 { now := 3000006 }, .answer 1] }

def thirdEra : Era :=
  { gap := [.role 1 none, .role 2 (some [])], master := 2, slaves := []
    evs := [.write 2 { now := 3000007 } [] (setReq [58]) [], .answer 1] }

def threeEras : List Era := [firstEra, secondEra, thirdEra]

/-- The roles after some events. -/
def rolesAfter (s : Nat → Option (List Nat)) (evs : List GEv) : Nat → Option (List Nat) :=
  evs.foldl (fun s ev => match ev with
    | .role i l => fun j => if j = i then l else s j
    | _ => s) s

theorem gRun_roles (rep : Bool) : ∀ (evs : List GEv) (g : Group), (gRun rep g evs).slaves = rolesAfter g.slaves evs
  | [], _ => rfl
  | ev :: evs, g => by
    show (gRun rep (gStep rep g ev) evs).slaves = _
    rw [gRun_roles rep evs]
    show _ = rolesAfter _ evs
    congr 1
    cases ev with
    | write i env path r refused => simp only [gStep]; split <;> rfl
    | arrive f env => simp only [gStep]; split <;> rfl
    | again f env => simp only [gStep]; split <;> rfl
    | lose f => rfl
    | answer a =>
      simp only [gStep]
      split
      · rfl
      · split <;> rfl
    | read i env e => rfl
    | role i l => rfl
    | dump i j env k => rfl
    | put d env => simp only [gStep]; split <;> rfl
    | drop d => rfl

/-- A node that has been a slave all the time has everything. -/
theorem whole_slave {rep : Bool} {k : Bytes} {e : Era} {g : Group} {j : Nat} (h : j ∈ e.slaves) (h' : j ∉ e.joined) :
    Whole rep k e g j := .inr ⟨h, .inl h'⟩

theorem no_old {k : Bytes} {g : Group} {m : Nat} : ∀ j ∈ ([] : List Nat), ∀ x, lookup (g.store j) Int64.minValue k = some x →
    NotAhead k (g.store m) x := fun _ h => (nomatch h)

example : Reigned true [97] (fun _ => True) (freshGroup (masterOf 0 [1, 2])) threeEras := by
  refine ⟨trivial, ⟨⟨trivial, by decide⟩, fun _ _ _ => trivial, rfl, ?_, by decide +kernel, by decide +kernel,
    by decide +kernel, no_old, fun _ _ _ h => (nomatch h), fun _ _ _ h => (nomatch h)⟩, ?_, ?_⟩
  · intro i hi
    exact if_neg hi
  · refine ⟨fun _ => rfl, trivial, trivial, ?_, fun _ => rfl, trivial, trivial⟩
    intro p _ _
    exact Nat.zero_le _
  refine ⟨⟨trivial, trivial, trivial, trivial⟩, ⟨⟨whole_slave (by decide) (by decide), by decide⟩,
    fun j hj _ => whole_slave (by revert j; decide) (fun h => nomatch h), ?_, ?_, by decide +kernel, ?_, ?_, no_old,
    fun _ _ _ h => (nomatch h), fun _ _ _ h => (nomatch h)⟩, ?_, ?_⟩
  · rw [gRun_roles, gRun_roles]; decide
  · intro i hi
    rw [gRun_roles, gRun_roles]
    have h : i ≠ 1 := hi
    simp only [rolesAfter, List.foldl_cons, List.foldl_nil, secondEra, firstEra, Era.events, List.nil_append, freshGroup,
      masterOf, if_neg h]
    split <;> rfl
  · intro f hf
    revert f
    decide +kernel
  · intro f hf
    revert f
    decide +kernel
  · refine ⟨fun _ => rfl, trivial, ?_, trivial⟩
    intro p hp _
    revert p
    decide +kernel
  refine ⟨⟨trivial, trivial, trivial⟩, ⟨⟨whole_slave (by decide) (by decide), by decide⟩,
    fun j hj _ => (nomatch hj), ?_, ?_, by decide +kernel, ?_, ?_, no_old,
    fun _ _ _ h => (nomatch h), fun _ _ _ h => (nomatch h)⟩, ?_, trivial⟩
  · rw [gRun_roles, gRun_roles, gRun_roles]; decide
  · intro i hi
    rw [gRun_roles, gRun_roles, gRun_roles]
    have h : i ≠ 2 := hi
    simp only [rolesAfter, List.foldl_cons, List.foldl_nil, secondEra, firstEra, thirdEra, Era.events, List.nil_append,
      List.cons_append, freshGroup, masterOf, if_neg h]
    split
    · rfl
    · split <;> rfl
  · intro f hf
    revert f
    decide +kernel
  · intro f hf
    revert f
    decide +kernel
  · refine ⟨fun _ => rfl, ?_, trivial⟩
    intro p hp _
    revert p
    decide +kernel

example :
    let g := gRun true (freshGroup (masterOf 0 [1, 2])) (threeEras.flatMap Era.events)
    g.answers = [(.set, [55], some .stored), (.set, [57, 57], some .stored), (.set, [58], some .stored)] ∧
    g.value 0 = some ⟨[56], 0, 0, 2⟩ ∧ g.value 1 = some ⟨[57, 57], 0, 0, 3⟩ ∧ g.value 2 = some ⟨[58], 0, 0, 4⟩ := by
  decide +kernel

/-- Nothing but a write of the key, or a copy or a record of a dump that was on its way already, changes what a node holds: reads,
changes of roles and writes of other keys do not. -/
theorem C70_unwritten (rep : Bool) (k : Bytes) (x : Option Item) (g : Group) (hnode : ∀ i, KnownAt k x (g.store i))
    (h0 : g.flying = []) (hd0 : g.dumps = []) (before evs : List GEv) (hf : Fine rep k g (before ++ evs))
    (hq : (∀ f ∈ (gRun rep g before).flying, f.copy.entry.key ≠ k) ∧ ∀ d ∈ (gRun rep g before).dumps, d.2.key ≠ k)
    (hn : x.elim 0 (·.version.toNat) + (before ++ evs).length < 2 ^ 64)
    (hi : IdleFor rep k (gRun rep g before) evs) (j : Nat) (t : Int64) :
    lookup ((gRun rep g (before ++ evs)).store j) t k = lookup ((gRun rep g before).store j) t k := by
  have hg : GInv k (x.elim 0 (·.version.toNat)) g := by
    refine ⟨fun i => ?_, (by rw [h0]; intro f h; cases h), (by rw [hd0]; intro f h; cases h)⟩
    obtain ⟨h1, h2⟩ := knownAt_kstate (hnode i)
    refine ⟨h1, ?_⟩
    rw [h2]
    cases x <;> exact Nat.le_refl _
  obtain ⟨hf1, hf2⟩ := fine_append.1 hf
  rw [List.length_append] at hn
  obtain ⟨hg1, -⟩ := hg.run (evs := before) (by omega) hf1
  obtain ⟨hg2, -⟩ := hg1.run (evs := evs) (by omega) hf2
  rw [gRun_append, kstate_lookup (hg2.nodes j).1.ok, kstate_lookup (hg1.nodes j).1.ok]
  congr 1
  exact idle_kstate rep k evs _ _ hg1 hq (by omega) hf2 hi j

theorem firstEra_fine : Fine true [97] (freshGroup (masterOf 0 [1, 2])) (firstEra.events ++ secondEra.gap) := by
  refine ⟨setReq_fine _ _ _ _ _ (by decide) ?_, rfl, rfl, trivial, setReq_fine _ _ _ _ _ (by decide) ?_, rfl, trivial, trivial,
    trivial, trivial⟩
  · intro c hc
    have : ((atMaster ((freshGroup (masterOf 0 [1, 2])).store 0) { now := 3000000 } [] (setReq [55])).2.all
      fun c => (encodeWrite c).isSome) = true := by decide +kernel
    rw [hc] at this
    exact this
  · intro c hc
    have : ((atMaster ((gRun true (freshGroup (masterOf 0 [1, 2])) (firstEra.events.take 4)).store 0) { now := 3000003 } []
      (setReq [56])).2.all fun c => (encodeWrite c).isSome) = true := by decide +kernel
    rw [show (atMaster ((gRun true (freshGroup (masterOf 0 [1, 2])) (firstEra.events.take 4)).store 0) { now := 3000003 } []
      (setReq [56])).2 = some c from hc] at this
    exact this

/-- **C70, defect**: a slave that missed the last copy of the lost master stays behind the new one: a slave that stays a slave
copies nothing (/repo/src/lib/cluster.cc:1528-1582).  Clients that read at it get the old value for as long as the key is not
written. -/
theorem C70_slave_behind (evs : List GEv) (hn : 9 + evs.length < 2 ^ 64) (t : Int64) :
    let g := gRun true (freshGroup (masterOf 0 [1, 2])) (firstEra.events ++ secondEra.gap)
    g.slaves 1 = some [2] ∧ (Fine true [97] g evs → IdleFor true [97] g evs →
      lookup ((gRun true g evs).store 1) t [97] = some ⟨[56], 0, 0, 2⟩ ∧
      lookup ((gRun true g evs).store 2) t [97] = some ⟨[55], 0, 0, 1⟩) := by
  intro g
  refine ⟨by decide +kernel, fun hf hi => ?_⟩
  have h1 : lookup (g.store 1) 0 [97] = some ⟨[56], 0, 0, 2⟩ := by decide +kernel
  have h2 : lookup (g.store 2) 0 [97] = some ⟨[55], 0, 0, 1⟩ := by decide +kernel
  have hq : (∀ f ∈ g.flying, f.copy.entry.key ≠ [97]) ∧ ∀ d ∈ g.dumps, d.2.key ≠ [97] := by decide +kernel
  have hok := ((⟨fun i => by
    obtain ⟨a, b⟩ := knownAt_kstate (freshGroup_known (masterOf 0 [1, 2]) [97] i)
    exact ⟨a, by rw [b]; exact Nat.le_refl _⟩, fun f h => (nomatch h), fun f h => (nomatch h)⟩ :
      GInv [97] 0 (freshGroup (masterOf 0 [1, 2]))).run (rep := true) (evs := firstEra.events ++ secondEra.gap) (by decide)
        firstEra_fine).1
  have key : ∀ j, lookup ((gRun true g evs).store j) t [97] = lookup (g.store j) t [97] := by
    intro j
    have := C70_unwritten true [97] none (freshGroup (masterOf 0 [1, 2])) (freshGroup_known _ _) rfl rfl
      (firstEra.events ++ secondEra.gap) evs (fine_append.2 ⟨firstEra_fine, hf⟩) hq
      (by
        rw [List.length_append, show (firstEra.events ++ secondEra.gap).length = 9 from rfl]
        show 0 + (9 + evs.length) < 2 ^ 64
        omega) hi j t
    rw [gRun_append] at this
    exact this
  exact ⟨by rw [key]; exact bare_lookup (hok.nodes 1).1.ok (kstate_of_lookup (hok.nodes 1).1.ok h1) (by decide) t,
    by rw [key]; exact bare_lookup (hok.nodes 2).1.ok (kstate_of_lookup (hok.nodes 2).1.ok h2) (by decide) t⟩

/-! ### A node that comes back -/

/-- Node 0 is lost when it has executed the write of 56, which nobody else has heard of; node 1 takes over. -/
def lostEra : Era :=
  { master := 0, slaves := [1]
    evs := [.write 0 { now := 3000000 } [] (setReq [55]) [], .arrive 0 { now := 3000001 }, .answer 0,
      .write 0 { now := 3000002 } [] (setReq [56]) []] }

def aloneEra : Era :=
  { gap := [.role 0 none, .lose 0, .role 1 (some [])], master := 1, slaves := []
    evs := [.write 1 { now := 3000003 } [] (setReq [57]) [], .answer 1, .write 1 { now := 3000004 } [] (setReq [58]) [],
      .answer 1] }

/-- Node 0 comes back as a slave; the write of 59 overtakes the dump. -/
def backEra : Era :=
  { gap := [.role 1 (some [0])], master := 1, slaves := [0], joined := [0]
    evs := [.dump 1 0 { now := 3000005 } [97], .write 1 { now := 3000006 } [] (setReq [59]) [], .arrive 0 { now := 3000007 },
      .put 0 { now := 3000008 }, .answer 1] }

/-- Node 1 is lost, and node 0 is the master again. -/
def againEra : Era :=
  { gap := [.role 1 none, .role 0 (some [])], master := 0, slaves := []
    evs := [.write 0 { now := 3000009 } [] (setReq [60]) [], .answer 1] }

def fourEras : List Era := [lostEra, aloneEra, backEra, againEra]

theorem roles_none {g : Nat → Option (List Nat)} {m : Nat} {l : List Nat} (h : ∀ i, g i = masterOf m l i) :
    ∀ i, i ≠ m → g i = none := fun i hi => by rw [h]; exact if_neg hi

example : Reigned true [97] (fun _ => True) (freshGroup (masterOf 0 [1])) fourEras := by
  have two : ∀ i : Nat, i = 0 ∨ i = 1 ∨ (i ≠ 0 ∧ i ≠ 1) := fun i => by omega
  refine ⟨trivial, ⟨⟨trivial, by decide⟩, fun _ _ _ => trivial, rfl, fun i hi => if_neg hi, by decide +kernel,
    by decide +kernel, by decide +kernel, no_old, fun _ _ _ h => (nomatch h), fun _ _ _ h => (nomatch h)⟩, ?_, ?_⟩
  · exact ⟨fun _ => rfl, trivial, fun p _ _ => Nat.zero_le _, fun _ => rfl, trivial⟩
  refine ⟨⟨trivial, trivial, trivial, trivial⟩, ⟨⟨whole_slave (by decide) (by decide), by decide⟩,
    fun j hj _ => (nomatch hj), ?_, ?_, by decide +kernel, ?_, ?_, no_old, fun _ _ _ h => (nomatch h),
    fun _ _ _ h => (nomatch h)⟩, ?_, ?_⟩
  · rw [gRun_roles, gRun_roles]; decide
  · intro i hi
    rw [gRun_roles, gRun_roles]
    have h : i ≠ 1 := hi
    rcases two i with rfl | h' | ⟨h0, h1⟩
    · decide
    · exact absurd h' h
    · simp [rolesAfter, aloneEra, lostEra, Era.events, freshGroup, masterOf, h0, h1]
  · intro f hf; revert f; decide +kernel
  · intro f hf; revert f; decide +kernel
  · refine ⟨fun _ => rfl, ?_, fun _ => rfl, ?_, trivial⟩
    · intro p hp _; revert p; decide +kernel
    · intro p hp _; revert p; decide +kernel
  refine ⟨⟨trivial, trivial⟩, ⟨⟨.inl rfl, by decide⟩, fun j hj h => absurd hj h, ?_, ?_, ?_, ?_, ?_, ?_, ?_, ?_⟩, ?_, ?_⟩
  · rw [gRun_roles, gRun_roles, gRun_roles]; decide
  · intro i hi
    rw [gRun_roles, gRun_roles, gRun_roles]
    have h : i ≠ 1 := hi
    rcases two i with rfl | h' | ⟨h0, h1⟩
    · decide
    · exact absurd h' h
    · simp [rolesAfter, aloneEra, lostEra, backEra, Era.events, freshGroup, masterOf, h0, h1]
  · exact fun j hj h => absurd hj h
  · intro f hf; revert f; decide +kernel
  · intro f hf; revert f; decide +kernel
  · intro j hj x hx
    have : j = 0 := by simpa [backEra] using hj
    subst this
    have hl : lookup ((gRun true (gRun true (gRun true (freshGroup (masterOf 0 [1])) lostEra.events) aloneEra.events)
      backEra.gap).store 0) Int64.minValue [97] = some ⟨[56], 0, 0, 2⟩ := by decide +kernel
    rw [hl] at hx
    cases hx
    left
    decide +kernel
  · intro f hf
    have hfl : (gRun true (gRun true (gRun true (freshGroup (masterOf 0 [1])) lostEra.events) aloneEra.events)
      backEra.gap).flying = [] := by decide +kernel
    rw [hfl] at hf; cases hf
  · intro f hf
    have hfl : (gRun true (gRun true (gRun true (freshGroup (masterOf 0 [1])) lostEra.events) aloneEra.events)
      backEra.gap).dumps = [] := by decide +kernel
    rw [hfl] at hf; cases hf
  · refine ⟨fun _ => .inl rfl, fun _ => rfl, trivial, trivial, ?_, trivial⟩
    intro p hp _; revert p; decide +kernel
  refine ⟨⟨trivial, trivial, trivial⟩, ⟨⟨.inr ⟨by decide, .inr ?_⟩, by decide⟩, fun j hj _ => (nomatch hj), ?_, ?_,
    by decide +kernel, ?_, ?_, no_old, fun _ _ _ h => (nomatch h), fun _ _ _ h => (nomatch h)⟩, ?_, trivial⟩
  · refine ⟨[], _, _, rfl, fun x hx => ?_⟩
    refine ⟨[.write 1 { now := 3000006 } [] (setReq [59]) [], .arrive 0 { now := 3000007 }], 0, _, _,
      { key := [97], size := 1, data := [58], version := 3 }, rfl, by decide +kernel, rfl, ?_⟩
    have hl : lookup ((gRun true (gRun true (gRun true (gRun true (freshGroup (masterOf 0 [1])) lostEra.events)
      aloneEra.events) backEra.gap) []).store backEra.master) ({ now := 3000005 } : Env).now [97] = some ⟨[58], 0, 0, 3⟩ := by
      decide +kernel
    rw [hl] at hx
    cases hx
    rfl
  · rw [gRun_roles, gRun_roles, gRun_roles, gRun_roles]; decide
  · intro i hi
    rw [gRun_roles, gRun_roles, gRun_roles, gRun_roles]
    have h : i ≠ 0 := hi
    rcases two i with h' | rfl | ⟨h0, h1⟩
    · exact absurd h' h
    · decide
    · simp [rolesAfter, aloneEra, lostEra, backEra, againEra, Era.events, freshGroup, masterOf, h0, h1]
  · intro f hf; revert f; decide +kernel
  · intro f hf; revert f; decide +kernel
  · refine ⟨fun _ => rfl, ?_, trivial⟩
    intro p hp _; revert p; decide +kernel

example :
    let g := gRun true (freshGroup (masterOf 0 [1])) (fourEras.flatMap Era.events)
    g.answers = [(.set, [55], some .stored), (.set, [57], some .stored), (.set, [58], some .stored), (.set, [59], some .stored),
      (.set, [60], some .stored)] ∧ g.value 0 = some ⟨[60], 0, 0, 5⟩ ∧ g.value 1 = some ⟨[59], 0, 0, 4⟩ := by
  decide +kernel

/-- **C70, defect**: a node that was lost as the master comes back with a value that nobody else has heard of
(/repo/src/lib/cluster.cc:1541: what a node holds is not removed when it is prepared).  If the new master's value happens to
have the same version, the record of the dump is refused as old, and when the node is the master again, a write that was
answered after waiting for all copies is gone. -/
theorem C70_leftover_wins :
    let g := gRun true (freshGroup (masterOf 0 [1])) (lostEra.events ++ [.role 0 none, .lose 0, .role 1 (some []),
      .write 1 { now := 3000003 } [] (setReq [57]) [], .answer 1, .role 1 (some [0]),
      .dump 1 0 { now := 3000005 } [97], .put 0 { now := 3000006 }, .role 1 none, .role 0 (some [])])
    g.answers = [(.set, [55], some .stored), (.set, [57], some .stored)] ∧ g.flying = [] ∧ g.dumps = [] ∧
      g.value 1 = some ⟨[57], 0, 0, 2⟩ ∧ g.value 0 = some ⟨[56], 0, 0, 2⟩ := by
  decide +kernel

/-- **C70, defect**: the index server tells the nodes one by one about a new slave, and the slave asks the master for a dump as
soon as it is told itself (/repo/src/lib/cluster.cc:1575-1600).  A write that the master executes between the moment at which
the dump has come to the key and the moment at which it learns of the slave is not sent to it: the client has its answer,
the rebuilding of the slave ends without an error, and the slave lacks the write for good. -/
theorem C70_dump_too_early :
    let g := gRun true (freshGroup (masterOf 1 [])) [.write 1 { now := 3000000 } [] (setReq [55]) [], .answer 0,
      .dump 1 0 { now := 3000001 } [97], .write 1 { now := 3000002 } [] (setReq [57]) [], .role 1 (some [0]), .answer 0,
      .put 0 { now := 3000003 }, .role 1 none, .role 0 (some [])]
    g.answers = [(.set, [55], some .stored), (.set, [57], some .stored)] ∧ g.flying = [] ∧ g.dumps = [] ∧
      g.value 1 = some ⟨[57], 0, 0, 2⟩ ∧ g.value 0 = some ⟨[55], 0, 0, 1⟩ := by
  decide +kernel

end Flare
