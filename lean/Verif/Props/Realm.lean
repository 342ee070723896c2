import Verif.Lemmas.Realm
import Verif.Props.TombReigns

/-! Properties of a whole cluster: C102. -/
namespace Flare

section
variable {C : RealmCfg} {N p : Nat} {m : NodeKey}

/-- What setting up leaves alone. -/
theorem setup_run : ∀ (evs : List REv) (s : Realm), (∀ ev ∈ evs, ev.preparatory = true) → RolesOk C s → Fed s →
    RolesOk C (rRun C s evs) ∧ Fed (rRun C s evs) ∧ (rRun C s evs).dead = s.dead ∧
      (rRun C s evs).g = { s.g with slaves := (rRun C s evs).g.slaves }
  | [], _, _, h1, h2 => ⟨h1, h2, rfl, rfl⟩
  | ev :: evs, s, h, h1, h2 => by
    obtain ⟨a, b, c, d⟩ := setup_run evs (rStep C s ev) (fun x hx => h x (List.mem_cons_of_mem _ hx))
      (roles_step C s ev h1) (fed_step C s ev h2)
    have hev := h ev (List.mem_cons_self ..)
    rw [rRun_cons]
    refine ⟨a, b, c.trans ?_, d.trans ?_⟩
    · cases ev with
      | act a => rfl
      | deliver i n => simp only [rStep]; split <;> rfl
      | crash i => cases hev
      | data ev => cases hev
    · have : (rStep C s ev).g = { s.g with slaves := (rStep C s ev).g.slaves } := by
        rw [rStep_g]
        cases ev with
        | act a => rfl
        | deliver i n =>
          simp only [REv.group]
          split
          · rfl
          · split <;> rfl
        | crash i => cases hev
        | data ev => cases hev
      rw [this]

theorem undisturbed_acts : ∀ (evs : List REv) (s : Realm), Undisturbed C m s evs → (rRun C s evs).acts = s.acts
  | [], _, _ => rfl
  | ev :: evs, s, h => by
    rw [rRun_cons, undisturbed_acts evs _ h.2.2]
    have := h.1
    cases ev with
    | act a => cases this
    | crash i => cases this
    | deliver i n => simp only [rStep]; split <;> rfl
    | data ev => cases ev <;> rfl

theorem setUp_reach {s : Realm} (hs : SetUp C N p s m) (h1 : RolesOk C s) (h2 : Fed s) (hd : ∀ i, s.dead i = false)
    (ho : s.g.open_ = []) : ∃ base, Reach C N p base s m := by
  obtain ⟨x, hx, hxm⟩ := hs.master
  have hn := last_nodes hs.orderly hs.fresh hx
  refine ⟨x.version, hs.orderly, hs.fresh, h1, h2, hs.leads, hs.good, ⟨x, hx, Nat.le_refl _⟩, ?_, ?_, ?_, ?_⟩
  · intro y hy hb
    have : y = x := versions_unique s.acts y hy x (List.mem_of_getLast? hx) (Nat.le_antisymm (versions_last s.acts hx y hy) hb)
    subst this
    rw [show y.nodes = s.ix.nodes from hn.1]
    refine ⟨hs.good, hs.still, fun i hi => .inr ?_⟩
    obtain ⟨n, a1, a2, a3, a4⟩ := hi
    obtain ⟨n', b1, b2, b3, b4⟩ := hs.leads
    exact hs.good.unique i n m n' a1 b1 a2 b2 (by rw [a3]; decide) (by rw [b3]; decide) (a4.trans b4.symm)
  · intro i
    rcases hs.others i with h | ⟨y, hy, hyi⟩
    · exact .inl h
    · rw [hx] at hy
      cases hy
      exact .inr ⟨x, hyi, Nat.le_refl _⟩
  · intro i hi
    rw [hd i] at hi; cases hi
  · intro e he
    rw [ho] at he; cases he

/-- The last of the times in which somebody is in charge. -/
theorem last_era (C : RealmCfg) (p : Nat) : ∀ (ts : List Term) (m : NodeKey) (gap : List GEv) (s : Realm) (evs : List REv),
    Undisturbed C m s evs → Lawful C p m (rRun C s evs) ts →
    ∃ es e, reignOf C p m gap s evs :: erasOf C p m (rRun C s evs) ts = es ++ [e] ∧ e.joined = [] ∧
      e.master = lastMaster m ts ∧ e.slaves = (slavesOf (rRun C (rRun C s evs) (termEvents m ts)).ix.nodes p).map (·.1)
  | [], m, gap, s, evs, hu, _ => by
    refine ⟨[], _, rfl, rfl, rfl, ?_⟩
    show _ = (slavesOf (rRun C s evs).ix.nodes p).map (·.1)
    simp only [Realm.ix, undisturbed_acts evs s hu]
    rfl
  | t :: ts, m, gap, s, evs, hu, hl => by
    obtain ⟨-, -, -, h4, h5⟩ := hl
    obtain ⟨es, e, h1, h2, h3, h4'⟩ := last_era C p ts t.master (rTrace C (rRun C s evs) (t.fall m))
      (rRun C (rRun C s evs) (t.fall m)) t.evs h4 h5
    refine ⟨reignOf C p m gap s evs :: es, e, ?_, h2, h3, ?_⟩
    · rw [erasOf, h1]; rfl
    · rw [h4', termEvents, rRun_append, rRun_append]

variable {x : Trace} {g : Group} {setup first after : List REv} {ts : List Term}

/-- A run of the cluster as the nodes of the partition see it. -/
theorem realm_eras (hnode : ∀ i, TraceAt C.key x (g.store i)) (hsl : ∀ i, g.slaves i = none) (hf : g.flying = [])
    (hop : g.open_ = []) (hdu : g.dumps = []) (hset : ∀ ev ∈ setup, ev.preparatory = true)
    (hs : SetUp C N p (rRun C { g := g } setup) m) (hu : Undisturbed C m (rRun C { g := g } setup) first)
    (hl : Lawful C p m (rRun C { g := g } (setup ++ first)) ts) :
    let s := rRun C { g := g } setup
    s.g = { g with slaves := s.g.slaves } ∧ ∃ es e,
      Ruled C.rep C.key (fun _ => True) s.g (es ++ [e]) ∧
      (es ++ [e]).flatMap Era.events = rTrace C s (first ++ termEvents m ts) ∧
      ∀ g' j, j = lastMaster m ts ∨ Follows (rRun C s (first ++ termEvents m ts)).ix.nodes p j → Complete C.rep C.key e g' j := by
  intro s
  have hro : RolesOk C { g := g } := by
    intro i
    rw [hsl i]
    simp only [Realm.role, Bool.false_eq_true, if_false, Realm.view, receiveAll, List.foldl_nil]
    exact (takesFor_init i).symm
  obtain ⟨a1, a2, a3, a4⟩ := setup_run setup { g := g } hset hro (fun i x hx => nomatch hx)
  refine ⟨a4, ?_⟩
  replace a4 : s.g = { g with slaves := s.g.slaves } := a4
  have hop' : s.g.open_ = [] := by rw [a4]; exact hop
  have hf' : s.g.flying = [] := by rw [a4]; exact hf
  have hdu' : s.g.dumps = [] := by rw [a4]; exact hdu
  have hst : ∀ i, s.g.store i = g.store i := fun i => by rw [a4]
  have hdead : ∀ i, s.dead i = false := fun i => by
    show (rRun C { g := g } setup).dead i = false
    rw [a3]
  obtain ⟨base, hR⟩ := setUp_reach hs a1 a2 hdead hop'
  rw [rRun_append] at hl
  obtain ⟨es, e, e1, e2, e3, e4⟩ := last_era C p ts m [] s first hu hl
  obtain ⟨b1, b2, b3, b4⟩ := hR.undisturbed (since := s.g.next) (e := reignOf C p m [] s first) hs.routable hs.partition rfl first
    (hdead m) hs.master (Nat.le_refl _) (by rw [hop']; intro q hq; cases hq) hu
  have hinh : Inherits C p s m := by
    refine ⟨hs.master, hs.leads, fun j _ => ?_, (by rw [hf']; intro q hq; cases hq), (by rw [hdu']; intro q hq; cases hq)⟩
    have hr : ∀ i, (traceOf (g.store i) C.key).rank = x.state.rank := fun i => by
      obtain ⟨k1, k2⟩ := traceAt_kstate (hnode i)
      rw [trace_rank, traceOf_state k1.ok, k2]
    rw [hst, hst, hr, hr]
  refine ⟨es, e, ?_, ?_, ?_⟩
  · rw [← e1]
    refine ⟨trivial, hR.takesOver hs.routable hs.partition (hdead m) trivial (fun _ _ => trivial) hinh _ _, b1, ?_⟩
    rw [show (reignOf C p m [] s first).events = rTrace C s first from rfl, ← rRun_g]
    refine b2.lawful hs.routable hs.partition ts ?_ hl
    intro j hj
    rcases hj with hj | hj
    · exact .inl hj
    · refine .inr ⟨?_, .inl (fun h => (nomatch h))⟩
      rw [show (rRun C s first).ix = s.ix from congrArg (ixRun .init) b3] at hj
      exact (mem_slaveKeys hR.sorted p j).2 hj
  · rw [← e1, List.flatMap_cons, erasOf_events, rTrace_append]
    rfl
  · intro g' j hj
    rcases hj with hj | hj
    · exact .inl (hj.trans e3.symm)
    · refine .inr ⟨?_, .inl (by rw [e2]; exact fun h => nomatch h)⟩
      rw [rRun_append] at hj
      rw [e4]
      exact (mem_slaveKeys (b2.lawful_end hs.routable hs.partition ts hl).sorted p j).2 hj

theorem rTrace_length (C : RealmCfg) : ∀ (evs : List REv) (s : Realm), (rTrace C s evs).length ≤ evs.length
  | [], _ => Nat.le_refl _
  | ev :: evs, s => by
    rw [rTrace, List.length_append, List.length_cons]
    have h1 := rTrace_length C evs (rStep C s ev)
    have h2 : (ev.group C s).length ≤ 1 := by
      cases ev with
      | act a => exact Nat.zero_le _
      | deliver i n =>
        simp only [REv.group]
        split
        · exact Nat.zero_le _
        · split <;> simp
      | crash i => simp only [REv.group]; split <;> simp
      | data ev => simp only [REv.group]; split <;> simp
    omega

/-- A whole cluster: the index server's history up to here is orderly, and every node acts on the maps it has got.  Then the
master of the key's partition stops again and again, each time the index server takes it down and names another one, and this
one learns of it and is in charge until it stops too; clients write and delete all the time, and copies arrive in any order
and more than once, late ones included.  A deletion that any of these masters answered with `DELETED` after waiting for the
copies has been carried out at the last master and at all its slaves, and whatever happens afterwards none of these has a value
of the key again, unless it was written after the deletion.  What is missing: the new master must not be behind its slaves,
and late copies must not be newer than what it has (`Inherits`; `C102_named_by_balance` shows that the index server takes no
care of this); the old master must have stopped (`C102_two_masters`); copies are not given up while a master is in charge
(`C70_refused_copies`); the values do not expire; no node joins. -/
theorem C102_deleted_partial (hnode : ∀ i, TraceAt C.key x (g.store i)) (hsl : ∀ i, g.slaves i = none)
    (hf : g.flying = []) (hop : g.open_ = []) (hac : g.acked = []) (hdu : g.dumps = [])
    (hset : ∀ ev ∈ setup, ev.preparatory = true) (hs : SetUp C N p (rRun C { g := g } setup) m)
    (hu : Undisturbed C m (rRun C { g := g } setup) first) (hl : Lawful C p m (rRun C { g := g } (setup ++ first)) ts)
    (hplain : Plainly C.rep C.key (rRun C { g := g } setup).g
      (rTrace C (rRun C { g := g } setup) (first ++ termEvents m ts ++ after)))
    (hlen : x.version.toNat + (first ++ termEvents m ts ++ after).length < 2 ^ 64) (r : WriteReq) (o : Out)
    (ha : (r, o) ∈ (rRun C { g := g } (setup ++ first ++ termEvents m ts)).g.acked) (hk : r.entry.key = C.key)
    (hdel : o.r = some .deleted) (hsync : isSync r.entry.option C.rep = true) (j : NodeKey)
    (hj : j = lastMaster m ts ∨ Follows (rRun C { g := g } (setup ++ first ++ termEvents m ts)).ix.nodes p j)
    (t : Int64) (y : Item)
    (hy : lookup ((rRun C { g := g } (setup ++ first ++ termEvents m ts ++ after)).g.store j) t C.key = some y) :
    o.e.version < y.version := by
  obtain ⟨hg, es, e, h1, h2, h3⟩ := realm_eras hnode hsl hf hop hdu hset hs hu hl
  have hlen' := rTrace_length C (first ++ termEvents m ts ++ after) (rRun C { g := g } setup)
  simp only [List.append_assoc] at ha hj hy hplain hlen hlen'
  rw [rRun_append, rRun_g, ← h2] at ha
  rw [rRun_append] at hj
  rw [rRun_append, ← List.append_assoc, rRun_g, rTrace_append, ← h2] at hy
  rw [← List.append_assoc, rTrace_append, ← h2] at hplain hlen'
  exact C93_succession_partial C.rep C.key x _ (by rw [hg]; exact hnode) (by rw [hg]; exact hf) (by rw [hg]; exact hop)
    (by rw [hg]; exact hac) (by rw [hg]; exact hdu) es e _ hplain h1 (by simp only [List.append_assoc] at hlen'; omega) r o ha hk
    hdel hsync j (h3 _ j hj) t y hy

/-- The same for a value: the last master and all its slaves have it or a later one, or have carried out the deletion of it or
of a later one. -/
theorem C102_stored_partial (hnode : ∀ i, TraceAt C.key x (g.store i)) (hsl : ∀ i, g.slaves i = none)
    (hf : g.flying = []) (hop : g.open_ = []) (hac : g.acked = []) (hdu : g.dumps = [])
    (hset : ∀ ev ∈ setup, ev.preparatory = true) (hs : SetUp C N p (rRun C { g := g } setup) m)
    (hu : Undisturbed C m (rRun C { g := g } setup) first) (hl : Lawful C p m (rRun C { g := g } (setup ++ first)) ts)
    (hplain : Plainly C.rep C.key (rRun C { g := g } setup).g
      (rTrace C (rRun C { g := g } setup) (first ++ termEvents m ts ++ after)))
    (hlen : x.version.toNat + (first ++ termEvents m ts ++ after).length < 2 ^ 64) (r : WriteReq) (o : Out)
    (ha : (r, o) ∈ (rRun C { g := g } (setup ++ first ++ termEvents m ts)).g.acked) (hk : r.entry.key = C.key)
    (hst : o.r = some .stored) (hsync : isSync r.entry.option C.rep = true) (j : NodeKey)
    (hj : j = lastMaster m ts ∨ Follows (rRun C { g := g } (setup ++ first ++ termEvents m ts)).ix.nodes p j) :
    let st := (rRun C { g := g } (setup ++ first ++ termEvents m ts ++ after)).g.store j
    (∃ y, (∀ t, lookup st t C.key = some y) ∧ (y = o.e.item ∨ o.e.version < y.version)) ∨
    (∀ t, lookup st t C.key = none) ∧ o.e.version ≤ lastVersion st C.key := by
  obtain ⟨hg, es, e, h1, h2, h3⟩ := realm_eras hnode hsl hf hop hdu hset hs hu hl
  have hlen' := rTrace_length C (first ++ termEvents m ts ++ after) (rRun C { g := g } setup)
  simp only [List.append_assoc] at ha hj hplain hlen hlen' ⊢
  rw [rRun_append, rRun_g, ← h2] at ha
  rw [rRun_append] at hj
  rw [rRun_append, ← List.append_assoc, rRun_g, rTrace_append, ← h2]
  rw [← List.append_assoc, rTrace_append, ← h2] at hplain hlen'
  exact C93_succession_stored_partial C.rep C.key x _ (by rw [hg]; exact hnode) (by rw [hg]; exact hf) (by rw [hg]; exact hop)
    (by rw [hg]; exact hac) (by rw [hg]; exact hdu) es e _ hplain h1 (by simp only [List.append_assoc] at hlen'; omega) r o ha hk
    hst hsync j (h3 _ j hj)

end

/-- A master with one active slave: when it stops and nothing for the slave is on its way any more, the slave takes over as soon
as it has got the message that the index server sends when it takes the master down. -/
theorem C102_sole_slave {C : RealmCfg} {p : Nat} {s : Realm} {m f : NodeKey} {n : Node} (ho : Orderly true .init s.acts)
    (hf : freshAfter true s.acts = true) (hm : Leads s.ix.nodes p m) (hi : s.Informed m) (hn : ActiveSlave s.ix.nodes p f n)
    (hone : ∀ j, Follows s.ix.nodes p j → j = f) (hfly : ∀ x ∈ s.g.flying, x.copy.entry.key = C.key → x.dest ≠ f)
    (hdump : ∀ d ∈ s.g.dumps, d.2.key = C.key → d.1 ≠ f) :
    Inherits C p (rRun C s [.crash m, .act (.cmd {} (.down m)), .deliver f (sent .init s.acts).length]) f := by
  obtain ⟨s', hs'⟩ : ∃ s', s' = rRun C s [.crash m, .act (.cmd {} (.down m))] := ⟨_, rfl⟩
  have hrun : rRun C s [.crash m, .act (.cmd {} (.down m)), .deliver f (sent .init s.acts).length] =
      rStep C s' (.deliver f (sent .init s.acts).length) := by rw [hs']; rfl
  rw [hrun]
  have hacts : s'.acts = s.acts ++ [.cmd {} (.down m)] := by rw [hs']; rfl
  have hgot : s'.got = s.got := by rw [hs']; rfl
  have hg : s'.g = { s.g with slaves := s'.g.slaves } := by
    rw [hs']
    simp only [rRun, List.foldl, rStep, REv.group]
    split <;> rfl
  have hix : s'.ix = (ixStep {} s.ix (.down m)).1 := by
    simp only [Realm.ix, hacts]; exact ixRun_concat _ _ _
  obtain ⟨mn, hmn, hrn, hsn, hpn⟩ := hm
  obtain ⟨x0, hx0, -⟩ := hi
  have hx0n := last_nodes ho hf hx0
  have ho' : Orderly true .init s'.acts := by
    rw [hacts, orderly_append]
    refine ⟨ho, ?_⟩
    rw [hf]
    exact ⟨rfl, trivial, trivial⟩
  have hf' : freshAfter true s'.acts = true := by rw [hacts, freshAfter_concat]
  have hC22 := (C22_failover_partial s.acts ho hf m mn hmn hrn hsn).2
  change _ ∨ _ at hC22
  obtain ⟨N', hi'⟩ := run_inv s'.acts true 0 .init init_inv ho'
  rw [hf'] at hi'
  have hi'2 : IxInv true N' s'.ix := hi'
  rw [hpn] at hC22
  rw [show ixStep {} (ixRun .init s.acts) (.down m) = ixStep {} s.ix (.down m) from rfl, ← hix] at hC22
  rw [show (ixRun .init s.acts).nodes = s.ix.nodes from rfl] at hC22
  rcases hC22 with ⟨f0, fm, b, ⟨a1, a2, a3, a4⟩, -, -, q1, q2, q3, q4⟩ | ⟨q, -⟩
  · have hff : f0 = f := hone f0 ⟨fm, a1, a2, by rw [a3]; decide, a4⟩
    subst hff
    have hsaved : (ixStep {} s.ix (.down m)).1.saved ≠ s.ix.saved := by
      obtain ⟨tt, ht⟩ := (C24_messages s.acts).2 x0 hx0
      intro he
      rw [← hix] at he
      rw [show s.ix.saved = some (x0.version, x0.nodes, tt) from ht] at he
      have e1 := ((hi'2.saved _ _ _ he).2 rfl).2.1
      rw [hx0n.1] at e1
      have : mfind s'.ix.nodes m = some mn := by
        rw [← e1]; exact hmn
      rw [q2] at this
      rw [← Option.some.inj this] at hrn
      cases hrn
    have hsent : sent .init s'.acts = sent .init s.acts ++ [⟨s'.ix.nodes, s'.ix.version⟩] := by
      rw [hacts, sent_append]
      have hsaved' : (ixStep {} (ixRun .init s.acts) (.down m)).1.saved ≠ (ixRun .init s.acts).saved := hsaved
      simp only [sent]
      rw [if_neg hsaved', List.append_nil, hix]
      rfl
    have hlast : (sent .init s'.acts)[(sent .init s.acts).length]? = some ⟨s'.ix.nodes, s'.ix.version⟩ := by
      rw [hsent, List.getElem?_append_right (Nat.le_refl _), Nat.sub_self]; rfl
    have hacts2 : (rStep C s' (.deliver f0 (sent .init s.acts).length)).acts = s'.acts := by
      simp only [rStep]; split <;> rfl
    have hg2 : (rStep C s' (.deliver f0 (sent .init s.acts).length)).g =
        { s.g with slaves := (rStep C s' (.deliver f0 (sent .init s.acts).length)).g.slaves } := by
      rw [rStep_g]
      simp only [REv.group]
      split
      · rw [show gRun C.rep s'.g [] = s'.g from rfl]; exact hg
      · split
        · rw [show gRun C.rep s'.g [] = s'.g from rfl]; exact hg
        · rw [hg]; rfl
    have hix2 : (rStep C s' (.deliver f0 (sent .init s.acts).length)).ix = s'.ix := congrArg (ixRun .init) hacts2
    have hnone : ∀ j, ¬ Follows s'.ix.nodes p j := by
      rintro j ⟨nj, l1, l2, l3, l4⟩
      by_cases hjf : j = f0
      · subst hjf; rw [q1] at l1; cases l1; cases l2
      · by_cases hjm : j = m
        · subst hjm; rw [q2] at l1; cases l1; cases l2
        · rw [q3 j hjf hjm] at l1
          exact hjf (hone j ⟨nj, l1, l2, l3, l4⟩)
    refine ⟨⟨⟨s'.ix.nodes, s'.ix.version⟩, ?_, ?_⟩, ?_, ?_, ?_, ?_⟩
    · rw [hacts2, hsent, List.getLast?_concat]
    · simp only [rStep, hlast, if_true, List.mem_append, List.mem_singleton, or_true]
    · rw [hix2]; exact ⟨_, q1, rfl, a3, a4⟩
    · rw [hix2]; exact fun j hj => absurd hj (hnone j)
    · rw [hix2, hg2]
      intro x hx hk hd
      rcases hd with hd | hd
      · exact absurd hd (hfly x hx hk)
      · exact absurd hd (hnone _)
    · rw [hix2, hg2]
      intro d hd hk hd'
      rcases hd' with hd' | hd'
      · exact absurd hd' (hdump d hd hk)
      · exact absurd hd' (hnone _)
  · exact absurd hn (q f n)

/-! ### An example: two masters stop, one after the other -/

/-- Node 1 is the master of the only partition, nodes 2 and 3 are its slaves; node 3 has the greater balance. -/
def trioHist : List IAct :=
  plain [.add 1, .add 2, .add 3, .role 1 .master 1 0, .role 2 .slave 1 0, .up 2, .role 3 .slave 1 0, .up 3, .role 3 .slave 4 0]

def trioCfg : RealmCfg := { kr := ⟨8, 1, 16⟩, hash := fun _ => 0, near := fun _ _ => false, rep := true, key := [97] }

/-- All three have got the last map. -/
def trioSetup : List REv := trioHist.map .act ++ [.deliver 1 8, .deliver 2 8, .deliver 3 8]

/-- A value is written and deleted, and written again, which reaches node 3 only when the master stops. -/
def trioFirst : List REv :=
  [.data (.write 1 { now := 3000000 } [] (setReq [55]) []), .data (.arrive 0 { now := 3000001 }),
    .data (.arrive 0 { now := 3000002 }), .data (.answer 0), .data (.write 1 { now := 3000003 } [] (deleteKey [97]) []),
    .data (.arrive 0 { now := 3000004 }), .data (.arrive 0 { now := 3000005 }), .data (.answer 0),
    .data (.write 1 { now := 3000006 } [] (setReq [56]) []), .data (.arrive 1 { now := 3000007 })]

/-- Node 3 takes over, and the copy for node 2 arrives later; then node 3 stops and node 2 is the master. -/
def trioTerms : List Term :=
  [{ master := 3, pre := [.data (.read 3 { now := 3000008 } { key := [97] })], post := [.deliver 3 9],
     evs := [.deliver 2 9, .data (.arrive 0 { now := 3000009 }), .data (.write 3 { now := 3000010 } [] (setReq [57]) []),
       .data (.arrive 0 { now := 3000011 }), .data (.answer 1)] },
   { master := 2, post := [.deliver 2 10],
     evs := [.data (.write 2 { now := 3000012 } [] (deleteKey [97]) []), .data (.answer 1)] }]

def Realm.informedB (s : Realm) (i : NodeKey) : Bool :=
  (sent .init s.acts).getLast?.any fun x => decide (x ∈ s.got i)

theorem informed_of {s : Realm} {i : NodeKey} (h : s.informedB i = true) : s.Informed i := by
  obtain ⟨x, h1, h2⟩ := (Option.any_eq_true _ _).1 h
  exact ⟨x, h1, of_decide_eq_true h2⟩

def leadsB (nodes : NodeMap) (p : Int) (k : NodeKey) : Bool :=
  (mfind nodes k).any fun n => n.role == .master && n.state == .active && n.partition == p

theorem leads_of {nodes : NodeMap} {p : Int} {k : NodeKey} (h : leadsB nodes p k = true) : Leads nodes p k := by
  obtain ⟨n, h1, h2⟩ := (Option.any_eq_true _ _).1 h
  simp only [Bool.and_eq_true, beq_iff_eq] at h2
  exact ⟨n, h1, h2.1.1, h2.1.2, h2.2⟩

/-- A decision procedure for `Inherits`. -/
def inheritsB (C : RealmCfg) (p : Int) (s : Realm) (f : NodeKey) : Bool :=
  let l := (slavesOf s.ix.nodes p).map (·.1)
  let n := (traceOf (s.g.store f) C.key).rank
  s.informedB f && leadsB s.ix.nodes p f && decide ((s.ix.nodes.map (·.1)).Pairwise (· < ·)) &&
    l.all (fun j => decide ((traceOf (s.g.store j) C.key).rank ≤ n)) &&
    s.g.flying.all (fun x => !(x.copy.entry.key == C.key && (x.dest == f || l.contains x.dest)) || decide (x.copy.trace.rank ≤ n)) &&
    s.g.dumps.all (fun d => !(d.2.key == C.key && (d.1 == f || l.contains d.1)) || decide ((Trace.value d.2.item).rank ≤ n))

theorem inherits_of {C : RealmCfg} {p : Int} {s : Realm} {f : NodeKey} (h : inheritsB C p s f = true) : Inherits C p s f := by
  simp only [inheritsB, Bool.and_eq_true, decide_eq_true_eq, List.all_eq_true] at h
  obtain ⟨⟨⟨⟨⟨h1, h2⟩, h3⟩, h4⟩, h5⟩, h6⟩ := h
  have hmem : ∀ j, j ∈ (slavesOf s.ix.nodes p).map (·.1) ↔ Follows s.ix.nodes p j := mem_slaveKeys h3 p
  refine ⟨informed_of h1, leads_of h2, fun j hj => h4 j ((hmem j).2 hj), fun x hx hk hd => ?_, fun d hd hk hd' => ?_⟩
  · have := h5 x hx
    rw [← hmem] at hd
    simp only [Bool.or_eq_true, Bool.not_eq_true', Bool.and_eq_false_iff, decide_eq_true_eq] at this
    rcases this with (h | h) | h
    · rw [hk] at h; simp at h
    · rw [← Bool.not_eq_true, Bool.or_eq_true, beq_iff_eq, List.contains_iff_mem] at h
      exact absurd hd h
    · exact h
  · have := h6 d hd
    rw [← hmem] at hd'
    simp only [Bool.or_eq_true, Bool.not_eq_true', Bool.and_eq_false_iff, decide_eq_true_eq] at this
    rcases this with (h | h) | h
    · rw [hk] at h; simp at h
    · rw [← Bool.not_eq_true, Bool.or_eq_true, beq_iff_eq, List.contains_iff_mem] at h
      exact absurd hd' h
    · exact h

def REv.undisturbedB (C : RealmCfg) (m : NodeKey) (s : Realm) : REv → Bool
  | .deliver i n => !(s.got i).isEmpty || n + 1 == (sent .init s.acts).length
  | .data (.write _ _ _ r refused) => r.entry.key != C.key || refused.isEmpty
  | .data (.lose f) => (s.g.flying[f]?).all fun x => x.copy.entry.key != C.key
  | .data (.dump i _ _ k) => k != C.key || i == m
  | _ => true

theorem undisturbed_of {C : RealmCfg} {m : NodeKey} {s : Realm} {ev : REv} (h : ev.undisturbedB C m s = true) :
    ev.undisturbed C m s := by
  cases ev with
  | act a => trivial
  | crash i => trivial
  | deliver i n =>
    intro h'
    simpa [REv.undisturbedB, h'] using h
  | data ev =>
    cases ev with
    | write i env path r refused =>
      intro h'
      simpa [REv.undisturbedB, h'] using h
    | lose f =>
      intro x hx
      simpa [REv.undisturbedB, hx] using h
    | dump i j env k =>
      intro h'
      simpa [REv.undisturbedB, h'] using h
    | _ => trivial

def allUndisturbed (C : RealmCfg) (m : NodeKey) : Realm → List REv → Bool
  | _, [] => true
  | s, ev :: evs => ev.ordinary && ev.undisturbedB C m s && allUndisturbed C m (rStep C s ev) evs

theorem allUndisturbed_of {C : RealmCfg} {m : NodeKey} : ∀ {evs : List REv} {s : Realm}, allUndisturbed C m s evs = true →
    Undisturbed C m s evs
  | [], _, _ => trivial
  | ev :: evs, s, h => by
    simp only [allUndisturbed, Bool.and_eq_true] at h
    exact ⟨h.1.1, undisturbed_of h.1.2, allUndisturbed_of h.2⟩

theorem got_silent (C : RealmCfg) (i : NodeKey) : ∀ (evs : List REv) (s : Realm), (∀ n, .deliver i n ∉ evs) →
    (rRun C s evs).got i = s.got i
  | [], _, _ => rfl
  | ev :: evs, s, h => by
    rw [rRun_cons, got_silent C i evs _ (fun n hn => h n (List.mem_cons_of_mem _ hn))]
    cases ev with
    | act a => rfl
    | crash j => rfl
    | data ev => cases ev <;> rfl
    | deliver j n =>
      have : i ≠ j := by
        rintro rfl
        exact h n (List.mem_cons_self ..)
      simp only [rStep]
      split
      · rfl
      · exact if_neg this

def trioStart : Realm := rRun trioCfg { g := freshGroup fun _ => none } trioSetup

theorem trio_setUp : SetUp trioCfg 1 0 trioStart 1 := by
  have ho : Orderly true .init trioStart.acts := by decide +kernel
  obtain ⟨N, hg⟩ := C21_consistent_partial _ ho
  obtain ⟨M, hi⟩ := run_inv _ true 0 .init init_inv ho
  have hN : N = 1 := by
    have h := hg.exists_range hi.map.sorted
    have h0 := (h 0).1 (by decide +kernel)
    have h1 : ¬ ((0 : Int) ≤ 1 ∧ (1 : Int) < N) := fun h' => absurd ((h 1).2 h') (by decide +kernel)
    omega
  subst hN
  refine ⟨ho, by decide +kernel, hg, ⟨by decide, by decide, by decide, by decide⟩, by decide +kernel, leads_of (by decide +kernel),
    ?_, informed_of (by decide +kernel), fun i => ?_⟩
  · rintro k ⟨n, h1, h2, h3⟩
    have hall : trioStart.ix.nodes.all (fun e => e.2.state == .active) = true := by decide +kernel
    have := List.all_eq_true.1 hall _ ((mem_iff_mfind _ hi.map.sorted _ _).2 h1)
    rw [beq_iff_eq] at this
    simp only at this
    rw [this] at h3
    rcases h3 with h | h <;> cases h
  · by_cases h : i = 1 ∨ i = 2 ∨ i = 3
    · right
      rcases h with rfl | rfl | rfl <;> exact informed_of (by decide +kernel)
    · left
      refine got_silent trioCfg i trioSetup _ fun n hn => h ?_
      have : i = 1 ∧ n = 8 ∨ i = 2 ∧ n = 8 ∨ i = 3 ∧ n = 8 := by simpa [trioSetup, trioHist, plain] using hn
      exact this.imp (·.1) (·.imp (·.1) (·.1))

theorem trio_lawful : Lawful trioCfg 0 1 (rRun trioCfg trioStart trioFirst) trioTerms := by
  refine ⟨⟨rfl, trivial, trivial⟩, ⟨rfl, fun h => absurd h (by decide +kernel), trivial⟩, inherits_of (by decide +kernel),
    allUndisturbed_of (by decide +kernel), trivial, ⟨rfl, fun h => absurd h (by decide +kernel), trivial⟩,
    inherits_of (by decide +kernel), allUndisturbed_of (by decide +kernel), trivial⟩

/-- The assumptions of the theorems hold for this history; a late copy and a late answer change nothing. -/
example (after : List REv)
    (hplain : Plainly true [97] trioStart.g (rTrace trioCfg trioStart (trioFirst ++ termEvents 1 trioTerms ++ after)))
    (hlen : after.length < 2 ^ 63) (r : WriteReq) (o : Out)
    (ha : (r, o) ∈ (rRun trioCfg { g := freshGroup fun _ => none } (trioSetup ++ trioFirst ++ termEvents 1 trioTerms)).g.acked)
    (hk : r.entry.key = [97]) (hdel : o.r = some .deleted) (hsync : isSync r.entry.option true = true) (t : Int64) (y : Item)
    (hy : lookup ((rRun trioCfg { g := freshGroup fun _ => none }
      (trioSetup ++ trioFirst ++ termEvents 1 trioTerms ++ after)).g.store 2) t [97] = some y) :
    o.e.version < y.version :=
  C102_deleted_partial (C := trioCfg) (x := .never) (freshGroup_trace _ _) (fun _ => rfl) rfl rfl rfl rfl (by decide +kernel)
    trio_setUp (allUndisturbed_of (by decide +kernel)) (by rw [rRun_append]; exact trio_lawful) hplain
    (by
      simp only [List.length_append]
      have h1 : trioFirst.length = 10 := rfl
      have h2 : (termEvents 1 trioTerms).length = 14 := rfl
      have h3 : Trace.never.version.toNat = 0 := rfl
      omega) r o ha hk hdel hsync 2 (.inl rfl) t y hy

theorem trio_plain : Plainly true [97] trioStart.g (rTrace trioCfg trioStart (trioFirst ++ termEvents 1 trioTerms)) :=
  plainly_of true [97] plainKey_a _ _ (by decide +kernel)

example :
    let g := (rRun trioCfg { g := freshGroup fun _ => none } (trioSetup ++ trioFirst ++ termEvents 1 trioTerms)).g
    g.answers = [(.set, [55], some .stored), (.delete, [], some .deleted), (.set, [57], some .stored),
      (.delete, [], some .deleted)] ∧
    g.value 1 = some ⟨[56], 0, 0, 2⟩ ∧ g.value 2 = none ∧ g.value 3 = some ⟨[57], 0, 0, 3⟩ := by
  decide +kernel

/-- Node 2 is the only slave of node 3 when this one stops. -/
example : Inherits trioCfg 0 (rRun trioCfg (rRun trioCfg trioStart (trioFirst ++ termEvents 1 (trioTerms.take 1)))
    [.crash 3, .act (.cmd {} (.down 3)), .deliver 2 10]) 2 := by
  have hs : Sorted (rRun trioCfg trioStart (trioFirst ++ termEvents 1 (trioTerms.take 1))).ix.nodes := by
    unfold Sorted; decide +kernel
  exact C102_sole_slave (p := 0) (n := ⟨.slave, .active, 0, 0, 17⟩) (by decide +kernel) (by decide +kernel)
    (leads_of (by decide +kernel)) (informed_of (by decide +kernel))
    ⟨by decide +kernel, rfl, rfl, rfl⟩
    (fun j hj => by
      have h := (mem_slaveKeys hs 0 j).2 hj
      rw [show (slavesOf (rRun trioCfg trioStart (trioFirst ++ termEvents 1 (trioTerms.take 1))).ix.nodes 0).map (·.1) = [2] by
        decide +kernel] at h
      exact List.mem_singleton.1 h)
    (by intro x hx; revert x; decide +kernel) (by intro x hx; revert x; decide +kernel)

/-! ### What is missing -/

/-- **C102, defect**: the index server names the slave with the greatest balance (/repo/src/lib/cluster.cc:544-567), not one
that has everything.  The master stops when a write has reached node 2 but not node 3; node 3 takes over and gives the version
of this write a second time, node 2 takes the copy for an old one and refuses it, and the client is told `STORED` nevertheless.
When node 3 stops too, this value is lost, although every copy of it had arrived before the client was told. -/
theorem C102_named_by_balance :
    let s := rRun trioCfg { g := freshGroup fun _ => none } (trioSetup ++
      [.data (.write 1 { now := 3000000 } [] (setReq [55]) []), .data (.arrive 0 { now := 3000001 }), .crash 1,
       .data (.lose 0), .act (.cmd {} (.down 1)), .deliver 2 9, .deliver 3 9,
       .data (.write 3 { now := 3000002 } [] (setReq [56]) []), .data (.arrive 0 { now := 3000003 }), .data (.answer 1),
       .crash 3, .act (.cmd {} (.down 3)), .deliver 2 10])
    s.g.answers = [(.set, [56], some .stored)] ∧ s.g.slaves 2 = some [] ∧ s.g.value 2 = some ⟨[55], 0, 0, 1⟩ := by
  decide +kernel

/-- **C102, defect**: a node that the index server has taken down is not stopped by this.  Node 1 is cut off from the others;
the index server names node 3, which answers `STORED`, and so does node 1, which executes what it is asked as long as no message
tells it otherwise (/repo/src/lib/cluster.cc:1366-1417) and answers without the copies (/repo/src/lib/queue_proxy_write.cc:73-126).
Both give the same version to different values, which is why the difference is not noticed when node 1 is back. -/
theorem C102_two_masters :
    let s := rRun trioCfg { g := freshGroup fun _ => none } (trioSetup ++
      [.act (.cmd {} (.down 1)), .deliver 2 9, .deliver 3 9,
       .data (.write 3 { now := 3000000 } [] (setReq [56]) []), .data (.arrive 0 { now := 3000001 }), .data (.answer 0),
       .data (.write 1 { now := 3000002 } [] (setReq [55]) []), .data (.lose 0), .data (.lose 0), .data (.answer 0)])
    s.g.answers = [(.set, [56], some .stored), (.set, [55], some .stored)] ∧
    s.g.slaves 1 = some [2, 3] ∧ s.g.slaves 3 = some [2] ∧ s.g.flying.isEmpty = true ∧
    s.g.value 1 = some ⟨[55], 0, 0, 1⟩ ∧ s.g.value 3 = some ⟨[56], 0, 0, 1⟩ := by
  decide +kernel

/-! ### Nodes that have stopped -/

theorem setStore_other (g : Group) {i j : NodeKey} (s : Store) (h : i ≠ j) : (g.setStore j s).store i = g.store i := by
  simp [Group.setStore, h]

/-- One step of the group that is possible changes nothing at a node that has stopped. -/
theorem stopped_group {C : RealmCfg} {s : Realm} {i : NodeKey} (hd : s.dead i = true) (hn : s.g.slaves i = none) {ev : GEv}
    (hp : ev.possible C s = true) :
    (gStep C.rep s.g ev).store i = s.g.store i ∧ (gStep C.rep s.g ev).slaves i = none := by
  have hne : ∀ j, s.dead j = false → i ≠ j := by rintro j hj rfl; rw [hd] at hj; cases hj
  cases ev with
  | write j env path r refused =>
    simp only [gStep]
    cases hs : s.g.slaves j with
    | none => exact ⟨rfl, hn⟩
    | some l =>
      have : i ≠ j := by rintro rfl; rw [hn] at hs; cases hs
      exact ⟨setStore_other _ _ this, hn⟩
  | arrive f env =>
    simp only [gStep]
    cases hf : s.g.flying[f]? with
    | none => exact ⟨rfl, hn⟩
    | some x =>
      simp only [GEv.possible, hf, Option.all_some, Bool.not_eq_true'] at hp
      exact ⟨setStore_other _ _ (hne _ hp), hn⟩
  | again f env =>
    simp only [gStep]
    cases hf : s.g.flying[f]? with
    | none => exact ⟨rfl, hn⟩
    | some x =>
      simp only [GEv.possible, hf, Option.all_some, Bool.not_eq_true'] at hp
      exact ⟨setStore_other _ _ (hne _ hp), hn⟩
  | lose f => exact ⟨rfl, hn⟩
  | answer a =>
    simp only [gStep]
    split
    · exact ⟨rfl, hn⟩
    · split <;> exact ⟨rfl, hn⟩
  | read j env e =>
    simp only [GEv.possible, Bool.not_eq_true'] at hp
    exact ⟨setStore_other _ _ (hne _ hp), hn⟩
  | role j l => simp [GEv.possible] at hp
  | dump j k env key =>
    simp only [GEv.possible, Bool.not_eq_true'] at hp
    exact ⟨setStore_other _ _ (hne _ hp), hn⟩
  | put d env =>
    simp only [gStep]
    cases hf : s.g.dumps[d]? with
    | none => exact ⟨rfl, hn⟩
    | some x =>
      simp only [GEv.possible, hf, Option.all_some, Bool.not_eq_true'] at hp
      exact ⟨setStore_other _ _ (hne _ hp), hn⟩
  | drop d => exact ⟨rfl, hn⟩

theorem stopped_step {C : RealmCfg} {s : Realm} {i : NodeKey} (hd : s.dead i = true) (hn : s.g.slaves i = none) (ev : REv) :
    (rStep C s ev).dead i = true ∧ (rStep C s ev).g.slaves i = none ∧ (rStep C s ev).g.store i = s.g.store i := by
  cases ev with
  | act a => exact ⟨hd, hn, rfl⟩
  | deliver j n =>
    simp only [rStep, REv.group]
    cases hm : (sent .init s.acts)[n]? with
    | none => exact ⟨hd, hn, rfl⟩
    | some m =>
      dsimp only
      split
      · exact ⟨hd, hn, rfl⟩
      · refine ⟨hd, ?_, rfl⟩
        simp only [gRun, List.foldl_cons, List.foldl_nil, gStep]
        split
        · rename_i hij
          subst hij
          simp [Realm.role, hd]
        · exact hn
  | crash j =>
    refine ⟨?_, ?_, ?_⟩
    · simp only [rStep]
      split <;> first | rfl | exact hd
    · simp only [rStep, REv.group]
      split
      · exact hn
      · simp only [gRun, List.foldl_cons, List.foldl_nil, gStep]
        split <;> first | rfl | exact hn
    · simp only [rStep, REv.group]
      split <;> rfl
  | data ev =>
    have hdead : (rStep C s (.data ev)).dead i = true := by
      cases ev <;> exact hd
    have hg : (rStep C s (.data ev)).g = gRun C.rep s.g (if ev.possible C s then [ev] else []) := by
      cases ev <;> rfl
    rw [hg]
    refine ⟨hdead, ?_⟩
    split
    · rename_i hp
      obtain ⟨h1, h2⟩ := stopped_group hd hn hp
      exact ⟨h2, h1⟩
    · exact ⟨hn, rfl⟩

/-- A node that has stopped stays as it is: whatever happens afterwards in the cluster, its records do not change, and it is
not a master again. -/
theorem C102_stopped (C : RealmCfg) (s : Realm) (i : NodeKey) (evs : List REv) :
    (rRun C s (.crash i :: evs)).g.store i = s.g.store i ∧ (rRun C s (.crash i :: evs)).g.slaves i = none := by
  have key : ∀ (evs : List REv) (s : Realm), s.dead i = true → s.g.slaves i = none →
      (rRun C s evs).g.store i = s.g.store i ∧ (rRun C s evs).g.slaves i = none := by
    intro evs
    induction evs with
    | nil => exact fun s _ hn => ⟨rfl, hn⟩
    | cons ev evs ih =>
      intro s hd hn
      obtain ⟨h1, h2, h3⟩ := stopped_step (C := C) hd hn ev
      obtain ⟨i1, i2⟩ := ih _ h1 h2
      exact ⟨i1.trans h3, i2⟩
  have hd : (rStep C s (.crash i)).dead i = true := by simp [rStep]
  have hn : (rStep C s (.crash i)).g.slaves i = none := by
    simp only [rStep, REv.group]
    split
    · rename_i h
      exact h
    · simp [gRun, gStep]
  have hs : (rStep C s (.crash i)).g.store i = s.g.store i := by
    simp only [rStep, REv.group]
    split <;> rfl
  obtain ⟨h1, h2⟩ := key evs _ hd hn
  exact ⟨h1.trans hs, h2⟩

example :
    let s := rRun trioCfg { g := freshGroup fun _ => none } (trioSetup ++
      [.data (.write 1 { now := 3000000 } [] (setReq [55]) []), .crash 2, .data (.arrive 0 { now := 3000001 }),
       .data (.arrive 1 { now := 3000001 })])
    s.g.value 2 = none ∧ s.g.value 3 = some ⟨[55], 0, 0, 1⟩ ∧ s.g.flying.length = 1 := by decide +kernel

end Flare
