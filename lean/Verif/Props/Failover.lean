import Verif.Lemmas.FailoverGroup

/-! C70: an answered write survives the loss of the master. -/
namespace Flare

/-- As long as the roles stay as they are, every slave's queue takes the copies of a key's writes and none
is given up, a write that is answered with `STORED` after waiting for the copies is at every slave; whatever
happens afterwards - the master is lost, slaves are promoted, copies arrive late, twice or never, clients
write at any node - every such node has this value or a later one.  What is missing: the copies are refused
or given up (`C70_not_copied`, `C70_gave_up`), the answer does not wait (`C70_async`), deletions
(`C70_deleted`), writes after a change of roles (`C70_equal_versions`, `C70_two_masters`), values that
expire. -/
theorem C70_kept_partial (rep : Bool) (k : Bytes) (x : Option Item) (g : Group) (l : List Nat)
    (hnode : ∀ i, KnownAt k x (g.store i)) (hm : g.slaves 0 = some l) (ho : ∀ i, i ≠ 0 → g.slaves i = none)
    (hf : g.flying = []) (hop : g.open_ = []) (hac : g.acked = []) (hdu : g.dumps = [])
    (before after : List GEv) (hfine : Fine rep k g (before ++ after)) (hs : SteadyFor rep k g before)
    (hlen : x.elim 0 (·.version.toNat) + (before ++ after).length < 2 ^ 64)
    (r : WriteReq) (o : Out) (ha : (r, o) ∈ (gRun rep g before).acked) (hk : r.entry.key = k)
    (hr : o.r = some .stored) (hsync : isSync r.entry.option rep = true) :
    ∀ j ∈ l, ∃ y, (∀ t, lookup ((gRun rep g (before ++ after)).store j) t k = some y) ∧
      (y = o.e.item ∨ o.e.version < y.version) := by
  intro j hj
  obtain ⟨hg, hist, hp⟩ := start_inv (rep := rep) hnode hm ho hf hop hac hdu
  obtain ⟨hf1, hf2⟩ := fine_append.1 hfine
  rw [List.length_append] at hlen
  obtain ⟨hg1, -⟩ := hg.run (evs := before) (by omega) hf1
  obtain ⟨hist', hp1⟩ := hp.run hg (by omega) hf1 hs
  obtain ⟨hg2, hup⟩ := hg1.run (evs := after) (by omega) hf2
  rw [gRun_append]
  obtain ⟨h1, h2⟩ := hp1.acked _ ha hk hr hsync
  have hv := h2 j hj
  have hpos := hp1.pos _ h1
  simp only at hv h1
  rcases (hg1.nodes j).1.bare with hb | ⟨y, hb, hy, -⟩
  · rw [hb] at hv
    exact absurd (UInt64.le_zero_iff.1 hv) hpos
  · rw [hb] at hv
    have hy' : y = o.e.item ∨ o.e.version < y.version := by
      rcases UInt64.lt_or_eq_of_le hv with h | h
      · exact .inr h
      · exact .inl (hp1.unique _ _ (hp1.nodes j y hb) h1 h.symm)
    rcases hup j with e | ⟨z, e, hz, hlt⟩
    · rw [hb] at e
      exact ⟨y, bare_lookup (hg2.nodes j).1.ok e hy, hy'⟩
    · rw [hb] at hlt
      refine ⟨z, bare_lookup (hg2.nodes j).1.ok e hz, .inr (UInt64.lt_of_le_of_lt hv hlt)⟩

/-- When no copy of a key's writes is on its way any more, all slaves have what the master has. -/
theorem C70_agree_partial (rep : Bool) (k : Bytes) (x : Option Item) (g : Group) (l : List Nat)
    (hnode : ∀ i, KnownAt k x (g.store i)) (hm : g.slaves 0 = some l) (ho : ∀ i, i ≠ 0 → g.slaves i = none)
    (hf : g.flying = []) (hop : g.open_ = []) (hac : g.acked = []) (hdu : g.dumps = [])
    (evs : List GEv) (hfine : Fine rep k g evs) (hs : SteadyFor rep k g evs)
    (hlen : x.elim 0 (·.version.toNat) + evs.length < 2 ^ 64)
    (hq : ∀ f ∈ (gRun rep g evs).flying, f.copy.entry.key ≠ k) :
    ∀ j ∈ l, ∀ t, lookup ((gRun rep g evs).store j) t k = lookup ((gRun rep g evs).store 0) t k := by
  intro j hj t
  obtain ⟨hg, hist, hp⟩ := start_inv (rep := rep) hnode hm ho hf hop hac hdu
  obtain ⟨hg1, -⟩ := hg.run hlen hfine
  obtain ⟨hist', hp1⟩ := hp.run hg hlen hfine hs
  rw [kstate_lookup (hg1.nodes j).1.ok, kstate_lookup (hg1.nodes 0).1.ok]
  congr 1
  rcases (hg1.nodes j).1.bare with hb | ⟨y, hb, -, -⟩
  · rcases (hg1.nodes 0).1.bare with hz | ⟨z, hz, -, hz0⟩
    · rw [hb, hz]
    · rcases hp1.all z (hp1.nodes 0 z hz) j hj with ⟨f, f1, -, f3, -⟩ | hv
      · exact absurd f3 (hq f f1)
      · rw [hb] at hv
        exact absurd (UInt64.le_zero_iff.1 hv) hz0
  · have hy := hp1.nodes j y hb
    have htop := hp1.top y hy
    rcases (hg1.nodes 0).1.bare with hz | ⟨z, hz, -, hz0⟩
    · rw [hz] at htop
      exact absurd (UInt64.le_zero_iff.1 htop) (hp1.pos y hy)
    · rw [hz] at htop
      have hzh := hp1.nodes 0 z hz
      rcases hp1.all z hzh j hj with ⟨f, f1, -, f3, -⟩ | hv
      · exact absurd f3 (hq f f1)
      · rw [hb] at hv
        rw [hb, hz, hp1.unique y z hy hzh (UInt64.le_antisymm htop hv)]

/-- In both modes, whatever is lost, refused or promoted: a node never replaces the value of a key by an
older one.  Missing: deletions, values that expire. -/
theorem C70_monotone_partial (rep : Bool) (k : Bytes) (x : Option Item) (g : Group)
    (hnode : ∀ i, KnownAt k x (g.store i)) (hf : g.flying = []) (hdu : g.dumps = []) (before after : List GEv)
    (hfine : Fine rep k g (before ++ after))
    (hlen : x.elim 0 (·.version.toNat) + (before ++ after).length < 2 ^ 64) (i : Nat) (y : Item) (t : Int64)
    (hy : lookup ((gRun rep g before).store i) t k = some y) :
    ∃ z, (∀ t, lookup ((gRun rep g (before ++ after)).store i) t k = some z) ∧
      (z = y ∨ y.version < z.version) := by
  have hg : GInv k (x.elim 0 (·.version.toNat)) g := by
    refine ⟨fun i => ?_, (by rw [hf]; intro f h; cases h), (by rw [hdu]; intro f h; cases h)⟩
    obtain ⟨h1, h2⟩ := knownAt_kstate (hnode i)
    refine ⟨h1, ?_⟩
    rw [h2]
    cases x <;> exact Nat.le_refl _
  obtain ⟨hf1, hf2⟩ := fine_append.1 hfine
  rw [List.length_append] at hlen
  obtain ⟨hg1, -⟩ := hg.run (evs := before) (by omega) hf1
  obtain ⟨hg2, hup⟩ := hg1.run (evs := after) (by omega) hf2
  rw [gRun_append]
  have hb := kstate_of_lookup (hg1.nodes i).1.ok hy
  rcases hup i with e | ⟨z, e, hz, hlt⟩
  · rw [hb] at e
    refine ⟨y, bare_lookup (hg2.nodes i).1.ok e ?_, .inl rfl⟩
    rcases (hg1.nodes i).1.bare with h | ⟨y', h, hy', -⟩
    · rw [h] at hb; cases hb
    · rw [h] at hb; cases hb; exact hy'
  · rw [hb] at hlt
    exact ⟨z, bare_lookup (hg2.nodes i).1.ok e hz, .inr hlt⟩

/-! ### How an answered write gets lost -/

/-- A slave whose queue does not take the copy is passed over; the client is answered all the same, in
both modes. -/
theorem C70_not_copied (rep : Bool) (g : Group) (i : Nat) (l : List Nat) (env : Env) (path : List Bytes)
    (r : WriteReq) (hm : g.slaves i = some l) (hid : ∀ f ∈ g.flying, f.id < g.next)
    (hn : r.entry.option &&& optNoreply = 0) :
    let g' := gRun rep g [.write i env path r l, .answer g.open_.length]
    g'.acked = g.acked ++ [(r, (step (g.store i) env r.call).2)] ∧
      ∀ j, j ≠ i → g'.store j = g.store j := by
  have hfilter : (l.filter fun j => !l.contains j) = [] := by
    rw [List.filter_eq_nil_iff]
    intro a ha
    simp [ha]
  have hany : g.flying.any (fun x => x.id == g.next) = false := by
    rw [List.any_eq_false]
    intro f hf
    have := hid f hf
    simp only [beq_iff_eq]
    omega
  simp only [gRun, List.foldl_cons, List.foldl_nil, gStep, hm, hfilter, List.map_nil, Group.setStore]
  have h0 : ∀ o : Option WriteReq, (o.toList.flatMap fun _ => ([] : List Flight)) = [] := by
    intro o; cases o <;> rfl
  simp only [h0, List.append_nil, List.getElem?_concat_length, hany, Bool.and_false, Bool.false_eq_true,
    if_false, hn, ne_eq, not_true_eq_false]
  exact ⟨trivial, fun j hj => by simp [hj]⟩

/-- Three nodes that know nothing. -/
def freshGroup (slaves : Nat → Option (List Nat)) : Group :=
  { store := fun _ => { cacheSize := 10 }, slaves := slaves }

def masterOf (m : Nat) (l : List Nat) : Nat → Option (List Nat) := fun i => if i = m then some l else none

def setReq (d : Bytes) (option : UInt32 := 0) : WriteReq :=
  { cmd := .set, entry := { key := [97], size := UInt64.ofNat d.length, data := d, option := option } }

def Group.value (g : Group) (i : Nat) : Option Item := lookup (g.store i) 3000100 [97]

def Group.answers (g : Group) : List (WriteCmd × Bytes × Option Result) :=
  g.acked.map fun p => (p.1.cmd, p.1.entry.data, p.2.r)

/-- The sender gives the copy up, the client is answered `STORED`, the master is lost: so is the value. -/
theorem C70_gave_up :
    let g := gRun true (freshGroup (masterOf 0 [1])) [.write 0 { now := 3000000 } [] (setReq [55]) [],
      .lose 0, .answer 0, .role 0 none, .role 1 (some [])]
    g.answers = [(.set, [55], some .stored)] ∧ g.value 1 = none := by
  decide +kernel

/-- Only requests that ask for an answer are answered, and while a copy of a write that is to be waited for
is on its way, there is no answer: the option `sync` of a request counts before `async`, and both before the
mode of the cluster. -/
theorem C70_answered (rep : Bool) (evs : List GEv) (g : Group) :
    (∀ x ∈ (gRun rep g evs).acked, x ∈ g.acked ∨ x.1.entry.option &&& optNoreply = 0) ∧
    ∀ (a : Nat) (id : Nat) (r : WriteReq) (o : Out), g.open_[a]? = some (id, r, o) →
      (∃ f ∈ g.flying, f.id = id) →
      (r.entry.option &&& optSync ≠ 0 ∨ r.entry.option &&& optAsync = 0 ∧ rep = true ↔
        gStep rep g (.answer a) = g) := by
  constructor
  · induction evs generalizing g with
    | nil => intro x hx; exact .inl hx
    | cons e evs ih =>
      intro x hx
      have h1 := ih (gStep rep g e) x hx
      rcases h1 with h1 | h1
      · cases e with
        | answer a =>
          simp only [gStep] at h1
          split at h1
          · exact .inl h1
          · rename_i id r o _
            split at h1
            · exact .inl h1
            · simp only at h1
              by_cases h : r.entry.option &&& optNoreply ≠ 0
              · rw [if_pos h] at h1; exact .inl h1
              · rw [if_neg h] at h1
                rcases List.mem_append.1 h1 with h1 | h1
                · exact .inl h1
                · rw [List.mem_singleton.1 h1]
                  exact .inr (by simpa using h)
        | write i env path r refused =>
          left
          simp only [gStep] at h1
          split at h1 <;> exact h1
        | arrive f env =>
          left
          simp only [gStep] at h1
          split at h1 <;> exact h1
        | again f env =>
          left
          simp only [gStep] at h1
          split at h1 <;> exact h1
        | lose f => exact .inl h1
        | read i env e => exact .inl h1
        | role i l => exact .inl h1
        | dump i j env k => exact .inl h1
        | put d env =>
          left
          simp only [gStep] at h1
          split at h1 <;> exact h1
        | drop d => exact .inl h1
      · exact .inr h1
  · intro a id r o ho hf
    have hany : g.flying.any (fun x => x.id == id) = true := by
      obtain ⟨f, h1, h2⟩ := hf
      exact List.any_eq_true.2 ⟨f, h1, by simp [h2]⟩
    simp only [gStep, ho, hany, Bool.and_true]
    have hne : ({ g with
          open_ := g.open_.eraseIdx a
          acked := if r.entry.option &&& optNoreply ≠ 0 then g.acked else g.acked ++ [(r, o)] } : Group) ≠ g := by
      intro h
      have h1 := congrArg (fun g => g.open_.length) h
      have h2 := (List.getElem?_eq_some_iff.1 ho).1
      simp only [List.length_eraseIdx, h2, if_true] at h1
      omega
    by_cases h1 : r.entry.option &&& optSync ≠ 0
    · simp [isSync, h1]
    · by_cases h2 : r.entry.option &&& optAsync ≠ 0
      · simp only [isSync, if_neg h1, if_pos h2, Bool.false_eq_true, if_false]
        exact ⟨fun h => absurd h (by rintro (h | h); exacts [h1 h, h2 h.1]), fun h => absurd h hne⟩
      · simp only [isSync, if_neg h1, if_neg h2]
        cases rep
        · simp only [Bool.false_eq_true, if_false]
          exact ⟨fun h => absurd h (by rintro (h | h); exacts [h1 h, nomatch h.2]), fun h => absurd h hne⟩
        · simp only [not_not] at h2
          simp [h2]

/-- Without waiting, the answer is given while the copy is still with the master. -/
theorem C70_async :
    let evs (o : UInt32) : List GEv := [.write 0 { now := 3000000 } [] (setReq [55] o) [],
      .answer 0, .lose 0, .role 0 none, .role 1 (some [])]
    let g (rep : Bool) (o : UInt32) := gRun rep (freshGroup (masterOf 0 [1])) (evs o)
    (g false 0).answers = [(.set, [55], some .stored)] ∧ (g false 0).value 1 = none ∧
    (g true optAsync).answers = [(.set, [55], some .stored)] ∧ (g true optAsync).value 1 = none ∧
    (g true 0).answers = [] ∧ (g false optSync).answers = [] := by
  decide +kernel

/-- The copy of a deletion overtakes the copy of the value it deletes.  Both clients are answered, and the
new master has the deleted value. -/
theorem C70_deleted :
    let evs : List GEv := [.write 0 { now := 3000000 } [] (setReq [55]) [],
      .write 0 { now := 3000001 } [] { cmd := .delete, entry := { key := [97] } } [],
      .arrive 1 { now := 3000002 }, .answer 1, .arrive 0 { now := 3000003 }, .answer 0]
    let g := gRun true (freshGroup (masterOf 0 [1])) evs
    g.answers = [(.delete, [], some .deleted), (.set, [55], some .stored)] ∧ g.flying.isEmpty = true ∧
    g.value 0 = none ∧ g.value 1 = some ⟨[55], 0, 0, 1⟩ := by
  decide +kernel

/-- The first master is lost when its copy has reached one of two slaves only.  The new master gives its
first write the same version, the other slave takes the copy for an old one, the client is told `STORED`;
when the new master is lost too, so is the value - although one node after the other was lost and every
copy of the second write was delivered. -/
theorem C70_equal_versions :
    let evs : List GEv := [.write 0 { now := 3000000 } [] (setReq [55]) [], .arrive 1 { now := 3000001 },
      .lose 0, .role 0 none, .role 1 (some [2]),
      .write 1 { now := 3000002 } [] (setReq [56]) [], .arrive 0 { now := 3000003 }, .answer 1,
      .role 1 none, .role 2 (some [])]
    let g := gRun true (freshGroup (masterOf 0 [1, 2])) evs
    g.answers = [(.set, [56], some .stored)] ∧ g.flying.isEmpty = true ∧
    g.value 1 = some ⟨[56], 0, 0, 1⟩ ∧ g.value 2 = some ⟨[55], 0, 0, 1⟩ := by
  decide +kernel

/-- A master that has not heard yet that it is no longer one executes writes, and its copies reach the new
master, which takes them for old.  Both clients are told `STORED`. -/
theorem C70_two_masters :
    let evs : List GEv := [.role 1 (some []), .write 1 { now := 3000000 } [] (setReq [56]) [], .answer 0,
      .write 0 { now := 3000001 } [] (setReq [55]) [], .arrive 0 { now := 3000002 }, .answer 0, .role 0 none]
    let g := gRun true (freshGroup (masterOf 0 [1])) evs
    g.answers = [(.set, [56], some .stored), (.set, [55], some .stored)] ∧ g.flying.isEmpty = true ∧
    g.value 0 = some ⟨[55], 0, 0, 1⟩ ∧ g.value 1 = some ⟨[56], 0, 0, 1⟩ := by
  decide +kernel

/-! ### Examples -/

theorem freshGroup_known (f : Nat → Option (List Nat)) (k : Bytes) (i : Nat) :
    KnownAt k none ((freshGroup f).store i) := by
  show KnownAt k none { cacheSize := 10 }
  refine ⟨⟨fun k raw h => ?_, by decide, by decide⟩, ?_, by decide, ?_⟩
  · simp [dbGet] at h
  · intro t k it h
    rw [lookup_none_of_absent rfl] at h
    cases h
  · simp [Remembered, dbGet, tombGet]

/-- Two slaves; two clients write; copies are answered late, one is sent twice; the client with the second
write is answered, the master is lost, slave 2 becomes master, a late copy arrives. -/
def keptBefore : List GEv := [.write 0 { now := 3000000 } [] (setReq [55]) [],
  .write 0 { now := 3000001 } [] (setReq [56, 56]) [], .again 3 { now := 3000002 }, .arrive 2 { now := 3000003 },
  .answer 1, .arrive 2 { now := 3000004 }, .answer 1]

def keptAfter : List GEv := [.lose 0, .role 0 none, .role 2 (some [1]), .arrive 0 { now := 3000005 },
  .write 2 { now := 3000006 } [] { cmd := .append, entry := { key := [97], size := 1, data := [57] } } []]

example :
    let g := gRun true (freshGroup (masterOf 0 [1, 2])) keptBefore
    let g' := gRun true (freshGroup (masterOf 0 [1, 2])) (keptBefore ++ keptAfter)
    g.answers = [(.set, [56, 56], some .stored)] ∧ g.flying.length = 2 ∧
    g'.value 1 = some ⟨[56, 56], 0, 0, 2⟩ ∧ g'.value 2 = some ⟨[56, 56, 57], 0, 0, 3⟩ := by
  decide +kernel

theorem setReq_fine (g : Group) (i : Nat) (env : Env) (d : Bytes) (refused : List Nat)
    (hd : d.length < 100) (he : ∀ c, (atMaster (g.store i) env [] (setReq d)).2 = some c → (encodeWrite c).isSome) :
    (GEv.write i env [] (setReq d) refused).fine [97] g := by
  have h1 : (UInt64.ofNat d.length).toNat = d.length := by
    rw [UInt64.toNat_ofNat']
    exact Nat.mod_eq_of_lt (by omega)
  refine ⟨⟨⟨?_, ?_, ?_⟩, ?_, ?_, ?_, ?_⟩, plainPath_nil, fun _ => ⟨?_, rfl, ?_, he⟩⟩
  · show [97] ≠ []; decide
  · show ∀ c ∈ ([97] : Bytes), c ≠ 0 ∧ c ≠ chSpace ∧ c ≠ chNl; decide
  · show 1 < 8192; decide
  · show (0 : UInt32) < 8; decide
  · unfold Absolute; exact .inl rfl
  · exact h1.symm
  · show headerSize + d.length ≤ intMax
    have : headerSize + 100 ≤ intMax := by decide
    omega
  · exact .inr ⟨rfl, .inl rfl⟩
  · show ¬ (0 : Int64) < 0; decide

/-- The assumptions of `C70_kept_partial` hold for this history. -/
example :
    SteadyFor true [97] (freshGroup (masterOf 0 [1, 2])) keptBefore ∧
    Fine true [97] (freshGroup (masterOf 0 [1, 2])) keptBefore := by
  refine ⟨⟨fun _ => rfl, fun _ => rfl, trivial, trivial, trivial, trivial, trivial, trivial⟩,
    setReq_fine _ _ _ _ _ (by decide) ?_, setReq_fine _ _ _ _ _ (by decide) ?_, rfl, rfl, trivial, rfl, trivial,
    trivial⟩
  · intro c hc
    have : ((atMaster ((freshGroup (masterOf 0 [1, 2])).store 0) { now := 3000000 } [] (setReq [55])).2.all
      fun c => (encodeWrite c).isSome) = true := by decide +kernel
    rw [hc] at this
    exact this
  · intro c hc
    have : ((atMaster ((gStep true (freshGroup (masterOf 0 [1, 2]))
      (.write 0 { now := 3000000 } [] (setReq [55]) [])).store 0) { now := 3000001 } [] (setReq [56, 56])).2.all
      fun c => (encodeWrite c).isSome) = true := by decide +kernel
    rw [hc] at this
    exact this

end Flare
