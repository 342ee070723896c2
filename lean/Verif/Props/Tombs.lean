import Verif.Lemmas.TombsOrder
import Verif.Spec.TombReigns
import Verif.Props.Failover

/-! C93: an answered deletion survives the loss of the master. -/
namespace Flare

/-- Clients write and delete key `k`.  As long as the roles stay as they are, every slave's queue takes the copies of the key's
writes and none is given up, a deletion that is answered with `DELETED` after waiting for the copies has been carried out at
every slave; whatever happens afterwards - the master is lost, slaves are promoted, dumps arrive, copies arrive late or twice,
clients write at any node - no such node has a value of the key again, unless it was written after the deletion.  What is
missing: copies that overtake each other (`C70_deleted`; `C93_in_order_partial` shows when this does not happen), a deletion
that is pushed out of a node's cache (`C93_forgotten`), values that expire, and what `C70_kept_partial` leaves out. -/
theorem C93_deleted_partial (rep : Bool) (k : Bytes) (x : Trace) (g : Group) (l : List Nat)
    (hnode : ∀ i, TraceAt k x (g.store i)) (hm : g.slaves 0 = some l) (ho : ∀ i, i ≠ 0 → g.slaves i = none)
    (hf : g.flying = []) (hop : g.open_ = []) (hac : g.acked = []) (hdu : g.dumps = [])
    (before after : List GEv) (hplain : Plainly rep k g (before ++ after)) (hs : SteadyFor rep k g before)
    (hlen : x.version.toNat + (before ++ after).length < 2 ^ 64)
    (r : WriteReq) (o : Out) (ha : (r, o) ∈ (gRun rep g before).acked) (hk : r.entry.key = k)
    (hr : o.r = some .deleted) (hsync : isSync r.entry.option rep = true) :
    ∀ j ∈ l, ∀ t y, lookup ((gRun rep g (before ++ after)).store j) t k = some y → o.e.version < y.version := by
  intro j hj t y hy
  obtain ⟨hg, hist, hp⟩ := start_tinv (rep := rep) hnode hm ho hf hop hac hdu
  obtain ⟨hf1, hf2⟩ := plainly_append.1 hplain
  rw [List.length_append] at hlen
  obtain ⟨hg1, -⟩ := hg.run (evs := before) (by omega) hf1
  obtain ⟨hist', hp1⟩ := hp.run hg (by omega) hf1 hs
  obtain ⟨hg2, hup⟩ := hg1.run (evs := after) (by omega) hf2
  rw [gRun_append] at hy
  obtain ⟨-, h2⟩ := hp1.acked _ ha hk (.inr hr) hsync
  have hv := Nat.le_trans (h2 j hj) (hup j).le
  rw [kstate_of_lookup (hg2.nodes j).1.ok hy] at hv
  simp only [Out.mark, hr, if_true, KState.rank] at hv
  rw [UInt64.lt_iff_toNat_lt]
  omega

/-- The same for a value: every slave has it or a later one, or has carried out the deletion of it or of a later one. -/
theorem C93_stored_partial (rep : Bool) (k : Bytes) (x : Trace) (g : Group) (l : List Nat)
    (hnode : ∀ i, TraceAt k x (g.store i)) (hm : g.slaves 0 = some l) (ho : ∀ i, i ≠ 0 → g.slaves i = none)
    (hf : g.flying = []) (hop : g.open_ = []) (hac : g.acked = []) (hdu : g.dumps = [])
    (before after : List GEv) (hplain : Plainly rep k g (before ++ after)) (hs : SteadyFor rep k g before)
    (hlen : x.version.toNat + (before ++ after).length < 2 ^ 64)
    (r : WriteReq) (o : Out) (ha : (r, o) ∈ (gRun rep g before).acked) (hk : r.entry.key = k)
    (hr : o.r = some .stored) (hsync : isSync r.entry.option rep = true) :
    ∀ j ∈ l,
      (∃ y, (∀ t, lookup ((gRun rep g (before ++ after)).store j) t k = some y) ∧
        (y = o.e.item ∨ o.e.version < y.version)) ∨
      (∀ t, lookup ((gRun rep g (before ++ after)).store j) t k = none) ∧
        o.e.version ≤ lastVersion ((gRun rep g (before ++ after)).store j) k := by
  intro j hj
  obtain ⟨hg, hist, hp⟩ := start_tinv (rep := rep) hnode hm ho hf hop hac hdu
  obtain ⟨hf1, hf2⟩ := plainly_append.1 hplain
  rw [List.length_append] at hlen
  obtain ⟨hg1, -⟩ := hg.run (evs := before) (by omega) hf1
  obtain ⟨hist', hp1⟩ := hp.run hg (by omega) hf1 hs
  obtain ⟨hg2, hup⟩ := hg1.run (evs := after) (by omega) hf2
  rw [gRun_append]
  obtain ⟨h1, h2⟩ := hp1.acked _ ha hk (.inl hr) hsync
  have hv := h2 j hj
  have hpos := hp1.pos _ h1
  have hmark : Out.mark o = .record o.e.item := by simp [Out.mark, hr]
  rw [hmark] at hv h1 hpos
  have hupj := hup j
  have hgj := hg2.nodes j
  generalize (gRun rep (gRun rep g before) after).store j = s at *
  have hl := hgj.1.lasting
  cases hst : kstate s k with
  | nothing =>
    rw [hst] at hupj
    have := hupj.le
    simp only [KState.rank] at this hv hpos
    omega
  | record y =>
    rw [hst] at hl hupj
    refine .inl ⟨y, bare_lookup hgj.1.ok hst hl.1, ?_⟩
    rcases hupj with e | hlt
    · rcases Nat.lt_or_eq_of_le hv with h | h
      · right
        rw [← e] at h
        simp only [KState.rank] at h
        rw [UInt64.lt_iff_toNat_lt]
        show o.e.item.version.toNat < _
        omega
      · left
        have := hp1.unique _ _ h1 (hp1.nodes j (by rw [← e]; simp)) h
        rw [← e] at this
        cases this
        rfl
    · right
      simp only [KState.rank] at hv hlt
      rw [UInt64.lt_iff_toNat_lt]
      show o.e.item.version.toNat < _
      omega
  | gone v =>
    right
    refine ⟨fun t => by rw [kstate_lookup hgj.1.ok, hst]; rfl, ?_⟩
    rw [lastVersion_kstate hgj.1.ok, hst, UInt64.le_iff_toNat_le]
    rw [hst] at hupj
    have := hupj.le
    simp only [KState.rank] at this hv
    show o.e.item.version.toNat ≤ v.toNat
    omega

/-- When no copy of a key's writes and deletions is on its way any more, all slaves have what the master has. -/
theorem C93_agree_partial (rep : Bool) (k : Bytes) (x : Trace) (g : Group) (l : List Nat)
    (hnode : ∀ i, TraceAt k x (g.store i)) (hm : g.slaves 0 = some l) (ho : ∀ i, i ≠ 0 → g.slaves i = none)
    (hf : g.flying = []) (hop : g.open_ = []) (hac : g.acked = []) (hdu : g.dumps = [])
    (evs : List GEv) (hplain : Plainly rep k g evs) (hs : SteadyFor rep k g evs)
    (hlen : x.version.toNat + evs.length < 2 ^ 64)
    (hq : ∀ f ∈ (gRun rep g evs).flying, f.copy.entry.key ≠ k) :
    ∀ j ∈ l, (∀ t, lookup ((gRun rep g evs).store j) t k = lookup ((gRun rep g evs).store 0) t k) ∧
      lastVersion ((gRun rep g evs).store j) k = lastVersion ((gRun rep g evs).store 0) k := by
  intro j hj
  obtain ⟨hg, hist, hp⟩ := start_tinv (rep := rep) hnode hm ho hf hop hac hdu
  obtain ⟨hg1, -⟩ := hg.run hlen hplain
  obtain ⟨hist', hp1⟩ := hp.run hg hlen hplain hs
  have key : kstate ((gRun rep g evs).store j) k = kstate ((gRun rep g evs).store 0) k := by
    by_cases h0 : kstate ((gRun rep g evs).store 0) k = .nothing
    · by_cases h1 : kstate ((gRun rep g evs).store j) k = .nothing
      · rw [h0, h1]
      · have hh := hp1.nodes j h1
        have := hp1.top _ hh
        rw [h0] at this
        exact absurd (Nat.le_zero.1 this) (hp1.pos _ hh)
    · have hh := hp1.nodes 0 h0
      rcases hp1.all _ hh j hj with ⟨f, f1, -, f3, -⟩ | hv
      · exact absurd f3 (hq f f1)
      · have h1 : kstate ((gRun rep g evs).store j) k ≠ .nothing := by
          intro h1
          rw [h1] at hv
          exact hp1.pos _ hh (Nat.le_zero.1 hv)
        have hj' := hp1.nodes j h1
        exact hp1.unique _ _ hj' hh (Nat.le_antisymm (hp1.top _ hj') hv)
  refine ⟨fun t => ?_, ?_⟩
  · rw [kstate_lookup (hg1.nodes j).1.ok, kstate_lookup (hg1.nodes 0).1.ok, key]
  · rw [lastVersion_kstate (hg1.nodes j).1.ok, lastVersion_kstate (hg1.nodes 0).1.ok, key]

/-- In both modes, whatever is lost, refused or promoted: a node that has deleted a key never has the deleted value or an older
one again, and a node that has a value never has an older one. -/
theorem C93_monotone_partial (rep : Bool) (k : Bytes) (x : Trace) (g : Group)
    (hnode : ∀ i, TraceAt k x (g.store i)) (hf : g.flying = []) (hdu : g.dumps = []) (before after : List GEv)
    (hplain : Plainly rep k g (before ++ after))
    (hlen : x.version.toNat + (before ++ after).length < 2 ^ 64) (i : Nat) :
    lastVersion ((gRun rep g before).store i) k ≤ lastVersion ((gRun rep g (before ++ after)).store i) k ∧
    ∀ t z, lookup ((gRun rep g (before ++ after)).store i) t k = some z →
      lookup ((gRun rep g before).store i) t k = some z ∨ lastVersion ((gRun rep g before).store i) k < z.version := by
  have hg : TInv k x.version.toNat g := by
    refine ⟨fun i => ?_, (by rw [hf]; intro f h; cases h), (by rw [hdu]; intro f h; cases h)⟩
    obtain ⟨h1, h2⟩ := traceAt_kstate (hnode i)
    refine ⟨h1, ?_⟩
    rw [h2, trace_version]
    exact Nat.le_refl _
  obtain ⟨hf1, hf2⟩ := plainly_append.1 hplain
  rw [List.length_append] at hlen
  obtain ⟨hg1, -⟩ := hg.run (evs := before) (by omega) hf1
  obtain ⟨hg2, hup⟩ := hg1.run (evs := after) (by omega) hf2
  rw [gRun_append]
  have hver : ∀ st : KState, st.version.toNat = st.rank / 2 := by
    intro st
    cases st with
    | nothing => rfl
    | record y => simp only [KState.version, KState.rank]; omega
    | gone v => simp only [KState.version, KState.rank]; omega
  have ok1 := (hg1.nodes i).1.ok
  have ok2 := (hg2.nodes i).1.ok
  rw [lastVersion_kstate ok1, lastVersion_kstate ok2]
  refine ⟨?_, fun t z hz => ?_⟩
  · rw [UInt64.le_iff_toNat_le, hver, hver]
    exact Nat.div_le_div_right (hup i).le
  · have hb := kstate_of_lookup ok2 hz
    rcases hup i with e | hlt
    · left
      rw [kstate_lookup ok1, ← e, ← kstate_lookup ok2]
      exact hz
    · right
      rw [hb, show (KState.record z).rank = 2 * z.version.toNat from rfl] at hlt
      rw [UInt64.lt_iff_toNat_lt, hver]
      omega

/-- If the roles stay as they are, no copy is refused or given up, and the copies of the key's writes come to each slave in the
order in which they were sent, no deletion is overtaken.  What is missing: the senders' threads take turns, and nothing keeps
the order (`C70_deleted`). -/
theorem C93_in_order_partial (rep : Bool) (k : Bytes) (x : Trace) (g : Group) (l : List Nat)
    (hnode : ∀ i, TraceAt k x (g.store i)) (hm : g.slaves 0 = some l) (h0 : 0 ∉ l) (ho : ∀ i, i ≠ 0 → g.slaves i = none)
    (hf : g.flying = []) (hop : g.open_ = []) (hac : g.acked = []) (hdu : g.dumps = [])
    (evs : List GEv) (hi : InOrder rep k g evs) (hs : SteadyFor rep k g evs)
    (hlen : x.version.toNat + evs.length < 2 ^ 64) : Plainly rep k g evs := by
  obtain ⟨hg, hist, hp⟩ := start_tinv (rep := rep) hnode hm ho hf hop hac hdu
  have hq : Queued k g := by
    refine ⟨?_, ?_, ?_⟩ <;> rw [hf]
    · exact List.Pairwise.nil
    · intro f h; cases h
    · intro f h; cases h
  exact hq.run h0 hp hg hlen hi hs

/-! ### How a deleted value comes back -/

/-- The same nodes with room for the deletions of `n` keys. -/
def smallGroup (n : Nat) (slaves : Nat → Option (List Nat)) : Group :=
  { store := fun _ => { cacheSize := n }, slaves := slaves }

def setKeyTo (k d : Bytes) : WriteReq := { cmd := .set, entry := { key := k, size := UInt64.ofNat d.length, data := d } }

def deleteKey (k : Bytes) : WriteReq := { cmd := .delete, entry := { key := k } }

/-- A slave is being rebuilt.  The master's dump reads the value, a client deletes it and is answered, the slave has carried the
deletion out; then other deletions push it out of the slave's cache, and the record from the dump arrives: the slave has the
deleted value, the master has not, and nothing is on its way any more.  With room for one more deletion this does not happen. -/
theorem C93_forgotten :
    let evs : List GEv := [.write 0 { now := 3000000 } [] (setReq [55]) [], .answer 0, .role 0 (some [1]),
      .dump 0 1 { now := 3000001 } [97],
      .write 0 { now := 3000002 } [] (deleteKey [97]) [], .arrive 0 { now := 3000003 }, .answer 0,
      .write 0 { now := 3000004 } [] (setKeyTo [98] [56]) [], .arrive 0 { now := 3000005 },
      .write 0 { now := 3000006 } [] (deleteKey [98]) [], .arrive 0 { now := 3000007 },
      .put 0 { now := 3000008 }]
    let g (n : Nat) := gRun true (smallGroup n (masterOf 0 [])) evs
    (g 1).answers = [(.set, [55], some .stored), (.delete, [], some .deleted)] ∧ (g 1).flying.isEmpty = true ∧
    (g 1).dumps.isEmpty = true ∧ (g 1).value 0 = none ∧ (g 1).value 1 = some ⟨[55], 0, 0, 1⟩ ∧
    (g 2).answers = (g 1).answers ∧ (g 2).value 1 = none := by
  decide +kernel

/-! ### Examples -/

theorem freshGroup_trace (f : Nat → Option (List Nat)) (k : Bytes) (i : Nat) :
    TraceAt k .never ((freshGroup f).store i) := freshGroup_known f k i

/-- The node at which something happens. -/
def GEv.node (g : Group) : GEv → Option Nat
  | .write i _ _ _ _ | .read i _ _ | .dump i _ _ _ => some i
  | .arrive f _ | .again f _ => (g.flying[f]?).map (·.dest)
  | .put d _ => (g.dumps[d]?).map (·.1)
  | .lose _ | .answer _ | .role _ _ | .drop _ => none

theorem gStep_elsewhere (rep : Bool) (g : Group) (ev : GEv) (i : Nat) (h : ev.node g ≠ some i) :
    (gStep rep g ev).store i = g.store i := by
  cases ev with
  | write j env path r refused =>
    simp only [GEv.node, ne_eq, Option.some.injEq] at h
    simp only [gStep]
    split
    · rfl
    · simp [Group.setStore, Ne.symm h]
  | arrive f env =>
    simp only [gStep]
    cases hx : g.flying[f]? with
    | none => rfl
    | some x =>
      simp only [GEv.node, hx, Option.map_some, ne_eq, Option.some.injEq] at h
      simp [Group.setStore, Ne.symm h]
  | again f env =>
    simp only [gStep]
    cases hx : g.flying[f]? with
    | none => rfl
    | some x =>
      simp only [GEv.node, hx, Option.map_some, ne_eq, Option.some.injEq] at h
      simp [Group.setStore, Ne.symm h]
  | lose f => rfl
  | answer a =>
    simp only [gStep]
    split
    · rfl
    · split <;> rfl
  | read j env e =>
    simp only [GEv.node, ne_eq, Option.some.injEq] at h
    simp [gStep, Group.setStore, Ne.symm h]
  | role j l => rfl
  | dump j j' env k =>
    simp only [GEv.node, ne_eq, Option.some.injEq] at h
    simp [gStep, Group.setStore, Ne.symm h]
  | put d env =>
    simp only [gStep]
    cases hx : g.dumps[d]? with
    | none => rfl
    | some x =>
      simp only [GEv.node, hx, Option.map_some, ne_eq, Option.some.injEq] at h
      simp [Group.setStore, Ne.symm h]
  | drop d => rfl

def GEv.remembersB (rep : Bool) (k : Bytes) (g : Group) (ev : GEv) : Bool :=
  (ev.node g).all fun i => decide (Remembered (g.store i) k → Remembered ((gStep rep g ev).store i) k)

theorem remembers_of (rep : Bool) (k : Bytes) (g : Group) (ev : GEv) (h : ev.remembersB rep k g = true) (i : Nat) :
    Remembered (g.store i) k → Remembered ((gStep rep g ev).store i) k := by
  by_cases hi : ev.node g = some i
  · simp only [GEv.remembersB, hi, Option.all_some, decide_eq_true_eq] at h
    exact h
  · rw [gStep_elsewhere rep g ev i hi]
    exact id

/-- A decision procedure for histories of plain requests. -/
def GEv.inOrderB (k : Bytes) (g : Group) : GEv → Bool
  | .write i env path r _ =>
    path.isEmpty && decide (r.entry.key = k) &&
      (decide (r.cmd = .set) && decide (r.entry = (setKeyTo k r.entry.data).entry) && decide (r.entry.data.length < 100) ||
        decide (r.cmd = .delete) && decide (r.entry = (deleteKey k).entry)) &&
      (atMaster (g.store i) env path r).2.all fun c => (encodeWrite c).isSome
  | .arrive f env | .again f env =>
    env.putOk && env.outOk && (g.flying[f]?).all fun x =>
      (g.flying.take f).all fun y => decide (y.dest = x.dest → y.copy.entry.key ≠ k)
  | .put _ env => env.putOk && env.outOk
  | _ => true

theorem inOrder_of (k : Bytes) (hk : PlainKey k 8192) (g : Group) (ev : GEv) (h : ev.inOrderB k g = true) : ev.inOrder k g := by
  cases ev with
  | write i env path r refused =>
    simp only [GEv.inOrderB, Bool.and_eq_true, Bool.or_eq_true, decide_eq_true_eq, List.isEmpty_iff] at h
    obtain ⟨⟨⟨h1, h2⟩, h3⟩, h4⟩ := h
    subst h1
    have hc : ∀ c, (atMaster (g.store i) env [] r).2 = some c → (encodeWrite c).isSome := by
      intro c hc
      rw [hc] at h4
      exact h4
    obtain ⟨cmd, path', e, v⟩ := r
    simp only at h2 h3
    subst h2
    rcases h3 with ⟨⟨rfl, h5⟩, h6⟩ | ⟨rfl, h5⟩
    · have h1 : (UInt64.ofNat e.data.length).toNat = e.data.length := by
        rw [UInt64.toNat_ofNat']
        exact Nat.mod_eq_of_lt (by omega)
      have hok : headerSize + e.data.length ≤ intMax := by
        have : headerSize + 100 ≤ intMax := by decide
        omega
      have hx : e.expire = 0 := congrArg Entry.expire h5
      have hop : e.option = 0 := congrArg Entry.option h5
      have hsz : e.size = UInt64.ofNat e.data.length := congrArg Entry.size h5
      have hv : e.version = 0 := congrArg Entry.version h5
      refine ⟨⟨hk, ?_, ?_, ?_, ?_⟩, plainPath_nil, fun _ => ⟨.inr ⟨hv, .inl rfl⟩, .inl ⟨rfl, ?_⟩, hc⟩⟩
      · show e.option < 8; rw [hop]; decide
      · show Absolute e.expire; rw [hx]; exact .inl rfl
      · show e.data.length = e.size.toNat; rw [hsz, h1]
      · exact hok
      · show ¬ 0 < e.expire; rw [hx]; decide
    · have hx : e.expire = 0 := congrArg Entry.expire h5
      have hop : e.option = 0 := congrArg Entry.option h5
      have hsz : e.size = 0 := congrArg Entry.size h5
      have hd : e.data = [] := congrArg Entry.data h5
      have hv : e.version = 0 := congrArg Entry.version h5
      refine ⟨⟨hk, ?_, ?_, ?_, ?_⟩, plainPath_nil, fun _ => ⟨⟨hv, rfl⟩, .inr rfl, hc⟩⟩
      · show e.option < 8; rw [hop]; decide
      · show Absolute e.expire; rw [hx]; exact .inl rfl
      · show e.data.length = e.size.toNat; rw [hsz, hd]; rfl
      · show headerSize + e.data.length ≤ intMax; rw [hd]; decide
  | arrive f env =>
    simp only [GEv.inOrderB, Bool.and_eq_true] at h
    refine ⟨h.1.1, h.1.2, fun x hx _ j y hj hy hd => ?_⟩
    rw [hx, Option.all_some, List.all_eq_true] at h
    have := h.2 y (List.mem_of_getElem? (i := j) (by rw [List.getElem?_take_of_lt hj]; exact hy))
    exact of_decide_eq_true this hd
  | again f env =>
    simp only [GEv.inOrderB, Bool.and_eq_true] at h
    refine ⟨h.1.1, h.1.2, fun x hx _ j y hj hy hd => ?_⟩
    rw [hx, Option.all_some, List.all_eq_true] at h
    have := h.2 y (List.mem_of_getElem? (i := j) (by rw [List.getElem?_take_of_lt hj]; exact hy))
    exact of_decide_eq_true this hd
  | put d env =>
    simp only [GEv.inOrderB, Bool.and_eq_true] at h
    exact h
  | lose f => trivial
  | answer a => trivial
  | read i env e => trivial
  | role i l => trivial
  | dump i j env k' => trivial
  | drop d => trivial

def inOrderB (rep : Bool) (k : Bytes) : Group → List GEv → Bool
  | _, [] => true
  | g, ev :: evs => ev.inOrderB k g && ev.remembersB rep k g && inOrderB rep k (gStep rep g ev) evs

theorem inOrder_run_of (rep : Bool) (k : Bytes) (hk : PlainKey k 8192) : ∀ (evs : List GEv) (g : Group),
    inOrderB rep k g evs = true → InOrder rep k g evs
  | [], _, _ => trivial
  | ev :: evs, g, h => by
    simp only [inOrderB, Bool.and_eq_true] at h
    exact ⟨inOrder_of k hk g ev h.1.1, remembers_of rep k g ev h.1.2, inOrder_run_of rep k hk evs _ h.2⟩

theorem plainKey_a : PlainKey [97] 8192 :=
  ⟨by decide, by decide, (show 1 < 8192 by decide)⟩

/-- Two slaves; the value is written, deleted, and written again; copies to the second slave lag behind, one is sent twice, and
a dump of the old value is on its way all the time. -/
def tombsEvs : List GEv := [.write 0 { now := 3000000 } [] (setReq [55]) [], .dump 0 1 { now := 3000000 } [97],
  .dump 0 2 { now := 3000000 } [97],
  .arrive 0 { now := 3000001 },
  .write 0 { now := 3000002 } [] (deleteKey [97]) [], .again 1 { now := 3000003 }, .again 1 { now := 3000003 },
  .arrive 0 { now := 3000004 }, .arrive 0 { now := 3000005 }, .arrive 0 { now := 3000005 }, .answer 1,
  .put 0 { now := 3000006 }, .put 0 { now := 3000006 }]

def tombsNew : List GEv := [.write 0 { now := 3000007 } [] (setReq [56, 56]) [], .arrive 0 { now := 3000008 },
  .arrive 0 { now := 3000008 }, .answer 1]

example :
    let g := gRun true (freshGroup (masterOf 0 [1, 2])) tombsEvs
    let g' := gRun true (freshGroup (masterOf 0 [1, 2])) (tombsEvs ++ tombsNew)
    g.answers = [(.delete, [], some .deleted)] ∧ g.dumps.isEmpty = true ∧ g.value 1 = none ∧ g.value 2 = none ∧
    g'.answers = [(.delete, [], some .deleted), (.set, [56, 56], some .stored)] ∧
    g'.value 1 = some ⟨[56, 56], 0, 0, 2⟩ ∧ g'.value 2 = some ⟨[56, 56], 0, 0, 2⟩ := by
  decide +kernel

/-- The assumptions of the theorems hold for this history. -/
theorem tombs_steady : SteadyFor true [97] (freshGroup (masterOf 0 [1, 2])) (tombsEvs ++ tombsNew) :=
  ⟨fun _ => rfl, trivial, trivial, trivial, fun _ => rfl, trivial, trivial, trivial, trivial, trivial, trivial, trivial, trivial,
    fun _ => rfl, trivial, trivial, trivial, trivial⟩

theorem tombs_plain : Plainly true [97] (freshGroup (masterOf 0 [1, 2])) (tombsEvs ++ tombsNew) := by
  refine C93_in_order_partial true [97] .never _ [1, 2] (freshGroup_trace _ _) rfl (by decide) ?_ rfl rfl rfl rfl _ ?_
    tombs_steady (by decide)
  · intro i hi
    show masterOf 0 [1, 2] i = none
    simp [masterOf, hi]
  · exact inOrder_run_of true [97] plainKey_a _ _ (by decide +kernel)

end Flare
