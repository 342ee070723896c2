import Verif.Lemmas.TombReigns
import Verif.Props.Reigns
import Verif.Props.Tombs

/-! C93: an answered deletion survives the loss of one master after the other. -/
namespace Flare

theorem ruled_end {rep : Bool} {k : Bytes} {x : Trace} {g : Group}
    (hnode : ∀ i, TraceAt k x (g.store i)) (hf : g.flying = []) (hop : g.open_ = []) (hac : g.acked = [])
    (hdu : g.dumps = []) {es : List Era} {e : Era}
    (hplain : Plainly rep k g ((es ++ [e]).flatMap Era.events)) (hr : Ruled rep k (fun _ => True) g (es ++ [e]))
    (hlen : x.version.toNat + ((es ++ [e]).flatMap Era.events).length < 2 ^ 64) :
    TInv k (x.version.toNat + ((es ++ [e]).flatMap Era.events).length) (gRun rep g ((es ++ [e]).flatMap Era.events)) ∧
    ∃ L base hist, TPast rep k L base (gRun rep g ((es ++ [e]).flatMap Era.events)) hist ∧
      ∀ i, Complete rep k e (gRun rep g (es.flatMap Era.events ++ e.gap)) i →
        L i ∧ base i ≤ (kstate ((gRun rep g ((es ++ [e]).flatMap Era.events)).store i) k).rank := by
  have hg : TInv k x.version.toNat g := by
    refine ⟨fun i => ?_, (by rw [hf]; intro f h; cases h), (by rw [hdu]; intro f h; cases h)⟩
    obtain ⟨h1, h2⟩ := traceAt_kstate (hnode i)
    refine ⟨h1, ?_⟩
    rw [h2, trace_version]
    exact Nat.le_refl _
  have hp : TPast rep k (fun _ => True) (fun _ => 0) g (fun y => y = x.state ∧ y ≠ .nothing) := by
    refine ⟨?_, ?_, ?_, (by rw [hf]; intro f h; cases h), (by rw [hdu]; intro f h; cases h),
      (by rw [hac]; intro f h; cases h), (by rw [hop]; intro f h; cases h)⟩
    · rintro y z ⟨rfl, -⟩ ⟨rfl, -⟩ _; rfl
    · rintro y ⟨rfl, hy⟩
      have := (traceAt_kstate (hnode 0)).1.lasting
      rw [(traceAt_kstate (hnode 0)).2] at this
      exact lasting_rank this hy
    · intro i _ hy
      rw [(traceAt_kstate (hnode i)).2] at hy ⊢
      exact .inl ⟨rfl, hy⟩
  obtain ⟨L, base, hist, h1, hW⟩ := ruled_run (es ++ [e]) _ g _ _ _ _ hp (fun _ _ => ⟨trivial, Nat.zero_le _⟩) hg
    hlen hplain hr
  rw [List.getLast?_concat, lastStart_concat] at hW
  exact ⟨(hg.run hlen hplain).1, L, base, hist, h1, hW⟩

/-- The master is lost any number of times, each time a node that has everything takes over, nodes that are new or come back
are added, and clients write and delete all the time: a deletion that any of these masters answered with `DELETED` after
waiting for the copies has been carried out at every node that has everything at the end, and whatever happens afterwards no
such node has a value of the key again, unless it was written after the deletion.  What is missing: as in
`C93_deleted_partial` and `C70_succession_partial`; a node that has joined has everything only when it has got a record or a
copy of the key, because a dump tells nothing of deletions (`C93_returned` and `C93_cas_reused` show what happens otherwise). -/
theorem C93_succession_partial (rep : Bool) (k : Bytes) (x : Trace) (g : Group)
    (hnode : ∀ i, TraceAt k x (g.store i)) (hf : g.flying = []) (hop : g.open_ = []) (hac : g.acked = [])
    (hdu : g.dumps = []) (es : List Era) (e : Era) (after : List GEv)
    (hplain : Plainly rep k g ((es ++ [e]).flatMap Era.events ++ after)) (hr : Ruled rep k (fun _ => True) g (es ++ [e]))
    (hlen : x.version.toNat + ((es ++ [e]).flatMap Era.events ++ after).length < 2 ^ 64)
    (r : WriteReq) (o : Out) (ha : (r, o) ∈ (gRun rep g ((es ++ [e]).flatMap Era.events)).acked) (hk : r.entry.key = k)
    (hdel : o.r = some .deleted) (hsync : isSync r.entry.option rep = true) :
    ∀ j, Complete rep k e (gRun rep g (es.flatMap Era.events ++ e.gap)) j →
      ∀ t y, lookup ((gRun rep g ((es ++ [e]).flatMap Era.events ++ after)).store j) t k = some y →
        o.e.version < y.version := by
  intro j hj t y hy
  obtain ⟨hf1, hf2⟩ := plainly_append.1 hplain
  rw [List.length_append] at hlen
  obtain ⟨hg1, L, base, hist, h1, hW⟩ := ruled_end hnode hf hop hac hdu hf1 hr (by omega)
  obtain ⟨hg2, hup⟩ := hg1.run (evs := after) (by omega) hf2
  rw [gRun_append] at hy
  obtain ⟨hL, hB⟩ := hW j hj
  obtain ⟨-, b⟩ := h1.acked _ ha hk (.inr hdel) hsync
  have hv := Nat.le_trans ((b j hL).elim (fun h => Nat.le_trans h hB) id) (hup j).le
  rw [kstate_of_lookup (hg2.nodes j).1.ok hy] at hv
  simp only [Out.mark, hdel, if_true, KState.rank] at hv
  rw [UInt64.lt_iff_toNat_lt]
  omega

/-- The same for a value: every node that has everything has it or a later one, or has carried out the deletion of it or of a
later one. -/
theorem C93_succession_stored_partial (rep : Bool) (k : Bytes) (x : Trace) (g : Group)
    (hnode : ∀ i, TraceAt k x (g.store i)) (hf : g.flying = []) (hop : g.open_ = []) (hac : g.acked = [])
    (hdu : g.dumps = []) (es : List Era) (e : Era) (after : List GEv)
    (hplain : Plainly rep k g ((es ++ [e]).flatMap Era.events ++ after)) (hr : Ruled rep k (fun _ => True) g (es ++ [e]))
    (hlen : x.version.toNat + ((es ++ [e]).flatMap Era.events ++ after).length < 2 ^ 64)
    (r : WriteReq) (o : Out) (ha : (r, o) ∈ (gRun rep g ((es ++ [e]).flatMap Era.events)).acked) (hk : r.entry.key = k)
    (hst : o.r = some .stored) (hsync : isSync r.entry.option rep = true) :
    ∀ j, Complete rep k e (gRun rep g (es.flatMap Era.events ++ e.gap)) j →
      (∃ y, (∀ t, lookup ((gRun rep g ((es ++ [e]).flatMap Era.events ++ after)).store j) t k = some y) ∧
        (y = o.e.item ∨ o.e.version < y.version)) ∨
      (∀ t, lookup ((gRun rep g ((es ++ [e]).flatMap Era.events ++ after)).store j) t k = none) ∧
        o.e.version ≤ lastVersion ((gRun rep g ((es ++ [e]).flatMap Era.events ++ after)).store j) k := by
  intro j hj
  obtain ⟨hf1, hf2⟩ := plainly_append.1 hplain
  rw [List.length_append] at hlen
  obtain ⟨hg1, L, base, hist, h1, hW⟩ := ruled_end hnode hf hop hac hdu hf1 hr (by omega)
  obtain ⟨hg2, hup⟩ := hg1.run (evs := after) (by omega) hf2
  rw [gRun_append]
  obtain ⟨hL, hB⟩ := hW j hj
  obtain ⟨a, b⟩ := h1.acked _ ha hk (.inl hst) hsync
  have hv := (b j hL).elim (fun h => Nat.le_trans h hB) id
  have hpos := h1.pos _ a
  have hmark : Out.mark o = .record o.e.item := by simp [Out.mark, hst]
  rw [hmark] at hv a hpos
  have hupj := hup j
  have hgj := hg2.nodes j
  generalize (gRun rep (gRun rep g ((es ++ [e]).flatMap Era.events)) after).store j = s at *
  have hl := hgj.1.lasting
  cases hks : kstate s k with
  | nothing =>
    rw [hks] at hupj
    have := hupj.le
    simp only [KState.rank] at this hv hpos
    omega
  | record y =>
    rw [hks] at hl hupj
    refine .inl ⟨y, bare_lookup hgj.1.ok hks hl.1, ?_⟩
    rcases hupj with e' | hlt
    · rcases Nat.lt_or_eq_of_le hv with h | h
      · right
        rw [← e'] at h
        simp only [KState.rank] at h
        rw [UInt64.lt_iff_toNat_lt]
        show o.e.item.version.toNat < _
        omega
      · left
        have hh := h1.nodes j hL (by rw [← e']; simp)
        have hh : hist _ := hh.elim id fun h => absurd (Nat.lt_of_lt_of_le h hB) (Nat.lt_irrefl _)
        have := h1.unique _ _ a hh h
        rw [← e'] at this
        cases this
        rfl
    · right
      simp only [KState.rank] at hv hlt
      rw [UInt64.lt_iff_toNat_lt]
      show o.e.item.version.toNat < _
      omega
  | gone v =>
    right
    refine ⟨fun t => by rw [kstate_lookup hgj.1.ok, hks]; rfl, ?_⟩
    rw [lastVersion_kstate hgj.1.ok, hks, UInt64.le_iff_toNat_le]
    rw [hks] at hupj
    have := hupj.le
    simp only [KState.rank] at this hv
    show o.e.item.version.toNat ≤ v.toNat
    omega

/-! ### What a dump does not tell -/

/-- **C93, defect**: a node is away while a value that it holds is deleted.  When it comes back, what it holds is not removed
(/repo/src/lib/cluster.cc:1541), and the master's dump has records only: the reconstruction ends without an error, nothing is
on its way, and the node has the deleted value; when the master is lost, this is what all clients get. -/
theorem C93_returned :
    let g := gRun true (freshGroup (masterOf 0 [1])) [.write 0 { now := 3000000 } [] (setReq [55]) [],
      .arrive 0 { now := 3000001 }, .answer 0, .role 0 (some []),
      .write 0 { now := 3000002 } [] (deleteKey [97]) [], .answer 0,
      .role 0 (some [1]), .dump 0 1 { now := 3000003 } [97], .role 0 none, .role 1 (some [])]
    g.answers = [(.set, [55], some .stored), (.delete, [], some .deleted)] ∧ g.flying.isEmpty = true ∧
      g.dumps.isEmpty = true ∧ g.value 0 = none ∧ g.value 1 = some ⟨[55], 0, 0, 1⟩ := by
  decide +kernel

def casReq (d : Bytes) (v : UInt64) : WriteReq :=
  { cmd := .cas, entry := { key := [97], size := UInt64.ofNat d.length, data := d, version := v } }

/-- **C93, defect**: a new node learns nothing of the keys that are deleted when it joins.  When it is the master, it gives
their versions a second time, and a cas with the version of a value that was deleted long ago replaces the value of another
client.  At the node that has been there all the time, such a cas is refused. -/
theorem C93_cas_reused :
    let before : List GEv := [.write 0 { now := 3000000 } [] (setReq [55]) [], .arrive 0 { now := 3000001 }, .answer 0,
      .write 0 { now := 3000002 } [] (deleteKey [97]) [], .arrive 0 { now := 3000003 }, .answer 0,
      .role 0 (some [1, 2]), .dump 0 2 { now := 3000004 } [97], .role 0 none]
    let after (m : Nat) : List GEv := [.role m (some []), .write m { now := 3000005 } [] (setReq [57]) [], .answer 0,
      .write m { now := 3000006 } [] (casReq [58] 1) [], .answer 0]
    let g (m : Nat) := gRun true (freshGroup (masterOf 0 [1])) (before ++ after m)
    (g 2).answers = [(.set, [55], some .stored), (.delete, [], some .deleted), (.set, [57], some .stored),
      (.cas, [58], some .stored)] ∧ (g 2).value 2 = some ⟨[58], 0, 0, 2⟩ ∧
    (g 1).answers = [(.set, [55], some .stored), (.delete, [], some .deleted), (.set, [57], some .stored),
      (.cas, [58], some .exists_)] ∧ (g 1).value 1 = some ⟨[57], 0, 0, 2⟩ := by
  decide +kernel

/-! ### An example: a node that was added is the master at the end -/

/-- A value is written and deleted, and written again, which reaches one slave only when the master is lost. -/
def tombFirst : Era :=
  { master := 0, slaves := [1, 2]
    evs := [.write 0 { now := 3000000 } [] (setReq [55]) [], .arrive 0 { now := 3000001 }, .arrive 0 { now := 3000002 },
      .answer 0, .write 0 { now := 3000003 } [] (deleteKey [97]) [], .arrive 0 { now := 3000004 }, .arrive 0 { now := 3000005 },
      .answer 0, .write 0 { now := 3000006 } [] (setReq [56]) [], .arrive 0 { now := 3000007 }] }

/-- Node 3 is added; the value is deleted again. -/
def tombSecond : Era :=
  { gap := [.role 0 none, .lose 0, .role 1 (some [2, 3])], master := 1, slaves := [2, 3], joined := [3]
    evs := [.dump 1 3 { now := 3000008 } [97], .put 0 { now := 3000009 }, .write 1 { now := 3000010 } [] (deleteKey [97]) [],
      .arrive 0 { now := 3000011 }, .arrive 0 { now := 3000012 }, .answer 1] }

/-- Node 3 is the master. -/
def tombThird : Era :=
  { gap := [.role 1 none, .role 3 (some [2])], master := 3, slaves := [2]
    evs := [.write 3 { now := 3000013 } [] (setReq [57]) [], .arrive 0 { now := 3000014 }, .answer 1] }

def tombEras : List Era := [tombFirst, tombSecond, tombThird]

instance (x : Trace) (k : Bytes) (m : Store) : Decidable (x.Behind k m) := by unfold Trace.Behind; infer_instance

instance (k : Bytes) (s : Store) (c : WriteReq) : Decidable (NotOvertaken k s c) := by unfold NotOvertaken; infer_instance

/-- A decision procedure for histories of plain requests. -/
def GEv.plainB (k : Bytes) (g : Group) : GEv → Bool
  | .arrive f env | .again f env =>
    env.putOk && env.outOk && (g.flying[f]?).all fun x =>
      decide (NotOvertaken k (g.store x.dest) x.copy)
  | ev => ev.inOrderB k g

theorem plain_of (k : Bytes) (hk : PlainKey k 8192) (g : Group) (ev : GEv) (h : ev.plainB k g = true) : ev.plain k g := by
  cases ev with
  | write i env path r refused => exact inOrder_of k hk g (.write i env path r refused) h
  | arrive f env =>
    simp only [GEv.plainB, Bool.and_eq_true] at h
    refine ⟨h.1.1, h.1.2, fun x hx => ?_⟩
    rw [hx, Option.all_some] at h
    exact of_decide_eq_true h.2
  | again f env =>
    simp only [GEv.plainB, Bool.and_eq_true] at h
    refine ⟨h.1.1, h.1.2, fun x hx => ?_⟩
    rw [hx, Option.all_some] at h
    exact of_decide_eq_true h.2
  | put d env => exact inOrder_of k hk g (.put d env) h
  | lose f => trivial
  | answer a => trivial
  | read i env e => trivial
  | role i l => trivial
  | dump i j env k' => trivial
  | drop d => trivial

def plainlyB (rep : Bool) (k : Bytes) : Group → List GEv → Bool
  | _, [] => true
  | g, ev :: evs => ev.plainB k g && ev.remembersB rep k g && plainlyB rep k (gStep rep g ev) evs

theorem plainly_of (rep : Bool) (k : Bytes) (hk : PlainKey k 8192) : ∀ (evs : List GEv) (g : Group),
    plainlyB rep k g evs = true → Plainly rep k g evs
  | [], _, _ => trivial
  | ev :: evs, g, h => by
    simp only [plainlyB, Bool.and_eq_true] at h
    exact ⟨plain_of k hk g ev h.1.1, remembers_of rep k g ev h.1.2, plainly_of rep k hk evs _ h.2⟩

theorem tombEras_plain : Plainly true [97] (freshGroup (masterOf 0 [1, 2])) (tombEras.flatMap Era.events) :=
  plainly_of true [97] plainKey_a _ _ (by decide +kernel)

/-- The assumptions of the theorems hold for this history. -/
theorem tombEras_ruled : Ruled true [97] (fun _ => True) (freshGroup (masterOf 0 [1, 2])) tombEras := by
  have four : ∀ i : Nat, i = 0 ∨ i = 1 ∨ i = 3 ∨ (i ≠ 0 ∧ i ≠ 1 ∧ i ≠ 3) := fun i => by omega
  refine ⟨trivial, ⟨⟨trivial, by decide⟩, fun _ _ _ => trivial, rfl, fun i hi => if_neg hi, by decide +kernel,
    by decide +kernel, by decide +kernel, fun _ h => (nomatch h), fun _ _ _ h => (nomatch h), fun _ _ _ h => (nomatch h)⟩,
    ?_, ?_⟩
  · refine ⟨fun _ => rfl, trivial, trivial, fun p _ _ => Nat.zero_le _, fun _ => rfl, trivial, trivial,
      fun p _ _ => Nat.zero_le _, fun _ => rfl, trivial, trivial⟩
  refine ⟨⟨trivial, trivial, trivial, trivial⟩, ⟨⟨.inr ⟨by decide, .inl (by decide)⟩, by decide⟩, ?_, ?_, ?_,
    by decide +kernel, ?_, ?_, by decide +kernel, ?_, ?_⟩, ?_, ?_⟩
  · intro j hj hj'
    have : j = 2 := by
      have h1 : j = 2 ∨ j = 3 := by simpa [tombSecond] using hj
      have h2 : j ≠ 3 := by simpa [tombSecond] using hj'
      omega
    subst this
    exact .inr ⟨by decide, .inl (by decide)⟩
  · rw [gRun_roles, gRun_roles]; decide
  · intro i hi
    rw [gRun_roles, gRun_roles]
    have h : i ≠ 1 := hi
    rcases four i with rfl | h' | rfl | ⟨h0, h1, h3⟩
    · decide
    · exact absurd h' h
    · decide
    · simp [rolesAfter, tombFirst, tombSecond, Era.events, freshGroup, masterOf, h0, h1]
  · intro f hf; revert f; decide +kernel
  · intro f hf; revert f; decide +kernel
  · intro f hf; revert f; decide +kernel
  · intro f hf; revert f; decide +kernel
  · refine ⟨fun _ => .inl rfl, trivial, fun _ => rfl, trivial, trivial, ?_, trivial⟩
    intro p hp _; revert p; decide +kernel
  refine ⟨⟨trivial, trivial, trivial⟩, ⟨⟨.inr ⟨by decide, .inr (.inl ?_)⟩, by decide⟩, ?_, ?_, ?_,
    by decide +kernel, ?_, ?_, fun _ h => (nomatch h), fun _ _ _ h => (nomatch h), fun _ _ _ h => (nomatch h)⟩, ?_, trivial⟩
  · exact ⟨[], _, [], 0, _, _, { key := [97], size := 1, data := [56], version := 2 }, ⟨[56], 0, 0, 2⟩, rfl,
      by decide +kernel, by decide +kernel, rfl, rfl⟩
  · intro j hj _
    have : j = 2 := by simpa [tombThird] using hj
    subst this
    exact .inr ⟨by decide, .inl (by decide)⟩
  · rw [gRun_roles, gRun_roles, gRun_roles]; decide
  · intro i hi
    rw [gRun_roles, gRun_roles, gRun_roles]
    have h : i ≠ 3 := hi
    rcases four i with rfl | rfl | h' | ⟨h0, h1, h3⟩
    · decide
    · decide
    · exact absurd h' h
    · simp [rolesAfter, tombFirst, tombSecond, tombThird, Era.events, freshGroup, masterOf, h0, h1, h3]
  · intro f hf; revert f; decide +kernel
  · intro f hf; revert f; decide +kernel
  · refine ⟨fun _ => rfl, trivial, ?_, trivial⟩
    intro p hp _; revert p; decide +kernel

example :
    let g := gRun true (freshGroup (masterOf 0 [1, 2])) ((tombEras.take 2).flatMap Era.events)
    let g' := gRun true (freshGroup (masterOf 0 [1, 2])) (tombEras.flatMap Era.events)
    g.answers = [(.set, [55], some .stored), (.delete, [], some .deleted), (.delete, [], some .deleted)] ∧
    g.value 0 = some ⟨[56], 0, 0, 2⟩ ∧ g.value 1 = none ∧ g.value 2 = none ∧ g.value 3 = none ∧
    g'.value 2 = some ⟨[57], 0, 0, 3⟩ ∧ g'.value 3 = some ⟨[57], 0, 0, 3⟩ := by
  decide +kernel

end Flare
