import Verif.Lemmas.Failover

namespace Flare

/-! ### All nodes: versions never go back -/

structure GInv (k : Bytes) (n : Nat) (g : Group) : Prop where
  nodes : ∀ i, HostOk k (g.store i) ∧ (kstate (g.store i) k).version.toNat ≤ n
  copies : ∀ f ∈ g.flying, CopyOk k f.copy ∧ (f.copy.entry.key = k → f.copy.entry.version.toNat ≤ n)
  dumps : ∀ d ∈ g.dumps, DumpOk k d.2 ∧ (d.2.key = k → d.2.version.toNat ≤ n)

theorem version_succ {v : UInt64} {n : Nat} (h : v.toNat ≤ n) (hn : n + 1 < 2 ^ 64) :
    v + 1 ≠ 0 ∧ (v + 1).toNat ≤ n + 1 ∧ v < v + 1 := by
  have h1 : (v + 1).toNat = v.toNat + 1 := by
    rw [UInt64.toNat_add]
    show (v.toNat + 1) % 2 ^ 64 = _
    exact Nat.mod_eq_of_lt (by omega)
  refine ⟨fun h => ?_, by omega, by rw [UInt64.lt_iff_toNat_lt]; omega⟩
  rw [h] at h1
  exact absurd h1 (by simp)

theorem GInv.mono {k : Bytes} {n : Nat} {g : Group} (h : GInv k n g) : GInv k (n + 1) g :=
  ⟨fun i => ⟨(h.nodes i).1, Nat.le_succ_of_le (h.nodes i).2⟩,
    fun f hf => ⟨(h.copies f hf).1, fun hk => Nat.le_succ_of_le ((h.copies f hf).2 hk)⟩,
    fun f hf => ⟨(h.dumps f hf).1, fun hk => Nat.le_succ_of_le ((h.dumps f hf).2 hk)⟩⟩

theorem GInv.set {k : Bytes} {n : Nat} {g : Group} (h : GInv k n g) {i : Nat} {s : Store}
    (hs : HostOk k s) (hv : (kstate s k).version.toNat ≤ n) (l : List Flight)
    (hl : ∀ f ∈ l, CopyOk k f.copy ∧ (f.copy.entry.key = k → f.copy.entry.version.toNat ≤ n))
    (g' : Group) (e1 : g'.store = (g.setStore i s).store) (e2 : g'.flying = l) (e3 : ∀ d ∈ g'.dumps, d ∈ g.dumps) :
    GInv k n g' := by
  refine ⟨fun j => ?_, by rw [e2]; exact hl, fun d hd => h.dumps d (e3 d hd)⟩
  rw [e1]
  simp only [Group.setStore]
  split
  · exact ⟨hs, hv⟩
  · exact h.nodes j

theorem up_set {k : Bytes} {g : Group} {i : Nat} {s : Store} (h : Up (kstate (g.store i) k) (kstate s k))
    (j : Nat) : Up (kstate (g.store j) k) (kstate ((g.setStore i s).store j) k) := by
  simp only [Group.setStore]
  split
  · subst_vars; exact h
  · exact .refl _

/-- What an arriving copy does to its node. -/
theorem arrive_up {k : Bytes} {n : Nat} {s : Store} (h : HostOk k s) (hv : (kstate s k).version.toNat ≤ n)
    {env : Env} (hp : env.putOk = true) {c : WriteReq} (hc : CopyOk k c)
    (hcv : c.entry.key = k → c.entry.version.toNat ≤ n) :
    HostOk k (atSlave s env c) ∧ (kstate (atSlave s env c) k).version.toNat ≤ n ∧
      Up (kstate s k) (kstate (atSlave s env c) k) := by
  obtain ⟨h1, h2, h3⟩ := node_arrive h hp hc
  refine ⟨h1, ?_⟩
  by_cases hk : c.entry.key = k
  · rcases h3 hk with ⟨e, hlt⟩ | ⟨e, -⟩
    · rw [e]
      exact ⟨hcv hk, .inr ⟨_, rfl, (hc.own hk).2.2.1, hlt⟩⟩
    · rw [e]; exact ⟨hv, .refl _⟩
  · rw [h2 hk]; exact ⟨hv, .refl _⟩

/-- What a record of a dump does to its node. -/
theorem put_up {k : Bytes} {n : Nat} {s : Store} (h : HostOk k s) (hv : (kstate s k).version.toNat ≤ n)
    {env : Env} (hp : env.putOk = true) {e : Entry} (he : DumpOk k e) (hev : e.key = k → e.version.toNat ≤ n) :
    HostOk k ((Arrival.dump e).apply s env) ∧ (kstate ((Arrival.dump e).apply s env) k).version.toNat ≤ n ∧
      Up (kstate s k) (kstate ((Arrival.dump e).apply s env) k) := by
  obtain ⟨h1, h2, h3⟩ := node_put h hp he
  refine ⟨h1, ?_⟩
  by_cases hk : e.key = k
  · rcases h3 hk with ⟨g, hlt⟩ | ⟨g, -⟩
    · rw [g]
      exact ⟨hev hk, .inr ⟨_, rfl, (he.own hk).2, hlt⟩⟩
    · rw [g]; exact ⟨hv, .refl _⟩
  · rw [h2 hk]; exact ⟨hv, .refl _⟩

theorem GInv.step {k : Bytes} {n : Nat} {g : Group} (h : GInv k n g) (hn : n + 1 < 2 ^ 64) (rep : Bool)
    {ev : GEv} (hf : ev.fine k g) :
    GInv k (n + 1) (gStep rep g ev) ∧ ∀ i, Up (kstate (g.store i) k) (kstate ((gStep rep g ev).store i) k) := by
  cases ev with
  | write i env path r refused =>
    simp only [gStep]
    cases hl : g.slaves i with
    | none => exact ⟨h.mono, fun _ => .refl _⟩
    | some l =>
      obtain ⟨f1, f2, f3⟩ := hf
      obtain ⟨v1, v2, v3⟩ := version_succ (h.nodes i).2 hn
      obtain ⟨w1, w2, w3⟩ := node_write (h.nodes i).1 f1 f2 f3 v1
      have hver : (kstate (atMaster (g.store i) env path r).1 k).version.toNat ≤ n + 1 := by
        rcases w3 with ⟨e, -⟩ | ⟨c, -, -, e, e2⟩
        · rw [e]; exact Nat.le_succ_of_le (h.nodes i).2
        · rw [e]
          show c.entry.version.toNat ≤ _
          rw [e2]; exact v2
      refine ⟨h.mono.set w1 hver _ ?_ _ rfl rfl (fun _ h => h), ?_⟩
      · intro f hf
        rcases List.mem_append.1 hf with hf | hf
        · exact h.mono.copies f hf
        · simp only [List.mem_flatMap, Option.mem_toList, List.mem_map] at hf
          obtain ⟨c, hc, j, -, rfl⟩ := hf
          refine ⟨w2 c hc, fun hck => ?_⟩
          rcases w3 with ⟨-, e⟩ | ⟨c', e0, -, -, e2⟩
          · exact absurd hck (e c hc)
          · rw [hc] at e0
            cases e0
            show c.entry.version.toNat ≤ _
            rw [e2]; exact v2
      · refine up_set (i := i) ?_
        rcases w3 with ⟨e, -⟩ | ⟨c, e0, e1, e, e2⟩
        · rw [e]; exact .refl _
        · rw [e]
          refine .inr ⟨_, rfl, ((w2 c e0).own e1).2.2.1, ?_⟩
          show _ < c.entry.version
          rw [e2]; exact v3
  | arrive f env =>
    simp only [gStep]
    cases hx : g.flying[f]? with
    | none => exact ⟨h.mono, fun _ => .refl _⟩
    | some x =>
      obtain ⟨c1, c2⟩ := h.copies x (List.mem_of_getElem? hx)
      obtain ⟨a1, a2, a3⟩ := arrive_up (h.nodes x.dest).1 (h.nodes x.dest).2 hf c1 c2
      refine ⟨GInv.mono ?_, up_set a3⟩
      exact h.set (i := x.dest) a1 a2 (g.flying.eraseIdx f)
        (fun y hy => h.copies y (List.mem_of_mem_eraseIdx hy)) _ rfl rfl (fun _ h => h)
  | again f env =>
    simp only [gStep]
    cases hx : g.flying[f]? with
    | none => exact ⟨h.mono, fun _ => .refl _⟩
    | some x =>
      obtain ⟨c1, c2⟩ := h.copies x (List.mem_of_getElem? hx)
      obtain ⟨a1, a2, a3⟩ := arrive_up (h.nodes x.dest).1 (h.nodes x.dest).2 hf c1 c2
      exact ⟨(h.set a1 a2 _ h.copies _ rfl rfl (fun _ h => h)).mono, up_set a3⟩
  | lose f =>
    exact ⟨⟨h.mono.nodes, fun y hy => h.mono.copies y (List.mem_of_mem_eraseIdx hy), h.mono.dumps⟩, fun _ => .refl _⟩
  | answer a =>
    simp only [gStep]
    split
    · exact ⟨h.mono, fun _ => .refl _⟩
    · split
      · exact ⟨h.mono, fun _ => .refl _⟩
      · exact ⟨⟨h.mono.nodes, h.mono.copies, h.mono.dumps⟩, fun _ => .refl _⟩
  | read i env e =>
    obtain ⟨r1, r2⟩ := bare_get (h.nodes i).1 env e
    refine ⟨(h.set r1 (by rw [r2]; exact (h.nodes i).2) _ h.copies _ rfl rfl (fun _ h => h)).mono, up_set ?_⟩
    rw [r2]; exact .refl _
  | role i l => exact ⟨⟨h.mono.nodes, h.mono.copies, h.mono.dumps⟩, fun _ => .refl _⟩
  | dump i j env k' =>
    obtain ⟨r1, r2, r3⟩ := node_dumps (h.nodes i).1 env k'
    have hs := h.set (i := i) r1 (by rw [r2]; exact (h.nodes i).2) _ h.copies
      (g.setStore i ((MEvent.dump env k').apply (g.store i)).1) rfl rfl (fun _ h => h)
    refine ⟨GInv.mono ⟨hs.nodes, hs.copies, fun d hd => ?_⟩,
      up_set (s := ((MEvent.dump env k').apply (g.store i)).1) (by rw [r2]; exact .refl _)⟩
    simp only [gStep] at hd
    rcases List.mem_append.1 hd with hd | hd
    · exact h.dumps d hd
    · split at hd
      next e he =>
        rw [List.mem_singleton] at hd
        subst hd
        obtain ⟨d1, -, d3⟩ := r3 e he
        refine ⟨d1, fun hk => ?_⟩
        have := (h.nodes i).2
        rw [d3 hk] at this
        exact this
      · cases hd
  | put d env =>
    simp only [gStep]
    cases hx : g.dumps[d]? with
    | none => exact ⟨h.mono, fun _ => .refl _⟩
    | some x =>
      obtain ⟨j, e⟩ := x
      obtain ⟨c1, c2⟩ := h.dumps _ (List.mem_of_getElem? hx)
      obtain ⟨a1, a2, a3⟩ := put_up (h.nodes j).1 (h.nodes j).2 hf c1 c2
      refine ⟨GInv.mono ?_, up_set a3⟩
      exact h.set (i := j) a1 a2 _ h.copies _ rfl rfl (fun y hy => List.mem_of_mem_eraseIdx hy)
  | drop d =>
    exact ⟨⟨h.mono.nodes, h.mono.copies, fun y hy => h.mono.dumps y (List.mem_of_mem_eraseIdx hy)⟩, fun _ => .refl _⟩

theorem GInv.run {k : Bytes} {rep : Bool} : ∀ {evs : List GEv} {n : Nat} {g : Group}, GInv k n g →
    n + evs.length < 2 ^ 64 → Fine rep k g evs →
    GInv k (n + evs.length) (gRun rep g evs) ∧
      ∀ i, Up (kstate (g.store i) k) (kstate ((gRun rep g evs).store i) k)
  | [], _, _, h, _, _ => ⟨h, fun _ => .refl _⟩
  | ev :: evs, n, g, h, hn, hf => by
    simp only [List.length_cons] at hn
    obtain ⟨h1, h2⟩ := h.step (by omega) rep hf.1
    obtain ⟨h3, h4⟩ := h1.run (evs := evs) (by omega) hf.2
    refine ⟨?_, fun i => (h2 i).trans (h4 i)⟩
    rw [List.length_cons, show n + (evs.length + 1) = n + 1 + evs.length from by omega]
    exact h3

theorem fine_append {rep : Bool} {k : Bytes} : ∀ {a b : List GEv} {g : Group}, Fine rep k g (a ++ b) ↔
    Fine rep k g a ∧ Fine rep k (gRun rep g a) b
  | [], _, _ => by simp [Fine, gRun]
  | ev :: a, b, g => by
    simp only [List.cons_append, Fine, fine_append (a := a), and_assoc]
    rfl

theorem gRun_append (rep : Bool) (g : Group) (a b : List GEv) :
    gRun rep g (a ++ b) = gRun rep (gRun rep g a) b := by simp [gRun]

/-! ### One master and steady roles -/

structure Phase (rep : Bool) (k : Bytes) (l : List Nat) (g : Group) (hist : Item → Prop) : Prop where
  master : g.slaves 0 = some l
  others : ∀ i, i ≠ 0 → g.slaves i = none
  unique : ∀ x y, hist x → hist y → x.version = y.version → x = y
  top : ∀ x, hist x → x.version ≤ (kstate (g.store 0) k).version
  pos : ∀ x, hist x → x.version ≠ 0
  nodes : ∀ i x, kstate (g.store i) k = .record x → hist x
  copies : ∀ f ∈ g.flying, f.copy.entry.key = k → hist f.copy.entry.item
  dumps : ∀ d ∈ g.dumps, d.2.key = k → hist d.2.item
  all : ∀ x, hist x → ∀ j ∈ l,
    (∃ f ∈ g.flying, f.dest = j ∧ f.copy.entry.key = k ∧ f.copy.entry.item = x) ∨
      x.version ≤ (kstate (g.store j) k).version
  opens : ∀ p ∈ g.open_, p.2.1.entry.key = k → p.2.2.r = some .stored →
    hist p.2.2.e.item ∧ ∀ j ∈ l,
      (∃ f ∈ g.flying, f.id = p.1 ∧ f.dest = j ∧ f.copy.entry.key = k ∧ f.copy.entry.item = p.2.2.e.item) ∨
        p.2.2.e.version ≤ (kstate (g.store j) k).version
  acked : ∀ p ∈ g.acked, p.1.entry.key = k → p.2.r = some .stored → isSync p.1.entry.option rep = true →
    hist p.2.e.item ∧ ∀ j ∈ l, p.2.e.version ≤ (kstate (g.store j) k).version

/-- The stores move on without a new item, flights vanish only when they have taken effect. -/
theorem Phase.move {rep : Bool} {k : Bytes} {l : List Nat} {g g' : Group} {hist : Item → Prop}
    (h : Phase rep k l g hist) (hs : g'.slaves = g.slaves)
    (hup : ∀ i, Up (kstate (g.store i) k) (kstate (g'.store i) k))
    (hn : ∀ i x, kstate (g'.store i) k = .record x → hist x)
    (hf : ∀ f ∈ g'.flying, f ∈ g.flying)
    (hf' : ∀ f ∈ g.flying, f.copy.entry.key = k →
      f ∈ g'.flying ∨ f.copy.entry.version ≤ (kstate (g'.store f.dest) k).version)
    (hd : ∀ d ∈ g'.dumps, d.2.key = k → hist d.2.item)
    (ho : g'.open_ = g.open_) (ha : g'.acked = g.acked) : Phase rep k l g' hist := by
  have mono : ∀ {j : Nat} {v : UInt64}, v ≤ (kstate (g.store j) k).version → v ≤ (kstate (g'.store j) k).version :=
    fun {j v} hv => UInt64.le_trans hv (hup j).le
  refine ⟨by rw [hs]; exact h.master, by rw [hs]; exact h.others, h.unique, fun x hx => mono (h.top x hx), h.pos, hn,
    fun f hff => h.copies f (hf f hff), hd, ?_, ?_, ?_⟩
  · intro x hx j hj
    rcases h.all x hx j hj with ⟨f, f1, f2, f3, f4⟩ | hv
    · rcases hf' f f1 f3 with g1 | g1
      · exact .inl ⟨f, g1, f2, f3, f4⟩
      · right; rw [← f4, ← f2]; exact g1
    · exact .inr (mono hv)
  · rw [ho]
    intro p hp h1 h2
    obtain ⟨a, b⟩ := h.opens p hp h1 h2
    refine ⟨a, fun j hj => ?_⟩
    rcases b j hj with ⟨f, f0, f1, f2, f3, f4⟩ | hv
    · rcases hf' f f0 f3 with g1 | g1
      · exact .inl ⟨f, g1, f1, f2, f3, f4⟩
      · right
        rw [show p.2.2.e.version = f.copy.entry.version from (congrArg Item.version f4).symm, ← f2]; exact g1
    · exact .inr (mono hv)
  · rw [ha]
    intro p hp h1 h2 h3
    obtain ⟨a, b⟩ := h.acked p hp h1 h2 h3
    exact ⟨a, fun j hj => mono (b j hj)⟩

/-- What a copy leaves at its node was in the history. -/
theorem arrive_hist {k : Bytes} {s : Store} (h : HostOk k s) {env : Env} (hp : env.putOk = true) {c : WriteReq}
    (hc : CopyOk k c) {hist : Item → Prop} (h1 : ∀ x, kstate s k = .record x → hist x)
    (h2 : c.entry.key = k → hist c.entry.item) :
    (∀ x, kstate (atSlave s env c) k = .record x → hist x) ∧
      (c.entry.key = k → c.entry.version ≤ (kstate (atSlave s env c) k).version) := by
  obtain ⟨-, a2, a3⟩ := node_arrive h hp hc
  by_cases hk : c.entry.key = k
  · rcases a3 hk with ⟨e, -⟩ | ⟨e, hle⟩
    · rw [e]
      refine ⟨fun x hx => ?_, fun _ => UInt64.le_refl _⟩
      cases hx; exact h2 hk
    · rw [e]; exact ⟨h1, fun _ => hle⟩
  · rw [a2 hk]; exact ⟨h1, fun h => absurd h hk⟩

/-- What a record of a dump leaves at its node was in the history. -/
theorem put_hist {k : Bytes} {s : Store} (h : HostOk k s) {env : Env} (hp : env.putOk = true) {e : Entry}
    (he : DumpOk k e) {hist : Item → Prop} (h1 : ∀ x, kstate s k = .record x → hist x) (h2 : e.key = k → hist e.item) :
    (∀ x, kstate ((Arrival.dump e).apply s env) k = .record x → hist x) ∧
      (e.key = k → e.version ≤ (kstate ((Arrival.dump e).apply s env) k).version) := by
  obtain ⟨-, a2, a3⟩ := node_put h hp he
  by_cases hk : e.key = k
  · rcases a3 hk with ⟨g, -⟩ | ⟨g, hle⟩
    · rw [g]
      refine ⟨fun x hx => ?_, fun _ => UInt64.le_refl _⟩
      cases hx; exact h2 hk
    · rw [g]; exact ⟨h1, fun _ => hle⟩
  · rw [a2 hk]; exact ⟨h1, fun h => absurd h hk⟩

theorem stored_copies {m : Store} {env : Env} {path : List Bytes} {r : WriteReq}
    (hc : r.cmd.copy = .set) (hr : (step m env r.call).2.r = some .stored) :
    ∃ c, (atMaster m env path r).2 = some c := by
  have : r.cmd.copies (step m env r.call).2.r = true := by
    rw [hr]
    obtain ⟨cmd, p, e, v⟩ := r
    cases cmd <;> simp only [WriteCmd.copy, reduceCtorEq] at hc <;> rfl
  exact ⟨_, by simp only [atMaster, copyOf]; rw [if_pos this]⟩

theorem Phase.step {rep : Bool} {k : Bytes} {l : List Nat} {n : Nat} {g : Group} {hist : Item → Prop}
    (h : Phase rep k l g hist) (hg : GInv k n g) (hn : n + 1 < 2 ^ 64) {ev : GEv} (hf : ev.fine k g)
    (hs : ev.steadyFor k g) : ∃ hist', Phase rep k l (gStep rep g ev) hist' := by
  obtain ⟨-, hup⟩ := hg.step hn rep hf
  cases ev with
  | write i env path r refused =>
    by_cases hi : i = 0
    · subst hi
      obtain ⟨f1, f2, f3⟩ := hf
      obtain ⟨v1, v2, v3⟩ := version_succ (hg.nodes 0).2 hn
      obtain ⟨w1, w2, w3⟩ := node_write (hg.nodes 0).1 f1 f2 f3 v1
      have hcode : ∀ c, (atMaster (g.store 0) env path r).2 = some c → c.entry.key = r.entry.key := fun c hc =>
        (master_copy (hg.nodes 0).1.ok f1.2.2.2 hc).1.key
      have hst0 : (gStep rep g (.write 0 env path r refused)).store =
          (g.setStore 0 (atMaster (g.store 0) env path r).1).store := by
        simp only [gStep, h.master]
      have hst : ∀ i, i ≠ 0 → (gStep rep g (.write 0 env path r refused)).store i = g.store i := by
        intro i hi
        rw [hst0]; simp [Group.setStore, hi]
      have hst00 : (gStep rep g (.write 0 env path r refused)).store 0 = (atMaster (g.store 0) env path r).1 := by
        rw [hst0]; simp [Group.setStore]
      have hfl : (gStep rep g (.write 0 env path r refused)).flying =
          g.flying ++ (atMaster (g.store 0) env path r).2.toList.flatMap fun c =>
            (l.filter fun j => !refused.contains j).map fun j => ⟨g.next, j, c⟩ := by
        simp only [gStep, h.master]
      have hop : (gStep rep g (.write 0 env path r refused)).open_ =
          g.open_ ++ [(g.next, r, (Flare.step (g.store 0) env r.call).2)] := by
        simp only [gStep, h.master]
      have hac : (gStep rep g (.write 0 env path r refused)).acked = g.acked := by
        simp only [gStep, h.master]; rfl
      have hsl : (gStep rep g (.write 0 env path r refused)).slaves = g.slaves := by
        simp only [gStep, h.master]; rfl
      have hdu : (gStep rep g (.write 0 env path r refused)).dumps = g.dumps := by
        simp only [gStep, h.master]; rfl
      generalize gStep rep g (.write 0 env path r refused) = g' at *
      have mono : ∀ {j : Nat} {v : UInt64}, v ≤ (kstate (g.store j) k).version →
          v ≤ (kstate (g'.store j) k).version := fun {j v} hv => UInt64.le_trans hv (hup j).le
      have hfly : ∀ f ∈ g.flying, f ∈ g'.flying := fun f hf => by rw [hfl]; exact List.mem_append_left _ hf
      rcases w3 with ⟨e, e1⟩ | ⟨c, e0, e1, e2, e3⟩
      · -- nothing new about the key
        refine ⟨hist, by rw [hsl]; exact h.master, by rw [hsl]; exact h.others, h.unique,
          fun x hx => mono (h.top x hx), h.pos, ?_, ?_, by rw [hdu]; exact h.dumps, ?_, ?_, ?_⟩
        · intro i x hx
          by_cases hi : i = 0
          · subst hi; rw [hst00, e] at hx; exact h.nodes 0 x hx
          · rw [hst i hi] at hx; exact h.nodes i x hx
        · intro f hf hk
          rw [hfl] at hf
          rcases List.mem_append.1 hf with hf | hf
          · exact h.copies f hf hk
          · simp only [List.mem_flatMap, Option.mem_toList, List.mem_map] at hf
            obtain ⟨c, hc, j, -, rfl⟩ := hf
            exact absurd hk (e1 c hc)
        · intro x hx j hj
          rcases h.all x hx j hj with ⟨f, f1, f2⟩ | hv
          · exact .inl ⟨f, hfly f f1, f2⟩
          · exact .inr (mono hv)
        · rw [hop]
          intro p hp h1 h2
          rcases List.mem_append.1 hp with hp | hp
          · obtain ⟨a, b⟩ := h.opens p hp h1 h2
            refine ⟨a, fun j hj => ?_⟩
            rcases b j hj with ⟨f, f1, f2⟩ | hv
            · exact .inl ⟨f, hfly f f1, f2⟩
            · exact .inr (mono hv)
          · rw [List.mem_singleton] at hp
            subst hp
            obtain ⟨c, hc⟩ := stored_copies (path := path) (f3 h1).2.1 h2
            exact absurd ((hcode c hc).trans h1) (e1 c hc)
        · rw [hac]
          intro p hp h1 h2 h3
          obtain ⟨a, b⟩ := h.acked p hp h1 h2 h3
          exact ⟨a, fun j hj => mono (b j hj)⟩
      · -- a new item
        have hkey : r.entry.key = k := (hcode c e0).symm.trans e1
        have href : refused = [] := hs hkey
        subst href
        obtain ⟨hce, -, -⟩ := copied_result e0
        have hnew : ∀ x, hist x → x.version < c.entry.item.version := by
          intro x hx
          show _ < c.entry.version
          rw [e3]
          exact UInt64.lt_of_le_of_lt (h.top x hx) v3
        have hfl' : g'.flying = g.flying ++ l.map fun j => ⟨g.next, j, c⟩ := by
          rw [hfl, e0]; simp
        refine ⟨fun x => hist x ∨ x = c.entry.item, by rw [hsl]; exact h.master, by rw [hsl]; exact h.others,
          ?_, ?_, ?_, ?_, ?_, by rw [hdu]; exact fun d h1 h2 => .inl (h.dumps d h1 h2), ?_, ?_, ?_⟩
        · intro x y hx hy hv
          rcases hx with hx | rfl <;> rcases hy with hy | rfl
          · exact h.unique x y hx hy hv
          · exact absurd hv (UInt64.ne_of_lt (hnew x hx))
          · exact absurd hv.symm (UInt64.ne_of_lt (hnew y hy))
          · rfl
        · intro x hx
          rcases hx with hx | rfl
          · exact mono (h.top x hx)
          · rw [hst00, e2]; exact UInt64.le_refl _
        · intro x hx
          rcases hx with hx | rfl
          · exact h.pos x hx
          · show c.entry.version ≠ 0
            rw [e3]; exact v1
        · intro i x hx
          by_cases hi : i = 0
          · subst hi; rw [hst00, e2] at hx; cases hx; exact .inr rfl
          · rw [hst i hi] at hx; exact .inl (h.nodes i x hx)
        · intro f hf hk
          rw [hfl'] at hf
          rcases List.mem_append.1 hf with hf | hf
          · exact .inl (h.copies f hf hk)
          · obtain ⟨j, -, rfl⟩ := List.mem_map.1 hf
            exact .inr rfl
        · intro x hx j hj
          rcases hx with hx | rfl
          · rcases h.all x hx j hj with ⟨f, f1, f2⟩ | hv
            · exact .inl ⟨f, hfly f f1, f2⟩
            · exact .inr (mono hv)
          · refine .inl ⟨⟨g.next, j, c⟩, ?_, rfl, e1, rfl⟩
            rw [hfl']
            exact List.mem_append_right _ (List.mem_map.2 ⟨j, hj, rfl⟩)
        · rw [hop]
          intro p hp h1 h2
          rcases List.mem_append.1 hp with hp | hp
          · obtain ⟨a, b⟩ := h.opens p hp h1 h2
            refine ⟨.inl a, fun j hj => ?_⟩
            rcases b j hj with ⟨f, f1, f2⟩ | hv
            · exact .inl ⟨f, hfly f f1, f2⟩
            · exact .inr (mono hv)
          · rw [List.mem_singleton] at hp
            subst hp
            refine ⟨.inr (by rw [hce]), fun j hj => .inl ⟨⟨g.next, j, c⟩, ?_, rfl, rfl, e1, by rw [hce]⟩⟩
            rw [hfl']
            exact List.mem_append_right _ (List.mem_map.2 ⟨j, hj, rfl⟩)
        · rw [hac]
          intro p hp h1 h2 h3
          obtain ⟨a, b⟩ := h.acked p hp h1 h2 h3
          exact ⟨.inl a, fun j hj => mono (b j hj)⟩
    · refine ⟨hist, ?_⟩
      simp only [gStep, h.others i hi]
      exact h
  | arrive f env =>
    refine ⟨hist, ?_⟩
    simp only [gStep] at hup ⊢
    cases hx : g.flying[f]? with
    | none => exact h
    | some x =>
      simp only [hx] at hup ⊢
      have hxm := List.mem_of_getElem? hx
      obtain ⟨a1, a2⟩ := arrive_hist (hg.nodes x.dest).1 hf (hg.copies x hxm).1 (h.nodes x.dest) (h.copies x hxm)
      refine h.move rfl hup ?_ (fun y hy => List.mem_of_mem_eraseIdx hy) ?_ h.dumps rfl rfl
      · intro i y hy
        simp only [Group.setStore] at hy
        split at hy
        · exact a1 y hy
        · exact h.nodes i y hy
      · intro y hy hk
        by_cases hyx : y = x
        · right
          subst hyx
          simp only [Group.setStore, if_pos]
          exact a2 hk
        · left
          obtain ⟨m, hm⟩ := List.getElem?_of_mem hy
          refine List.mem_eraseIdx_iff_getElem?.2 ⟨m, ?_, hm⟩
          rintro rfl
          rw [hx] at hm
          exact hyx (Option.some.inj hm).symm
  | again f env =>
    refine ⟨hist, ?_⟩
    simp only [gStep] at hup ⊢
    cases hx : g.flying[f]? with
    | none => exact h
    | some x =>
      simp only [hx] at hup ⊢
      have hxm := List.mem_of_getElem? hx
      obtain ⟨a1, a2⟩ := arrive_hist (hg.nodes x.dest).1 hf (hg.copies x hxm).1 (h.nodes x.dest) (h.copies x hxm)
      refine h.move rfl hup ?_ (fun y hy => hy) (fun y hy _ => .inl hy) h.dumps rfl rfl
      intro i y hy
      simp only [Group.setStore] at hy
      split at hy
      · exact a1 y hy
      · exact h.nodes i y hy
  | lose f =>
    refine ⟨hist, h.move rfl hup h.nodes (fun y hy => List.mem_of_mem_eraseIdx hy) ?_ h.dumps rfl rfl⟩
    intro y hy hk
    left
    obtain ⟨m, hm⟩ := List.getElem?_of_mem hy
    refine List.mem_eraseIdx_iff_getElem?.2 ⟨m, ?_, hm⟩
    rintro rfl
    exact hs y hm hk
  | answer a =>
    refine ⟨hist, ?_⟩
    simp only [gStep]
    cases hx : g.open_[a]? with
    | none => exact h
    | some p =>
      obtain ⟨id, r, o⟩ := p
      simp only
      split
      · exact h
      next hb =>
        refine ⟨h.master, h.others, h.unique, h.top, h.pos, h.nodes, h.copies, h.dumps, h.all,
          fun p hp => h.opens p (List.mem_of_mem_eraseIdx hp), ?_⟩
        intro p hp h1 h2 h3
        simp only at hp
        split at hp
        · exact h.acked p hp h1 h2 h3
        · rcases List.mem_append.1 hp with hp | hp
          · exact h.acked p hp h1 h2 h3
          · rw [List.mem_singleton] at hp
            subst hp
            obtain ⟨a, b⟩ := h.opens _ (List.mem_of_getElem? hx) h1 h2
            refine ⟨a, fun j hj => ?_⟩
            rcases b j hj with ⟨f, f1, f2, -⟩ | hv
            · exfalso
              apply hb
              simp only at h3
              rw [h3, Bool.true_and, List.any_eq_true]
              exact ⟨f, f1, by simpa using f2⟩
            · exact hv
  | read i env e =>
    refine ⟨hist, h.move rfl hup ?_ (fun y hy => hy) (fun y hy _ => .inl hy) h.dumps rfl rfl⟩
    obtain ⟨-, r2⟩ := bare_get (hg.nodes i).1 env e
    intro j y hy
    simp only [gStep, Group.setStore] at hy
    split at hy
    · rw [r2] at hy; exact h.nodes i y hy
    · exact h.nodes j y hy
  | role i l => exact hs.elim
  | dump i j env k' =>
    obtain ⟨-, r2, r3⟩ := node_dumps (hg.nodes i).1 env k'
    refine ⟨hist, h.move rfl hup ?_ (fun y hy => hy) (fun y hy _ => .inl hy) ?_ rfl rfl⟩
    · intro j y hy
      simp only [gStep, Group.setStore] at hy
      split at hy
      · rw [r2] at hy; exact h.nodes i y hy
      · exact h.nodes j y hy
    · intro d hd hk
      simp only [gStep] at hd
      rcases List.mem_append.1 hd with hd | hd
      · exact h.dumps d hd hk
      · split at hd
        next e he =>
          rw [List.mem_singleton] at hd
          subst hd
          exact h.nodes i _ ((r3 e he).2.2 hk)
        · cases hd
  | put d env =>
    refine ⟨hist, ?_⟩
    simp only [gStep] at hup ⊢
    cases hx : g.dumps[d]? with
    | none => exact h
    | some x =>
      obtain ⟨j, e⟩ := x
      simp only [hx] at hup ⊢
      have hxm := List.mem_of_getElem? hx
      obtain ⟨a1, -⟩ := put_hist (hg.nodes j).1 hf (hg.dumps _ hxm).1 (h.nodes j) (h.dumps _ hxm)
      refine h.move rfl hup ?_ (fun y hy => hy) (fun y hy _ => .inl hy)
        (fun d hd hk => h.dumps d (List.mem_of_mem_eraseIdx hd) hk) rfl rfl
      intro i y hy
      simp only [Group.setStore] at hy
      split at hy
      · exact a1 y hy
      · exact h.nodes i y hy
  | drop d =>
    exact ⟨hist, h.move rfl hup h.nodes (fun y hy => hy) (fun y hy _ => .inl hy)
      (fun d hd hk => h.dumps d (List.mem_of_mem_eraseIdx hd) hk) rfl rfl⟩

theorem Phase.run {rep : Bool} {k : Bytes} {l : List Nat} : ∀ {evs : List GEv} {n : Nat} {g : Group}
    {hist : Item → Prop}, Phase rep k l g hist → GInv k n g → n + evs.length < 2 ^ 64 → Fine rep k g evs →
    SteadyFor rep k g evs → ∃ hist', Phase rep k l (gRun rep g evs) hist'
  | [], _, _, hist, h, _, _, _, _ => ⟨hist, h⟩
  | ev :: evs, n, g, _, h, hg, hn, hf, hs => by
    simp only [List.length_cons] at hn
    obtain ⟨hist', h'⟩ := h.step hg (by omega) hf.1 hs.1
    exact h'.run (evs := evs) (hg.step (by omega) rep hf.1).1 (by omega) hf.2 hs.2

/-! ### The start -/

theorem knownAt_kstate {k : Bytes} {x : Option Item} {s : Store} (h : KnownAt k x s) :
    HostOk k s ∧ kstate s k = x.elim .nothing .record := by
  obtain ⟨h1, h2, h3, h4⟩ := h
  cases x with
  | none =>
    have : kstate s k = .nothing := Classical.byContradiction fun h => h4 (kstate_remembered.2 h)
    exact ⟨⟨h1, h2, h3, .inl this⟩, this⟩
  | some x =>
    obtain ⟨h5, h6⟩ := h4
    have e := kstate_of_lookup h1 (h6 0)
    refine ⟨⟨h1, h2, h3, .inr ⟨x, e, ?_, h5⟩⟩, e⟩
    intro hx
    have := h6 Int64.maxValue
    rw [kstate_lookup h1, e] at this
    simp only [KState.visible] at this
    rw [if_pos ⟨hx, Int64.le_maxValue _⟩] at this
    cases this

theorem start_inv {rep : Bool} {k : Bytes} {x : Option Item} {g : Group} {l : List Nat}
    (h : ∀ i, KnownAt k x (g.store i)) (hm : g.slaves 0 = some l) (ho : ∀ i, i ≠ 0 → g.slaves i = none)
    (hf : g.flying = []) (hop : g.open_ = []) (hac : g.acked = []) (hdu : g.dumps = []) :
    GInv k (x.elim 0 (·.version.toNat)) g ∧ ∃ hist, Phase rep k l g hist := by
  refine ⟨⟨fun i => ?_, (by rw [hf]; intro f h; cases h), (by rw [hdu]; intro f h; cases h)⟩, ?_⟩
  · obtain ⟨h1, h2⟩ := knownAt_kstate (h i)
    refine ⟨h1, ?_⟩
    rw [h2]
    cases x with
    | none => exact Nat.le_refl _
    | some x => exact Nat.le_refl _
  · refine ⟨fun y => x = some y, hm, ho, ?_, ?_, ?_, ?_, ?_, (by rw [hdu]; intro f h; cases h), ?_, ?_, ?_⟩
    · intro y z hy hz _
      rw [hy] at hz; exact Option.some.inj hz
    · intro y hy
      rw [(knownAt_kstate (h 0)).2, hy]; exact UInt64.le_refl _
    · intro y hy
      have := (h 0).2.2.2
      rw [hy] at this
      exact this.1
    · intro i y hy
      rw [(knownAt_kstate (h i)).2] at hy
      cases x with
      | none => cases hy
      | some x => cases hy; rfl
    · rw [hf]; intro f h; cases h
    · intro y hy j hj
      right
      rw [(knownAt_kstate (h j)).2, hy]; exact UInt64.le_refl _
    · rw [hop]; intro f h; cases h
    · rw [hac]; intro f h; cases h

end Flare
