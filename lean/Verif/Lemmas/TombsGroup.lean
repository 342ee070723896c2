import Verif.Lemmas.Tombs

namespace Flare

/-! ### All nodes: what is known about a key never goes back -/

structure TInv (k : Bytes) (n : Nat) (g : Group) : Prop where
  nodes : ∀ i, HostFit k (g.store i) ∧ (kstate (g.store i) k).version.toNat ≤ n
  copies : ∀ f ∈ g.flying, CopyFit k f.copy ∧ (f.copy.entry.key = k → f.copy.entry.version.toNat ≤ n)
  dumps : ∀ d ∈ g.dumps, DumpOk k d.2 ∧ (d.2.key = k → d.2.version.toNat ≤ n)

theorem TInv.mono {k : Bytes} {n : Nat} {g : Group} (h : TInv k n g) : TInv k (n + 1) g :=
  ⟨fun i => ⟨(h.nodes i).1, Nat.le_succ_of_le (h.nodes i).2⟩,
    fun f hf => ⟨(h.copies f hf).1, fun hk => Nat.le_succ_of_le ((h.copies f hf).2 hk)⟩,
    fun f hf => ⟨(h.dumps f hf).1, fun hk => Nat.le_succ_of_le ((h.dumps f hf).2 hk)⟩⟩

theorem TInv.set {k : Bytes} {n : Nat} {g : Group} (h : TInv k n g) {i : Nat} {s : Store}
    (hs : HostFit k s) (hv : (kstate s k).version.toNat ≤ n) (l : List Flight)
    (hl : ∀ f ∈ l, CopyFit k f.copy ∧ (f.copy.entry.key = k → f.copy.entry.version.toNat ≤ n))
    (g' : Group) (e1 : g'.store = (g.setStore i s).store) (e2 : g'.flying = l) (e3 : ∀ d ∈ g'.dumps, d ∈ g.dumps) :
    TInv k n g' := by
  refine ⟨fun j => ?_, by rw [e2]; exact hl, fun d hd => h.dumps d (e3 d hd)⟩
  rw [e1]
  simp only [Group.setStore]
  split
  · exact ⟨hs, hv⟩
  · exact h.nodes j

theorem rise_set {k : Bytes} {g : Group} {i : Nat} {s : Store} (h : Rise (kstate (g.store i) k) (kstate s k))
    (j : Nat) : Rise (kstate (g.store j) k) (kstate ((g.setStore i s).store j) k) := by
  simp only [Group.setStore]
  split
  · subst_vars; exact h
  · exact .refl _

theorem setStore_self (g : Group) (i : Nat) (s : Store) : (g.setStore i s).store i = s := by simp [Group.setStore]

theorem mark_version (c : WriteReq) : c.mark.version = c.entry.version := by
  unfold WriteReq.mark
  split <;> rfl

/-- What an arriving copy does to its node. -/
theorem arrive_rise {k : Bytes} {n : Nat} {s : Store} (h : HostFit k s) (hv : (kstate s k).version.toNat ≤ n)
    {env : Env} (hp : env.putOk = true) (ho : env.outOk = true) {c : WriteReq} (hc : CopyFit k c)
    (hcv : c.entry.key = k → c.entry.version.toNat ≤ n) (hr : Remembered s k → Remembered (atSlave s env c) k)
    (hno : NotOvertaken k s c) :
    HostFit k (atSlave s env c) ∧ (kstate (atSlave s env c) k).version.toNat ≤ n ∧
      Rise (kstate s k) (kstate (atSlave s env c) k) := by
  obtain ⟨h1, h2, h3⟩ := fit_arrive h hp ho hc hr hno
  refine ⟨h1, ?_⟩
  by_cases hk : c.entry.key = k
  · rcases h3 hk with ⟨e, hlt⟩ | ⟨e, -⟩
    · rw [e]
      exact ⟨by rw [mark_version]; exact hcv hk, .inr hlt⟩
    · rw [e]; exact ⟨hv, .refl _⟩
  · rw [h2 hk]; exact ⟨hv, .refl _⟩

/-- What a record of a dump does to its node. -/
theorem put_rise {k : Bytes} {n : Nat} {s : Store} (h : HostFit k s) (hv : (kstate s k).version.toNat ≤ n)
    {env : Env} (hp : env.putOk = true) (ho : env.outOk = true) {e : Entry} (he : DumpOk k e)
    (hev : e.key = k → e.version.toNat ≤ n) (hr : Remembered s k → Remembered ((Arrival.dump e).apply s env) k) :
    HostFit k ((Arrival.dump e).apply s env) ∧ (kstate ((Arrival.dump e).apply s env) k).version.toNat ≤ n ∧
      Rise (kstate s k) (kstate ((Arrival.dump e).apply s env) k) := by
  obtain ⟨h1, h2, h3⟩ := fit_put h hp ho he hr
  refine ⟨h1, ?_⟩
  by_cases hk : e.key = k
  · rcases h3 hk with ⟨g, hlt⟩ | ⟨g, -⟩
    · rw [g]
      exact ⟨hev hk, .inr hlt⟩
    · rw [g]; exact ⟨hv, .refl _⟩
  · rw [h2 hk]; exact ⟨hv, .refl _⟩

theorem TInv.step {k : Bytes} {n : Nat} {g : Group} (h : TInv k n g) (hn : n + 1 < 2 ^ 64) (rep : Bool)
    {ev : GEv} (hf : ev.plain k g) (hr : ∀ i, Remembered (g.store i) k → Remembered ((gStep rep g ev).store i) k) :
    TInv k (n + 1) (gStep rep g ev) ∧ ∀ i, Rise (kstate (g.store i) k) (kstate ((gStep rep g ev).store i) k) := by
  cases ev with
  | write i env path r refused =>
    simp only [gStep] at hr ⊢
    cases hl : g.slaves i with
    | none => exact ⟨h.mono, fun _ => .refl _⟩
    | some l =>
      obtain ⟨f1, f2, f3⟩ := hf
      have hri := hr i
      simp only [hl, setStore_self] at hri
      obtain ⟨w1, w2, hver, w3⟩ := fit_write (h.nodes i).1 f1 f2 f3 hri (h.nodes i).2 hn
      refine ⟨h.mono.set w1 hver _ ?_ _ rfl rfl (fun _ h => h), ?_⟩
      · intro f hf
        rcases List.mem_append.1 hf with hf | hf
        · exact h.mono.copies f hf
        · simp only [List.mem_flatMap, Option.mem_toList, List.mem_map] at hf
          obtain ⟨c, hc, j, -, rfl⟩ := hf
          refine ⟨w2 c hc, fun hck => ?_⟩
          rcases w3 with ⟨-, e⟩ | ⟨c', e0, -, e1, -⟩
          · exact absurd hck (e c hc)
          · rw [hc] at e0
            cases e0
            rw [e1, mark_version] at hver
            exact hver
      · refine rise_set (i := i) ?_
        rcases w3 with ⟨e, -⟩ | ⟨c, e0, e1, e, e2⟩
        · rw [e]; exact .refl _
        · rw [e]
          exact .inr e2
  | arrive f env =>
    simp only [gStep] at hr ⊢
    cases hx : g.flying[f]? with
    | none => exact ⟨h.mono, fun _ => .refl _⟩
    | some x =>
      obtain ⟨p1, p2, p3⟩ := hf
      have hri := hr x.dest
      simp only [hx, setStore_self] at hri
      obtain ⟨c1, c2⟩ := h.copies x (List.mem_of_getElem? hx)
      obtain ⟨a1, a2, a3⟩ := arrive_rise (h.nodes x.dest).1 (h.nodes x.dest).2 p1 p2 c1 c2 hri (p3 x hx)
      refine ⟨TInv.mono ?_, rise_set a3⟩
      exact h.set (i := x.dest) a1 a2 (g.flying.eraseIdx f)
        (fun y hy => h.copies y (List.mem_of_mem_eraseIdx hy)) _ rfl rfl (fun _ h => h)
  | again f env =>
    simp only [gStep] at hr ⊢
    cases hx : g.flying[f]? with
    | none => exact ⟨h.mono, fun _ => .refl _⟩
    | some x =>
      obtain ⟨p1, p2, p3⟩ := hf
      have hri := hr x.dest
      simp only [hx, setStore_self] at hri
      obtain ⟨c1, c2⟩ := h.copies x (List.mem_of_getElem? hx)
      obtain ⟨a1, a2, a3⟩ := arrive_rise (h.nodes x.dest).1 (h.nodes x.dest).2 p1 p2 c1 c2 hri (p3 x hx)
      exact ⟨(h.set a1 a2 _ h.copies _ rfl rfl (fun _ h => h)).mono, rise_set a3⟩
  | lose f =>
    exact ⟨⟨h.mono.nodes, fun y hy => h.mono.copies y (List.mem_of_mem_eraseIdx hy), h.mono.dumps⟩, fun _ => .refl _⟩
  | answer a =>
    simp only [gStep]
    split
    · exact ⟨h.mono, fun _ => .refl _⟩
    · split
      · exact ⟨h.mono, fun _ => .refl _⟩
      · exact ⟨⟨h.mono.nodes, h.mono.copies, h.mono.dumps⟩, fun _ => .refl _⟩
  | read i env e =>
    have hri := hr i
    simp only [gStep, setStore_self] at hri
    obtain ⟨r1, r2⟩ := fit_get (h.nodes i).1 env e hri
    refine ⟨(h.set r1 (by rw [r2]; exact (h.nodes i).2) _ h.copies _ rfl rfl (fun _ h => h)).mono, rise_set ?_⟩
    rw [r2]; exact .refl _
  | role i l => exact ⟨⟨h.mono.nodes, h.mono.copies, h.mono.dumps⟩, fun _ => .refl _⟩
  | dump i j env k' =>
    have hri : Remembered (g.store i) k → Remembered ((MEvent.dump env k').apply (g.store i)).1 k := by
      have := hr i
      simp only [gStep, setStore_self] at this
      exact this
    obtain ⟨r1, r2, r3⟩ := fit_dumps (h.nodes i).1 env k' hri
    have hs := h.set (i := i) r1 (by rw [r2]; exact (h.nodes i).2) _ h.copies
      (g.setStore i ((MEvent.dump env k').apply (g.store i)).1) rfl rfl (fun _ h => h)
    refine ⟨TInv.mono ⟨hs.nodes, hs.copies, fun d hd => ?_⟩,
      rise_set (s := ((MEvent.dump env k').apply (g.store i)).1) (by rw [r2]; exact .refl _)⟩
    simp only [gStep] at hd
    rcases List.mem_append.1 hd with hd | hd
    · exact h.dumps d hd
    · split at hd
      next e he =>
        rw [List.mem_singleton] at hd
        subst hd
        obtain ⟨d1, -, d3⟩ := r3 e he
        refine ⟨d1, fun hk => ?_⟩
        have := (h.nodes i).2
        rw [d3 hk] at this
        exact this
      · cases hd
  | put d env =>
    simp only [gStep] at hr ⊢
    cases hx : g.dumps[d]? with
    | none => exact ⟨h.mono, fun _ => .refl _⟩
    | some x =>
      obtain ⟨j, e⟩ := x
      have hri := hr j
      simp only [hx, setStore_self] at hri
      obtain ⟨c1, c2⟩ := h.dumps _ (List.mem_of_getElem? hx)
      obtain ⟨a1, a2, a3⟩ := put_rise (h.nodes j).1 (h.nodes j).2 hf.1 hf.2 c1 c2 hri
      refine ⟨TInv.mono ?_, rise_set a3⟩
      exact h.set (i := j) a1 a2 _ h.copies _ rfl rfl (fun y hy => List.mem_of_mem_eraseIdx hy)
  | drop d =>
    exact ⟨⟨h.mono.nodes, h.mono.copies, fun y hy => h.mono.dumps y (List.mem_of_mem_eraseIdx hy)⟩, fun _ => .refl _⟩

theorem TInv.run {k : Bytes} {rep : Bool} : ∀ {evs : List GEv} {n : Nat} {g : Group}, TInv k n g →
    n + evs.length < 2 ^ 64 → Plainly rep k g evs →
    TInv k (n + evs.length) (gRun rep g evs) ∧
      ∀ i, Rise (kstate (g.store i) k) (kstate ((gRun rep g evs).store i) k)
  | [], _, _, h, _, _ => ⟨h, fun _ => .refl _⟩
  | ev :: evs, n, g, h, hn, hf => by
    simp only [List.length_cons] at hn
    obtain ⟨h1, h2⟩ := h.step (by omega) rep hf.1 hf.2.1
    obtain ⟨h3, h4⟩ := h1.run (evs := evs) (by omega) hf.2.2
    refine ⟨?_, fun i => (h2 i).trans (h4 i)⟩
    rw [List.length_cons, show n + (evs.length + 1) = n + 1 + evs.length from by omega]
    exact h3

theorem plainly_append {rep : Bool} {k : Bytes} : ∀ {a b : List GEv} {g : Group}, Plainly rep k g (a ++ b) ↔
    Plainly rep k g a ∧ Plainly rep k (gRun rep g a) b
  | [], _, _ => by simp [Plainly, gRun]
  | ev :: a, b, g => by
    simp only [List.cons_append, Plainly, plainly_append (a := a), and_assoc]
    rfl

/-! ### One master and steady roles -/

/-- What an answer stands for. -/
def Out.mark (o : Out) : KState := if o.r = some .deleted then .gone o.e.version else .record o.e.item

/-- The answers that are kept. -/
def Out.done (o : Out) : Prop := o.r = some .stored ∨ o.r = some .deleted

structure TPhase (rep : Bool) (k : Bytes) (l : List Nat) (g : Group) (hist : KState → Prop) : Prop where
  master : g.slaves 0 = some l
  others : ∀ i, i ≠ 0 → g.slaves i = none
  unique : ∀ x y, hist x → hist y → x.rank = y.rank → x = y
  top : ∀ x, hist x → x.rank ≤ (kstate (g.store 0) k).rank
  pos : ∀ x, hist x → x.rank ≠ 0
  nodes : ∀ i, kstate (g.store i) k ≠ .nothing → hist (kstate (g.store i) k)
  copies : ∀ f ∈ g.flying, f.copy.entry.key = k → hist f.copy.mark
  dumps : ∀ d ∈ g.dumps, d.2.key = k → hist (.record d.2.item)
  all : ∀ x, hist x → ∀ j ∈ l,
    (∃ f ∈ g.flying, f.dest = j ∧ f.copy.entry.key = k ∧ f.copy.mark = x) ∨
      x.rank ≤ (kstate (g.store j) k).rank
  opens : ∀ p ∈ g.open_, p.2.1.entry.key = k → p.2.2.done →
    hist p.2.2.mark ∧ ∀ j ∈ l,
      (∃ f ∈ g.flying, f.id = p.1 ∧ f.dest = j ∧ f.copy.entry.key = k ∧ f.copy.mark = p.2.2.mark) ∨
        p.2.2.mark.rank ≤ (kstate (g.store j) k).rank
  acked : ∀ p ∈ g.acked, p.1.entry.key = k → p.2.done → isSync p.1.entry.option rep = true →
    hist p.2.mark ∧ ∀ j ∈ l, p.2.mark.rank ≤ (kstate (g.store j) k).rank

/-- The stores move on without anything new, flights vanish only when they have taken effect. -/
theorem TPhase.move {rep : Bool} {k : Bytes} {l : List Nat} {g g' : Group} {hist : KState → Prop}
    (h : TPhase rep k l g hist) (hs : g'.slaves = g.slaves)
    (hup : ∀ i, Rise (kstate (g.store i) k) (kstate (g'.store i) k))
    (hn : ∀ i, kstate (g'.store i) k ≠ .nothing → hist (kstate (g'.store i) k))
    (hf : ∀ f ∈ g'.flying, f ∈ g.flying)
    (hf' : ∀ f ∈ g.flying, f.copy.entry.key = k →
      f ∈ g'.flying ∨ f.copy.mark.rank ≤ (kstate (g'.store f.dest) k).rank)
    (hd : ∀ d ∈ g'.dumps, d.2.key = k → hist (.record d.2.item))
    (ho : g'.open_ = g.open_) (ha : g'.acked = g.acked) : TPhase rep k l g' hist := by
  have mono : ∀ {j : Nat} {v : Nat}, v ≤ (kstate (g.store j) k).rank → v ≤ (kstate (g'.store j) k).rank :=
    fun {j v} hv => Nat.le_trans hv (hup j).le
  refine ⟨by rw [hs]; exact h.master, by rw [hs]; exact h.others, h.unique, fun x hx => mono (h.top x hx), h.pos, hn,
    fun f hff => h.copies f (hf f hff), hd, ?_, ?_, ?_⟩
  · intro x hx j hj
    rcases h.all x hx j hj with ⟨f, f1, f2, f3, f4⟩ | hv
    · rcases hf' f f1 f3 with g1 | g1
      · exact .inl ⟨f, g1, f2, f3, f4⟩
      · right; rw [← f4, ← f2]; exact g1
    · exact .inr (mono hv)
  · rw [ho]
    intro p hp h1 h2
    obtain ⟨a, b⟩ := h.opens p hp h1 h2
    refine ⟨a, fun j hj => ?_⟩
    rcases b j hj with ⟨f, f0, f1, f2, f3, f4⟩ | hv
    · rcases hf' f f0 f3 with g1 | g1
      · exact .inl ⟨f, g1, f1, f2, f3, f4⟩
      · right
        rw [← f4, ← f2]; exact g1
    · exact .inr (mono hv)
  · rw [ha]
    intro p hp h1 h2 h3
    obtain ⟨a, b⟩ := h.acked p hp h1 h2 h3
    exact ⟨a, fun j hj => mono (b j hj)⟩

/-- What a copy leaves at its node was in the history. -/
theorem arrive_hist' {k : Bytes} {s : Store} (h : HostFit k s) {env : Env} (hp : env.putOk = true) (ho : env.outOk = true)
    {c : WriteReq} (hc : CopyFit k c) (hr : Remembered s k → Remembered (atSlave s env c) k) (hno : NotOvertaken k s c)
    {hist : KState → Prop} (h1 : kstate s k ≠ .nothing → hist (kstate s k)) (h2 : c.entry.key = k → hist c.mark) :
    (kstate (atSlave s env c) k ≠ .nothing → hist (kstate (atSlave s env c) k)) ∧
      (c.entry.key = k → c.mark.rank ≤ (kstate (atSlave s env c) k).rank) := by
  obtain ⟨-, a2, a3⟩ := fit_arrive h hp ho hc hr hno
  by_cases hk : c.entry.key = k
  · rcases a3 hk with ⟨e, -⟩ | ⟨e, hle⟩
    · rw [e]
      exact ⟨fun _ => h2 hk, fun _ => Nat.le_refl _⟩
    · rw [e]; exact ⟨h1, fun _ => hle⟩
  · rw [a2 hk]; exact ⟨h1, fun h => absurd h hk⟩

/-- What a record of a dump leaves at its node was in the history. -/
theorem put_hist' {k : Bytes} {s : Store} (h : HostFit k s) {env : Env} (hp : env.putOk = true) (ho : env.outOk = true)
    {e : Entry} (he : DumpOk k e) (hr : Remembered s k → Remembered ((Arrival.dump e).apply s env) k)
    {hist : KState → Prop} (h1 : kstate s k ≠ .nothing → hist (kstate s k)) (h2 : e.key = k → hist (.record e.item)) :
    kstate ((Arrival.dump e).apply s env) k ≠ .nothing → hist (kstate ((Arrival.dump e).apply s env) k) := by
  obtain ⟨-, a2, a3⟩ := fit_put h hp ho he hr
  by_cases hk : e.key = k
  · rcases a3 hk with ⟨g, -⟩ | ⟨g, -⟩
    · rw [g]; exact fun _ => h2 hk
    · rw [g]; exact h1
  · rw [a2 hk]; exact h1

/-- Without a copy nothing was stored, touched or deleted. -/
theorem no_copy_result {m : Store} {env : Env} {r : WriteReq} (hcop : ¬ r.cmd.copies (step m env r.call).2.r = true) :
    (step m env r.call).2.r ≠ some .stored ∧ (step m env r.call).2.r ≠ some .touched ∧
      (step m env r.call).2.r ≠ some .deleted := by
    obtain ⟨cmd, p, e, v⟩ := r
    have h1 : ∀ (e : Entry) (b : Beh), (set m env e b).2.r ≠ some .deleted := by
      intro e b hh
      rcases set_cases m env e b with ⟨-, -⟩ | ⟨e', ho, -⟩
      · revert hh
        obtain ⟨s1, cur, ex, hc⟩ : ∃ s1 cur ex, setCurrent m env e b = (s1, cur, ex) :=
          ⟨_, _, _, rfl⟩
        simp only [set, hc]
        cases hck : setCheck (setState env.now b cur ex) b e.version cur.version with
        | error r => rcases setCheck_error hck with rfl | rfl | rfl <;> simp
        | ok v =>
          simp only
          repeat' split
          all_goals simp
      · rw [ho] at hh
        simp only [Option.some.injEq] at hh
        split at hh <;> cases hh
    have h2 : ∀ (e : Entry) (v : UInt64) (i : Bool),
        (incr m env e v i {}).2.r ≠ some .deleted ∧ (incr m env e v i {}).2.r ≠ some .touched := by
      intro e v i
      simp only [incr, incrLocked]
      repeat' split
      all_goals simp_all
      all_goals
        rename_i heq
        revert heq
        repeat' split
        all_goals
          intro heq
          simp only [Prod.mk.injEq] at heq
          obtain ⟨-, rfl, -⟩ := heq
          simp
    have h3 : ∀ (e : Entry), (remove m env e {}).2.r ≠ some .stored ∧
        (remove m env e {}).2.r ≠ some .touched := by
      intro e
      simp only [remove]
      repeat' split
      all_goals simp
    cases cmd <;> simp_all [WriteCmd.copies, WriteReq.call, step]

/-- An answered write was copied. -/
theorem done_copies {m : Store} {env : Env} {path : List Bytes} {r : WriteReq} (hr : (step m env r.call).2.done) :
    ∃ c, (atMaster m env path r).2 = some c := by
  by_cases h : r.cmd.copies (step m env r.call).2.r = true
  · exact ⟨_, by simp only [atMaster, copyOf]; rw [if_pos h]⟩
  · obtain ⟨h1, -, h3⟩ := no_copy_result h
    rcases hr with hr | hr
    · exact absurd hr h1
    · exact absurd hr h3

/-- The copy stands for the answer. -/
theorem mark_out {m : Store} {env : Env} {path : List Bytes} {r c : WriteReq} (h : (atMaster m env path r).2 = some c)
    (hk : c.cmd = .set ∨ c.cmd = .delete) : c.mark = (step m env r.call).2.mark := by
  obtain ⟨h1, h2, h3⟩ := copied_result h
  unfold WriteReq.mark Out.mark
  rcases hk with hk | hk
  · rw [h2 hk, h1, hk]; rfl
  · rw [(h3 hk).2, h1, hk]; rfl

theorem TPhase.step {rep : Bool} {k : Bytes} {l : List Nat} {n : Nat} {g : Group} {hist : KState → Prop}
    (h : TPhase rep k l g hist) (hg : TInv k n g) (hn : n + 1 < 2 ^ 64) {ev : GEv} (hf : ev.plain k g)
    (hr : ∀ i, Remembered (g.store i) k → Remembered ((gStep rep g ev).store i) k)
    (hs : ev.steadyFor k g) : ∃ hist', TPhase rep k l (gStep rep g ev) hist' := by
  obtain ⟨-, hup⟩ := hg.step hn rep hf hr
  cases ev with
  | write i env path r refused =>
    by_cases hi : i = 0
    · subst hi
      obtain ⟨f1, f2, f3⟩ := hf
      have hri : Remembered (g.store 0) k → Remembered (atMaster (g.store 0) env path r).1 k := by
        have := hr 0
        simp only [gStep, h.master, setStore_self] at this
        exact this
      obtain ⟨w1, w2, -, w3⟩ := fit_write (hg.nodes 0).1 f1 f2 f3 hri (hg.nodes 0).2 hn
      have hcode : ∀ c, (atMaster (g.store 0) env path r).2 = some c → c.entry.key = r.entry.key := fun c hc =>
        (master_copy (hg.nodes 0).1.ok f1.2.2.2 hc).1.key
      have hst0 : (gStep rep g (.write 0 env path r refused)).store =
          (g.setStore 0 (atMaster (g.store 0) env path r).1).store := by
        simp only [gStep, h.master]
      have hst : ∀ i, i ≠ 0 → (gStep rep g (.write 0 env path r refused)).store i = g.store i := by
        intro i hi
        rw [hst0]; simp [Group.setStore, hi]
      have hst00 : (gStep rep g (.write 0 env path r refused)).store 0 = (atMaster (g.store 0) env path r).1 := by
        rw [hst0]; simp [Group.setStore]
      have hfl : (gStep rep g (.write 0 env path r refused)).flying =
          g.flying ++ (atMaster (g.store 0) env path r).2.toList.flatMap fun c =>
            (l.filter fun j => !refused.contains j).map fun j => ⟨g.next, j, c⟩ := by
        simp only [gStep, h.master]
      have hop : (gStep rep g (.write 0 env path r refused)).open_ =
          g.open_ ++ [(g.next, r, (Flare.step (g.store 0) env r.call).2)] := by
        simp only [gStep, h.master]
      have hac : (gStep rep g (.write 0 env path r refused)).acked = g.acked := by
        simp only [gStep, h.master]; rfl
      have hsl : (gStep rep g (.write 0 env path r refused)).slaves = g.slaves := by
        simp only [gStep, h.master]; rfl
      have hdu : (gStep rep g (.write 0 env path r refused)).dumps = g.dumps := by
        simp only [gStep, h.master]; rfl
      clear hr
      generalize gStep rep g (.write 0 env path r refused) = g' at *
      have mono : ∀ {j : Nat} {v : Nat}, v ≤ (kstate (g.store j) k).rank →
          v ≤ (kstate (g'.store j) k).rank := fun {j v} hv => Nat.le_trans hv (hup j).le
      have hfly : ∀ f ∈ g.flying, f ∈ g'.flying := fun f hf => by rw [hfl]; exact List.mem_append_left _ hf
      rcases w3 with ⟨e, e1⟩ | ⟨c, e0, e1, e2, e3⟩
      · -- nothing new about the key
        refine ⟨hist, by rw [hsl]; exact h.master, by rw [hsl]; exact h.others, h.unique,
          fun x hx => mono (h.top x hx), h.pos, ?_, ?_, by rw [hdu]; exact h.dumps, ?_, ?_, ?_⟩
        · intro i
          by_cases hi : i = 0
          · subst hi; rw [hst00, e]; exact h.nodes 0
          · rw [hst i hi]; exact h.nodes i
        · intro f hf hk
          rw [hfl] at hf
          rcases List.mem_append.1 hf with hf | hf
          · exact h.copies f hf hk
          · simp only [List.mem_flatMap, Option.mem_toList, List.mem_map] at hf
            obtain ⟨c, hc, j, -, rfl⟩ := hf
            exact absurd hk (e1 c hc)
        · intro x hx j hj
          rcases h.all x hx j hj with ⟨f, f1, f2⟩ | hv
          · exact .inl ⟨f, hfly f f1, f2⟩
          · exact .inr (mono hv)
        · rw [hop]
          intro p hp h1 h2
          rcases List.mem_append.1 hp with hp | hp
          · obtain ⟨a, b⟩ := h.opens p hp h1 h2
            refine ⟨a, fun j hj => ?_⟩
            rcases b j hj with ⟨f, f1, f2⟩ | hv
            · exact .inl ⟨f, hfly f f1, f2⟩
            · exact .inr (mono hv)
          · rw [List.mem_singleton] at hp
            subst hp
            obtain ⟨c, hc⟩ := done_copies (path := path) h2
            exact absurd ((hcode c hc).trans h1) (e1 c hc)
        · rw [hac]
          intro p hp h1 h2 h3
          obtain ⟨a, b⟩ := h.acked p hp h1 h2 h3
          exact ⟨a, fun j hj => mono (b j hj)⟩
      · -- something new
        have hkey : r.entry.key = k := (hcode c e0).symm.trans e1
        have href : refused = [] := hs hkey
        subst href
        have hmark : c.mark = (Flare.step (g.store 0) env r.call).2.mark :=
          mark_out e0 (((w2 c e0).own e1).1.imp (·.1) id)
        have hnew : ∀ x, hist x → x.rank < c.mark.rank := fun x hx => Nat.lt_of_le_of_lt (h.top x hx) e3
        have hfl' : g'.flying = g.flying ++ l.map fun j => ⟨g.next, j, c⟩ := by
          rw [hfl, e0]; simp
        refine ⟨fun x => hist x ∨ x = c.mark, by rw [hsl]; exact h.master, by rw [hsl]; exact h.others,
          ?_, ?_, ?_, ?_, ?_, by rw [hdu]; exact fun d h1 h2 => .inl (h.dumps d h1 h2), ?_, ?_, ?_⟩
        · intro x y hx hy hv
          rcases hx with hx | rfl <;> rcases hy with hy | rfl
          · exact h.unique x y hx hy hv
          · exact absurd hv (Nat.ne_of_lt (hnew x hx))
          · exact absurd hv.symm (Nat.ne_of_lt (hnew y hy))
          · rfl
        · intro x hx
          rcases hx with hx | rfl
          · exact mono (h.top x hx)
          · rw [hst00, e2]; exact Nat.le_refl _
        · intro x hx
          rcases hx with hx | rfl
          · exact h.pos x hx
          · omega
        · intro i hx
          by_cases hi : i = 0
          · subst hi; rw [hst00, e2]; exact .inr rfl
          · rw [hst i hi] at hx ⊢; exact .inl (h.nodes i hx)
        · intro f hf hk
          rw [hfl'] at hf
          rcases List.mem_append.1 hf with hf | hf
          · exact .inl (h.copies f hf hk)
          · obtain ⟨j, -, rfl⟩ := List.mem_map.1 hf
            exact .inr rfl
        · intro x hx j hj
          rcases hx with hx | rfl
          · rcases h.all x hx j hj with ⟨f, f1, f2⟩ | hv
            · exact .inl ⟨f, hfly f f1, f2⟩
            · exact .inr (mono hv)
          · refine .inl ⟨⟨g.next, j, c⟩, ?_, rfl, e1, rfl⟩
            rw [hfl']
            exact List.mem_append_right _ (List.mem_map.2 ⟨j, hj, rfl⟩)
        · rw [hop]
          intro p hp h1 h2
          rcases List.mem_append.1 hp with hp | hp
          · obtain ⟨a, b⟩ := h.opens p hp h1 h2
            refine ⟨.inl a, fun j hj => ?_⟩
            rcases b j hj with ⟨f, f1, f2⟩ | hv
            · exact .inl ⟨f, hfly f f1, f2⟩
            · exact .inr (mono hv)
          · rw [List.mem_singleton] at hp
            subst hp
            refine ⟨.inr hmark.symm, fun j hj => .inl ⟨⟨g.next, j, c⟩, ?_, rfl, rfl, e1, hmark⟩⟩
            rw [hfl']
            exact List.mem_append_right _ (List.mem_map.2 ⟨j, hj, rfl⟩)
        · rw [hac]
          intro p hp h1 h2 h3
          obtain ⟨a, b⟩ := h.acked p hp h1 h2 h3
          exact ⟨.inl a, fun j hj => mono (b j hj)⟩
    · refine ⟨hist, ?_⟩
      simp only [gStep, h.others i hi]
      exact h
  | arrive f env =>
    refine ⟨hist, ?_⟩
    simp only [gStep] at hup hr ⊢
    cases hx : g.flying[f]? with
    | none => exact h
    | some x =>
      simp only [hx] at hup hr ⊢
      obtain ⟨p1, p2, p3⟩ := hf
      have hri := hr x.dest
      simp only [setStore_self] at hri
      have hxm := List.mem_of_getElem? hx
      obtain ⟨a1, a2⟩ := arrive_hist' (hg.nodes x.dest).1 p1 p2 (hg.copies x hxm).1 hri (p3 x hx) (h.nodes x.dest)
        (h.copies x hxm)
      refine h.move rfl hup ?_ (fun y hy => List.mem_of_mem_eraseIdx hy) ?_ h.dumps rfl rfl
      · intro i
        simp only [Group.setStore]
        split
        · exact a1
        · exact h.nodes i
      · intro y hy hk
        by_cases hyx : y = x
        · right
          subst hyx
          simp only [Group.setStore, if_pos]
          exact a2 hk
        · left
          obtain ⟨m, hm⟩ := List.getElem?_of_mem hy
          refine List.mem_eraseIdx_iff_getElem?.2 ⟨m, ?_, hm⟩
          rintro rfl
          rw [hx] at hm
          exact hyx (Option.some.inj hm).symm
  | again f env =>
    refine ⟨hist, ?_⟩
    simp only [gStep] at hup hr ⊢
    cases hx : g.flying[f]? with
    | none => exact h
    | some x =>
      simp only [hx] at hup hr ⊢
      obtain ⟨p1, p2, p3⟩ := hf
      have hri := hr x.dest
      simp only [setStore_self] at hri
      have hxm := List.mem_of_getElem? hx
      obtain ⟨a1, a2⟩ := arrive_hist' (hg.nodes x.dest).1 p1 p2 (hg.copies x hxm).1 hri (p3 x hx) (h.nodes x.dest)
        (h.copies x hxm)
      refine h.move rfl hup ?_ (fun y hy => hy) (fun y hy _ => .inl hy) h.dumps rfl rfl
      intro i
      simp only [Group.setStore]
      split
      · exact a1
      · exact h.nodes i
  | lose f =>
    refine ⟨hist, h.move rfl hup h.nodes (fun y hy => List.mem_of_mem_eraseIdx hy) ?_ h.dumps rfl rfl⟩
    intro y hy hk
    left
    obtain ⟨m, hm⟩ := List.getElem?_of_mem hy
    refine List.mem_eraseIdx_iff_getElem?.2 ⟨m, ?_, hm⟩
    rintro rfl
    exact hs y hm hk
  | answer a =>
    refine ⟨hist, ?_⟩
    simp only [gStep]
    cases hx : g.open_[a]? with
    | none => exact h
    | some p =>
      obtain ⟨id, r, o⟩ := p
      simp only
      split
      · exact h
      next hb =>
        refine ⟨h.master, h.others, h.unique, h.top, h.pos, h.nodes, h.copies, h.dumps, h.all,
          fun p hp => h.opens p (List.mem_of_mem_eraseIdx hp), ?_⟩
        intro p hp h1 h2 h3
        simp only at hp
        split at hp
        · exact h.acked p hp h1 h2 h3
        · rcases List.mem_append.1 hp with hp | hp
          · exact h.acked p hp h1 h2 h3
          · rw [List.mem_singleton] at hp
            subst hp
            obtain ⟨a, b⟩ := h.opens _ (List.mem_of_getElem? hx) h1 h2
            refine ⟨a, fun j hj => ?_⟩
            rcases b j hj with ⟨f, f1, f2, -⟩ | hv
            · exfalso
              apply hb
              simp only at h3
              rw [h3, Bool.true_and, List.any_eq_true]
              exact ⟨f, f1, by simpa using f2⟩
            · exact hv
  | read i env e =>
    refine ⟨hist, h.move rfl hup ?_ (fun y hy => hy) (fun y hy _ => .inl hy) h.dumps rfl rfl⟩
    have hri := hr i
    simp only [gStep, setStore_self] at hri
    obtain ⟨-, r2⟩ := fit_get (hg.nodes i).1 env e hri
    intro j
    simp only [gStep, Group.setStore]
    split
    · rw [r2]; exact h.nodes i
    · exact h.nodes j
  | role i l => exact hs.elim
  | dump i j env k' =>
    have hri : Remembered (g.store i) k → Remembered ((MEvent.dump env k').apply (g.store i)).1 k := by
      have := hr i
      simp only [gStep, setStore_self] at this
      exact this
    obtain ⟨-, r2, r3⟩ := fit_dumps (hg.nodes i).1 env k' hri
    refine ⟨hist, h.move rfl hup ?_ (fun y hy => hy) (fun y hy _ => .inl hy) ?_ rfl rfl⟩
    · intro j
      simp only [gStep, Group.setStore]
      split
      · rw [r2]; exact h.nodes i
      · exact h.nodes j
    · intro d hd hk
      simp only [gStep] at hd
      rcases List.mem_append.1 hd with hd | hd
      · exact h.dumps d hd hk
      · split at hd
        next e he =>
          rw [List.mem_singleton] at hd
          subst hd
          have hrec := (r3 e he).2.2 hk
          have := h.nodes i (by rw [hrec]; simp)
          rw [hrec] at this
          exact this
        · cases hd
  | put d env =>
    refine ⟨hist, ?_⟩
    simp only [gStep] at hup hr ⊢
    cases hx : g.dumps[d]? with
    | none => exact h
    | some x =>
      obtain ⟨j, e⟩ := x
      simp only [hx] at hup hr ⊢
      have hri := hr j
      simp only [setStore_self] at hri
      have hxm := List.mem_of_getElem? hx
      have a1 := put_hist' (hg.nodes j).1 hf.1 hf.2 (hg.dumps _ hxm).1 hri (h.nodes j) (h.dumps _ hxm)
      refine h.move rfl hup ?_ (fun y hy => hy) (fun y hy _ => .inl hy)
        (fun d hd hk => h.dumps d (List.mem_of_mem_eraseIdx hd) hk) rfl rfl
      intro i
      simp only [Group.setStore]
      split
      · exact a1
      · exact h.nodes i
  | drop d =>
    exact ⟨hist, h.move rfl hup h.nodes (fun y hy => hy) (fun y hy _ => .inl hy)
      (fun d hd hk => h.dumps d (List.mem_of_mem_eraseIdx hd) hk) rfl rfl⟩

theorem TPhase.run {rep : Bool} {k : Bytes} {l : List Nat} : ∀ {evs : List GEv} {n : Nat} {g : Group}
    {hist : KState → Prop}, TPhase rep k l g hist → TInv k n g → n + evs.length < 2 ^ 64 → Plainly rep k g evs →
    SteadyFor rep k g evs → ∃ hist', TPhase rep k l (gRun rep g evs) hist'
  | [], _, _, hist, h, _, _, _, _ => ⟨hist, h⟩
  | ev :: evs, n, g, _, h, hg, hn, hf, hs => by
    simp only [List.length_cons] at hn
    obtain ⟨hist', h'⟩ := h.step hg (by omega) hf.1 hf.2.1 hs.1
    exact h'.run (evs := evs) (hg.step (by omega) rep hf.1 hf.2.1).1 (by omega) hf.2.2 hs.2

/-! ### The start -/

def Trace.state : Trace → KState
  | .never => .nothing
  | .value x => .record x
  | .deleted v => .gone v

theorem traceAt_kstate {k : Bytes} {x : Trace} {s : Store} (h : TraceAt k x s) :
    HostFit k s ∧ kstate s k = x.state := by
  obtain ⟨h1, h2, h3, h4⟩ := h
  cases x with
  | never =>
    have : kstate s k = .nothing := Classical.byContradiction fun h => h4 (kstate_remembered.2 h)
    exact ⟨⟨h1, h2, h3, by rw [this]; trivial⟩, this⟩
  | value x =>
    obtain ⟨h5, h6⟩ := h4
    have e := kstate_of_lookup h1 (h6 0)
    have hx : ¬ 0 < x.expire := by
      intro hx
      have := h6 Int64.maxValue
      rw [kstate_lookup h1, e] at this
      simp only [KState.visible] at this
      rw [if_pos ⟨hx, Int64.le_maxValue _⟩] at this
      cases this
    exact ⟨⟨h1, h2, h3, by rw [e]; exact ⟨hx, h5⟩⟩, e⟩
  | deleted v =>
    obtain ⟨h5, h6, h7, h8⟩ := h4
    have hn := (lookup_min_none h1).1 (h8 Int64.minValue)
    rw [lastVersion_kstate h1] at h7
    rw [kstate_remembered] at h6
    have e : kstate s k = .gone v := by
      cases hst : kstate s k with
      | nothing => exact absurd hst h6
      | record x => exact absurd hst (hn x)
      | gone w => rw [hst] at h7; rw [show w = v from h7]
    exact ⟨⟨h1, h2, h3, by rw [e]; exact h5⟩, e⟩

theorem trace_version (x : Trace) : x.state.version = x.version := by cases x <;> rfl

theorem start_tinv {rep : Bool} {k : Bytes} {x : Trace} {g : Group} {l : List Nat}
    (h : ∀ i, TraceAt k x (g.store i)) (hm : g.slaves 0 = some l) (ho : ∀ i, i ≠ 0 → g.slaves i = none)
    (hf : g.flying = []) (hop : g.open_ = []) (hac : g.acked = []) (hdu : g.dumps = []) :
    TInv k x.version.toNat g ∧ ∃ hist, TPhase rep k l g hist := by
  refine ⟨⟨fun i => ?_, (by rw [hf]; intro f h; cases h), (by rw [hdu]; intro f h; cases h)⟩, ?_⟩
  · obtain ⟨h1, h2⟩ := traceAt_kstate (h i)
    refine ⟨h1, ?_⟩
    rw [h2, trace_version]
    exact Nat.le_refl _
  · refine ⟨fun y => y = x.state ∧ y ≠ .nothing, hm, ho, ?_, ?_, ?_, ?_, ?_, (by rw [hdu]; intro f h; cases h), ?_, ?_, ?_⟩
    · rintro y z ⟨rfl, -⟩ ⟨rfl, -⟩ _; rfl
    · rintro y ⟨rfl, -⟩
      rw [(traceAt_kstate (h 0)).2]; exact Nat.le_refl _
    · rintro y ⟨rfl, hy⟩
      have := (traceAt_kstate (h 0)).1.lasting
      rw [(traceAt_kstate (h 0)).2] at this
      exact lasting_rank this hy
    · intro i hy
      rw [(traceAt_kstate (h i)).2] at hy ⊢
      exact ⟨rfl, hy⟩
    · rw [hf]; intro f h; cases h
    · rintro y ⟨rfl, -⟩ j hj
      right
      rw [(traceAt_kstate (h j)).2]; exact Nat.le_refl _
    · rw [hop]; intro f h; cases h
    · rw [hac]; intro f h; cases h

end Flare
