import Verif.Lemmas.Memory
import Verif.Props.Session

set_option linter.unusedSimpArgs false

namespace Flare

/-! ### C79: a node is one memory for all its clients -/

theorem memSeen_cons (s : Shared) (e : AskEv) (l : List AskEv) :
    memSeen s (e :: l) = e.shows (shStep s e.ev).2 ++ memSeen (shStep s e.ev).1 l := rfl

theorem shSeen_cons (s : Shared) (e : ShEv) (l : List ShEv) :
    shSeen s (e :: l) = (shStep s e).2.toList ++ shSeen (shStep s e).1 l := rfl

theorem memRun_cons (s : Shared) (e : AskEv) (l : List AskEv) :
    memRun s (e :: l) = memRun (shStep s e.ev).1 l := rfl

theorem Defined.head {s : Shared} {e : AskEv} {l : List AskEv} (h : Defined s (e :: l)) :
    ∀ c now cmd o, (shStep s e.ev).2 = some (.did c now cmd o) → o.rc ≠ .ub := by
  intro c now cmd o ho
  refine h c now cmd o ?_
  rw [List.map_cons, shSeen_cons, ho]
  simp

theorem Defined.tail {s : Shared} {e : AskEv} {l : List AskEv} (h : Defined s (e :: l)) :
    Defined (shStep s e.ev).1 l := by
  intro c now cmd o ho
  refine h c now cmd o ?_
  rw [List.map_cons, shSeen_cons]
  exact List.mem_append_right _ ho

/-- Any number of clients, any requests, the sections of all threads in any order, storage calls that fail:
what the clients are told is explained by one memory in which the requests are carried out one at a time, in
the order of their sections; where a request has failed nothing has changed.  Missing: removals of expired
records, which are sections of their own, have to be harmless when they are made (`C79_orderly` says when they
are, `C79_flush_undone` and others that they need not be). -/
theorem C79_one_memory_partial (l : List AskEv) (s : Shared) (hs : s.store.Ok) (hc : ∀ e ∈ l, e.client)
    (hub : Defined s l) (hh : AllHarmless s l) :
    Explains (memoryOf s.store) (memSeen s l) (memoryOf (memRun s l).store) := by
  induction l generalizing s with
  | nil => rfl
  | cons e l ih =>
    have ih := ih (shStep s e.ev).1 (shStep_ok hs _) (fun e h => hc e (List.mem_cons_of_mem _ h)) hub.tail hh.2
    rw [memSeen_cons, memRun_cons]
    have hcl := hc e List.mem_cons_self
    have hub := hub.head
    have hh := hh.1
    cases e with
    | ask c env a =>
      cases hd : s.due c with
      | some e => simp only [AskEv.ev, shStep, hd, AskEv.shows] at ih ⊢; exact ih
      | none =>
        simp only [AskEv.ev, shStep, hd, AskEv.shows, Shared.setDue, Option.some.injEq] at ih hub ⊢
        exact ⟨_, section_explained hs hcl (hub _ _ _ _ rfl), ih⟩
    | late c env =>
      cases hd : s.due c with
      | none => simp only [AskEv.ev, shStep, hd, AskEv.shows] at ih ⊢; exact ih
      | some e =>
        simp only [AskEv.ev, shStep, hd, AskEv.shows, Shared.setDue] at ih ⊢
        exact ⟨_, late_fades hs (hh e hd), ih⟩

theorem allHarmless_of_calm {K : List Bytes} (l : List AskEv) {now : Int64} {n : Nat} {s : Shared}
    (h : CalmInv K now n s) (hn : n + l.length < 2 ^ 64) (hnow : ∀ e ∈ l, now ≤ e.now)
    (ht : l.Pairwise fun x y => x.now ≤ y.now) (hc : ∀ e ∈ l, e.client) (hk : ∀ e ∈ l, e.calm K)
    (hub : Defined s l) : AllHarmless s l := by
  induction l generalizing s now n with
  | nil => trivial
  | cons e l ih =>
    simp only [List.length_cons] at hn
    obtain ⟨h1, h2⟩ := shStep_calm h (hnow e List.mem_cons_self) (by omega) (hc e List.mem_cons_self)
      (hk e List.mem_cons_self) hub.head
    rw [List.pairwise_cons] at ht
    exact ⟨h1, ih h2 (by omega) ht.1 ht.2 (fun e h => hc e (List.mem_cons_of_mem _ h))
      (fun e h => hk e (List.mem_cons_of_mem _ h)) hub.tail⟩

theorem orderly_harmless (K : List Bytes) (size : Nat) (hK : K.length ≤ size) (l : List AskEv)
    (hn : l.length < 2 ^ 64) (ht : l.Pairwise fun x y => x.now ≤ y.now) (hc : ∀ e ∈ l, e.client)
    (hk : ∀ e ∈ l, e.calm K) (hub : Defined { store := { cacheSize := size } } l) :
    AllHarmless { store := { cacheSize := size } } l := by
  have hok : Store.Ok { cacheSize := size } := ⟨by simp [dbGet], by simp, by simp⟩
  obtain ⟨now, hnow⟩ : ∃ now : Int64, ∀ e ∈ l, now ≤ e.now := by
    cases l with
    | nil => exact ⟨0, by simp⟩
    | cons e l =>
      refine ⟨e.now, ?_⟩
      rw [List.pairwise_cons] at ht
      intro x hx
      rcases List.mem_cons.1 hx with rfl | hx
      · exact Int64.le_refl _
      · exact ht.1 x hx
  have hinv : CalmInv K now 0 { store := { cacheSize := size } } :=
    ⟨hok, hK, by simp, fun k => ⟨Nat.le_refl _, fun _ h => (by cases h), fun _ _ h => (by cases h)⟩,
      fun c e h => by cases h⟩
  exact allHarmless_of_calm l hinv (by omega) hnow ht hc hk hub

/-- A node that starts empty, whose clock does not go back, whose deletion cache has room for all keys, and
whose clients use neither `flush_all` nor deletions with a hold: it is one memory, whatever the threads do. -/
theorem C79_orderly (K : List Bytes) (size : Nat) (hK : K.length ≤ size) (l : List AskEv) (hn : l.length < 2 ^ 64)
    (ht : l.Pairwise fun x y => x.now ≤ y.now) (hc : ∀ e ∈ l, e.client) (hk : ∀ e ∈ l, e.calm K)
    (hub : Defined { store := { cacheSize := size } } l) :
    Explains (fun _ => .empty) (memSeen { store := { cacheSize := size } } l)
      (memoryOf (memRun { store := { cacheSize := size } } l).store) := by
  have hok : Store.Ok { cacheSize := size } := ⟨by simp [dbGet], by simp, by simp⟩
  exact C79_one_memory_partial l _ hok hc hub (orderly_harmless K size hK l hn ht hc hk hub)

/-! ### From bytes to the memory -/

/-- The outcome of a request on a storage with whole records. -/
def CameFrom (a : MemAsk) (o : Out) : Prop := ∃ s env, s.Ok ∧ o = (firstSection s env a.cmd).2.1

def callOf (c : Nat) : AskEv → Option ShSeen → List (MemAsk × Out)
  | .ask c' _ a, some (.did _ _ _ o) => if c' = c then [(a, o)] else []
  | _, _ => []

/-- What a client has asked for, with the outcomes. -/
def callsBy (c : Nat) : Shared → List AskEv → List (MemAsk × Out)
  | _, [] => []
  | s, e :: l => callOf c e (shStep s e.ev).2 ++ callsBy c (shStep s e.ev).1 l

theorem callsBy_spec (c : Nat) (l : List AskEv) (s : Shared) (hs : s.store.Ok) :
    askedBy c (memSeen s l) = (callsBy c s l).map (·.1) ∧
    toldBy c (memSeen s l) = (callsBy c s l).map (fun x => x.1.told x.2) ∧
    outsBy c s l = (callsBy c s l).map (·.2) ∧
    ∀ x ∈ callsBy c s l, CameFrom x.1 x.2 ∧ (∃ now, .did c now x.1.cmd x.2 ∈ shSeen s (l.map AskEv.ev)) ∧
      ∃ now, .did c now x.1 (x.1.told x.2) ∈ memSeen s l := by
  induction l generalizing s with
  | nil => exact ⟨rfl, rfl, rfl, fun x h => by cases h⟩
  | cons e l ih =>
    obtain ⟨h1, h2, h3, h4⟩ := ih (shStep s e.ev).1 (shStep_ok hs _)
    have lift : ∀ x ∈ callsBy c (shStep s e.ev).1 l,
        CameFrom x.1 x.2 ∧ (∃ now, .did c now x.1.cmd x.2 ∈ shSeen s ((e :: l).map AskEv.ev)) ∧
          ∃ now, .did c now x.1 (x.1.told x.2) ∈ memSeen s (e :: l) := by
      intro x hx
      obtain ⟨g1, ⟨n1, g2⟩, n2, g3⟩ := h4 x hx
      exact ⟨g1, ⟨n1, by rw [List.map_cons, shSeen_cons]; exact List.mem_append_right _ g2⟩,
        n2, by rw [memSeen_cons]; exact List.mem_append_right _ g3⟩
    have hskip : ∀ (hsh : e.shows (shStep s e.ev).2 = [] ∨ ∃ n, e.shows (shStep s e.ev).2 = [.quiet n])
        (hsn : (shStep s e.ev).2 = none ∨ ∃ n, (shStep s e.ev).2 = some (.quiet n))
        (hcb : callsBy c s (e :: l) = callsBy c (shStep s e.ev).1 l),
        askedBy c (memSeen s (e :: l)) = (callsBy c s (e :: l)).map (·.1) ∧
        toldBy c (memSeen s (e :: l)) = (callsBy c s (e :: l)).map (fun x => x.1.told x.2) ∧
        outsBy c s (e :: l) = (callsBy c s (e :: l)).map (·.2) := by
      intro hsh hsn hcb
      rw [hcb, memSeen_cons, ← h1, ← h2, ← h3]
      simp only [askedBy, toldBy, outsBy, List.map_cons, shSeen_cons, List.filterMap_append]
      refine ⟨?_, ?_, ?_⟩
      · rcases hsh with h | ⟨n, h⟩ <;> rw [h] <;> rfl
      · rcases hsh with h | ⟨n, h⟩ <;> rw [h] <;> rfl
      · rcases hsn with h | ⟨n, h⟩ <;> rw [h] <;> rfl
    cases e with
    | ask c' env a =>
      cases hd : s.due c' with
      | some e' =>
        have hst : (shStep s (AskEv.ask c' env a).ev).2 = none := by simp only [AskEv.ev, shStep, hd]
        have hcb : callsBy c s (.ask c' env a :: l) = callsBy c (shStep s (AskEv.ask c' env a).ev).1 l := by
          rw [callsBy, hst]; rfl
        obtain ⟨k1, k2, k3⟩ := hskip (.inl (by rw [hst]; rfl)) (.inl hst) hcb
        exact ⟨k1, k2, k3, by rw [hcb]; exact lift⟩
      | none =>
        have hst : (shStep s (AskEv.ask c' env a).ev).2 =
            some (.did c' env.now a.cmd (firstSection s.store env a.cmd).2.1) := by
          simp only [AskEv.ev, shStep, hd]
        obtain ⟨o, ho⟩ : ∃ o, o = (firstSection s.store env a.cmd).2.1 := ⟨_, rfl⟩
        rw [← ho] at hst
        have hcb : callsBy c s (.ask c' env a :: l) =
            (if c' = c then [(a, o)] else []) ++ callsBy c (shStep s (AskEv.ask c' env a).ev).1 l := by
          rw [callsBy, hst]; rfl
        have hsh : (AskEv.ask c' env a).shows (shStep s (AskEv.ask c' env a).ev).2 =
            [.did c' env.now a (a.told o)] := by rw [hst]; rfl
        rw [hcb, memSeen_cons, hsh]
        simp only [outsBy, askedBy, toldBy] at h1 h2 h3 ⊢
        rw [List.map_cons, shSeen_cons, hst]
        simp only [Option.toList_some, List.filterMap_append, h1, h2, h3]
        by_cases hc : c' = c
        · subst hc
          refine ⟨by simp, by simp, by simp, ?_⟩
          intro x hx
          simp only [if_true, List.singleton_append, List.mem_cons] at hx
          rcases hx with rfl | hx
          · exact ⟨⟨s.store, env, hs, ho⟩, ⟨env.now, by simp⟩, env.now, by simp⟩
          · have := lift x hx
            rw [memSeen_cons, hsh, List.map_cons, shSeen_cons, hst] at this
            exact this
        · refine ⟨by simp [hc], by simp [hc], by simp [hc], ?_⟩
          intro x hx
          rw [if_neg hc] at hx
          have := lift x hx
          rw [memSeen_cons, hsh, List.map_cons, shSeen_cons, hst] at this
          exact this
    | late c' env =>
      have hcb : callsBy c s (.late c' env :: l) = callsBy c (shStep s (AskEv.late c' env).ev).1 l := by
        rw [callsBy, callOf]
        · rfl
        · intro _ _ _ _ _ _ _ h; cases h
      have hst : (shStep s (AskEv.late c' env).ev).2 = none ∨
          ∃ n, (shStep s (AskEv.late c' env).ev).2 = some (.quiet n) := by
        cases hd : s.due c' with
        | none => left; simp only [AskEv.ev, shStep, hd]
        | some e => right; exact ⟨env.now, by simp only [AskEv.ev, shStep, hd]⟩
      obtain ⟨k1, k2, k3⟩ := hskip (by rcases hst with h | ⟨n, h⟩ <;> rw [h]; exacts [.inl rfl, .inr ⟨n, rfl⟩])
        hst hcb
      exact ⟨k1, k2, k3, by rw [hcb]; exact lift⟩

/-- The outcome of the whole call is that of its first section, as far as writes go. -/
theorem firstSection_out (s : Store) (env : Env) (r : WriteReq) :
    (firstSection s env r.call).2.1 = (step s env r.call).2 := by
  have hincr : ∀ i, (firstSection s env (.incr r.entry r.value i {})).2.1 =
      (step s env (.incr r.entry r.value i {})).2 := by
    intro i
    simp only [firstSection, step, incr]
    obtain ⟨s1, o, d, h⟩ : ∃ s1 o d, incrLocked s env r.entry r.value i {} = (s1, o, d) := ⟨_, _, _, rfl⟩
    cases d <;> simp only [h]
  cases hc : r.cmd <;> simp only [WriteReq.call, hc]
  case incr => exact hincr _
  case decr => exact hincr _
  all_goals rfl

theorem cameFrom_gat {r : WriteReq} {o : Out} (h : CameFrom (.write r) o) (hg : r.cmd = .gat)
    (ht : o.r = some .touched) : o.e.key = r.entry.key := by
  obtain ⟨s, env, -, rfl⟩ := h
  rw [show (MemAsk.write r).cmd = r.call from rfl, firstSection_out] at ht ⊢
  simp only [WriteReq.call, hg, step] at ht ⊢
  rcases set_cases s env r.entry .ofTouch with ⟨-, -, h⟩ | ⟨e', ho, hk, -⟩
  · exact absurd ht h
  · rw [ho]; exact hk

theorem cameFrom_read {k : Bytes} {o : Out} (h : CameFrom (.read k) o) (ht : o.r = some .none_) :
    o.e.key = k ∧ o.e.size.toNat = o.e.data.length := by
  obtain ⟨s, env, hs, ho⟩ := h
  have h2 : o = (getRead s env.now { key := k } {}).1 := by
    rw [ho]
    simp only [MemAsk.cmd, firstSection]
    obtain ⟨o, x, h⟩ : ∃ o x, getRead s env.now { key := k } {} = (o, x) := ⟨_, _, rfl⟩
    cases x <;> simp only [h]
  cases hd : dbGet s.db k with
  | none => rw [h2, getRead_none (e := { key := k }) hd] at ht; cases ht
  | some raw =>
    rw [getRead_some (e := { key := k }) hd (hs.1 _ _ hd)] at h2
    split at h2
    · rw [h2] at ht; cases ht
    · rw [h2]
      refine ⟨rfl, ?_⟩
      have := rawOk_size (hs.1 _ _ hd) { key := k }
      rw [List.length_drop]; exact this

theorem shown_item {t : ResponseType} (ht : t ≠ .dump) {now : Int64} {e : Entry} (h : e.size.toNat ≤ e.data.length) :
    shown t now e =
      shown t now ((⟨e.data.take e.size.toNat, e.flag, e.expire, e.version⟩ : Item).entry e.key) := by
  have h1 : (e.data.take e.size.toNat).length = e.size.toNat := by rw [List.length_take]; omega
  have h2 : UInt64.ofNat (e.data.take e.size.toNat).length = e.size := by rw [h1]; simp
  simp only [shown, Item.entry, h2, List.take_take, Nat.min_self, if_neg ht]

/-- What the outcomes of a request are, for the answers of a session. -/
def OutcomeFit (x : MemAsk × Out) : Prop :=
  CameFrom x.1 x.2 ∧ x.2.rc ≠ .ub ∧ x.2.e.size.toNat + 16384 ≤ intMax ∧
    ∀ r, x.1 = .write r → x.1.told x.2 = .failed → r.entry.option &&& optNoreply = 0

theorem oracle_keys (ds : List (MemAsk × Out)) (ks : List Bytes) (h : ds.map (·.1) = ks.map .read)
    (more : List Out) :
    readKeys oracle (ds.map (·.2) ++ more) ks = (more, ks.zip (ds.map fun x => ReadAt.here x.2)) := by
  induction ks generalizing ds with
  | nil =>
    have : ds = [] := by simpa using h
    subst this; rfl
  | cons k ks ih =>
    cases ds with
    | nil => cases h
    | cons d ds =>
      simp only [List.map_cons, List.cons.injEq] at h
      have := ih ds h.2
      simp only [List.map_cons, List.cons_append, readKeys, oracle, List.tail_cons, List.head?_cons, Option.getD_some,
        List.zip_cons_cons] at this ⊢
      rw [this]

/-- One request of a session. -/
theorem oracle_one (now : Int64) (r : SReq) (hp : r.Proper) (ds : List (MemAsk × Out))
    (ha : ds.map (·.1) = (r.seen now).asks) (hd : ∀ x ∈ ds, OutcomeFit x) (more : List Out) :
    (perform oracle (ds.map (·.2) ++ more) (r.seen now)).1 = more ∧
    Did.Sound (r.seen now) (perform oracle (ds.map (·.2) ++ more) (r.seen now)).2 ∧
    Did.loud (r.seen now) (perform oracle (ds.map (·.2) ++ more) (r.seen now)).2 = false ∧
    r.reply now (perform oracle (ds.map (·.2) ++ more) (r.seen now)).2 =
      r.told now (ds.map fun x => x.1.told x.2) := by
  cases r with
  | write x =>
    simp only [SReq.seen, SReq.asks] at ha
    obtain ⟨d, rfl⟩ : ∃ d, ds = [d] := by
      have := congrArg List.length ha
      rw [List.length_map] at this
      exact List.length_eq_one_iff.1 this
    obtain ⟨a, o⟩ := d
    simp only [List.map_cons, List.map_nil, List.cons.injEq, and_true] at ha
    subst ha
    obtain ⟨h1, h2, h3, h4⟩ := hd _ List.mem_cons_self
    simp only at h1 h2 h3 h4
    have hkey : (arrives now x).entry.key = x.entry.key := by
      simp only [arrives]; split <;> rfl
    have hcmd : (arrives now x).cmd = x.cmd := arrives_cmd now x
    have hsound : Done.Sound x.cmd (.own o) := by
      obtain ⟨s, env, -, ho⟩ := h1
      rw [show (MemAsk.write (arrives now x)).cmd = (arrives now x).call from rfl, firstSection_out] at ho
      subst ho
      rw [← hcmd]
      exact C71_own_outcome s env (arrives now x) h2 (fun _ => ⟨by rw [hkey]; exact hp.1, h3⟩)
    simp only [SReq.seen, perform, oracle, List.map_cons, List.map_nil, List.cons_append, List.nil_append,
      List.tail_cons, List.head?_cons, Option.getD_some]
    refine ⟨trivial, by simp only [Did.Sound, hcmd]; exact hsound, ?_, ?_⟩
    · simp only [Did.loud]
      cases hrc : o.rc with
      | err =>
        have := h4 _ rfl (by simp only [MemAsk.told, hrc])
        simp [this]
      | ok => simp
      | ub => exact absurd hrc h2
    · simp only [SReq.reply, SReq.told]
      cases hs : (SReq.write x).silent with
      | true => rfl
      | false =>
        simp only [Bool.false_eq_true, if_false, Done.reply, MemAsk.told, hcmd]
        cases hrc : o.rc with
        | ub => exact absurd hrc h2
        | err => rfl
        | ok =>
          obtain ⟨y, hy, -, hv⟩ := hsound.2 hrc
          simp only [hy]
          by_cases g1 : x.cmd.kind = .count ∧ y = .stored
          · rw [if_pos g1, if_pos g1]
          · rw [if_neg g1, if_neg g1]
            by_cases g2 : x.cmd = .gat ∧ y = .touched
            · rw [if_pos g2, if_pos g2]
              have hk := cameFrom_gat h1 (by rw [hcmd]; exact g2.1) (by rw [hy, g2.2])
              have hsv := (hv g2.1 g2.2).2
              have hle : o.e.size.toNat ≤ o.e.data.length := by
                simp only [response] at hsv
                split at hsv
                next h => exact h.2
                · cases hsv
              rw [shown_item (by decide) hle, hk, hkey]
            · rw [if_neg g2, if_neg g2]
  | get t ks =>
    simp only [SReq.seen, SReq.asks] at ha
    simp only [SReq.seen, perform, oracle_keys ds ks ha more]
    have hzip : ∀ k y, (k, y) ∈ ks.zip (ds.map fun x => ReadAt.here x.2) → k ∈ ks ∧ ∃ o, y = .here o ∧
        OutcomeFit (.read k, o) := by
      clear hp
      induction ks generalizing ds with
      | nil => intro k y h; cases h
      | cons j ks ih =>
        cases ds with
        | nil => intro k y h; cases h
        | cons d ds =>
          simp only [List.map_cons, List.cons.injEq] at ha
          intro k y h
          simp only [List.map_cons, List.zip_cons_cons, List.mem_cons, Prod.mk.injEq] at h
          rcases h with ⟨rfl, rfl⟩ | h
          · refine ⟨List.mem_cons_self, _, rfl, ?_⟩
            have := hd d List.mem_cons_self
            obtain ⟨a, o⟩ := d
            simp only at ha
            rw [ha.1] at this
            exact this
          · obtain ⟨h1, h2⟩ := ih ds (fun x h => hd x (List.mem_cons_of_mem _ h)) ha.2 k y h
            exact ⟨List.mem_cons_of_mem _ h1, h2⟩
    have hfound : ∀ k o, OutcomeFit (.read k, o) → ∀ e, (ReadAt.here o).found = some e →
        e = o.e ∧ e.key = k ∧ e.size.toNat = e.data.length ∧ e.size.toNat + 16384 ≤ intMax ∧
          (MemAsk.read k).told o = .value ⟨e.data.take e.size.toNat, e.flag, e.expire, e.version⟩ := by
      intro k o hf e he
      simp only [ReadAt.found] at he
      split at he
      next h =>
        cases he
        have := cameFrom_read hf.1 h.2
        refine ⟨rfl, this.1, this.2, hf.2.2.1, ?_⟩
        simp only [MemAsk.told, h.1, h.2]
      · cases he
    have hlost : ∀ k o, (ReadAt.here o).found = none → ∀ it, (MemAsk.read k).told o ≠ .value it := by
      intro k o he it
      simp only [ReadAt.found] at he
      split at he
      · cases he
      next h =>
        simp only [MemAsk.told]
        split
        next h1 h2 => exact absurd ⟨h1, h2⟩ h
        · simp
        · simp
    refine ⟨trivial, ?_, rfl, ?_⟩
    · simp only [Did.Sound]
      rintro ⟨k, y⟩ hx e he
      obtain ⟨hk, o, rfl, hf⟩ := hzip k y hx
      obtain ⟨-, g1, g2, g3, -⟩ := hfound k o hf e he
      have hpk := hp.2.2.2 k hk
      refine ⟨by rw [g1]; exact hpk, ?_⟩
      have := hpk.2.2
      simp only [response, g1]
      rw [if_pos ⟨by omega, by omega⟩]
      rfl
    · have htd : t ≠ .dump := by rcases hp.1 with h | h <;> rw [h] <;> decide
      simp only [SReq.reply, SReq.told, SReq.silent, Bool.false_eq_true, if_false, Reply.values.injEq]
      clear hp
      induction ks generalizing ds with
      | nil => rfl
      | cons j ks ih =>
        cases ds with
        | nil => cases ha
        | cons d ds =>
          simp only [List.map_cons, List.cons.injEq] at ha
          obtain ⟨a, o⟩ := d
          simp only at ha
          obtain ⟨rfl, ha⟩ := ha
          have ih := ih ds (fun x h => hd x (List.mem_cons_of_mem _ h)) ha (fun k y h => by
            have hm : (k, y) ∈ (j :: ks).zip (((MemAsk.read j, o) :: ds).map fun x => ReadAt.here x.2) :=
              List.mem_cons_of_mem _ h
            obtain ⟨-, o', h1, h2⟩ := hzip k y hm
            exact ⟨(List.of_mem_zip h).1, o', h1, h2⟩)
          have hf := hd _ List.mem_cons_self
          simp only [List.map_cons, List.zip_cons_cons, List.filterMap_cons, ih]
          cases he : (ReadAt.here o).found with
          | none =>
            simp only [Option.map_none]
            cases ht : (MemAsk.read j).told o with
            | value it => exact absurd ht (hlost j o he it)
            | _ => rfl
          | some e =>
            obtain ⟨g0, g1, g2, -, g4⟩ := hfound j o hf e he
            simp only [Option.map_some, g4]
            rw [shown_item htd (by omega), g1]
  | ping =>
    have : ds = [] := by simpa [SReq.seen, SReq.asks] using ha
    subst this; exact ⟨rfl, trivial, rfl, rfl⟩
  | version =>
    have : ds = [] := by simpa [SReq.seen, SReq.asks] using ha
    subst this; exact ⟨rfl, trivial, rfl, rfl⟩
  | verbosity n b =>
    have : ds = [] := by simpa [SReq.seen, SReq.asks] using ha
    subst this
    exact ⟨rfl, trivial, rfl, rfl⟩
  | quit =>
    have : ds = [] := by simpa [SReq.seen, SReq.asks] using ha
    subst this; exact ⟨rfl, trivial, rfl, rfl⟩
  | flush b =>
    simp only [SReq.seen, SReq.asks] at ha
    obtain ⟨d, rfl⟩ : ∃ d, ds = [d] := by
      have := congrArg List.length ha
      rw [List.length_map] at this
      exact List.length_eq_one_iff.1 this
    obtain ⟨a, o⟩ := d
    simp only [List.map_cons, List.map_nil, List.cons.injEq, and_true] at ha
    subst ha
    refine ⟨rfl, trivial, rfl, ?_⟩
    simp only [SReq.seen, SReq.reply, SReq.told, perform, oracle, List.map_cons, List.map_nil, List.cons_append,
      List.nil_append, List.head?_cons, Option.map_some, MemAsk.told]
    split
    · rfl
    · by_cases hrc : o.rc = .ok
      · simp [hrc]
      · simp [hrc]


/-- What the session of a client does when it is told the outcomes of its calls. -/
theorem oracle_reads (now : Int64) (rs : List SReq) (hp : ∀ r ∈ rs, r.Proper) (ds : List (MemAsk × Out))
    (ha : ds.map (·.1) = asksOf (rs.map (SReq.seen now)))
    (hd : ∀ x ∈ ds, OutcomeFit x) :
    (∀ x ∈ (performAll oracle (ds.map (·.2)) (rs.map (SReq.seen now))).2,
      Did.Sound x.1 x.2 ∧ Did.loud x.1 x.2 = false) ∧
    List.zipWith (fun r d => r.reply now d.2) rs
        (performAll oracle (ds.map (·.2)) (rs.map (SReq.seen now))).2 =
      repliesOf now rs (ds.map (fun x => x.1.told x.2)) := by
  induction rs generalizing ds with
  | nil => exact ⟨fun x h => (by cases h), rfl⟩
  | cons r rs ih =>
    have hpr := hp r List.mem_cons_self
    have ih := ih (fun r h => hp r (List.mem_cons_of_mem _ h))
    simp only [List.map_cons, asksOf, List.flatMap_cons] at ha
    obtain ⟨d1, d2, rfl, h1, h2⟩ := List.map_eq_append_iff.1 ha
    have hd1 : ∀ x ∈ d1, _ := fun x h => hd x (List.mem_append_left _ h)
    obtain ⟨ih1, ih2⟩ := ih d2 h2 (fun x h => hd x (List.mem_append_right _ h))
    have hlen : d1.length = r.asks.length := by
      have := congrArg List.length h1
      rw [List.length_map] at this
      rw [this]
      cases r <;> simp [SReq.seen, SReq.asks]
    obtain ⟨g1, g2, g3, g4⟩ := oracle_one now r hpr d1 h1 hd1 (d2.map (·.2))
    simp only [List.map_cons, List.map_append, performAll, g1, List.zipWith_cons_cons, repliesOf]
    rw [List.take_left' (by rw [List.length_map]; exact hlen), List.drop_left' (by rw [List.length_map]; exact hlen)]
    refine ⟨?_, by rw [g4, ih2]⟩
    intro x hx
    rcases List.mem_cons.1 hx with rfl | hx
    · exact ⟨g2, g3⟩
    · exact ih1 x hx

/-- From the bytes of any number of clients to one memory: each client sends requests of the protocol, the
calls of all sessions are interleaved in any way, and each client reads exactly what the memory says, in the
order of its requests.  The memory is the same for all.  Missing: as in `C79_one_memory_partial`; and requests
for no answer must not fail (`C71_noreply_answered`), `quit` is left out (`C71_quit`). -/
theorem C79_clients_partial (s : Shared) (hs : s.store.Ok) (l : List AskEv) (hc : ∀ e ∈ l, e.client)
    (hub : AllSendable s l) (hh : AllHarmless s l) (hq : QuietOk (memSeen s l))
    (first q w v : Bytes) (hf : first.length = 1024) (hql : q.length = 8192) (hw : w.length = 8192)
    (hv : v.length = 8192) (now : Nat → Int64) (rs : Nat → List SReq) (bs : Nat → List Bytes)
    (hp : ∀ c, ∀ r ∈ rs c, r.Proper) (hx : ∀ c, ∀ r ∈ rs c, r ≠ .quit)
    (hb : ∀ c, (rs c).map encodeReq = (bs c).map some)
    (ha : ∀ c, askedBy c (memSeen s l) = asksOf ((rs c).map (SReq.seen (now c)))) :
    Explains (memoryOf s.store) (memSeen s l) (memoryOf (memRun s l).store) ∧
    ∀ c, readReplies (now c) w v (rs c)
        (serveAll oracle (now c) first q (outsBy c s l) (bs c).flatten).out =
      .ok (repliesOf (now c) (rs c) (toldBy c (memSeen s l)), []) := by
  refine ⟨C79_one_memory_partial l s hs hc (fun c n cmd o h => (hub c n cmd o h).1) hh, fun c => ?_⟩
  obtain ⟨h1, h2, h3, h4⟩ := callsBy_spec c l s hs
  have hfit : ∀ x ∈ callsBy c s l, OutcomeFit x := by
    intro x hx
    obtain ⟨g1, ⟨n, g2⟩, m, g3⟩ := h4 x hx
    obtain ⟨g4, g5⟩ := hub _ _ _ _ g2
    refine ⟨g1, g4, g5, fun r hr ht => ?_⟩
    rw [ht, hr] at g3
    exact hq _ _ _ g3
  obtain ⟨g1, g2⟩ := oracle_reads (now c) (rs c) (hp c) (callsBy c s l) (by rw [← h1]; exact ha c) hfit
  rw [← h3] at g1 g2
  rw [← h2] at g2
  have := C71_in_step_partial oracle (now c) first q w v hf hql hw hv (rs c) (bs c) (hp c) (hx c) (hb c)
    (outsBy c s l) (fun x h => (g1 x h).1) (fun x h => (g1 x h).2)
  obtain ⟨-, k2, k3⟩ := this
  rw [k3]
  have k4 := congrArg Prod.snd k2
  simp only at k4
  rw [k4, g2]

/-- The same for a node that starts empty, with a clock that does not go back, room for all keys in the deletion
cache, and clients that use neither `flush_all` nor deletions with a hold; whatever the threads do. -/
theorem C79_orderly_clients (K : List Bytes) (size : Nat) (hK : K.length ≤ size) (l : List AskEv)
    (hn : l.length < 2 ^ 64) (ht : l.Pairwise fun x y => x.now ≤ y.now) (hc : ∀ e ∈ l, e.client)
    (hk : ∀ e ∈ l, e.calm K) (hub : AllSendable { store := { cacheSize := size } } l)
    (hq : QuietOk (memSeen { store := { cacheSize := size } } l))
    (first q w v : Bytes) (hf : first.length = 1024) (hql : q.length = 8192) (hw : w.length = 8192)
    (hv : v.length = 8192) (now : Nat → Int64) (rs : Nat → List SReq) (bs : Nat → List Bytes)
    (hp : ∀ c, ∀ r ∈ rs c, r.Proper) (hx : ∀ c, ∀ r ∈ rs c, r ≠ .quit)
    (hb : ∀ c, (rs c).map encodeReq = (bs c).map some)
    (ha : ∀ c, askedBy c (memSeen { store := { cacheSize := size } } l) =
      asksOf ((rs c).map (SReq.seen (now c)))) :
    ∃ m, Explains (fun _ => .empty) (memSeen { store := { cacheSize := size } } l) m ∧
    ∀ c, readReplies (now c) w v (rs c)
        (serveAll oracle (now c) first q (outsBy c { store := { cacheSize := size } } l) (bs c).flatten).out =
      .ok (repliesOf (now c) (rs c) (toldBy c (memSeen { store := { cacheSize := size } } l)), []) := by
  have hdef : Defined { store := { cacheSize := size } } l := fun c n cmd o h => (hub c n cmd o h).1
  have hok : Store.Ok { cacheSize := size } := ⟨by simp [dbGet], by simp, by simp⟩
  have h := C79_clients_partial _ hok l hc hub (orderly_harmless K size hK l hn ht hc hk hdef) hq first q w v hf hql
    hw hv now rs bs hp hx hb ha
  exact ⟨_, h.1, h.2⟩

/-! ### Examples -/

def memKey : Bytes := ascii "k"

/-- A store of a value that is good until `x`. -/
def memPut (k d : Bytes) (x : Int64) : MemAsk :=
  .write { cmd := .set, entry := { key := k, expire := x, size := UInt64.ofNat d.length, data := d } }

def memDel (k : Bytes) (x : Int64) : MemAsk := .write { cmd := .delete, entry := { key := k, expire := x } }

def memAdd (k d : Bytes) : MemAsk :=
  .write { cmd := .add, entry := { key := k, size := UInt64.ofNat d.length, data := d } }

def memIncr (k : Bytes) (n : UInt64) : MemAsk := .write { cmd := .incr, entry := { key := k }, value := n }

/-- Three clients; the first section of the `get` of client 2 is at 1020, its removal of the record that has
expired at 1010 comes after the store of client 3. -/
def busyRun : List AskEv :=
  [.ask 1 { now := 1000 } (memPut memKey (ascii "41") 1010), .ask 3 { now := 1005 } (memIncr memKey 1),
   .ask 2 { now := 1020 } (.read memKey), .ask 3 { now := 1020 } (memPut memKey (ascii "new") 0),
   .late 2 { now := 1021 }, .ask 1 { now := 1021 } (.read memKey), .ask 2 { now := 1022 } (memDel memKey 0),
   .ask 3 { now := 1022, putOk := false } (memAdd memKey (ascii "x")), .ask 1 { now := 1022 } (memAdd memKey (ascii "y"))]

example : memSeen { store := { cacheSize := 8 } } busyRun =
    [.did 1 1000 (memPut memKey (ascii "41") 1010) (.said .stored),
     .did 3 1005 (memIncr memKey 1) (.number 42),
     .did 2 1020 (.read memKey) (.said .notFound),
     .did 3 1020 (memPut memKey (ascii "new") 0) (.said .stored),
     .quiet 1021,
     .did 1 1021 (.read memKey) (.value ⟨ascii "new", 0, 0, 3⟩),
     .did 2 1022 (memDel memKey 0) (.said .deleted),
     .did 3 1022 (memAdd memKey (ascii "x")) .failed,
     .did 1 1022 (memAdd memKey (ascii "y")) (.said .stored)] := by decide +kernel

example : ∃ m, Explains (fun _ => .empty) (memSeen { store := { cacheSize := 8 } } busyRun) m := by
  refine ⟨_, C79_orderly [memKey] 8 (by decide) busyRun (by decide) (by decide +kernel) ?_ ?_ ?_⟩
  · intro e he
    simp only [busyRun, List.mem_cons, List.not_mem_nil, or_false] at he
    rcases he with rfl | rfl | rfl | rfl | rfl | rfl | rfl | rfl | rfl <;>
      first | trivial | exact ⟨fun _ => rfl, fun _ => ⟨by decide, by decide +kernel⟩⟩ |
        exact ⟨fun _ => rfl, fun h => absurd h (by decide)⟩
  · intro e he
    simp only [busyRun, List.mem_cons, List.not_mem_nil, or_false] at he
    rcases he with rfl | rfl | rfl | rfl | rfl | rfl | rfl | rfl | rfl <;>
      first | trivial | exact List.mem_cons_self | exact ⟨List.mem_cons_self, fun h => by cases h⟩ |
        exact ⟨List.mem_cons_self, fun _ => rfl⟩
  · have h : ∀ x ∈ shSeen { store := { cacheSize := 8 } } (busyRun.map AskEv.ev),
        (match x with | .did _ _ _ o => decide (o.rc ≠ .ub) | .quiet _ => true) = true := by decide +kernel
    intro c now cmd o ho
    have := h _ ho
    simpa using this

/-- Two clients that send their requests at once; what they read is what the memory says. -/
example :
    let l : List AskEv := [.ask 1 { now := 1000 } (memPut memKey (ascii "41") 0), .ask 2 { now := 1000 } (.read memKey),
      .ask 1 { now := 1000 } (memIncr memKey 1), .ask 2 { now := 1000 } (.read (ascii "j"))]
    let s : Shared := { store := { cacheSize := 8 } }
    let z := List.replicate 64 (0 : UInt8)
    askedBy 1 (memSeen s l) = asksOf ([.write { cmd := .set, entry := { key := memKey, size := 2, data := ascii "41" } },
      .write { cmd := .incr, entry := { key := memKey }, value := 1 }].map (SReq.seen 1000)) ∧
    askedBy 2 (memSeen s l) = asksOf [.get .gets [memKey, ascii "j"]] ∧
    (serveAll oracle 1000 z z (outsBy 1 s l) (ascii "set k 0 0 2\r\n41\r\nincr k 1\r\n")).out =
      ascii "STORED\r\n42\r\n" ∧
    (serveAll oracle 1000 z z (outsBy 2 s l) (ascii "gets k j\r\n")).out = ascii "VALUE k 0 2 1\r\n41\r\nEND\r\n" ∧
    repliesOf 1000 [.get .gets [memKey, ascii "j"]] (toldBy 2 (memSeen s l)) =
      [.values [{ key := memKey, size := 2, version := 1, data := ascii "41" }]] := by
  refine ⟨by decide +kernel, by decide +kernel, by decide +kernel, by decide +kernel, by decide +kernel⟩

/-! ### Where it is not one memory -/

theorem explains_append {m m' : Memory} {l1 l2 : List MemEv} (h : Explains m (l1 ++ l2) m') :
    ∃ m1, Explains m l1 m1 ∧ Explains m1 l2 m' := by
  induction l1 generalizing m with
  | nil => exact ⟨m, rfl, h⟩
  | cons e l1 ih =>
    cases e with
    | quiet now =>
      obtain ⟨m1, h1, h2⟩ := h
      obtain ⟨m2, h3, h4⟩ := ih h2
      exact ⟨m2, ⟨m1, h1, h3⟩, h4⟩
    | did c now a t =>
      obtain ⟨m1, h1, h2⟩ := h
      obtain ⟨m2, h3, h4⟩ := ih h2
      exact ⟨m2, ⟨m1, h1, h3⟩, h4⟩

theorem live_kept {now : Int64} {x y : MemSlot} {it : Item} (h : SlotFades now x y) (hl : x.live now = some it) :
    y.live now = some it := by
  rcases h with rfl | ⟨h, -⟩ | ⟨-, u, v, rfl⟩
  · exact hl
  · rw [h] at hl; cases hl
  · cases hl

/-- No memory explains that a value is stored for good and is not there when it is read next, however much time
passes in between. -/
theorem lost_unexplained (m m' : Memory) (c c' : Nat) (k d : Bytes) (t1 t2 t3 : Int64) :
    ¬ Explains m [.did c t1 (memPut k d 0) (.said .stored), .quiet t2, .did c' t3 (.read k) (.said .notFound)] m' := by
  rintro ⟨m1, h1, m2, h2, m3, h3, -⟩
  have hall : ∀ (x : MemSlot) (d : Bytes) (v : UInt64) (t : Int64), x = .full ⟨d, 0, 0, v⟩ → x.live t = some ⟨d, 0, 0, v⟩ := by
    rintro x d v t rfl
    simp only [MemSlot.live]
    rw [if_neg (fun h => absurd h.1 (by decide))]
  have hfull : ∀ (x y : MemSlot) (d : Bytes) (v : UInt64) (t : Int64), x = .full ⟨d, 0, 0, v⟩ → SlotFades t x y →
      y = .full ⟨d, 0, 0, v⟩ := by
    rintro x y d v t rfl (rfl | ⟨h, -⟩ | ⟨-, u, w, h⟩)
    · rfl
    · rw [hall _ _ _ _ rfl] at h; cases h
    · cases h
  rcases h1 with ⟨h, -⟩ | ⟨-, h1⟩
  · cases h
  · have k1 := h1 k
    simp only [memPut, memDo, memWrite, if_true] at k1
    have k2 := hfull _ _ _ _ _ rfl k1
    have k3 := hfull _ _ _ _ _ k2 (h2 k)
    rcases h3 with ⟨h, -⟩ | ⟨h, -⟩
    · cases h
    · simp only [memDo, hall _ _ _ _ k3] at h
      cases h

/-- Client 2 looks for a value that has expired; before it comes to remove it, client 3 empties the node and
stores a value under the same key. -/
def flushRun : List AskEv :=
  [.ask 1 { now := 1000 } (memPut memKey (ascii "old") 1010), .ask 2 { now := 1020 } (.read memKey),
   .ask 3 { now := 1020 } .clear, .ask 3 { now := 1020 } (memPut memKey (ascii "new") 0), .late 2 { now := 1020 },
   .ask 3 { now := 1020 } (.read memKey)]

/-- Defect: `get` removes the record it has found expired after it has let the lock go, and knows it by its
version alone.  `flush_all` makes the versions start again at 1, so the value stored after it has the version of
the old one and is removed with no trace.  No memory explains what the clients have been told. -/
theorem C79_flush_undone :
    memSeen { store := { cacheSize := 8 } } flushRun =
      [.did 1 1000 (memPut memKey (ascii "old") 1010) (.said .stored), .did 2 1020 (.read memKey) (.said .notFound),
       .did 3 1020 .clear .cleared, .did 3 1020 (memPut memKey (ascii "new") 0) (.said .stored), .quiet 1020,
       .did 3 1020 (.read memKey) (.said .notFound)] ∧
    ∀ m', ¬ Explains (fun _ => .empty) (memSeen { store := { cacheSize := 8 } } flushRun) m' := by
  have h : memSeen { store := { cacheSize := 8 } } flushRun =
      [.did 1 1000 (memPut memKey (ascii "old") 1010) (.said .stored), .did 2 1020 (.read memKey) (.said .notFound),
       .did 3 1020 .clear .cleared] ++ [.did 3 1020 (memPut memKey (ascii "new") 0) (.said .stored), .quiet 1020,
       .did 3 1020 (.read memKey) (.said .notFound)] := by decide +kernel
  refine ⟨h, fun m' he => ?_⟩
  rw [h] at he
  obtain ⟨m1, -, h2⟩ := explains_append he
  exact lost_unexplained _ _ _ _ _ _ _ _ _ h2

/-- The deletion cache has room for one key.  Clients 2 and 4 both look for the expired value; client 4 removes
it, client 1 deletes another key, so that the version is forgotten; then client 3 stores. -/
def evictRun : List AskEv :=
  [.ask 1 { now := 1000 } (memPut memKey (ascii "old") 1010), .ask 1 { now := 1000 } (memPut (ascii "j") (ascii "x") 0),
   .ask 2 { now := 1020 } (.read memKey), .ask 4 { now := 1020 } (.read memKey), .late 4 { now := 1020 },
   .ask 1 { now := 1020 } (memDel (ascii "j") 0), .ask 3 { now := 1020 } (memPut memKey (ascii "new") 0),
   .late 2 { now := 1020 }, .ask 3 { now := 1020 } (.read memKey)]

/-- Defect: the same without `flush_all`, when the deletion cache has forgotten the version. -/
theorem C79_eviction_undone :
    ∀ m', ¬ Explains (fun _ => .empty) (memSeen { store := { cacheSize := 1 } } evictRun) m' := by
  have h : memSeen { store := { cacheSize := 1 } } evictRun =
      [.did 1 1000 (memPut memKey (ascii "old") 1010) (.said .stored),
       .did 1 1000 (memPut (ascii "j") (ascii "x") 0) (.said .stored), .did 2 1020 (.read memKey) (.said .notFound),
       .did 4 1020 (.read memKey) (.said .notFound), .quiet 1020, .did 1 1020 (memDel (ascii "j") 0) (.said .deleted)] ++
      [.did 3 1020 (memPut memKey (ascii "new") 0) (.said .stored), .quiet 1020,
       .did 3 1020 (.read memKey) (.said .notFound)] := by decide +kernel
  intro m' he
  rw [h] at he
  obtain ⟨m1, -, h2⟩ := explains_append he
  exact lost_unexplained _ _ _ _ _ _ _ _ _ h2

/-- Client 3 deletes the key with a hold of 480 seconds while client 2 is about to remove the expired value. -/
def holdRun : List AskEv :=
  [.ask 1 { now := 1000 } (memPut memKey (ascii "old") 1010), .ask 2 { now := 1020 } (.read memKey),
   .ask 3 { now := 1020 } (memDel memKey 1500), .ask 3 { now := 1020 } (memAdd memKey (ascii "a")),
   .late 2 { now := 1020 }, .ask 3 { now := 1020 } (memAdd memKey (ascii "b"))]

/-- Defect: the late removal takes the hold of a deletion away: the first `add` is refused, the second, at the
same time, is not. -/
theorem C79_hold_lost :
    askedBy 3 (memSeen { store := { cacheSize := 8 } } holdRun) =
      [memDel memKey 1500, memAdd memKey (ascii "a"), memAdd memKey (ascii "b")] ∧
    toldBy 3 (memSeen { store := { cacheSize := 8 } } holdRun) =
      [.said .notFound, .said .notStored, .said .stored] := by
  refine ⟨by decide +kernel, by decide +kernel⟩

/-- One client writes 1 to `a` and then to `b`, another reads both with one `get`. -/
def tornRun : List AskEv :=
  [.ask 1 { now := 1000 } (memPut (ascii "a") (ascii "0") 0), .ask 1 { now := 1000 } (memPut (ascii "b") (ascii "0") 0),
   .ask 2 { now := 1000 } (.read (ascii "a")), .ask 1 { now := 1000 } (memPut (ascii "a") (ascii "1") 0),
   .ask 1 { now := 1000 } (memPut (ascii "b") (ascii "1") 0), .ask 2 { now := 1000 } (.read (ascii "b"))]

/-- A `get` of several keys is not one request: it may show a value of `a` with a value of `b` that was stored
only after `a` had been replaced, a pair that was never there. -/
theorem C79_get_torn :
    let s : Shared := { store := { cacheSize := 8 } }
    askedBy 2 (memSeen s tornRun) = asksOf [.get .get [ascii "a", ascii "b"]] ∧
    repliesOf 1000 [.get .get [ascii "a", ascii "b"]] (toldBy 2 (memSeen s tornRun)) =
      [.values [{ key := ascii "a", size := 1, data := ascii "0" }, { key := ascii "b", size := 1, data := ascii "1" }]] ∧
    ∀ n ≤ tornRun.length,
      let m := memoryOf (memRun s (tornRun.take n)).store
      ¬ (((m (ascii "a")).live 1000).map (·.data) = some (ascii "0") ∧
        ((m (ascii "b")).live 1000).map (·.data) = some (ascii "1")) := by
  refine ⟨by decide +kernel, by decide +kernel, ?_⟩
  intro n hn
  have : ∀ n, n < 7 → (((memoryOf (memRun { store := { cacheSize := 8 } } (tornRun.take n)).store (ascii "a")).live
      1000).map (·.data) = some (ascii "0") ∧ ((memoryOf (memRun { store := { cacheSize := 8 } }
        (tornRun.take n)).store (ascii "b")).live 1000).map (·.data) = some (ascii "1")) → False := by
    decide +kernel
  exact this n (by have : tornRun.length = 6 := rfl; omega)

end Flare
