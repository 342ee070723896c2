import Verif.Spec.BinMemory
import Verif.Props.Memory

/-! ### C81: clients of the binary protocol see the same memory -/
namespace Flare

theorem cameFrom_gat_value {r : WriteReq} {o : Out} (h : CameFrom (.write r) o) (hg : r.cmd = .gat)
    (ht : o.r = some .touched) : o.e.size.toNat = o.e.data.length := by
  obtain ⟨s, env, hs, rfl⟩ := h
  rw [show (MemAsk.write r).cmd = r.call from rfl, firstSection_out] at ht ⊢
  simp only [WriteReq.call, hg, step] at ht ⊢
  cases hl : (memoryOf s r.entry.key).live env.now with
  | none =>
    obtain ⟨s1, cur, h3, h4, -⟩ := set_refused hs (b := .ofTouch) rfl rfl hl
    have hck : setCheck (setState env.now .ofTouch cur false) .ofTouch r.entry.version cur.version =
        .error .notFound := by
      simp only [setCheck, Beh.ofTouch] at h4 ⊢
      simp [h4]
    simp only [set, h3, hck] at ht
    cases ht
  | some it =>
    rcases set_touched hs hl with ⟨-, h4⟩ | ⟨e', h3, h4, h5, h6, h7, -, h8⟩
    · rcases set_cases s env r.entry .ofTouch with ⟨-, -, h⟩ | ⟨e', ho, hk, -⟩
      · exact absurd ht h
      · rw [ho] at h4; cases h4
    · rw [h8]; simp only [h7, h6]

theorem cameFrom_read_key {k : Bytes} {o : Out} (h : CameFrom (.read k) o) : o.e.key = k := by
  obtain ⟨s, env, hs, ho⟩ := h
  have h2 : o = (getRead s env.now { key := k } {}).1 := by
    rw [ho]
    simp only [MemAsk.cmd, firstSection]
    obtain ⟨o, x, h⟩ : ∃ o x, getRead s env.now { key := k } {} = (o, x) := ⟨_, _, rfl⟩
    cases x <;> simp only [h]
  cases hd : dbGet s.db k with
  | none => rw [h2, getRead_none (e := { key := k }) hd]
  | some raw =>
    rw [getRead_some (e := { key := k }) hd (hs.1 _ _ hd)] at h2
    rw [h2]
    split <;> rfl

/-- What the outcomes of a request are, for the answers of a session of the binary protocol. -/
def BinFit (x : MemAsk × Out) : Prop :=
  CameFrom x.1 x.2 ∧ x.2.rc ≠ .ub ∧ x.2.e.size.toNat + 65540 ≤ intMax

/-- One write of a session. -/
theorem binOracle_write (op : UInt8) (w : HeldOp) (r : WriteReq) (hcall : r.call = w.call)
    (hcount : r.cmd.kind = .count ↔ w.req.cmd.kind = .count) (hgat : r.cmd = .gat ↔ w.req.cmd = .gat)
    (hkey : r.entry.key.length < 65536) (hop : w.req.cmd = .gat → ¬ (op = 0x0c ∨ op = 0x0d))
    (o : Out) (hd : BinFit (.write r, o)) :
    Done.BSound w.req.cmd (.own o) ∧
    Done.bin op w.req.cmd (.own o) = (match MemAsk.told (.write r) o with
      | .said x => match x with
        | .notFound => .plain op 1 (ascii "Not found")
        | .exists_ => .plain op 2 (ascii "Key exists")
        | .notStored => .plain op 5 (ascii "Item not stored")
        | _ => .plain op 0 []
      | .number n => .plain op 0 (beBytes 8 n)
      | .value it => binItem op [] it
      | _ => .plain op 0x84 (ascii "i/o error")) := by
  obtain ⟨h1, h2, h3⟩ := hd
  simp only at h1 h2 h3
  have hval : w.req.cmd = .gat → o.r = some .touched → BinValue o.e := by
    intro hg ht
    have hk := cameFrom_gat h1 (hgat.2 hg) ht
    have hv := cameFrom_gat_value h1 (hgat.2 hg) ht
    refine ⟨hv, by rw [hk]; exact hkey, ?_⟩
    rw [hk]
    unfold intMax at h3
    omega
  have hsound : Done.BSound w.req.cmd (.own o) := by
    obtain ⟨s, env, -, ho⟩ := h1
    rw [show (MemAsk.write r).cmd = r.call from rfl, firstSection_out, hcall] at ho
    subst ho
    exact C72_own_outcome s env w h2 hval
  refine ⟨hsound, ?_⟩
  simp only [Done.bin, MemAsk.told]
  cases hrc : o.rc with
  | ub => exact absurd hrc h2
  | err => rfl
  | ok =>
    obtain ⟨y, hy, -, hv⟩ := hsound.2 hrc
    simp only [hy]
    have e1 : (r.cmd.kind = .count ∧ y = .stored) = (w.req.cmd.kind = .count ∧ y = .stored) := by rw [hcount]
    have e2 : (r.cmd = .gat ∧ y = .touched) = (w.req.cmd = .gat ∧ y = .touched) := by rw [hgat]
    simp only [e1, e2]
    by_cases g1 : w.req.cmd.kind = .count ∧ y = .stored
    · simp only [if_pos g1]
    · simp only [if_neg g1]
      by_cases g2 : w.req.cmd = .gat ∧ y = .touched
      · have := (hv g2.1 g2.2).1
        simp only [if_pos g2, Entry.bin, binItem, if_neg (hop g2.1), this, List.take_length]
      · simp only [if_neg g2]
        cases y <;> rfl

/-- One request of a session. -/
theorem binOracle_one (now : Int64) (a : BinAsk) (hp : a.Plain) (hf : a.msg.Fits)
    (ds : List (MemAsk × Out)) (ha : ds.map (·.1) = a.asks now) (hd : ∀ x ∈ ds, BinFit x) (more : List Out) :
    (bPerform binOracle (ds.map (·.2) ++ more) (a.meaning now)).1 = more ∧
    Did.BSound (a.meaning now) (bPerform binOracle (ds.map (·.2) ++ more) (a.meaning now)).2 ∧
    (a.meaning now).reply a.msg.opcode (bPerform binOracle (ds.map (·.2) ++ more) (a.meaning now)).2 =
      a.told (ds.map fun x => x.1.told x.2) := by
  have one : ∀ {x : MemAsk}, ds.map (·.1) = [x] → ∃ o, ds = [(x, o)] := by
    intro x h
    obtain ⟨d, rfl⟩ := List.length_eq_one_iff.1 (by
      have := congrArg List.length h
      rw [List.length_map] at this
      exact this)
    obtain ⟨y, o⟩ := d
    simp only [List.map_cons, List.map_nil, List.cons.injEq, and_true] at h
    exact ⟨o, by rw [h]⟩
  have hkey := hf.2.1
  have wr : ∀ (w : HeldOp) (r : WriteReq), a.meaning now = .write w → a.asks now = [.write r] → r.call = w.call →
      (r.cmd.kind = .count ↔ w.req.cmd.kind = .count) → (r.cmd = .gat ↔ w.req.cmd = .gat) →
      r.entry.key = a.msg.key → (w.req.cmd = .gat → ¬ (a.msg.opcode = 0x0c ∨ a.msg.opcode = 0x0d)) →
      (∀ t, a.told [t] = (match t with
      | .said x => match x with
        | .notFound => .plain a.msg.opcode 1 (ascii "Not found")
        | .exists_ => .plain a.msg.opcode 2 (ascii "Key exists")
        | .notStored => .plain a.msg.opcode 5 (ascii "Item not stored")
        | _ => .plain a.msg.opcode 0 []
      | .number n => .plain a.msg.opcode 0 (beBytes 8 n)
      | .value it => binItem a.msg.opcode [] it
      | _ => .plain a.msg.opcode 0x84 (ascii "i/o error"))) →
      (bPerform binOracle (ds.map (·.2) ++ more) (a.meaning now)).1 = more ∧
      Did.BSound (a.meaning now) (bPerform binOracle (ds.map (·.2) ++ more) (a.meaning now)).2 ∧
      (a.meaning now).reply a.msg.opcode (bPerform binOracle (ds.map (·.2) ++ more) (a.meaning now)).2 =
        a.told (ds.map fun x => x.1.told x.2) := by
    intro w r h1 h2 h3 h4 h5 h6 h7 h8
    obtain ⟨o, rfl⟩ := one (ha.trans h2)
    obtain ⟨g1, g2⟩ := binOracle_write a.msg.opcode w r h3 h4 h5 (by rw [h6]; exact hkey) h7 o
      (hd _ List.mem_cons_self)
    rw [h1]
    simp only [bPerform, binOracle, List.map_cons, List.map_nil, List.cons_append, List.nil_append, List.tail_cons,
      List.head?_cons, Option.getD_some, Did.BSound, BReq.reply]
    exact ⟨trivial, g1, by rw [g2, h8]⟩
  cases a with
  | set q k v f x c =>
    by_cases hc : c = 0
    · subst hc
      refine wr ⟨{ cmd := .set, entry := binStored now k v f x 0 }, false⟩ _ rfl rfl rfl Iff.rfl Iff.rfl rfl
        (fun h => nomatch h) (fun t => ?_)
      rcases t with _ | (_ | _ | _ | _ | _ | _ | _ | _) | _ | _ | _ <;> rfl
    · refine wr ⟨{ cmd := .set, entry := binStored now k v f x c }, true⟩
        { cmd := .cas, entry := binStored now k v f x c } ?_ ?_ rfl
        ⟨(fun h => by cases h), (fun h => by cases h)⟩ ⟨(fun h => by cases h), (fun h => by cases h)⟩ rfl
        (fun h => nomatch h) (fun t => ?_)
      · simp [BinAsk.meaning, hc]
      · simp [BinAsk.asks, hc]
      · rcases t with _ | (_ | _ | _ | _ | _ | _ | _ | _) | _ | _ | _ <;> rfl
  | add q k v f x c =>
    have hc : c = 0 := hp
    subst hc
    refine wr _ _ rfl rfl rfl Iff.rfl Iff.rfl rfl (fun h => nomatch h) (fun t => ?_)
    rcases t with _ | (_ | _ | _ | _ | _ | _ | _ | _) | _ | _ | _ <;> rfl
  | replace q k v f x c =>
    have hc : c = 0 := hp
    subst hc
    refine wr _ _ rfl rfl rfl Iff.rfl Iff.rfl rfl (fun h => nomatch h) (fun t => ?_)
    rcases t with _ | (_ | _ | _ | _ | _ | _ | _ | _) | _ | _ | _ <;> rfl
  | append q k v c =>
    have hc : c = 0 := hp
    subst hc
    refine wr _ _ rfl rfl rfl Iff.rfl Iff.rfl rfl (fun h => nomatch h) (fun t => ?_)
    rcases t with _ | (_ | _ | _ | _ | _ | _ | _ | _) | _ | _ | _ <;> rfl
  | prepend q k v c =>
    have hc : c = 0 := hp
    subst hc
    refine wr _ _ rfl rfl rfl Iff.rfl Iff.rfl rfl (fun h => nomatch h) (fun t => ?_)
    rcases t with _ | (_ | _ | _ | _ | _ | _ | _ | _) | _ | _ | _ <;> rfl
  | delete q k c =>
    have hc : c = 0 := hp
    subst hc
    refine wr _ _ rfl rfl rfl Iff.rfl Iff.rfl rfl (fun h => nomatch h) (fun t => ?_)
    rcases t with _ | (_ | _ | _ | _ | _ | _ | _ | _) | _ | _ | _ <;> rfl
  | incr q k n i x =>
    refine wr _ _ rfl rfl rfl Iff.rfl Iff.rfl ?_ (fun h => nomatch h) (fun t => ?_)
    · simp only [binCounter, BinAsk.msg]; split <;> rfl
    · rcases t with _ | (_ | _ | _ | _ | _ | _ | _ | _) | _ | _ | _ <;> rfl
  | decr q k n i x =>
    refine wr _ _ rfl rfl rfl Iff.rfl Iff.rfl ?_ (fun h => nomatch h) (fun t => ?_)
    · simp only [binCounter, BinAsk.msg]; split <;> rfl
    · rcases t with _ | (_ | _ | _ | _ | _ | _ | _ | _) | _ | _ | _ <;> rfl
  | touch k x =>
    refine wr _ _ rfl rfl rfl Iff.rfl Iff.rfl rfl (fun h => nomatch h) (fun t => ?_)
    rcases t with _ | (_ | _ | _ | _ | _ | _ | _ | _) | _ | _ | _ <;> rfl
  | gat q k x =>
    refine wr _ _ rfl rfl rfl Iff.rfl Iff.rfl rfl (fun _ => by cases q <;> simp [BinAsk.msg]) (fun t => ?_)
    rcases t with _ | (_ | _ | _ | _ | _ | _ | _ | _) | _ | _ | _ <;> rfl
  | noop =>
    have : ds = [] := by simpa [BinAsk.asks] using ha
    subst this
    exact ⟨rfl, trivial, rfl⟩
  | version =>
    have : ds = [] := by simpa [BinAsk.asks] using ha
    subst this
    exact ⟨rfl, trivial, rfl⟩
  | flush q =>
    obtain ⟨o, rfl⟩ := one ha
    refine ⟨rfl, trivial, ?_⟩
    simp only [BinAsk.meaning, BReq.reply, BinAsk.told, bPerform, binOracle, List.map_cons, List.map_nil,
      List.cons_append, List.nil_append, List.head?_cons, Option.map_some, MemAsk.told]
    by_cases hrc : o.rc = .ok <;> simp [hrc]
  | get q w k =>
    obtain ⟨o, rfl⟩ := one ha
    obtain ⟨h1, h2, h3⟩ := hd _ List.mem_cons_self
    simp only at h1 h2 h3
    have hk := cameFrom_read_key h1
    simp only [BinAsk.msg] at hkey
    have hop : (BinAsk.msg (.get q w k)).opcode = 0x0c ∨ (BinAsk.msg (.get q w k)).opcode = 0x0d ↔ w = true := by
      cases q <;> cases w <;> simp [BinAsk.msg]
    obtain ⟨p, hpp⟩ : ∃ p, p = (BinAsk.msg (.get q w k)).opcode := ⟨_, rfl⟩
    simp only [BinAsk.meaning, bPerform, binOracle, List.map_cons, List.map_nil, List.cons_append, List.nil_append,
      List.tail_cons, List.head?_cons, Option.getD_some, Did.BSound, BReq.reply, BinAsk.told, slotAt, ownSlot,
      ReadAt.found, hk]
    rw [← hpp] at hop ⊢
    refine ⟨trivial, ⟨trivial, hkey, ?_⟩, ?_⟩
    · intro e he
      split at he
      next h =>
        cases he
        have := (cameFrom_read h1 h.2).2
        refine ⟨this, by rw [hk]; exact hkey, ?_⟩
        rw [hk]
        unfold intMax at h3
        omega
      · cases he
    · by_cases h : o.rc = .ok ∧ o.r = some .none_
      · have := (cameFrom_read h1 h.2).2
        rw [if_pos h]
        simp only [MemAsk.told, h.1, h.2, Entry.bin, binItem, hk, this, List.take_length]
        congr 1
        by_cases hw : w = true
        · rw [if_pos (hop.2 hw), if_pos hw]
        · rw [if_neg (fun x => hw (hop.1 x)), if_neg hw]
      · rw [if_neg h]
        have : ∀ it, MemAsk.told (.read k) o ≠ .value it := by
          intro it
          simp only [MemAsk.told]
          split
          next g1 g2 => exact absurd ⟨g1, g2⟩ h
          · simp
          · simp
        have hkw : (if p = 0x0c ∨ p = 0x0d then k else []) = if w = true then k else [] := by
          by_cases hw : w = true
          · rw [if_pos (hop.2 hw), if_pos hw]
          · rw [if_neg (fun x => hw (hop.1 x)), if_neg hw]
        rw [hkw]
        cases ht : MemAsk.told (.read k) o with
        | value it => exact absurd ht (this it)
        | _ => rfl

/-- What the session of a client does when it is told the outcomes of its calls. -/
theorem binOracle_reads (now : Int64) (as : List BinAsk) (hp : ∀ a ∈ as, a.Plain) (hf : ∀ a ∈ as, a.msg.Fits)
    (ds : List (MemAsk × Out)) (ha : ds.map (·.1) = binAsksOf now as) (hd : ∀ x ∈ ds, BinFit x) :
    let p := bPerformAll binOracle (ds.map (·.2)) (as.map fun a => some (a.meaning now))
    p.1 = [] ∧ (∀ r d, some (r, d) ∈ p.2 → Did.BSound r d) ∧
    as.zipWith (fun a x => a.msg.reply x) p.2 = binRepliesOf now as (ds.map fun x => x.1.told x.2) := by
  induction as generalizing ds with
  | nil =>
    have : ds = [] := by simpa [binAsksOf] using ha
    subst this
    exact ⟨rfl, fun r d h => (by cases h), rfl⟩
  | cons a as ih =>
    simp only [binAsksOf, List.flatMap_cons] at ha
    obtain ⟨d1, d2, rfl, h1, h2⟩ := List.map_eq_append_iff.1 ha
    obtain ⟨ih1, ih2, ih3⟩ := ih (fun a h => hp a (List.mem_cons_of_mem _ h))
      (fun a h => hf a (List.mem_cons_of_mem _ h)) d2 h2 (fun x h => hd x (List.mem_append_right _ h))
    obtain ⟨g1, g2, g3⟩ := binOracle_one now a (hp a List.mem_cons_self) (hf a List.mem_cons_self) d1 h1
      (fun x h => hd x (List.mem_append_left _ h)) (d2.map (·.2))
    have hlen : d1.length = (a.asks now).length := by
      rw [← h1, List.length_map]
    simp only [List.map_cons, List.map_append, bPerformAll, g1, List.zipWith_cons_cons, binRepliesOf]
    rw [List.take_left' (by rw [List.length_map]; exact hlen), List.drop_left' (by rw [List.length_map]; exact hlen)]
    refine ⟨ih1, ?_, ?_⟩
    · intro r d hx
      rcases List.mem_cons.1 hx with h | h
      · cases h; exact g2
      · exact ih2 r d h
    · rw [ih3]
      simp only [BinMsg.reply, g3]

/-- From the bytes of any number of clients of either protocol to one memory: the calls of all sessions are
interleaved in any way, calls of the storage may fail, and every client reads exactly what the memory says, in the
order of its requests; the memory is the same for all.  Missing: as in `C79_clients_partial`; and requests of the
binary protocol have no version unless they are `set` (`C81_append_version`, `C81_delete_version`,
`C81_add_version`), and `quit` and `stat` are left out (`C72_quit`). -/
theorem C81_clients_partial (s : Shared) (hs : s.store.Ok) (l : List AskEv) (hc : ∀ e ∈ l, e.client)
    (hub : AllFit s l) (hh : AllHarmless s l) (hq : QuietOk (memSeen s l)) :
    Explains (memoryOf s.store) (memSeen s l) (memoryOf (memRun s l).store) ∧
    (∀ (c : Nat) (now : Int64) (as : List BinAsk), (∀ a ∈ as, a.KeyOk) → (∀ a ∈ as, a.msg.Fits) →
      (∀ a ∈ as, a.Plain) → askedBy c (memSeen s l) = binAsksOf now as →
      let t := binServeAll binOracle now (outsBy c s l) (as.flatMap fun a => a.msg.encode)
      t.stop = .closed ∧ t.st = [] ∧ t.did.map (·.1) = as.map (·.meaning now) ∧
        readBins as.length t.out = some (binRepliesOf now as (toldBy c (memSeen s l)), [])) ∧
    ∀ (c : Nat) (first q w v : Bytes) (now : Int64) (rs : List SReq) (bs : List Bytes), first.length = 1024 →
      q.length = 8192 → w.length = 8192 → v.length = 8192 → (∀ r ∈ rs, r.Proper) → (∀ r ∈ rs, r ≠ .quit) →
      rs.map encodeReq = bs.map some → askedBy c (memSeen s l) = asksOf (rs.map (SReq.seen now)) →
      readReplies now w v rs (serveAll oracle now first q (outsBy c s l) bs.flatten).out =
        .ok (repliesOf now rs (toldBy c (memSeen s l)), []) := by
  refine ⟨C79_one_memory_partial l s hs hc (fun c n cmd o h => (hub c n cmd o h).1) hh, ?_, ?_⟩
  · intro c now as hk hf hp ha
    obtain ⟨h1, h2, h3, h4⟩ := callsBy_spec c l s hs
    have hd : ∀ x ∈ callsBy c s l, BinFit x := by
      intro x hx
      obtain ⟨g1, ⟨n, g2⟩, -⟩ := h4 x hx
      exact ⟨g1, hub _ _ _ _ g2⟩
    obtain ⟨g1, g2, g3⟩ := binOracle_reads now as hp hf (callsBy c s l) (by rw [← h1]; exact ha) hd
    rw [← h3] at g1 g2 g3
    rw [← h2] at g3
    obtain ⟨k1, k2, -, k4, k5⟩ := C72_meaning binOracle now as hk hf (outsBy c s l) g2
    exact ⟨k1, k2.trans g1, k4, k5.trans (by rw [g3])⟩
  · intro c first q w v now rs bs hf hql hw hv hp hx hb ha
    obtain ⟨h1, h2, h3, h4⟩ := callsBy_spec c l s hs
    have hfit : ∀ x ∈ callsBy c s l, OutcomeFit x := by
      intro x hx
      obtain ⟨g1, ⟨n, g2⟩, m, g3⟩ := h4 x hx
      obtain ⟨g4, g5⟩ := hub _ _ _ _ g2
      refine ⟨g1, g4, by omega, fun r hr ht => ?_⟩
      rw [ht, hr] at g3
      exact hq _ _ _ g3
    obtain ⟨g1, g2⟩ := oracle_reads now rs hp (callsBy c s l) (by rw [← h1]; exact ha) hfit
    rw [← h3] at g1 g2
    rw [← h2] at g2
    obtain ⟨-, k2, k3⟩ := C71_in_step_partial oracle now first q w v hf hql hw hv rs bs hp hx hb
      (outsBy c s l) (fun x h => (g1 x h).1) (fun x h => (g1 x h).2)
    rw [k3]
    have k4 := congrArg Prod.snd k2
    simp only at k4
    rw [k4, g2]

/-- The same for a node that starts empty, with a clock that does not go back, room for all keys in the deletion
cache, and clients that use neither `flush_all` nor deletions with a hold; whatever the threads do. -/
theorem C81_orderly_clients (K : List Bytes) (size : Nat) (hK : K.length ≤ size) (l : List AskEv)
    (hn : l.length < 2 ^ 64) (ht : l.Pairwise fun x y => x.now ≤ y.now) (hc : ∀ e ∈ l, e.client)
    (hk : ∀ e ∈ l, e.calm K) (hub : AllFit { store := { cacheSize := size } } l)
    (hq : QuietOk (memSeen { store := { cacheSize := size } } l)) :
    ∃ m, Explains (fun _ => .empty) (memSeen { store := { cacheSize := size } } l) m ∧
    ∀ (c : Nat) (now : Int64) (as : List BinAsk), (∀ a ∈ as, a.KeyOk) → (∀ a ∈ as, a.msg.Fits) →
      (∀ a ∈ as, a.Plain) → askedBy c (memSeen { store := { cacheSize := size } } l) = binAsksOf now as →
      readBins as.length (binServeAll binOracle now (outsBy c { store := { cacheSize := size } } l)
          (as.flatMap fun a => a.msg.encode)).out =
        some (binRepliesOf now as (toldBy c (memSeen { store := { cacheSize := size } } l)), []) := by
  have hdef : Defined { store := { cacheSize := size } } l := fun c n cmd o h => (hub c n cmd o h).1
  have hok : Store.Ok { cacheSize := size } := ⟨by simp [dbGet], by simp, by simp⟩
  obtain ⟨h1, h2, -⟩ := C81_clients_partial _ hok l hc hub (orderly_harmless K size hK l hn ht hc hk hdef) hq
  exact ⟨_, h1, fun c now as a1 a2 a3 a4 => (h2 c now as a1 a2 a3 a4).2.2.2⟩

/-! ### Versions that are not those of `set` -/

/-- The storage call of a request. -/
def BinAsk.call (now : Int64) (a : BinAsk) : Option Cmd :=
  match a.meaning now with
  | .write w => some w.call
  | _ => none

/-- A version given with append or prepend is not compared but taken for that of a copy: with the version the value
has (or a smaller one) the request is refused, with a larger one it is carried out, and that becomes the version. -/
theorem C81_append_version (s : Store) (hs : s.Ok) (env : Env) (q app : Bool) (k v : Bytes) (c : UInt64) (hc : c ≠ 0)
    (hv : headerSize + v.length ≤ intMax) {it : Item} (hl : (memoryOf s k).live env.now = some it) {cmd : Cmd}
    (hcmd : (if app then BinAsk.append q k v c else .prepend q k v c).call env.now = some cmd) :
    (c ≤ it.version → (step s env cmd).1 = s ∧ (step s env cmd).2.rc = .ok ∧
      (step s env cmd).2.r = some .notStored) ∧
    (it.version < c → env.putOk = true → headerSize + (it.data.length + v.length) ≤ intMax →
      (step s env cmd).2.r = some .stored ∧
      memoryOf (step s env cmd).1 k =
        .full ⟨if app then it.data ++ v else v ++ it.data, it.flag, it.expire, c⟩) := by
  have hlen : v.length < 2 ^ 64 := by unfold headerSize intMax at hv; omega
  have hto : (UInt64.ofNat v.length).toNat = v.length := UInt64.toNat_ofNat_of_lt' hlen
  obtain ⟨b, hb⟩ : ∃ b, b = if app then Beh.ofAppend else .ofPrepend := ⟨_, rfl⟩
  have hb' : b = .ofAppend ∨ b = .ofPrepend := by cases app <;> simp [hb]
  have hba : b.append = app := by subst hb; cases app <;> rfl
  have hstep : step s env cmd = set s env (binJoined k v c) b := by
    cases app <;> (cases hcmd; subst hb; rfl)
  rw [hstep]
  obtain ⟨cur, h1, h2, h3, h4, h5, h6, h7⟩ :=
    setCurrent_visible hs (e := binJoined k v c) (b := b) ((live_some hs).1 hl)
  constructor
  · intro hle
    have hck : setCheck .alive b (binJoined k v c).version cur.version = .error .notStored := by
      rcases hb' with rfl | rfl <;> simp [setCheck, Beh.ofAppend, Beh.ofPrepend, binJoined, hc, h3, hle]
    simp only [set, h1, h2, hck, and_self]
  · intro hlt hp hsz
    have hck : setCheck .alive b (binJoined k v c).version it.version = .ok c := by
      have : ¬ c ≤ it.version := UInt64.not_le.2 hlt
      rcases hb' with rfl | rfl <;> simp [setCheck, Beh.ofAppend, Beh.ofPrepend, binJoined, hc, this]
    have he : (binJoined k v c).Ok := ⟨hto.symm, by simp only [binJoined, hto]; exact hv⟩
    have hd : cur.data = it.data := h7 (by rcases hb' with rfl | rfl <;> rfl)
    have hcur : cur.data.length = cur.size.toNat := by rw [hd, h6]
    have hdone : (set s env (binJoined k v c) b).2.rc = .ok := by
      have hap : (b.append || b.prepend) = true := by rcases hb' with rfl | rfl <;> rfl
      have hsum : ((binJoined k v c).size + cur.size).toNat = v.length + it.data.length := by
        rw [UInt64.toNat_add, h6]
        simp only [binJoined, hto]
        apply Nat.mod_eq_of_lt
        unfold headerSize intMax at hsz
        omega
      have hit : it.data.length = cur.data.length := by rw [hd]
      rw [← h3] at hck
      simp only [set, h1, h2, hck, setPrepare, hap, if_true, copyOut_all he.1, copyOut_all hcur, putRecord, hsum,
        ne_eq, not_true_eq_false, if_false]
      rw [if_pos (by omega)]
      simp [hp]
    rcases set_joined_at hs hb' he hl hck (by rw [hdone]; simp) with h | ⟨e', g1, g2, g3, g4⟩
    · rw [h.2] at hdone; cases hdone
    · rw [g4]
      refine ⟨rfl, ?_⟩
      simp only [hba]
      have := congrFun (memoryOf_put s k e' (if app = true then it.data ++ v else v ++ it.data)) k
      rw [if_pos rfl, g1, g2, g3] at this
      exact this

/-- A version given with a deletion is a lower bound: a smaller one is refused as if the key were not there, a larger
one deletes. -/
theorem C81_delete_version (s : Store) (hs : s.Ok) (env : Env) (q : Bool) (k : Bytes) (c : UInt64) (hc : c ≠ 0)
    {it : Item} (hl : (memoryOf s k).live env.now = some it) {cmd : Cmd}
    (hcmd : (BinAsk.delete q k c).call env.now = some cmd) :
    (c < it.version → (step s env cmd).1 = s ∧ (step s env cmd).2.r = some .notFound) ∧
    (it.version ≤ c → env.outOk = true → (step s env cmd).2.r = some .deleted ∧
      ∀ now, (memoryOf (step s env cmd).1 k).live now = none) := by
  obtain rfl : Cmd.remove { key := k, version := c } {} = cmd := Option.some.inj hcmd
  obtain ⟨raw, hraw, rfl, hx⟩ := (lookup_eq_some hs).1 ((live_some hs).1 hl)
  have hc' : (c != 0) = true := by simpa using hc
  constructor
  · intro hlt
    simp only [step, remove, getHeader_present hs hraw, fill_take, hc', Bool.not_false, Bool.true_and, Bool.false_and,
      Bool.or_false, decide_eq_true hlt, if_true, and_self, show (fill raw { key := [] }).version = _ from rfl]
    simp [show (fill raw { key := [] }).version = (itemOf raw).version from rfl, hlt]
  · intro hle ho
    have hlt : ¬ c < (itemOf raw).version := UInt64.not_lt.2 hle
    have hex : isExpired false (itemOf raw).expire env.now = false := by
      cases h : isExpired false (itemOf raw).expire env.now with
      | false => rfl
      | true => exact absurd ((isExpired_false_iff _ _).1 h) hx
    have h2 : remove s env { key := k, version := c } {} =
        (setHeaderCache { s with db := dbOut s.db k } env.now { key := k, version := c },
          ⟨.ok, some .deleted, { key := k, version := c }⟩) := by
      simp only [remove, getHeader_present hs hraw, fill_take, ho]
      simp [show (fill raw { key := [] }).version = (itemOf raw).version from rfl,
        show (fill raw { key := [] }).expire = (itemOf raw).expire from rfl, hlt, hex, hc]
    simp only [step, h2]
    refine ⟨trivial, fun now => ?_⟩
    have hd : dbGet (dbOut s.db k) k = none := dbGet_dbOut_self _ _
    rcases headerCache_self (out_ok hs k) env.now { key := k, version := c } hd with h | h <;> rw [h] <;> rfl

/-- A deletion with a version of a key that is not there leaves that version behind, for the next value of the key to
follow: with the largest one the next value has version 0. -/
theorem C81_version_planted (s : Store) (hs : s.Ok) (hroom : 0 < s.cacheSize) (env : Env) (q : Bool) (k : Bytes)
    (c : UInt64) (hc : c ≠ 0) (ha : dbGet s.db k = none) (hle : (memoryOf s k).version ≤ c) {cmd : Cmd}
    (hcmd : (BinAsk.delete q k c).call env.now = some cmd) :
    (step s env cmd).2.r = some .notFound ∧ memoryOf (step s env cmd).1 k = .gone env.now c ∧
    ∀ (env' : Env) (v : Bytes) (f : UInt32) (x : Int64) (o : Out), env.now ≤ env'.now →
      o = (step (step s env cmd).1 env' (.set ⟨k, f, x, UInt64.ofNat v.length, 0, 0, v⟩ .ofSet)).2 →
      headerSize + v.length ≤ intMax → env'.putOk = true → o.r = some .stored ∧ o.e.version = c + 1 := by
  obtain rfl : Cmd.remove { key := k, version := c } {} = cmd := Option.some.inj hcmd
  have hlt : ¬ c < (memoryOf s k).version := UInt64.not_lt.2 hle
  have h2 : remove s env { key := k, version := c } {} =
      (setHeaderCache s env.now { key := k, version := c }, ⟨.ok, some .notFound, { key := k, version := c }⟩) := by
    obtain ⟨cur, ex, hg⟩ : ∃ cur ex, getHeader s k { key := [] } = (cur, ex) := ⟨_, _, rfl⟩
    obtain ⟨h3, h1⟩ := getHeader_absent_version ha
    rw [hg] at h1 h3
    simp only at h1 h3
    subst h3
    simp [remove, hg, h1, hlt, hc]
  have hm : memoryOf (setHeaderCache s env.now { key := k, version := c }) k = .gone env.now c := by
    rw [memoryOf_absent (by rw [setHeaderCache_db]; exact ha)]
    have := setHeaderCache_get_self hs.2.1 hroom env.now { key := k, version := c }
    simp only at this
    rw [this]
    rfl
  refine ⟨by simp only [step, h2], by simp only [step, h2]; exact hm, ?_⟩
  rintro env' v f x o hn rfl hv hp
  have hok : (setHeaderCache s env.now { key := k, version := c }).Ok := by
    have := remove_ok hs env { key := k, version := c } {}
    rw [h2] at this
    exact this
  have hto : (UInt64.ofNat v.length).toNat = v.length :=
    UInt64.toNat_ofNat_of_lt' (show v.length < 2 ^ 64 by unfold headerSize intMax at hv; omega)
  simp only [step, h2]
  obtain ⟨cur, ex, g1, g2, g3⟩ := setCurrent_slot
    (e := (⟨k, f, x, UInt64.ofNat v.length, 0, 0, v⟩ : Entry)) (env := env') (b := .ofSet) hok rfl rfl
  simp only [hm] at g2 g3
  have hck : ∀ st, setCheck st .ofSet (0 : UInt64) cur.version = .ok (c + 1) := by
    intro st
    rw [g2]
    simp [setCheck, Beh.ofSet, MemSlot.version]
  have hpr : ∀ st (e : Entry), e.data.length = e.size.toNat → setPrepare st .ofSet e cur = .ok (some e) := by
    intro st e he
    simp [setPrepare, Beh.ofSet, copyOut_all he]
  simp only [set, g1, hck]
  rw [hpr _ _ hto.symm]
  simp only [putRecord, hto, if_pos hv, hp, Bool.not_true, Bool.false_eq_true, if_false]
  exact ⟨rfl, trivial⟩

/-- A version given with add: the request never stores anything. -/
theorem C81_add_version (s : Store) (env : Env) (q : Bool) (k v : Bytes) (f x : UInt32) (c : UInt64) (hc : c ≠ 0)
    {cmd : Cmd} (hcmd : (BinAsk.add q k v f x c).call env.now = some cmd) :
    (step s env cmd).1 = s ∧ (step s env cmd).2.rc = .ok ∧
      ((step s env cmd).2.r = some .notStored ∨ (step s env cmd).2.r = some .notFound) := by
  have h : cmd = Cmd.set (binStored env.now k v f x c) { Beh.ofAdd with cas := true } := by
    have := Option.some.inj hcmd
    rw [← this]
    simp [HeldOp.call, WriteReq.call, Beh.ofAdd, hc]
  subst h
  simp only [step, set, setCurrent, Beh.ofAdd, Bool.or_self, Bool.false_eq_true, if_false]
  obtain ⟨cur, ex, hg⟩ : ∃ cur ex, getHeader s (binStored env.now k v f x c).key { key := [] } = (cur, ex) :=
    ⟨_, _, rfl⟩
  simp only [hg]
  generalize setState env.now _ cur ex = st
  cases st <;> simp [setCheck]

/-- The initial value of a counter is not used: a counter that is not there is not made. -/
theorem C81_no_initial (s : Store) (hs : s.Ok) (env : Env) (q up : Bool) (k : Bytes) (n i : UInt64) (x : UInt32)
    (hl : (memoryOf s k).live env.now = none) {cmd : Cmd}
    (hcmd : (if up then BinAsk.incr q k n i x else .decr q k n i x).call env.now = some cmd) :
    (step s env cmd).2.r = some .notFound ∧ (memoryOf (step s env cmd).1 k).live env.now = none := by
  have hkey : (binCounter env.now k i x).key = k := by simp only [binCounter]; split <;> rfl
  have h : cmd = Cmd.incr (binCounter env.now k i x) n up {} := by
    cases up <;> exact (Option.some.inj hcmd).symm
  subst h
  rw [live_eq hs] at hl
  rw [live_eq (by simp only [step]; exact incr_ok hs ..)]
  simp only [step, incr]
  cases hd : dbGet s.db k with
  | none =>
    simp only [incrLocked, hkey, hd]
    exact ⟨trivial, hl⟩
  | some raw =>
    have hr := hs.1 _ _ hd
    have hsz : ¬ raw.length - headerSize ≠ (fill raw { key := [] }).size.toNat := by
      rw [rawOk_size hr]; simp
    have hx : isExpired false (fill raw { key := [] }).expire env.now = true := by
      cases hx : isExpired false (fill raw { key := [] }).expire env.now with
      | true => rfl
      | false =>
        have : lookup s env.now k = some (itemOf raw) := (lookup_eq_some hs).2 ⟨raw, hd, rfl, fun h => by
          have := (isExpired_false_iff _ _).2 h
          rw [show isExpired false (itemOf raw).expire env.now = _ from hx] at this
          cases this⟩
        rw [this] at hl; cases hl
    simp only [incrLocked, hkey, hd, unserializeHeader_of_len hr.1, if_neg hsz, hx, if_true, removeExpired]
    refine ⟨trivial, ?_⟩
    obtain ⟨e, he⟩ : ∃ e, e = { fill raw { key := [] } with key := k } := ⟨_, rfl⟩
    rw [← he]
    have hke : e.key = k := by rw [he]
    cases hx' : lookup (remove s env e { versionEqual := true }).1 env.now k with
    | none => rfl
    | some it =>
      obtain ⟨raw', h1, h2, h3⟩ := (lookup_eq_some (remove_ok hs ..)).1 hx'
      rcases remove_db s env e { versionEqual := true } with h | h <;> rw [h] at h1
      · rw [(lookup_eq_some hs).2 ⟨raw', h1, h2, h3⟩] at hl; cases hl
      · rw [hke, dbGet_dbOut_self] at h1; cases h1

/-! ### Examples -/

/-- Client 1 speaks the binary protocol, client 2 the text protocol. -/
def mixedAsks : List BinAsk :=
  [.set false memKey (ascii "41") 5 0 0, .get false true memKey, .incr false memKey 1 0 0, .set true memKey (ascii "x") 0 0 1,
    .noop, .delete false memKey 0, .flush false]

def mixedRun : List AskEv :=
  [.ask 1 { now := 1000 } (.write { cmd := .set, entry := binStored 1000 memKey (ascii "41") 5 0 0 }),
   .ask 2 { now := 1000 } (.write { cmd := .append, entry := { key := memKey, size := 1, data := ascii "7" } }),
   .ask 1 { now := 1001 } (.read memKey),
   .ask 1 { now := 1001 } (.write { cmd := .incr, entry := binCounter 1000 memKey 0 0, value := 1 }),
   .ask 1 { now := 1002 } (.write { cmd := .cas, entry := binStored 1000 memKey (ascii "x") 0 0 1 }),
   .ask 2 { now := 1002 } (.read memKey),
   .ask 1 { now := 1003, outOk := false } (.write { cmd := .delete, entry := { key := memKey } }),
   .ask 1 { now := 1004 } .clear]

example : askedBy 1 (memSeen { store := { cacheSize := 8 } } mixedRun) = binAsksOf 1000 mixedAsks := by decide +kernel

example : readBins 7 (binServeAll binOracle 1000 (outsBy 1 { store := { cacheSize := 8 } } mixedRun)
      (mixedAsks.flatMap fun a => a.msg.encode)).out =
    some ([.plain 0x01 0 [], binItem 0x0c memKey ⟨ascii "417", 5, 0, 2⟩, .plain 0x05 0 [0, 0, 0, 0, 0, 0, 1, 162],
      .plain 0x11 2 (ascii "Key exists"), .plain 0x0a 0 [], .plain 0x04 0x84 (ascii "i/o error"), .plain 0x08 0 []], []) := by
  decide +kernel

example :
    Explains (memoryOf { cacheSize := 8 }) (memSeen { store := { cacheSize := 8 } } mixedRun)
      (memoryOf (memRun { store := { cacheSize := 8 } } mixedRun).store) ∧
    readBins 7 (binServeAll binOracle 1000 (outsBy 1 { store := { cacheSize := 8 } } mixedRun)
        (mixedAsks.flatMap fun a => a.msg.encode)).out =
      some (binRepliesOf 1000 mixedAsks (toldBy 1 (memSeen { store := { cacheSize := 8 } } mixedRun)), []) := by
  have hok : Store.Ok { cacheSize := 8 } := ⟨by simp [dbGet], by simp, by simp⟩
  have hseen : ∀ x ∈ shSeen { store := { cacheSize := 8 } } (mixedRun.map AskEv.ev),
      (match x with | .did _ _ _ o => decide (o.rc ≠ .ub ∧ o.e.size.toNat ≤ 100) | .quiet _ => true) = true := by
    decide +kernel
  have hquiet : ∀ x ∈ memSeen { store := { cacheSize := 8 } } mixedRun,
      (match x with | .did _ _ (.write r) .failed => decide (r.entry.option &&& optNoreply = 0) | _ => true) = true := by
    decide +kernel
  have h := C81_clients_partial { store := { cacheSize := 8 } } hok mixedRun ?_ ?_ ?_ ?_
  · refine ⟨h.1, (h.2.1 1 1000 mixedAsks ?_ ?_ ?_ (by decide +kernel)).2.2.2⟩
    all_goals
      intro a ha
      simp only [mixedAsks, List.mem_cons, List.not_mem_nil, or_false] at ha
      rcases ha with rfl | rfl | rfl | rfl | rfl | rfl | rfl
    all_goals first | trivial | exact ⟨by decide, by decide, by decide⟩ | (simp only [BinAsk.KeyOk, BinAsk.msg]; decide)
  · intro e he
    simp only [mixedRun, List.mem_cons, List.not_mem_nil, or_false] at he
    rcases he with rfl | rfl | rfl | rfl | rfl | rfl | rfl | rfl <;>
      first | trivial | exact ⟨fun h => absurd rfl h, fun _ => ⟨by decide, by decide +kernel⟩⟩ |
        exact ⟨fun _ => by decide, fun _ => ⟨by decide, by decide +kernel⟩⟩ |
        exact ⟨fun _ => by decide +kernel, fun h => absurd h (by decide)⟩
  · intro c now cmd o ho
    have := hseen _ ho
    simp only [decide_eq_true_eq] at this
    exact ⟨this.1, by unfold intMax; omega⟩
  · exact ⟨trivial, trivial, trivial, trivial, trivial, trivial, trivial, trivial, trivial⟩
  · intro c now r hr
    have := hquiet _ hr
    simpa using this

/-- A value of version 3: `append` with this version is refused, with version 9 it is done. -/
def versioned : Store := (step { cacheSize := 8 } { now := 1000 }
  (.set { key := memKey, size := 2, version := 3, data := ascii "ab" } .ofSet)).1

example : ((BinAsk.append false memKey (ascii "c") 3).call 1000).map (fun c => (step versioned { now := 1000 } c).2.r) =
    some (some .notStored) ∧
    ((BinAsk.append false memKey (ascii "c") 9).call 1000).map (fun c =>
      memoryOf (step versioned { now := 1000 } c).1 memKey) = some (.full ⟨ascii "abc", 0, 0, 9⟩) := by
  constructor <;> decide +kernel

example : ((BinAsk.delete false memKey 2).call 1000).map (fun c => (step versioned { now := 1000 } c).2.r) =
    some (some .notFound) ∧
    ((BinAsk.delete false memKey 9).call 1000).map (fun c => (step versioned { now := 1000 } c).2.r) =
    some (some .deleted) ∧
    ((BinAsk.delete false (ascii "z") 0xffffffffffffffff).call 1000).map (fun c => (step (step versioned { now := 1000 } c).1
      { now := 1001 } (.set { key := ascii "z" } .ofSet)).2.e.version) = some 0 := by
  refine ⟨?_, ?_, ?_⟩ <;> decide +kernel

example : ((BinAsk.add false (ascii "z") (ascii "1") 0 0 7).call 1000).map (fun c => (step versioned { now := 1000 } c).2.r) =
    some (some .notFound) ∧
    ((BinAsk.incr false (ascii "z") 1 5 0).call 1000).map (fun c => (step versioned { now := 1000 } c).2.r) =
    some (some .notFound) := by
  refine ⟨?_, ?_⟩ <;> decide +kernel

end Flare
