import Verif.Lemmas.Join

namespace Flare

/-! ### C88: a node that joins has the map of the index server -/

/-- A number that an `int` holds. -/
def Fits32 (i : Int) : Prop := -2 ^ 31 ≤ i ∧ i < 2 ^ 31

/-- The nodes of a map can be written into lines and found again: their names are words, their keys are what is
made of their names, and their numbers are ints. -/
structure Listable (key : Bytes → Int32 → NodeKey) (name : NodeKey → Bytes × Int32) (nodes : NodeMap) : Prop where
  names : ∀ e ∈ nodes, PlainKey (name e.1).1 8000 ∧ key (name e.1).1 (name e.1).2 = e.1
  numbers : ∀ e ∈ nodes, Fits32 e.2.partition ∧ Fits32 e.2.balance ∧ Fits32 e.2.threadType

theorem toInt_ofInt32 {i : Int} (h : Fits32 i) : (Int32.ofInt i).toInt = i :=
  Int32.toInt_ofInt_of_le h.1 h.2

section
variable (key : Bytes → Int32 → NodeKey) (name : NodeKey → Bytes × Int32) (m : Meta)
  (report : StatsKind → List (Bytes × Bytes)) (vars : List Bytes)

theorem entriesOf_listed {nodes : NodeMap} (h : Listable key name nodes) :
    entriesOf key (nodes.map (listed name)) = some nodes := by
  induction nodes with
  | nil => rfl
  | cons e nodes ih =>
    have hi := ih ⟨fun x hx => h.names x (by simp [hx]), fun x hx => h.numbers x (by simp [hx])⟩
    have h1 := (h.names e (by simp)).2
    obtain ⟨a, b, c⟩ := h.numbers e (by simp)
    simp only [List.map_cons, entriesOf, hi, nodeOf, listed, Role.ofNumber_number, NState.ofNumber_number, h1,
      toInt_ofInt32 a, toInt_ofInt32 b, toInt_ofInt32 c]

/-- What the index server does for a node that joins, and answers. -/
theorem C88_session (first q w : Bytes) (hf : first.length = 1024) (hq : q.length = 1024) (hw : w.length = 8192)
    (h : IxHost) (n : Bytes) (p : Int32) (hn : PlainKey n 900) :
    let t := serveIx (IxHost.back key name m report vars) first q w h (addRequest n p ++ metaRequest)
    let r := ixStep (h.env.headD {}) h.ix (.add (key n p))
    t.st.ix = r.1 ∧ t.stop = .closed ∧
    t.out = (if 0 ≤ r.2 then nodeLines (r.1.nodes.map (listed name))
      else resultLine .serverError (ascii "failed to add node")) ++ metaAnswer m := by
  obtain ⟨a1, a2, a3⟩ := addLine_ok (p := p) hn
  obtain ⟨b1, b2, b3⟩ := metaCmd_ok
  have hs := C78_session_partial (IxHost.back key name m report vars) first q w hf hq hw [addLine n p, metaCmd] (by
    intro l hl
    simp only [List.mem_cons, List.not_mem_nil, or_false] at hl
    rcases hl with rfl | rfl
    · refine ⟨a1, fun h => ?_⟩; rw [a3] at h; cases h
    · refine ⟨b1, fun h => ?_⟩; rw [b3] at h; cases h) [] (by simp) h
  simp only [List.flatMap_cons, List.flatMap_nil, List.append_nil, a2, b2, List.map_cons, List.map_nil] at hs
  simp only [hs, ixMeant, a3, b3]
  have hadd : (IxHost.back key name m report vars).add h n p = h.run (.add (key n p)) := rfl
  obtain ⟨r, hr⟩ : ∃ r, r = ixStep (h.env.headD {}) h.ix (.add (key n p)) := ⟨_, rfl⟩
  have hrun : h.run (.add (key n p)) = (⟨r.1, h.env.drop 1⟩, decide (0 ≤ r.2)) := by rw [hr]; rfl
  rw [← hr]
  by_cases h0 : 0 ≤ r.2
  · simp only [ixPerform, hadd, hrun, h0, decide_true]
    simp [IxHost.back, IxTalk.after, ixAnswer]
  · simp only [ixPerform, hadd, hrun, h0, decide_false]
    simp [IxHost.back, IxTalk.after, ixAnswer, IxReq.failure]

/-- What is read of an answer of both parts, for all lists and meta data. -/
theorem joinAnswers_eq (near : NodeKey → Bool) (me : NodeKey) (q q' : Bytes) (hq : q.length = 8192)
    (hq' : q'.length = 8192) {nodes : NodeMap} (hl : Listable key name nodes) (hs : Sorted nodes) :
    joinAnswers near key me q q' (nodeLines (nodes.map (listed name)) ++ metaAnswer m) =
      .up { View.install near { View.init with nodes := nodes } with version := 0 } m.hash m.resolver [] := by
  have hn : readNodes q ((nodeLines (nodes.map (listed name)) ++ metaAnswer m).length + 1)
      (nodeLines (nodes.map (listed name)) ++ metaAnswer m) = .ok (nodes.map (listed name), metaAnswer m) := by
    rw [readNodes_fuel q _ ((nodeLines (nodes.map (listed name)) ++ metaAnswer m).length + 1 + nodes.length) _
      (by omega) (by omega)]
    refine C60_add ?_ hq (by rw [List.length_map]; omega)
    intro l hm
    obtain ⟨e, he, rfl⟩ := List.mem_map.1 hm
    exact (hl.names e he).1
  have hm : readMeta q' ((metaAnswer m).length + 1) (metaAnswer m) MetaVars.init =
      .ok (⟨m.partitionSize, m.hash, some m.type, m.hint, m.virtual_⟩, []) := by
    rw [readMeta_fuel q' _ ((metaAnswer m).length + 6) _ _ (by omega) (by omega)]
    have := C61_meta (m := m) (q := q') (rest := []) (n := (metaAnswer m).length) (v := MetaVars.init) (by omega)
    rwa [List.append_nil] at this
  have hr : receive near me .init ⟨nodes, 0⟩ =
      ({ View.install near { View.init with nodes := nodes } with version := 0 }, 0, []) := by
    have e := takeEntry_new nodes [] []
    have hb : nodes.foldl (fun m e => mset m e.1 e.2) [] = nodes := build_sorted nodes hs
    rw [hb] at e
    have e' : nodes.foldl takeEntry (View.init.nodes, [], []) = ([], nodes, []) := e
    simp only [receive, e']
    rfl
  simp only [joinAnswers, hn, hm, entriesOf_listed key name hl, hr]
  rfl

/-- A table entry without the list of near nodes, which differs from node to node. -/
def Part.shared (p : Part) : Part := { p with prior := [] }

theorem mkPart_shared (near near' : NodeKey → Bool) (ms : NodeMap) (ss : List (NodeKey × Int)) :
    (mkPart near ms ss).shared = (mkPart near' ms ss).shared := rfl

/-- The add of an orderly history that went well. -/
theorem add_done {N : Nat} {s : Index} (h : IxInv true N s) (env : IEnv) (k : NodeKey)
    (ok : 0 ≤ (addNode env s k).2) :
    (∃ N', IxInv true N' (addNode env s k).1) ∧ env.storeOk = true ∧
    (addNode env s k).1.saved =
      some ((addNode env s k).1.version, (addNode env s k).1.nodes, (addNode env s k).1.threadType) ∧
    match mfind s.nodes k with
    | some o => o.state = .down ∧ (addNode env s k).1.nodes = s.nodes
    | none => (addNode env s k).1.nodes = mset s.nodes k ⟨.proxy, .active, -1, 0, s.threadType⟩ := by
  have hi := IxResult.inv h (addNode_result h env k)
  obtain ⟨N', -, hi⟩ := hi
  have main : env.storeOk = true ∧ (addNode env s k).1.saved =
      some ((addNode env s k).1.version, (addNode env s k).1.nodes, (addNode env s k).1.threadType) ∧
      match mfind s.nodes k with
      | some o => o.state = .down ∧ (addNode env s k).1.nodes = s.nodes
      | none => (addNode env s k).1.nodes = mset s.nodes k ⟨.proxy, .active, -1, 0, s.threadType⟩ := by
    simp only [addNode, h.withLoad] at ok ⊢
    split at ok
    swap
    · simp at ok
    rename_i hb
    simp only [hb, if_true]
    cases hk : mfind s.nodes k with
    | some n =>
      simp only [hk] at ok ⊢
      split at ok
      · rename_i hd
        simp only [hd, if_true]
        cases hst : env.storeOk with
        | false => simp [store, save, hst] at ok
        | true => simp [store, save, hst]
      · simp at ok
    | none =>
      simp only [hk] at ok ⊢
      cases hst : env.storeOk with
      | false => simp [store, save, hst] at ok
      | true => simp [store, save, hst]
  exact ⟨⟨N', by rw [main.1] at hi; exact hi⟩, main⟩

/-- A node that joins after an orderly history: if the index server takes it, the node has the index server's map,
which is also the stored one, its hash function and its numbers of the key table; its tables list the same masters,
slaves and balances for every partition; and it starts no copying.  The version of the map is not told. -/
theorem C88_joined_partial (near : NodeKey → Bool) (first q w q1 q2 : Bytes) (hf : first.length = 1024)
    (hq : q.length = 1024) (hw : w.length = 8192) (h1 : q1.length = 8192) (h2 : q2.length = 8192)
    (as : List IAct) (ho : Orderly true .init as) (hfr : freshAfter true as = true) (es : List IEnv)
    (n : Bytes) (p : Int32) (hn : PlainKey n 900) :
    let t := serveIx (IxHost.back key name m report vars) first q w ⟨ixRun .init as, es⟩
      (addRequest n p ++ metaRequest)
    Listable key name t.st.ix.nodes →
    0 ≤ (ixStep (es.headD {}) (ixRun .init as) (.add (key n p))).2 →
    ∃ v, joinAnswers near key (key n p) q1 q2 t.out = .up v m.hash m.resolver [] ∧
      v.nodes = t.st.ix.nodes ∧ t.st.ix.saved = some (t.st.ix.version, v.nodes, t.st.ix.threadType) ∧
      v.version = 0 ∧ Describes near v.nodes v.npm v.nppm ∧ v.npm.length = t.st.ix.npm.length ∧
      ∀ pt, (mfind v.npm pt).map Part.shared = (mfind t.st.ix.npm pt).map Part.shared ∧
        mfind v.nppm pt = mfind t.st.ix.nppm pt := by
  intro t hl ok
  obtain ⟨e1, -, e3⟩ := C88_session key name m report vars first q w hf hq hw ⟨ixRun .init as, es⟩ n p hn
  obtain ⟨N, hi⟩ := run_inv as true 0 .init init_inv ho
  rw [hfr] at hi
  obtain ⟨⟨N', hi'⟩, -, hsv, -⟩ := add_done hi (es.headD {}) (key n p) ok
  simp only at e1 e3
  rw [if_pos ok] at e3
  have hix : t.st.ix = (addNode (es.headD {}) (ixRun .init as) (key n p)).1 := e1
  have hout : t.out = nodeLines (t.st.ix.nodes.map (listed name)) ++ metaAnswer m := by rw [hix]; exact e3
  rw [← hix] at hi' hsv
  have hs := hi'.map.sorted
  obtain ⟨tb, r1, r2, r3, r4⟩ := hi'.map.good.reconstruct near hs
  obtain ⟨d1, d2⟩ := TablesOk.describes hi'.map hi'.tables
  refine ⟨_, by rw [hout]; exact joinAnswers_eq key name m near (key n p) q1 q2 h1 h2 hl hs, ?_⟩
  have hv : View.install near { View.init with nodes := t.st.ix.nodes } =
      { View.init with nodes := t.st.ix.nodes, npm := tb.npm, nppm := tb.nppm } := by
    simp only [View.install, r1]
  rw [hv]
  refine ⟨rfl, hsv, rfl, r3, by rw [d2]; exact r4, fun pt => ?_⟩
  rw [r3.main, d1.main, r3.prep, d1.prep]
  refine ⟨?_, rfl⟩
  split
  · simp only [Option.map_some, Part.shared, mkPart]
  · simp only [Option.map_none]

/-- A node that the index server does not take does not come up. -/
theorem C88_refused (near : NodeKey → Bool) (first q w q1 q2 : Bytes) (hf : first.length = 1024)
    (hq : q.length = 1024) (hw : w.length = 8192) (h1 : q1.length = 8192) (h : IxHost)
    (n : Bytes) (p : Int32) (hn : PlainKey n 900)
    (hr : (ixStep (h.env.headD {}) h.ix (.add (key n p))).2 < 0) (a b : Bytes)
    (he : a ++ b = (serveIx (IxHost.back key name m report vars) first q w h (addRequest n p ++ metaRequest)).out) :
    joinAnswers near key (key n p) q1 q2 a = .failed := by
  obtain ⟨-, -, e3⟩ := C88_session key name m report vars first q w hf hq hw h n p hn
  rw [if_neg (by omega)] at e3
  rw [e3] at he
  have hfull : readLine (resultLine .serverError (ascii "failed to add node") ++ metaAnswer m) =
      some (ascii "SERVER_ERROR failed to add node\n", metaAnswer m) := by
    have : resultLine .serverError (ascii "failed to add node") = ascii "SERVER_ERROR failed to add node" ++ crlf := by
      decide
    rw [this, readLine_crlf (by decide)]
    rfl
  have hp : parseNodeLine (ascii "SERVER_ERROR failed to add node\n") q1 = .error .err := by
    obtain ⟨q', a, b, -⟩ := scanWord_at (x := ascii "SERVER_ERROR") (q := q1) (n := 0)
      (ws := [(0, ascii "failed"), (0, ascii "to"), (0, ascii "add"), (0, ascii "node")]) (k := 0) (by decide) (by decide)
      (by rw [h1]; decide)
    have e : ascii "SERVER_ERROR failed to add node\n" = List.replicate 0 chSpace ++ ascii "SERVER_ERROR" ++
        (spaced [(0, ascii "failed"), (0, ascii "to"), (0, ascii "add"), (0, ascii "node")] 0 ++ [chNl]) := by decide
    have hne : ascii "SERVER_ERROR" ≠ ascii "NODE" := by decide
    rw [← e] at a
    simp only [parseNodeLine, a, b, if_pos hne]
  cases ha : readLine a with
  | none => simp only [joinAnswers, readNodes, ha]
  | some x =>
    obtain ⟨l, rest⟩ := x
    have := readLine_more ha b
    rw [he, hfull] at this
    simp only [Option.some.injEq, Prod.mk.injEq] at this
    obtain ⟨rfl, -⟩ := this
    have hne : ¬ cstr (ascii "SERVER_ERROR failed to add node\n") = strEnd ++ [chNl] := by decide
    simp only [joinAnswers, readNodes, ha, if_neg hne, hp]

/-- If the connection is lost before the whole answer has arrived, the node does not come up. -/
theorem C88_cut (near : NodeKey → Bool) (first q w q1 q2 : Bytes) (hf : first.length = 1024)
    (hq : q.length = 1024) (hw : w.length = 8192) (h1 : q1.length = 8192) (h2 : q2.length = 8192)
    (h : IxHost) (n : Bytes) (p : Int32) (hn : PlainKey n 900)
    (hl : Listable key name (ixStep (h.env.headD {}) h.ix (.add (key n p))).1.nodes) (a b : Bytes) (hb : b ≠ [])
    (he : a ++ b = (serveIx (IxHost.back key name m report vars) first q w h (addRequest n p ++ metaRequest)).out) :
    joinAnswers near key (key n p) q1 q2 a = .failed := by
  by_cases hr : (ixStep (h.env.headD {}) h.ix (.add (key n p))).2 < 0
  · exact C88_refused key name m report vars near first q w q1 q2 hf hq hw h1 h n p hn hr a b he
  obtain ⟨-, -, e3⟩ := C88_session key name m report vars first q w hf hq hw h n p hn
  rw [if_pos (by omega)] at e3
  rw [e3] at he
  obtain ⟨nodes, hnodes⟩ : ∃ x, x = (ixStep (h.env.headD {}) h.ix (.add (key n p))).1.nodes := ⟨_, rfl⟩
  rw [← hnodes] at he hl
  have g1 : readNodes q1 ((a ++ b).length + nodes.length + 1) (a ++ b) =
      .ok (nodes.map (listed name), metaAnswer m) := by
    rw [he]
    refine C60_add ?_ h1 (by rw [List.length_map]; omega)
    intro l hm
    obtain ⟨e, he, rfl⟩ := List.mem_map.1 hm
    exact (hl.names e he).1
  have f1 : readNodes q1 (a.length + 1) a = readNodes q1 ((a ++ b).length + nodes.length + 1) a :=
    readNodes_fuel q1 _ _ a (by omega) (by rw [List.length_append]; omega)
  rcases readNodes_part q1 _ a b _ _ g1 with e | ⟨s', e, e'⟩
  · simp only [joinAnswers, f1, e]
  have g2 : readMeta q2 ((s' ++ b).length + 6) (s' ++ b) MetaVars.init =
      .ok (⟨m.partitionSize, m.hash, some m.type, m.hint, m.virtual_⟩, []) := by
    rw [← e']
    have := C61_meta (m := m) (q := q2) (rest := []) (n := (metaAnswer m).length) (v := MetaVars.init) (by omega)
    rwa [List.append_nil] at this
  have f2 : readMeta q2 (s'.length + 1) s' MetaVars.init = readMeta q2 ((s' ++ b).length + 6) s' MetaVars.init :=
    readMeta_fuel q2 _ _ s' _ (by omega) (by rw [List.length_append]; omega)
  rcases readMeta_part q2 _ s' b _ _ _ g2 with e | ⟨s2, e2, e2'⟩
  · rename_i en
    simp only [joinAnswers, f1, en, f2, e]
  · exact absurd (List.append_eq_nil_iff.1 e2'.symm).2 hb

/-- Which nodes are taken while the coordinator works: those that are not known, and those that are down. -/
theorem C88_taken_partial (as : List IAct) (ho : Orderly true .init as) (hfr : freshAfter true as = true)
    (k : NodeKey) (r : Index × Int) (hr : r = ixStep {} (ixRun .init as) (.add k)) :
    (0 ≤ r.2 ↔ ∀ o, mfind (ixRun .init as).nodes k = some o → o.state = .down) := by
  subst hr
  obtain ⟨N, hi⟩ := run_inv as true 0 .init init_inv ho
  rw [hfr] at hi
  simp only [ixStep, addNode, hi.withLoad, and_self, if_true]
  cases hk : mfind (ixRun .init as).nodes k with
  | none => simp [store, save]
  | some o =>
    simp only [Option.some.injEq, forall_eq']
    split
    · rename_i hd; simp [store, save, hd]
    · rename_i hd; simp [hd]

/-- The own entry of a node that was taken: a new node is an active proxy; a node that was known is as it was, namely
down, and a proxy or a master whose data nobody else had.  The other nodes are as they were. -/
theorem C88_own_partial (as : List IAct) (ho : Orderly true .init as) (hfr : freshAfter true as = true) (env : IEnv)
    (k : NodeKey) (r : Index × Int) (hr : r = ixStep env (ixRun .init as) (.add k)) (ok : 0 ≤ r.2) :
    (∃ x, mfind r.1.nodes k = some x ∧ x.role ≠ .slave ∧ (x.role = .master → x.state = .down) ∧
      (x.role = .proxy → x.partition = -1 ∧ x.balance = 0) ∧
      match mfind (ixRun .init as).nodes k with
      | some o => x = o ∧ x.state = .down
      | none => x = ⟨.proxy, .active, -1, 0, (ixRun .init as).threadType⟩) ∧
    ∀ y, y ≠ k → mfind r.1.nodes y = mfind (ixRun .init as).nodes y := by
  subst hr
  obtain ⟨N, hi⟩ := run_inv as true 0 .init init_inv ho
  rw [hfr] at hi
  obtain ⟨-, -, -, h⟩ := add_done hi env k ok
  cases hk : mfind (ixRun .init as).nodes k with
  | some o =>
    rw [hk] at h
    obtain ⟨hd, he⟩ := h
    have he' : (ixStep env (ixRun .init as) (.add k)).1.nodes = (ixRun .init as).nodes := he
    rw [he']
    refine ⟨⟨o, hk, ?_, fun _ => hd, fun hp => ?_, rfl, hd⟩, fun _ _ => rfl⟩
    · intro hs; exact (hi.map.good.slave k o hk hs).2.1 hd
    · have := hi.map.good.proxy k o hk hp; exact ⟨this.1, this.2.1⟩
  | none =>
    rw [hk] at h
    have he' : (ixStep env (ixRun .init as) (.add k)).1.nodes = _ := h
    rw [he']
    refine ⟨⟨_, by rw [mfind_mset', upd_self], by simp, by simp, by simp, rfl⟩, fun y hy => ?_⟩
    rw [mfind_mset', upd_ne _ _ (fun e => hy e.symm)]

/-- A node that was taken as a new one and lost the connection, or came down at once, is not taken again as long as
it is listed as active. -/
theorem C88_again_partial (as : List IAct) (ho : Orderly true .init as) (hfr : freshAfter true as = true)
    (env env' : IEnv) (k : NodeKey) (hk : mfind (ixRun .init as).nodes k = none)
    (ok : 0 ≤ (ixStep env (ixRun .init as) (.add k)).2) :
    (ixStep env' (ixStep env (ixRun .init as) (.add k)).1 (.add k)).2 < 0 := by
  obtain ⟨N, hi⟩ := run_inv as true 0 .init init_inv ho
  rw [hfr] at hi
  obtain ⟨⟨N', hi'⟩, -, -, h⟩ := add_done hi env k ok
  rw [hk] at h
  show (addNode env' (addNode env (ixRun .init as) k).1 k).2 < 0
  have hm : mfind (addNode env (ixRun .init as) k).1.nodes k =
      some ⟨.proxy, .active, -1, 0, (ixRun .init as).threadType⟩ := by rw [h, mfind_mset', upd_self]
  rw [addNode, hi'.withLoad]
  simp only [hm]
  split
  · simp
  · simp

end

/-! A cluster of three nodes: `db1` is master, `db2` its slave, and `db3` joins. -/

def joinKey (n : Bytes) (p : Int32) : NodeKey := (n.getD 2 0).toNat * 100000 + p.toInt.toNat
def joinName (k : NodeKey) : Bytes × Int32 := (ascii "db" ++ [UInt8.ofNat (k / 100000)], Int32.ofNat (k % 100000))
def joinMeta : Meta := ⟨1024, .crc32, .modular, 1, 4096⟩
def joinAsk (h : IxHost) (n : Bytes) : IxTalk IxHost :=
  serveIx (IxHost.back joinKey joinName joinMeta (fun _ => []) []) (List.replicate 1024 1) (List.replicate 1024 2)
    (List.replicate 8192 3) h (addRequest n 12121 ++ metaRequest)

def joinHistory : List IAct :=
  plain [.add 4912121, .role 4912121 .master 1 0, .state 4912121 .active, .add 5012121, .role 5012121 .slave 2 0]

example :
    (joinAsk ⟨ixRun .init joinHistory, []⟩ (ascii "db3")).out = ascii "NODE db1 12121 0 0 0 1 16\r\nNODE db2 12121 1 1 0 0 17\r\n" ++
      ascii "NODE db3 12121 2 0 -1 0 18\r\nEND\r\nMETA partition-size 1024\r\nMETA key-hash-algorithm crc32\r\n" ++
      ascii "META partition-type modular\r\nMETA partition-modular-hint 1\r\nMETA partition-modular-virtual 4096\r\nEND\r\n" ∧
    joinAnswers (fun _ => false) joinKey 5112121 (List.replicate 8192 7) (List.replicate 8192 8)
      (joinAsk ⟨ixRun .init joinHistory, []⟩ (ascii "db3")).out =
    .up ⟨[(4912121, ⟨.master, .active, 0, 1, 16⟩), (5012121, ⟨.slave, .prepare, 0, 0, 17⟩),
        (5112121, ⟨.proxy, .active, -1, 0, 18⟩)],
      [(0, ⟨some 4912121, 1, [(5012121, 0)], [4912121], [], [4912121, 5012121]⟩)], [], 0⟩ .crc32 ⟨1024, 1, 4096⟩ [] := by
  decide +kernel

/-- An active node is not taken, a master that is down is taken as it is, and so is a node that came down before. -/
example : (ixStep {} (ixRun .init joinHistory) (.add 4912121)).2 < 0 ∧
    (let s := (ixStep {} (ixRun .init joinHistory) (.state 4912121 .down)).1
     0 ≤ (ixStep {} s (.add 4912121)).2 ∧
     mfind (ixStep {} s (.add 4912121)).1.nodes 4912121 = some ⟨.master, .down, 0, 1, 16⟩) ∧
    (let s := (ixStep {} (ixRun .init joinHistory) (.state 5012121 .down)).1
     0 ≤ (ixStep {} s (.add 5012121)).2 ∧
     mfind (ixStep {} s (.add 5012121)).1.nodes 5012121 = some ⟨.proxy, .down, -1, 0, 17⟩) := by
  decide +kernel

/-- One byte less, and the node does not come up; nor does the active master that asks again. -/
example :
    joinAnswers (fun _ => false) joinKey 5112121 (List.replicate 8192 7) (List.replicate 8192 8)
      (joinAsk ⟨ixRun .init joinHistory, []⟩ (ascii "db3")).out.dropLast = .failed ∧
    joinAnswers (fun _ => false) joinKey 4912121 (List.replicate 8192 7) (List.replicate 8192 8)
      (joinAsk ⟨ixRun .init joinHistory, []⟩ (ascii "db1")).out = .failed := by
  decide +kernel

/-- A node that has joined does not know how old its map is: it takes the next map that is sent to it, however old,
also one from before the add, in which it does not occur. -/
theorem C88_older (near : NodeKey → Bool) (key : Bytes → Int32 → NodeKey) (me : NodeKey) (q q' a : Bytes) (v : View)
    (hash : HashAlgorithm) (kr : Resolver) (jobs : List Job)
    (h : joinAnswers near key me q q' a = .up v hash kr jobs) (msg : NodeMsg) :
    (receive near me v msg).1.nodes = build msg.nodes := by
  refine (receive_accept near me v msg ?_).1
  have : v.version = 0 := by
    simp only [joinAnswers] at h
    split at h
    · cases h
    · cases h
    · split at h
      · cases h
      · cases h
      · split at h
        · cases h
        · split at h
          · cases h
          · split at h
            · cases h
            · rename_i es _ hlt
              injection h with h1
              rw [← h1]
              exact (receive_accept near me .init ⟨es, 0⟩ (Nat.le_refl 0)).2.1
  omega

example :
    let ix := ixRun .init joinHistory
    let t := joinAsk ⟨ix, []⟩ (ascii "db3")
    ∃ v, joinAnswers (fun _ => false) joinKey 5112121 (List.replicate 8192 7) (List.replicate 8192 8) t.out =
        .up v .crc32 ⟨1024, 1, 4096⟩ [] ∧
      ix.version < t.st.ix.version ∧ mfind v.nodes 5112121 ≠ none ∧
      mfind (receive (fun _ => false) 5112121 v ⟨ix.nodes, ix.version⟩).1.nodes 5112121 = none :=
  ⟨⟨[(4912121, ⟨.master, .active, 0, 1, 16⟩), (5012121, ⟨.slave, .prepare, 0, 0, 17⟩),
        (5112121, ⟨.proxy, .active, -1, 0, 18⟩)],
      [(0, ⟨some 4912121, 1, [(5012121, 0)], [4912121], [], [4912121, 5012121]⟩)], [], 0⟩, by decide +kernel⟩

/-! ### Near nodes -/

/-- With a prefix length from 1 to 32 and names that have addresses, the near nodes are those whose addresses begin
with the same bits. -/
theorem C88_near (dns : Bytes → Option (BitVec 32)) (n : Nat) (h1 : 1 ≤ n) (h2 : n ≤ 32) (own other : Bytes)
    (a b : BitVec 32) (ha : dns own = some a) (hb : dns other = some b) :
    ∃ mask, priorMask n = some mask ∧
      (isNear dns mask own other = true ↔ ∀ i, i < n → a.getMsbD i = b.getMsbD i) := by
  refine ⟨_, by rw [priorMask, if_neg (by omega), if_pos h2], ?_⟩
  obtain ⟨mask, hm⟩ : ∃ x, x = BitVec.allOnes 32 <<< (32 - n) := ⟨_, rfl⟩
  rw [← hm]
  have hbit : ∀ i, i < 32 → mask.getMsbD i = decide (i < n) := by
    intro i hi
    rw [hm, BitVec.getMsbD_shiftLeft, BitVec.getMsbD_allOnes]
    by_cases h : i < n
    · simp [h]; omega
    · simp [h]; omega
  have hne : mask ≠ 0 := by
    intro h0
    have := hbit 0 (by omega)
    rw [h0] at this
    simp at this
    omega
  simp only [isNear, inetAddr, ha, hb, ne_eq, hne, not_false_eq_true, decide_true, Bool.true_and, decide_eq_true_eq]
  constructor
  · intro h i hi
    have := congrArg (fun x => x.getMsbD i) h
    simp only [BitVec.getMsbD_and, hbit i (by omega), hi, decide_true, Bool.and_true] at this
    exact this
  · intro h
    apply BitVec.eq_of_getMsbD_eq
    intro i hi
    simp only [BitVec.getMsbD_and, hbit i hi]
    by_cases hn : i < n
    · rw [h i hn]
    · simp [hn]

example : priorMask 24 = some 0xffffff00#32 ∧
    isNear (fun x => if x = [1] then some 0x0a000001#32 else some 0x0a0000ff#32) 0xffffff00#32 [1] [2] = true ∧
    isNear (fun x => if x = [1] then some 0x0a000001#32 else some 0x0a0001ff#32) 0xffffff00#32 [1] [2] = false := by
  decide

theorem entriesOf_all (key : Bytes → Int32 → NodeKey) : ∀ (ns : List NodeLine) (es : List (NodeKey × Node)),
    entriesOf key ns = some es → ns.map (nodeOf key) = es.map some
  | [], es, h => by cases h; rfl
  | l :: ls, es, h => by
    cases h1 : nodeOf key l with
    | none => simp [entriesOf, h1] at h
    | some e =>
      cases h2 : entriesOf key ls with
      | none => simp [entriesOf, h1, h2] at h
      | some es' =>
        simp only [entriesOf, h1, h2, Option.some.injEq] at h
        subst h
        simp [h1, entriesOf_all key ls es' h2]

/-- Whatever is answered, a node that comes up has read a complete list, has left out none of its lines, and each of them had a
role and a state that exist; its map is what is made of exactly these lines. -/
theorem C88_whole_list (near : NodeKey → Bool) (key : Bytes → Int32 → NodeKey) (me : NodeKey) (q q' a : Bytes) (v : View)
    (hash : HashAlgorithm) (kr : Resolver) (jobs : List Job) (h : joinAnswers near key me q q' a = .up v hash kr jobs) :
    ∃ ns rest es, readNodes q (a.length + 1) a = .ok (ns, rest) ∧ ns.map (nodeOf key) = es.map some ∧
      v = (receive near me .init ⟨es, 0⟩).1 ∧ jobs = (receive near me .init ⟨es, 0⟩).2.2 := by
  cases hn : readNodes q (a.length + 1) a with
  | error e => cases e <;> simp [joinAnswers, hn] at h
  | ok p =>
    obtain ⟨ns, rest⟩ := p
    cases hm : readMeta q' (rest.length + 1) rest MetaVars.init with
    | error e => cases e <;> simp [joinAnswers, hn, hm] at h
    | ok x =>
      cases ht : x.1.type with
      | none => simp [joinAnswers, hn, hm, ht] at h
      | some t =>
        cases t with
        | modular =>
        cases he : entriesOf key ns with
        | none => simp [joinAnswers, hn, hm, ht, he] at h
        | some es =>
          by_cases hr : (receive near me .init ⟨es, 0⟩).2.1 < 0
          · simp [joinAnswers, hn, hm, ht, he, if_pos hr] at h
          · simp only [joinAnswers, hn, hm, ht, he, if_neg hr, Joined.up.injEq] at h
            exact ⟨ns, rest, es, rfl, entriesOf_all key ns es he, h.1.symm, h.2.2.2.symm⟩

/-- A line with a role that does not exist. -/
example (key : Bytes → Int32 → NodeKey) (l : NodeLine) :
    entriesOf key [{ l with role := 7 }] = none := by
  have : Role.ofNumber 7 = none := by decide
  simp [entriesOf, nodeOf, this]

/-- Without a prefix length no node is near. -/
theorem C88_near_none (dns : Bytes → Option (BitVec 32)) (own other : Bytes) :
    priorMask 0 = some 0 ∧ isNear dns 0 own other = false := by
  exact ⟨rfl, by simp [isNear]⟩

/-- A length above 32 is a shift by more than the width of the number. -/
theorem C88_near_undefined (n : Nat) (h : 32 < n) : priorMask n = none := by
  rw [priorMask, if_neg (by omega), if_neg (by omega)]

/-- A node whose own name has no address takes all nodes without an address as near ones, whatever the mask. -/
theorem C88_near_unknown (dns : Bytes → Option (BitVec 32)) (mask : BitVec 32) (hm : mask ≠ 0) (own other : Bytes)
    (h1 : dns own = none) (h2 : dns other = none) : isNear dns mask own other = true := by
  simpa [isNear, inetAddr, h1, h2] using hm

example : isNear (fun _ => none) 0xffff0000#32 [1] [2] = true := by decide

/-- A node with an address is not near one without, unless all bits count. -/
theorem C88_near_one_unknown (dns : Bytes → Option (BitVec 32)) (n : Nat) (h : n < 32) (own other : Bytes)
    (h1 : (dns own).isSome ≠ (dns other).isSome) :
    ∃ mask, priorMask n = some mask ∧ isNear dns mask own other = false := by
  by_cases h0 : n = 0
  · subst h0; exact ⟨0, (C88_near_none dns own other).1, (C88_near_none dns own other).2⟩
  · refine ⟨_, by rw [priorMask, if_neg h0, if_pos (by omega)], ?_⟩
    obtain ⟨mask, hm⟩ : ∃ x, x = BitVec.allOnes 32 <<< (32 - n) := ⟨_, rfl⟩
    rw [← hm]
    have hlast : mask.getMsbD 31 = false := by
      rw [hm, BitVec.getMsbD_shiftLeft, BitVec.getMsbD_allOnes]
      simp; omega
    have hone : (BitVec.allOnes 32).getMsbD 31 = true := by decide
    have hand : ∀ a : BitVec 32, (a &&& mask).getMsbD 31 = false := by
      intro a; rw [BitVec.getMsbD_and, hlast, Bool.and_false]
    have hne : inetAddr dns mask own ≠ inetAddr dns mask other := by
      intro e
      have e' := congrArg (fun x => x.getMsbD 31) e
      cases ha : dns own with
      | none =>
        cases hb : dns other with
        | none => rw [ha, hb] at h1; exact h1 rfl
        | some b => simp only [inetAddr, ha, hb, hone, hand] at e'; cases e'
      | some a =>
        cases hb : dns other with
        | none => simp only [inetAddr, ha, hb, hone, hand] at e'; cases e'
        | some b => rw [ha, hb] at h1; exact h1 rfl
    simp only [isNear, decide_eq_false hne, Bool.and_false]

example : isNear (fun x => if x = [1] then none else some 0xffff0001#32) 0xffff0000#32 [1] [2] = false ∧
    isNear (fun x => if x = [1] then some 0xffff0001#32 else none) 0xffff0000#32 [1] [2] = false := by decide

end Flare
