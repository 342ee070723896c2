import Verif.Lemmas.Fleet

set_option linter.unusedSimpArgs false
set_option linter.constructorNameAsVariable false

namespace Flare

/-! ### C80: a cluster is one memory for its clients, whichever node they are connected to -/

section
variable {F : FleetMap} {near : NodeKey → NodeKey → Bool} {N : Nat} {nodes : NodeMap}

/-- Any number of clients, each connected to any node - a master, a slave or a proxy - and any requests; the
sections of all threads at all nodes in any order, copies that take any time, overtake each other and get lost,
queues that are full, storage calls that fail: every request ends, and what the clients are told is explained by
one memory in which the requests are carried out one at a time.  The memory holds every key as the master of its
partition does.  Missing: the maps do not change and only masters are read from (`C80_stale_read`), no `flush_all`
(`C80_flush_one_node`), and the removals of expired records at the masters have to be harmless (`C80_orderly_partial` says
when they are). -/
theorem C80_one_memory_partial (S : Steady F near N nodes) (f : Fleet) (hs : ∀ k, (f.node k).store.Ok)
    (hcp : f.copies = []) (l : List FleetEv) (hc : ∀ e ∈ l, e.client) (hf : FleetFit (fleetLog F f l))
    (hh : FleetHarmless F N nodes f l) :
    (∀ c now a ran d, .did c now a ran d ∈ fleetLog F f l → d.isSome) ∧
    Explains (fleetMemory F N nodes f) ((fleetLog F f l).map FleetSeen.mem)
      (fleetMemory F N nodes (fleetRun F f l)) := by
  obtain ⟨h1, -, h2⟩ := run_explained S l ⟨hs, by rw [hcp]; simp⟩ hc hf hh
  refine ⟨fun c now a ran d hm => ?_, h2⟩
  obtain ⟨d', rfl, -⟩ := h1 c now a ran d hm
  rfl

theorem empty_harmless (S : Steady F near N nodes) (K : List Bytes) (size : Nat) (hK : K.length ≤ size)
    (l : List FleetEv) (hn : l.length < 2 ^ 64) (ht : Forwards F N nodes l)
    (T : NodeKey → Int64) (hT : ∀ e ∈ l, ∀ k t, e.place F N nodes = some (k, t) → T k ≤ t)
    (hc : ∀ e ∈ l, e.client) (hk : ∀ e ∈ l, e.calm K) (hf : FleetFit (fleetLog F (emptyFleet size) l)) :
    FleetHarmless F N nodes (emptyFleet size) l := by
  have hok : Store.Ok { cacheSize := size } := ⟨by simp [dbGet], by simp, by simp⟩
  refine run_harmless S (K := K) (T := T) (n := 0) l ⟨fun _ => hok, by simp [emptyFleet]⟩ ?_ hc hk (by omega) hT ht hf
  intro m _
  exact ⟨hok, hK, by simp [emptyFleet], fun k => ⟨Nat.le_refl _, fun _ h => (by cases h), fun _ _ h => (by cases h)⟩,
    fun c e h => by cases h⟩

/-- Clocks that do not go back have started somewhere. -/
theorem forwards_start (l : List FleetEv) (ht : Forwards F N nodes l) :
    ∃ T : NodeKey → Int64, ∀ e ∈ l, ∀ k t, e.place F N nodes = some (k, t) → T k ≤ t := by
  induction l with
  | nil => exact ⟨fun _ => 0, by simp⟩
  | cons e l ih =>
    unfold Forwards at ht
    rw [List.pairwise_cons] at ht
    obtain ⟨T, hT⟩ := ih ht.2
    cases hp : e.place F N nodes with
    | none =>
      refine ⟨T, fun x hx k t hxp => ?_⟩
      rcases List.mem_cons.1 hx with rfl | hx
      · rw [hp] at hxp; cases hxp
      · exact hT x hx k t hxp
    | some y =>
      obtain ⟨y, u⟩ := y
      refine ⟨fun k => if k = y then u else T k, fun x hx k t hxp => ?_⟩
      simp only
      rcases List.mem_cons.1 hx with rfl | hx
      · rw [hp] at hxp
        cases hxp
        rw [if_pos rfl]
        exact Int64.le_refl _
      · split
        next h => subst h; exact ht.1 x hx k u t hp hxp
        · exact hT x hx k t hxp

/-- Nodes that start empty, clocks that do not go back (they need not agree), room for all keys in the deletion
caches, no deletions with a hold: the cluster is one memory, whatever the threads do. -/
theorem C80_orderly_partial (S : Steady F near N nodes) (K : List Bytes) (size : Nat) (hK : K.length ≤ size)
    (l : List FleetEv) (hn : l.length < 2 ^ 64) (ht : Forwards F N nodes l) (hc : ∀ e ∈ l, e.client)
    (hk : ∀ e ∈ l, e.calm K) (hf : FleetFit (fleetLog F (emptyFleet size) l)) :
    (∀ c now a ran d, .did c now a ran d ∈ fleetLog F (emptyFleet size) l → d.isSome) ∧
    Explains (fun _ => .empty) ((fleetLog F (emptyFleet size) l).map FleetSeen.mem)
      (fleetMemory F N nodes (fleetRun F (emptyFleet size) l)) := by
  obtain ⟨T, hT⟩ := forwards_start l ht
  have hok : Store.Ok { cacheSize := size } := ⟨by simp [dbGet], by simp, by simp⟩
  have h := C80_one_memory_partial S (emptyFleet size) (fun _ => hok) rfl l hc hf
    (empty_harmless S K size hK l hn ht T hT hc hk hf)
  have he : fleetMemory F N nodes (emptyFleet size) = fun _ => .empty := by
    funext k
    simp only [fleetMemory, emptyFleet]
    split <;> rfl
  rw [he] at h
  exact h

/-- From the bytes of the clients to one memory: each client sends requests of the protocol to its node; the node
carries them out or writes them to another one and reads its answers; and each client reads exactly what the
memory says, in the order of its requests - up to the words that say what kind of error it was.  Missing: as in
`C80_one_memory_partial`; and no request without an answer may be refused (`C71_noreply_answered`). -/
theorem C80_clients_partial (S : Steady F near N nodes) (f : Fleet) (hs : ∀ k, (f.node k).store.Ok)
    (hcp : f.copies = []) (l : List FleetEv) (hc : ∀ e ∈ l, e.client) (hf : FleetFit (fleetLog F f l))
    (hh : FleetHarmless F N nodes f l) (hq : FleetQuiet (fleetLog F f l)) (first q w v : Bytes)
    (hfl : first.length = 1024) (hql : q.length = 8192) (hw : w.length = 8192) (hv : v.length = 8192)
    (now : Nat → Int64) (rs : Nat → List SReq) (bs : Nat → List Bytes)
    (hp : ∀ c, ∀ r ∈ rs c, r.Proper) (hx : ∀ c, ∀ r ∈ rs c, r ≠ .quit)
    (hb : ∀ c, (rs c).map encodeReq = (bs c).map some)
    (ha : ∀ c, fleetAskedBy c (fleetLog F f l) = ((rs c).map (SReq.seen (now c))).flatMap SReq.fleetAsks) :
    Explains (fleetMemory F N nodes f) ((fleetLog F f l).map FleetSeen.mem)
      (fleetMemory F N nodes (fleetRun F f l)) ∧
    ∀ c, ∃ replies, readReplies (now c) w v (rs c)
        (serveAll fleetBack (now c) first q (fleetDoneBy c (fleetLog F f l)) (bs c).flatten).out =
          .ok (replies, []) ∧
      replies.map Reply.bare =
        (repliesOf (now c) (rs c) (toldBy c ((fleetLog F f l).map FleetSeen.mem))).map Reply.bare := by
  obtain ⟨h1, -, h2⟩ := run_explained S l ⟨hs, by rw [hcp]; simp⟩ hc hf hh
  refine ⟨h2, fun c => ?_⟩
  obtain ⟨ds, d1, d2, d3, d4⟩ := log_calls h1 hq c
  obtain ⟨g1, g2⟩ := fleet_reads (now c) (rs c) ds (by rw [← d1]; exact ha c) d4
  rw [← d3] at g1 g2
  obtain ⟨-, k2, k3⟩ := C71_in_step_partial fleetBack (now c) first q w v hfl hql hw hv (rs c) (bs c) (hp c) (hx c)
    (hb c) (fleetDoneBy c (fleetLog F f l)) (fun x h => (g1 x h).1) (fun x h => (g1 x h).2)
  refine ⟨_, k3, ?_⟩
  have k4 := congrArg Prod.snd k2
  simp only at k4
  rw [k4, g2, d2]

end

/-! ### Examples -/

/-- Two partitions; node 1 is the master of the first, node 2 of the second, node 3 a slave of the first, node 4 a
proxy. -/
def smallHist (b : Int) : List IAct :=
  plain [.add 1, .add 2, .add 3, .add 4, .role 1 .master 1 0, .role 2 .master 1 1, .ready 2, .up 2, .role 3 .slave 0 0,
    .up 3, .role 3 .slave b 0]

def smallMsgs (b : Int) : List NodeMsg := sent .init (smallHist b)

def smallNodes (b : Int) : NodeMap := ((smallMsgs b).getLast?.map (·.nodes)).getD []

/-- Keys of even length belong to one partition, the others to the other; client `c` is connected to node `c`. -/
def smallFleet (b : Int) : FleetMap where
  kr := ⟨8, 1, 16⟩
  views k := receiveAll (fun _ => false) k .init (smallMsgs b)
  name k := if k = 1 then ascii "a:1" else if k = 2 then ascii "b:2" else if k = 3 then ascii "c:3" else ascii "d:4"
  key s := if s = ascii "a:1" then 1 else if s = ascii "b:2" then 2 else if s = ascii "c:3" then 3 else 4
  hash k := k.length
  conn c := c

theorem small_views : (smallFleet 0).views = fun k => receiveAll (fun _ => false) k .init (smallMsgs 0) := by
  simp only [smallFleet]

theorem small_agree : Agree (fun _ _ => false) 2 (smallNodes 0) (smallFleet 0).views := by
  have ho : Orderly true .init (smallHist 0) := by decide +kernel
  have h : (sent .init (smallHist 0)).getLast?.isSome := by decide +kernel
  obtain ⟨last, hl⟩ := Option.isSome_iff_exists.1 h
  obtain ⟨N, nodes, tt, hA, -⟩ := C29_agreement (fun _ _ => false) (smallHist 0) ho (fun _ => smallMsgs 0) last hl
    (fun k => ⟨List.mem_of_getLast? hl, fun m h => h⟩)
  have hv : (receiveAll (fun _ => false) 1 .init (smallMsgs 0)).nodes = nodes := hA.same 1
  have hw : (receiveAll (fun _ => false) 1 .init (smallMsgs 0)).nodes = smallNodes 0 := by decide +kernel
  have hnodes : nodes = smallNodes 0 := hv.symm.trans hw
  have hg : GoodView (fun _ => false) N (receiveAll (fun _ => false) 1 .init (smallMsgs 0)) := hA.good 1
  have hN : N = 2 := by
    have h1 := hg.good.exists_range hg.sorted 1
    have h2 := hg.good.exists_range hg.sorted 2
    rw [hw] at h1 h2
    have e1 : exists_ (smallNodes 0) 1 = true := by decide +kernel
    have e2 : exists_ (smallNodes 0) 2 = false := by decide +kernel
    have h1 := h1.1 e1
    have h2 : ¬ ((0 : Int) ≤ 2 ∧ (2 : Int) < N) := fun h => by
      have := h2.2 h
      rw [e2] at this
      cases this
    omega
  rw [small_views, ← hnodes, ← hN]
  exact hA

theorem small_routable (k : Bytes) : Routable (smallFleet 0).kr 2 ((smallFleet 0).hash k) :=
  ⟨by decide, by decide, by decide, Int.natCast_nonneg _⟩

theorem small_names (k : NodeKey) :
    PlainPath [(smallFleet 0).name k] ∧ ((smallFleet 0).name k).length ≤ 4096 := by
  have h : ∀ x ∈ [ascii "a:1", ascii "b:2", ascii "c:3", ascii "d:4"],
      (∀ n ∈ [x], n ≠ [] ∧ ∀ c ∈ n, c ≠ 0 ∧ c ≠ chNl ∧ c ≠ chComma ∧ c ≠ chGt) ∧ x.length ≤ 4096 := by decide +kernel
  refine h _ ?_
  simp only [smallFleet]
  split
  · simp
  · split
    · simp
    · split <;> simp

theorem smallFleet_steady : Steady (smallFleet 0) (fun _ _ => false) 2 (smallNodes 0) where
  agree := small_agree
  some_part := by omega
  routable := small_routable
  masters_only p k n h hr _ _ := by
    have hall : ∀ x ∈ smallNodes 0, x.2.role = .slave → x.2.balance ≤ 0 := by decide +kernel
    have hs := (small_agree.good 1).sorted
    rw [small_agree.same] at hs
    exact hall (k, n) ((mem_iff_mfind _ hs _ _).2 h) hr
  names := small_names
  first := List.length_replicate
  q := List.length_replicate
  w := List.length_replicate

def fleetPut (k d : Bytes) (x : Int64) : FleetAsk :=
  .write { cmd := .set, entry := { key := k, expire := x, size := UInt64.ofNat d.length, data := d } }

def fleetIncr (k : Bytes) (n : UInt64) : FleetAsk := .write { cmd := .incr, entry := { key := k }, value := n }

def fleetDel (k : Bytes) : FleetAsk := .write { cmd := .delete, entry := { key := k } }

/-- Clients at all four nodes, with clocks that do not agree.  The `get` of client 2 at 2000000020 finds the record
expired, and it is removed after client 3 has stored a new one. -/
def smallRun : List FleetEv :=
  [.ask 3 { env := { now := 2000000000 } } (fleetPut memKey (ascii "41") 2000000010),
   .ask 4 { env := { now := 1 } } (fleetPut (ascii "jj") (ascii "x") 0),
   .ask 2 { env := { now := 2000000001 } } (fleetIncr memKey 1),
   .ask 4 { env := { now := 2000000001 } } (.read .gets memKey),
   .arrive 0 9 { env := { now := 5 } },
   .ask 1 { env := { now := 2 } } (.read .get (ascii "jj")),
   .ask 2 { env := { now := 2000000020 } } (.read .get memKey),
   .ask 3 { env := { now := 2000000020 } } (fleetPut memKey (ascii "new") 0),
   .late 1 2 { now := 2000000021 },
   .ask 1 { env := { now := 2000000021 } } (.read .get memKey),
   .ask 4 { env := { now := 3 }, room := fun _ _ => false } (fleetDel (ascii "jj")),
   .ask 4 { env := { now := 3, putOk := false } } (fleetPut (ascii "jj") (ascii "y") 0)]

theorem small_plain {k : Bytes} (h : k ∈ [memKey, ascii "jj"]) : PlainKey k 8192 := by
  have : ∀ k ∈ [memKey, ascii "jj"], k ≠ [] ∧ (∀ c ∈ k, c ≠ 0 ∧ c ≠ chSpace ∧ c ≠ chNl) ∧ k.length < 8192 := by
    decide +kernel
  exact this k h

theorem small_put {k d : Bytes} {x : Int64} (hk : k ∈ [memKey, ascii "jj"])
    (hd : d ∈ [ascii "41", ascii "x", ascii "new", ascii "y"]) (hx : x = 0 ∨ x = 2000000010) :
    (fleetPut k d x).Client := by
  have h1 : ∀ d ∈ [ascii "41", ascii "x", ascii "new", ascii "y"],
      d.length = (UInt64.ofNat d.length).toNat ∧ headerSize + d.length ≤ intMax ∧
        (UInt64.ofNat d.length).toNat + 65536 ≤ intMax := by decide +kernel
  obtain ⟨g1, g2, g3⟩ := h1 d hd
  refine ⟨⟨fun _ => rfl, fun _ => ⟨g1, g2⟩⟩, rfl, ⟨small_plain hk, by simp [PlainPath], ?_, ?_⟩, ?_, g3, fun h => nomatch h⟩
  · show (0 : UInt32) < 8
    decide
  · show 0 ≤ x.toInt
    rcases hx with rfl | rfl <;> decide +kernel
  · show x = 0 ∨ maxRealtimeDelta < x
    rcases hx with rfl | rfl <;> decide +kernel

theorem small_client : ∀ e ∈ smallRun, e.client := by
  intro e he
  simp only [smallRun, List.mem_cons, List.not_mem_nil, or_false] at he
  have hmax : ∀ n : Nat, n < 100 → n + 65536 ≤ intMax := by intro n h; simp only [intMax]; omega
  have hread : ∀ t k, t = ResponseType.get ∨ t = .gets → k ∈ [memKey, ascii "jj"] → (FleetAsk.read t k).Client :=
    fun t k ht hk => ⟨ht, small_plain hk⟩
  rcases he with rfl | rfl | rfl | rfl | rfl | rfl | rfl | rfl | rfl | rfl | rfl | rfl
  · exact small_put (by simp) (by simp) (by simp)
  · exact small_put (by simp) (by simp) (by simp)
  · exact ⟨⟨fun _ => rfl, fun h => nomatch h⟩, rfl, ⟨small_plain (by simp), by simp [PlainPath], by decide, by decide⟩,
      .inl rfl, hmax _ (by decide), fun h => nomatch h⟩
  · exact hread _ _ (by simp) (by simp)
  · trivial
  · exact hread _ _ (by simp) (by simp)
  · exact hread _ _ (by simp) (by simp)
  · exact small_put (by simp) (by simp) (by simp)
  · trivial
  · exact hread _ _ (by simp) (by simp)
  · exact ⟨⟨fun _ => rfl, fun h => nomatch h⟩, rfl, ⟨small_plain (by simp), by simp [PlainPath], by decide, by decide⟩,
      .inl rfl, hmax _ (by decide), fun h => nomatch h⟩
  · exact small_put (by simp) (by simp) (by simp)

/-- What the clients are told.  The last two requests are refused, and fail. -/
example : (fleetLog (smallFleet 0) (emptyFleet 8) smallRun).map FleetSeen.mem =
    [.did 3 2000000000 (memPut memKey (ascii "41") 2000000010) (.said .stored),
     .did 4 1 (memPut (ascii "jj") (ascii "x") 0) (.said .stored),
     .did 2 2000000001 (memIncr memKey 1) (.number 42),
     .did 4 2000000001 (.read memKey) (.value ⟨ascii "42", 0, 2000000010, 2⟩),
     .did 1 2 (.read (ascii "jj")) (.value ⟨ascii "x", 0, 0, 1⟩),
     .did 2 2000000020 (.read memKey) (.said .notFound),
     .did 3 2000000020 (memPut memKey (ascii "new") 0) (.said .stored),
     .quiet 2000000021,
     .did 1 2000000021 (.read memKey) (.value ⟨ascii "new", 0, 0, 3⟩),
     .did 4 3 (memDel (ascii "jj") 0) .failed,
     .did 4 3 (memPut (ascii "jj") (ascii "y") 0) .failed] := by decide +kernel

theorem small_forwards : Forwards (smallFleet 0) 2 (smallNodes 0) smallRun := by
  have h : smallRun.Pairwise fun x y => (match x.place (smallFleet 0) 2 (smallNodes 0),
      y.place (smallFleet 0) 2 (smallNodes 0) with
    | some (k, t), some (k', u) => decide (k = k' → t ≤ u)
    | _, _ => true) = true := by decide +kernel
  refine h.imp fun {x y} hxy => ?_
  intro k t u h1 h2
  rw [h1, h2] at hxy
  simpa using hxy

theorem small_calm : ∀ e ∈ smallRun, e.calm [memKey, ascii "jj"] := by
  intro e he
  simp only [smallRun, List.mem_cons, List.not_mem_nil, or_false] at he
  rcases he with rfl | rfl | rfl | rfl | rfl | rfl | rfl | rfl | rfl | rfl | rfl | rfl
  all_goals first
    | trivial
    | exact ⟨by simp [fleetPut, fleetIncr, fleetDel, FleetAsk.mem], fun _ => rfl⟩
    | exact ⟨by simp [fleetPut, fleetIncr, fleetDel, FleetAsk.mem], fun h => nomatch h⟩
    | simp [FleetEv.calm, FleetAsk.mem, MemAsk.Calm]

theorem small_fit : FleetFit (fleetLog (smallFleet 0) (emptyFleet 8) smallRun) := by
  have hfit : ∀ x ∈ fleetLog (smallFleet 0) (emptyFleet 8) smallRun, (match x with
      | .did _ _ (.write r) (some (_, o)) _ => decide (o.rc ≠ .ub ∧ o.e.size.toNat + 16384 ≤ intMax ∧
          r.entry.option &&& optNoreply = 0 ∧ r.cmd ≠ .gat)
      | .did _ _ _ (some (_, o)) _ => decide (o.rc ≠ .ub ∧ o.e.size.toNat + 16384 ≤ intMax)
      | _ => true) = true := by decide +kernel
  intro c now a k o d hm
  have := hfit _ hm
  cases a with
  | write r =>
    simp only [decide_eq_true_eq] at this
    refine ⟨this.1, this.2.1, fun r' hr _ => ?_⟩
    cases hr
    exact this.2.2
  | read t k => simp only [decide_eq_true_eq] at this; exact ⟨this.1, this.2, fun r h => nomatch h⟩
  | clear => simp only [decide_eq_true_eq] at this; exact ⟨this.1, this.2, fun r h => nomatch h⟩

set_option maxRecDepth 100000 in
example : Explains (fun _ => .empty) ((fleetLog (smallFleet 0) (emptyFleet 8) smallRun).map FleetSeen.mem)
    (fleetMemory (smallFleet 0) 2 (smallNodes 0) (fleetRun (smallFleet 0) (emptyFleet 8) smallRun)) := by
  have hlen : smallRun.length < 2 ^ 64 := Nat.lt_of_le_of_lt (show smallRun.length ≤ 12 from Nat.le_refl _) (by omega)
  have hsize : [memKey, ascii "jj"].length ≤ 8 := by decide
  have h := C80_orderly_partial smallFleet_steady [memKey, ascii "jj"] 8 hsize smallRun hlen small_forwards
    small_client small_calm small_fit
  exact And.right h

/-- What clients 3 and 4 read, at the slave and at the proxy. -/
example :
    let l := fleetLog (smallFleet 0) (emptyFleet 8) smallRun
    let z := List.replicate 64 (0 : UInt8)
    (serveAll fleetBack 2000000000 z z (fleetDoneBy 3 l)
      (ascii "set k 0 2000000010 2\r\n41\r\nset k 0 0 3\r\nnew\r\n")).out = ascii "STORED\r\nSTORED\r\n" ∧
    (serveAll fleetBack 2000000000 z z (fleetDoneBy 4 l)
      (ascii "set jj 0 0 1\r\nx\r\ngets k\r\ndelete jj\r\nset jj 0 0 1\r\ny\r\n")).out =
      ascii "STORED\r\nVALUE k 0 2 2\r\n42\r\nEND\r\nSERVER_ERROR proxy failure\r\nSERVER_ERROR i/o error\r\n" := by
  decide +kernel

/-! ### Where it is not one memory -/

/-- No memory explains that a value is stored for good and is not there when it is read next. -/
theorem unread_unexplained (m m' : Memory) (c c' : Nat) (k d : Bytes) (t1 t3 : Int64) :
    ¬ Explains m [.did c t1 (memPut k d 0) (.said .stored), .did c' t3 (.read k) (.said .notFound)] m' := by
  rintro ⟨m1, h1, m2, h2, rfl⟩
  exact lost_unexplained m m2 c c' k d t1 t1 t3 ⟨m1, h1, m1, fun _ => .refl _ _, m2, h2, rfl⟩

def staleRun : List FleetEv :=
  [.ask 1 { env := { now := 1000 } } (fleetPut memKey (ascii "new") 0), .ask 3 { env := { now := 1001 } } (.read .get memKey)]

/-- Defect: a slave with a balance answers reads from its own storage, and the master does not wait for its copies:
a client is told that its value is stored, and the next client at the slave is told that there is none. -/
theorem C80_stale_read :
    ((fleetLog (smallFleet 1) (emptyFleet 8) staleRun).map FleetSeen.mem =
      [.did 1 1000 (memPut memKey (ascii "new") 0) (.said .stored), .did 3 1001 (.read memKey) (.said .notFound)]) ∧
    (∀ m m', ¬ Explains m ((fleetLog (smallFleet 1) (emptyFleet 8) staleRun).map FleetSeen.mem) m') ∧
    (fleetRun (smallFleet 1) (emptyFleet 8) staleRun).copies.map (·.1) = [3] := by
  have h : (fleetLog (smallFleet 1) (emptyFleet 8) staleRun).map FleetSeen.mem =
      [.did 1 1000 (memPut memKey (ascii "new") 0) (.said .stored), .did 3 1001 (.read memKey) (.said .notFound)] := by
    decide +kernel
  refine ⟨h, fun m m' he => ?_, by decide +kernel⟩
  rw [h] at he
  exact unread_unexplained _ _ _ _ _ _ _ _ he

/-- No memory explains that it has been cleared and has a value that was not stored since. -/
theorem clear_unexplained (m m' : Memory) (c c' : Nat) (k : Bytes) (it : Item) (t1 t2 : Int64) :
    ¬ Explains m [.did c t1 .clear .cleared, .did c' t2 (.read k) (.value it)] m' := by
  rintro ⟨m1, h1, m2, h2, -⟩
  rcases h1 with ⟨h, -⟩ | ⟨-, h1⟩
  · cases h
  · have k1 := h1 k
    simp only [memDo] at k1
    have hl : (m1 k).live t2 = none := by
      rcases k1 with h | ⟨-, -, h | ⟨u, -, h⟩⟩ | ⟨h, -⟩ <;> rw [h] <;> rfl
    rcases h2 with ⟨h, -⟩ | ⟨h, -⟩
    · cases h
    · simp only [memDo, hl] at h
      cases h

def flushFleet : List FleetEv :=
  [.ask 1 { env := { now := 1000 } } (fleetPut (ascii "jj") (ascii "x") 0), .ask 1 { env := { now := 1001 } } .clear,
   .ask 1 { env := { now := 1002 } } (.read .get (ascii "jj"))]

/-- What becomes of the number that the master of the partition answers to `incr`, for all strings of digits of which
it may consist.  Defect: the buffer that it is copied to has room for 8191 digits, and nobody looks at the length; if
there are 8190 or 8191 the answer is not a line any more. -/
theorem C80_number (q d rest : Bytes) (hd : ∀ c ∈ d, isDigit c = true) (hne : d ≠ []) (hv : decValue d < 2 ^ 64) :
    (d.length < 8190 → incrClient q (d ++ crlf ++ rest) = .ok (.sent true .stored (d ++ crlf) none, rest)) ∧
    (d.length = 8190 → incrClient q (d ++ crlf ++ rest) = .ok (.sent true .stored (d ++ [chCr]) none, rest)) ∧
    (d.length = 8191 → incrClient q (d ++ crlf ++ rest) = .ok (.sent true .stored d none, rest)) ∧
    (8191 < d.length → incrClient q (d ++ crlf ++ rest) = .error .ub) := by
  have hl : readLine (d ++ crlf ++ rest) = some (d ++ [chNl], rest) := readLine_crlf fun c hc h => by
    have := hd c hc; rw [h] at this; exact absurd this (by decide)
  have hc : crlf.length = 2 := rfl
  have e : incrClient q (d ++ crlf ++ rest) =
      if d.length < 8192 then .ok (.sent true .stored ((d ++ crlf).take 8191) none, rest) else .error .ub := by
    simp only [incrClient, hl, trimAnswer_word hd hne, lexUnsigned_digits hd hne hv, Option.isSome_some, if_true]
  rw [e]
  refine ⟨fun h => ?_, fun h => ?_, fun h => ?_, fun h => ?_⟩
  · rw [if_pos (by omega), List.take_of_length_le (by rw [List.length_append]; omega)]
  · rw [if_pos (by omega), show 8191 = d.length + 1 by omega, List.take_length_add_append]; rfl
  · rw [if_pos (by omega), ← h, List.take_left']; rfl
  · rw [if_neg (by omega)]

/-- Such answers exist: any number of zeros. -/
example (n : Nat) : decValue (List.replicate n 48) = 0 ∧ ∀ c ∈ List.replicate n (48 : UInt8), isDigit c = true := by
  refine ⟨?_, fun c hc => by rw [(List.mem_replicate.1 hc).2]; decide⟩
  induction n with
  | zero => rfl
  | succ n ih => rw [List.replicate_succ]; simpa [decValue] using ih

/-- Defect: `flush_all` empties the node where it arrives and no other one, not even the slaves of that node; the
client is told `OK`, and still reads what the other masters have. -/
theorem C80_flush_one_node :
    (∀ F f c j f' ran d, fleetAsk F f c j .clear = .went f' ran d →
      (∀ k, k ≠ F.conn c → f'.node k = f.node k) ∧ f'.copies = f.copies ∧
      ∃ o, ran = some (F.conn c, o) ∧ o = (firstSection (f.node (F.conn c)).store j.env .flush).2.1 ∧
        d = some (.flushed (o.rc = .ok))) ∧
    ((fleetLog (smallFleet 0) (emptyFleet 8) flushFleet).map FleetSeen.mem =
      [.did 1 1000 (memPut (ascii "jj") (ascii "x") 0) (.said .stored), .did 1 1001 .clear .cleared,
       .did 1 1002 (.read (ascii "jj")) (.value ⟨ascii "x", 0, 0, 1⟩)]) ∧
    ∀ m m', ¬ Explains m ((fleetLog (smallFleet 0) (emptyFleet 8) flushFleet).map FleetSeen.mem) m' := by
  have h : (fleetLog (smallFleet 0) (emptyFleet 8) flushFleet).map FleetSeen.mem =
      [.did 1 1000 (memPut (ascii "jj") (ascii "x") 0) (.said .stored)] ++ [.did 1 1001 .clear .cleared,
       .did 1 1002 (.read (ascii "jj")) (.value ⟨ascii "x", 0, 0, 1⟩)] := by decide +kernel
  refine ⟨?_, h, fun m m' he => ?_⟩
  · intro F f c j f' ran d hx
    simp only [fleetAsk, fleetCall] at hx
    cases hd : (f.node (F.conn c)).due c with
    | some e => simp only [hd] at hx; cases hx
    | none =>
      simp only [hd, Fate.went.injEq] at hx
      obtain ⟨rfl, rfl, rfl⟩ := hx
      exact ⟨fun k hk => by simp only [Fleet.put, if_neg hk], rfl, _, rfl, rfl, rfl⟩
  · rw [h] at he
    obtain ⟨m1, -, h2⟩ := explains_append he
    exact clear_unexplained _ _ _ _ _ _ _ _ h2

end Flare
