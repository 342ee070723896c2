import Verif.Lemmas.Forward
import Verif.Props.Storage3
import Verif.Props.Replication
import Verif.Props.Routing

/-! Property theorems about handing a write to another node: C62. -/
namespace Flare

/-- Two executions cannot be told apart: same store, same outcome, and if something was stored or
touched the same entry (up to options), from which answer and copies are made. -/
def SameEffect (x y : Store × Out) : Prop :=
  x.1 = y.1 ∧ x.2.rc = y.2.rc ∧ x.2.r = y.2.r ∧
    (x.2.r = some .stored ∨ x.2.r = some .touched →
      { x.2.e with option := 0 } = { y.2.e with option := 0 })

theorem SameEffect.refl (x : Store × Out) : SameEffect x x := ⟨rfl, rfl, rfl, fun _ => rfl⟩

/-- incr looks at nothing of its entry but the key. -/
theorem incr_sameEffect (s : Store) (env : Env) (e e' : Entry) (hk : e'.key = e.key) (v : UInt64)
    (i : Bool) (b : Beh) : SameEffect (incr s env e' v i b) (incr s env e v i b) := by
  simp only [incr, incrLocked, hk]
  cases dbGet s.db e.key with
  | none => exact ⟨rfl, rfl, rfl, by simp⟩
  | some raw =>
    dsimp only
    rcases hu : unserializeHeader raw { key := [] } with ⟨cur, ok⟩
    cases ok with
    | false => exact ⟨rfl, rfl, rfl, by simp⟩
    | true =>
      dsimp only
      by_cases h1 : raw.length - headerSize ≠ cur.size.toNat
      · rw [if_pos h1, if_pos h1]; exact ⟨rfl, rfl, rfl, by simp⟩
      · rw [if_neg h1, if_neg h1]
        by_cases h2 : isExpired b.skipTimestamp cur.expire env.now = true
        · rw [if_pos h2, if_pos h2]; exact ⟨rfl, rfl, rfl, by simp⟩
        · rw [if_neg h2, if_neg h2]
          generalize decimal (incrValue (leadingNumber (raw.drop headerSize)) v i).toNat = d
          simp only [putRecord, serializeHeader, hk]
          by_cases h3 : headerSize + (UInt64.ofNat d.length).toNat ≤ intMax
          · simp only [if_pos h3]
            cases env.putOk
            · exact ⟨rfl, rfl, rfl, by simp⟩
            · exact ⟨rfl, rfl, rfl, fun _ => by simp [hk]⟩
          · simp only [if_neg h3]
            exact ⟨rfl, rfl, rfl, by simp⟩

/-- remove looks at key, expiry and version. -/
theorem remove_sameEffect (s : Store) (env : Env) (e e' : Entry) (hk : e'.key = e.key)
    (hx : e'.expire = e.expire) (hv : e'.version = e.version) (b : Beh) :
    SameEffect (remove s env e' b) (remove s env e b) := by
  simp only [remove, hk, hv, setHeaderCache]
  split
  · exact ⟨rfl, rfl, rfl, by simp⟩
  · split
    · refine ⟨?_, rfl, rfl, by simp⟩
      dsimp only
      rw [hx]
    · split
      · exact ⟨rfl, rfl, rfl, by simp⟩
      · refine ⟨?_, rfl, rfl, ?_⟩
        · dsimp only
          split
          · simp only [hx, hk]
          · simp only [hx, hk, hv]
        · dsimp only
          split <;> simp

/-- touch looks at key and expiry. -/
theorem touch_sameEffect (s : Store) (env : Env) (e e' : Entry) (hk : e'.key = e.key)
    (hx : e'.expire = e.expire) :
    SameEffect (set s env e' .ofTouch) (set s env e .ofTouch) := by
  have hc : ∀ st ev ev' cv, setCheck st .ofTouch ev cv = setCheck st .ofTouch ev' cv := by
    intro st ev ev' cv
    cases st <;> simp [setCheck, Beh.ofTouch]
  have hcur : setCurrent s env e' .ofTouch = setCurrent s env e .ofTouch := by
    simp only [setCurrent, hk]
  simp only [set]
  rw [hcur]
  rcases setCurrent s env e .ofTouch with ⟨s1, cur, ex⟩
  dsimp only
  rw [hc _ e'.version e.version]
  have hr : ∀ st ev cv r, setCheck st .ofTouch ev cv = .error r → r = .notFound := by
    intro st ev cv r
    cases st <;> simp [setCheck, Beh.ofTouch, eq_comm]
  cases hck : setCheck (setState env.now .ofTouch cur ex) .ofTouch e.version cur.version with
  | error r => exact ⟨rfl, rfl, rfl, by simp [hr _ _ _ _ hck]⟩
  | ok v =>
    simp only [setPrepare, Beh.ofTouch, Bool.or_self, Bool.false_eq_true, if_false, if_true]
    cases copyOut cur.data cur.size.toNat with
    | none => exact ⟨rfl, rfl, rfl, by simp⟩
    | some d =>
      simp only [Option.map_some, putRecord, serializeHeader, hk, hx]
      by_cases h3 : headerSize + cur.size.toNat ≤ intMax
      · simp only [if_pos h3]
        cases env.putOk
        · exact ⟨rfl, rfl, rfl, by simp⟩
        · exact ⟨rfl, rfl, rfl, fun _ => by simp [hk, hx]⟩
      · simp only [if_neg h3]
        exact ⟨rfl, rfl, rfl, by simp⟩

/-- What the receiver of a forwarded write has in hand. -/
theorem forward_arrives (op : HeldOp) (me : Bytes) (hs : Sendable op.req 8192) (hme : PlainPath [me])
    (hen : (encodeWrite (op.forward me)).isSome) (now : Int64) :
    deliver now (op.forward me) = some (arrives now (op.forward me)) := by
  obtain ⟨h1, h2, h3, h4⟩ := hs
  have hp : PlainPath (op.forward me).path := by
    intro n hn
    rcases List.mem_append.1 hn with h | h
    · exact h2 n h
    · exact hme n h
  have h : Sendable (op.forward me) 8192 := by
    simp only [Sendable, HeldOp.forward]
    exact ⟨h1, hp, h3, h4⟩
  exact deliver_arrives h hen now

/-- A write that is handed to another node does there exactly what it would have done here, and takes
its path along: for every command, entry, store and time.  Missing: conditional writes of the binary
protocol, see `C62_cas_forwarded`, and the mode "forward" of the cluster replication, see
`C62_amount_lost`. -/
theorem C62_forwarded_partial (op : HeldOp) (me : Bytes) (hcas : op.cas = false)
    (hs : Sendable op.req 8192) (hme : PlainPath [me]) (hx : Absolute op.req.entry.expire)
    (hd : op.req.cmd.kind = .store → op.req.entry.data.length = op.req.entry.size.toNat)
    (hen : (encodeWrite (op.forward me)).isSome) (now : Int64) :
    ∃ r, deliver now (op.forward me) = some r ∧ r.path = op.req.path ++ [me] ∧
      ∀ s env, SameEffect (step s env r.call) (step s env op.call) := by
  refine ⟨_, forward_arrives op me hs hme hen now, ?_, ?_⟩
  · rcases op with ⟨⟨cmd, path, e, v⟩, c⟩
    cases cmd <;> rfl
  · intro s env
    rcases op with ⟨⟨cmd, path, e, v⟩, c⟩
    dsimp only at hcas hd hx
    subst hcas
    have hx' : realtime now e.expire = e.expire := realtime_absolute hx
    have hstore : ∀ b : Beh, e.data.length = e.size.toNat →
        SameEffect (step s env (.set { e with expire := realtime now e.expire
                                              data := e.data.take e.size.toNat } b))
          (step s env (.set e { b with cas := b.cas || false })) := by
      intro b hd
      rw [hx', List.take_of_length_le (by omega), Bool.or_false]
      exact .refl _
    cases cmd with
    | incr => exact incr_sameEffect s env e { key := e.key, option := e.option } rfl v true {}
    | decr => exact incr_sameEffect s env e { key := e.key, option := e.option } rfl v false {}
    | delete =>
      exact remove_sameEffect s env e
        { key := e.key, expire := realtime now e.expire, version := e.version, option := e.option }
        rfl hx' rfl {}
    | touch =>
      exact touch_sameEffect s env e
        { key := e.key, expire := realtime now e.expire, option := e.option &&& optNoreply } rfl hx'
    | gat =>
      exact touch_sameEffect s env e
        { key := e.key, expire := realtime now e.expire, option := e.option &&& optNoreply } rfl hx'
    | _ => exact hstore _ (hd rfl)

/-- The same from the bytes of the client to the bytes of the receiver: whatever write a node reads
from a text connection and hands on, the receiver reads from what the node sends (at another time and
on another connection) one request with the same effect. -/
theorem C62_text (now now' : Int64) (first q s rest : Bytes) (r : WriteReq) (me : Bytes)
    (hn : SaneNow now) (hq : q.length = 8192) (h : decodeWrite now first q s = .ok (r, rest))
    (hme : PlainPath [me]) (hen : (encodeWrite (HeldOp.forward me ⟨r, false⟩)).isSome) :
    ∃ r', deliver now' (HeldOp.forward me ⟨r, false⟩) = some r' ∧ r'.path = r.path ++ [me] ∧
      ∀ s env, SameEffect (step s env r'.call) (step s env r.call) := by
  obtain ⟨h0, h1, h2, h3, h4⟩ := decodeWrite_reads hn hq h
  obtain ⟨r', k1, k2, k3⟩ := C62_forwarded_partial ⟨r, false⟩ me rfl
    ⟨h1, h0, h2, absolute_nonneg h3⟩ hme h3 h4 hen now'
  refine ⟨r', k1, k2, fun s env => ?_⟩
  have e : HeldOp.call ⟨r, false⟩ = r.call := by
    rcases r with ⟨cmd, path, e, v⟩
    cases cmd <;> rfl
  rw [← e]
  exact k3 s env

/-- A conditional binary set that is handed to the master arrives as a plain set with a version.  If
the key is there, executed here it stores exactly if the version matches; handed on, exactly if the
version is newer: the two never store the same. -/
theorem C62_cas_forwarded (op : HeldOp) (me : Bytes) (hc : op.req.cmd = .set) (hcas : op.cas = true)
    (hs : Sendable op.req 8192) (hme : PlainPath [me]) (hx : Absolute op.req.entry.expire)
    (he : op.req.entry.Ok) (h0 : op.req.entry.version ≠ 0)
    (hen : (encodeWrite (op.forward me)).isSome) (now : Int64)
    {s : Store} (hst : s.Ok) {env : Env} (hp : env.putOk = true) {it : Item}
    (hl : lookup s env.now op.req.entry.key = some it) :
    ∃ r, deliver now (op.forward me) = some r ∧
      ((step s env op.call).2.r = some .stored ↔ op.req.entry.version = it.version) ∧
      ((step s env r.call).2.r = some .stored ↔ it.version < op.req.entry.version) := by
  refine ⟨_, forward_arrives op me hs hme hen now, ?_, ?_⟩
  · rcases op with ⟨⟨cmd, path, e, v⟩, c⟩
    dsimp only at hc hcas
    subst hc hcas
    obtain ⟨h1, h2⟩ := C04_cas_visible hst he hp hl
    show (set s env e .ofCas).2.r = _ ↔ _
    by_cases hv : e.version = it.version
    · exact ⟨fun _ => hv, fun _ => (h1 hv).2.1⟩
    · exact ⟨fun h => absurd h (by rw [(h2 hv).2.1]; decide), fun h => absurd h hv⟩
  · rcases op with ⟨⟨cmd, path, e, v⟩, c⟩
    dsimp only at hc hcas
    subst hc hcas
    have hx' : realtime now e.expire = e.expire := realtime_absolute hx
    have hd : e.data.take e.size.toNat = e.data := List.take_of_length_le (Nat.le_of_eq he.1)
    have hcall : (arrives now (HeldOp.forward me ⟨⟨.set, path, e, v⟩, true⟩)).call = .set e .ofSet := by
      simp only [arrives, HeldOp.forward, WriteReq.call, hx', hd]
    rw [hcall]
    show (set s env e .ofSet).2.r = _ ↔ _
    by_cases hlt : it.version < e.version
    · exact ⟨fun _ => hlt, fun _ => (C10_newer_set hst .ofSet (Or.inl rfl) he hp hl hlt).1⟩
    · have hle : e.version ≤ it.version := UInt64.not_lt.1 hlt
      rw [C10_stale_set hst .ofSet (Or.inl rfl) h0 hl hle]
      exact ⟨fun h => (by cases h), fun h => absurd h hlt⟩

/-- In the mode "forward" of the cluster replication the amount of incr and decr gets lost: whatever
the client adds or subtracts, the other cluster adds 0, and says that it is done. -/
theorem C62_amount_lost (op : HeldOp) (hk : op.req.cmd = .incr ∨ op.req.cmd = .decr)
    (hs : Sendable op.req 8192) (hen : (encodeWrite op.forwardCluster).isSome) (now : Int64)
    {s : Store} (hst : s.Ok) {env : Env} (hp : env.putOk = true) {it : Item}
    (hl : lookup s env.now op.req.entry.key = some it) {n : Nat} (hn : n < 2 ^ 64)
    (hd : HoldsNumber it.data n) :
    ∃ r, deliver now op.forwardCluster = some r ∧ (step s env r.call).2.r = some .stored ∧
      (step s env r.call).2.e.data = decimal n := by
  have h : Sendable op.forwardCluster 8192 := by
    obtain ⟨h1, h2, h3, h4⟩ := hs
    simp only [Sendable, HeldOp.forwardCluster]
    exact ⟨h1, h2, h3, h4⟩
  refine ⟨_, deliver_arrives h hen now, ?_⟩
  rcases op with ⟨⟨cmd, path, e, v⟩, c⟩
  dsimp only at hk hl
  rcases hk with rfl | rfl
  · have := C07_incr_decr (s := s) hst (env := env) (e := { key := e.key, option := e.option }) (v := 0)
      (b := true) hp hl hn hd
    refine ⟨this.2.1, this.2.2.1.trans ?_⟩
    have h0 : min (n + (0 : UInt64).toNat) (2 ^ 64 - 1) = n := by
      have : (0 : UInt64).toNat = 0 := rfl
      rw [this]; omega
    rw [if_pos rfl, h0]
  · have := C07_incr_decr (s := s) hst (env := env) (e := { key := e.key, option := e.option }) (v := 0)
      (b := false) hp hl hn hd
    exact ⟨this.2.1, this.2.2.1⟩

/-- A copy for another cluster carries the path of the request.  If the client's write came through
another node, the receiving node of the other cluster takes it for a write that its master has sent:
if it is a slave of the key's partition it executes the copy and tells nobody, while without a path it
would have handed it to the master. -/
theorem C62_copy_stays_at_slave (op : HeldOp) (o : Out) (c : WriteReq)
    (hc : op.copyCluster o = some c) (hpath : op.req.path ≠ [])
    (name : Bytes → NodeKey) (hash : Bytes → Int) (kr : Resolver) (me dst : NodeKey) (v : View)
    (room : NodeKey → Bool) (changed : Bool) (p : Part) (b : Bool)
    (hp : determine kr v (hash c.entry.key) false = .found p b)
    (hprep : determinePrep kr v (hash c.entry.key) = some none)
    (hin : me ∈ p.index) (hm : p.master = some dst) (hne : dst ≠ me) (hroom : enqueueOk v room dst = true) :
    handle kr me v room changed (c.routed name hash) = some ⟨true, []⟩ ∧
      handle kr me v room changed ({ c with path := [] }.routed name hash) = some ⟨false, [dst]⟩ := by
  have hcp : c.path = op.req.path := by
    simp only [HeldOp.copyCluster, copyOf] at hc
    split at hc
    · cases hc; rfl
    · cases hc
  have hnl : p.ledBy me = false := by simp [Part.ledBy, hm, hne]
  constructor
  · have h1 : preWrite kr me v room (c.routed name hash) = .execute := by
      simp [preWrite, WriteReq.routed, hp, hprep, hnl, hcp, hpath, hin]
    rw [handle, h1]
    cases changed
    · rfl
    · simp [postWrite, WriteReq.routed, hp, hprep, hnl]
  · have h1 : preWrite kr me v room ({ c with path := [] }.routed name hash) = .forward dst := by
      simp [preWrite, WriteReq.routed, hp, hprep, hnl, hm, hroom]
    rw [handle, h1]

/-! "incr a 5" that node "m:1" hands on: it arrives as sent and adds 5. -/
example : deliver 100 (HeldOp.forward [109, 58, 49] ⟨⟨.incr, [], { key := [97] }, 5⟩, false⟩) =
      some ⟨.incr, [[109, 58, 49]], { key := [97] }, 5⟩ ∧
    lookup (step exStore exEnv (WriteReq.call ⟨.incr, [[109, 58, 49]], { key := [97] }, 5⟩)).1 100 [97] =
      some ⟨[49, 50], 5, 200, 4⟩ := by decide +kernel

/-! The node reads "<x>touch a 500\r\n" at time 3000000 and hands on "<x,m>touch a 3000500". -/
example : decodeWrite 3000000 (List.replicate 1024 0) (List.replicate 8192 0)
      [60, 120, 62, 116, 111, 117, 99, 104, 32, 97, 32, 53, 48, 48, 13, 10] =
      .ok (⟨.touch, [[120]], { key := [97], expire := 3000500 }, 0⟩, []) ∧
    encodeWrite (HeldOp.forward [109] ⟨⟨.touch, [[120]], { key := [97], expire := 3000500 }, 0⟩, false⟩) =
      some [60, 120, 44, 109, 62, 116, 111, 117, 99, 104, 32, 97, 32, 51, 48, 48, 48, 53, 48, 48, 13, 10] ∧
    SaneNow 3000000 := by
  refine ⟨by decide +kernel, by decide +kernel, by decide, by decide⟩

/-! The item of key "a" has version 3.  A binary set with version 3 stores if the node executes it,
and is refused if it hands it to the master; with version 4 it is the other way round. -/
example : (step exStore exEnv (HeldOp.call ⟨⟨.set, [], { exEntry with version := 3 }, 0⟩, true⟩)).2.r = some .stored ∧
    (deliver 100 (HeldOp.forward [109] ⟨⟨.set, [], { exEntry with version := 3 }, 0⟩, true⟩)).map
      (fun r => (step exStore exEnv r.call).2.r) = some (some .notStored) ∧
    (step exStore exEnv (HeldOp.call ⟨⟨.set, [], { exEntry with version := 4 }, 0⟩, true⟩)).2.r = some .exists_ ∧
    (deliver 100 (HeldOp.forward [109] ⟨⟨.set, [], { exEntry with version := 4 }, 0⟩, true⟩)).map
      (fun r => (step exStore exEnv r.call).2.r) = some (some .stored) := by decide +kernel

/-! "incr a 5" in mode forward: the other cluster keeps its 7. -/
example : (deliver 100 (HeldOp.forwardCluster ⟨⟨.incr, [], { key := [97] }, 5⟩, false⟩)).map
      (fun r => lookup (step exStore exEnv r.call).1 100 [97]) = some (some ⟨[55], 5, 200, 4⟩) := by
  decide +kernel

/-! A set that came through node "x" of the one cluster and is copied to node 4 of the other one, slave
of partition 1. -/
example : (HeldOp.copyCluster ⟨⟨.set, [[120]], exEntry, 0⟩, false⟩ ⟨.ok, some .stored, exEntry⟩).map
      (fun c => handle ⟨8, 1, 16⟩ 4 (wideView (fun _ => false) 4) (fun _ => true) true
        (c.routed (fun _ => 9) (fun _ => 0))) = some (some ⟨true, []⟩) ∧
    handle ⟨8, 1, 16⟩ 4 (wideView (fun _ => false) 4) (fun _ => true) true
      (WriteReq.routed (fun _ => 9) (fun _ => 0) ⟨.set, [], exEntry, 0⟩) = some ⟨false, [2]⟩ := by
  decide +kernel

end Flare
