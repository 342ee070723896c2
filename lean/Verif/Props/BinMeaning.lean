import Verif.Props.BinSession

/-! C72: what the requests of the binary protocol mean. -/
namespace Flare

variable {σ : Type}

/-- The requests of the protocol description. -/
inductive BinAsk where
  | set (quiet : Bool) (key value : Bytes) (flags exp : UInt32) (cas : UInt64)
  | add (quiet : Bool) (key value : Bytes) (flags exp : UInt32) (cas : UInt64)
  | replace (quiet : Bool) (key value : Bytes) (flags exp : UInt32) (cas : UInt64)
  | append (quiet : Bool) (key value : Bytes) (cas : UInt64)
  | prepend (quiet : Bool) (key value : Bytes) (cas : UInt64)
  | delete (quiet : Bool) (key : Bytes) (cas : UInt64)
  | incr (quiet : Bool) (key : Bytes) (amount initial : UInt64) (exp : UInt32)
  | decr (quiet : Bool) (key : Bytes) (amount initial : UInt64) (exp : UInt32)
  | get (quiet withKey : Bool) (key : Bytes)
  | touch (key : Bytes) (exp : UInt32)
  | gat (quiet : Bool) (key : Bytes) (exp : UInt32)
  | noop
  | version
  | flush (quiet : Bool)
  deriving DecidableEq, Repr

/-- As a message: operation codes and extras from the protocol description. -/
def BinAsk.msg : BinAsk → BinMsg
  | .set q k v f x c =>
    { opcode := if q then 0x11 else 0x01, extras := beBytes 4 f.toNat ++ beBytes 4 x.toNat, key := k, value := v, cas := c }
  | .add q k v f x c =>
    { opcode := if q then 0x12 else 0x02, extras := beBytes 4 f.toNat ++ beBytes 4 x.toNat, key := k, value := v, cas := c }
  | .replace q k v f x c =>
    { opcode := if q then 0x13 else 0x03, extras := beBytes 4 f.toNat ++ beBytes 4 x.toNat, key := k, value := v, cas := c }
  | .append q k v c => { opcode := if q then 0x19 else 0x0e, extras := [], key := k, value := v, cas := c }
  | .prepend q k v c => { opcode := if q then 0x1a else 0x0f, extras := [], key := k, value := v, cas := c }
  | .delete q k c => { opcode := if q then 0x14 else 0x04, extras := [], key := k, value := [], cas := c }
  | .incr q k a i x =>
    { opcode := if q then 0x15 else 0x05, extras := beBytes 8 a.toNat ++ beBytes 8 i.toNat ++ beBytes 4 x.toNat
      key := k, value := [] }
  | .decr q k a i x =>
    { opcode := if q then 0x16 else 0x06, extras := beBytes 8 a.toNat ++ beBytes 8 i.toNat ++ beBytes 4 x.toNat
      key := k, value := [] }
  | .get q w k =>
    { opcode := match q, w with
        | false, false => 0x00
        | true, false => 0x09
        | false, true => 0x0c
        | true, true => 0x0d
      extras := [], key := k, value := [] }
  | .touch k x => { opcode := 0x1c, extras := beBytes 4 x.toNat, key := k, value := [] }
  | .gat q k x => { opcode := if q then 0x1e else 0x1d, extras := beBytes 4 x.toNat, key := k, value := [] }
  | .noop => { opcode := 0x0a, extras := [], key := [], value := [] }
  | .version => { opcode := 0x0b, extras := [], key := [], value := [] }
  | .flush q => { opcode := if q then 0x18 else 0x08, extras := [], key := [], value := [] }

/-- The expiry as a point in time. -/
def binExpiry (now : Int64) (x : UInt32) : Int64 := realtime now (Int64.ofNat x.toNat)

/-- The entry of a counter: the initial value, with which a key that is not there would be made, unless the expiry says
that it must not. -/
def binCounter (now : Int64) (k : Bytes) (i : UInt64) (x : UInt32) : Entry :=
  if x = 0xffffffff then { key := k }
  else { key := k, expire := binExpiry now x, size := UInt64.ofNat (decimal i.toNat).length, data := decimal i.toNat }

/-- The entry of a store. -/
def binStored (now : Int64) (k v : Bytes) (f x : UInt32) (c : UInt64) : Entry :=
  { key := k, flag := f, expire := binExpiry now x, size := UInt64.ofNat v.length, version := c, data := v }

/-- The entry of an append or prepend. -/
def binJoined (k v : Bytes) (c : UInt64) : Entry :=
  { key := k, size := UInt64.ofNat v.length, version := c, data := v }

/-- What the node should do: a version makes a store conditional. -/
def BinAsk.meaning (now : Int64) : BinAsk → BReq
  | .set _ k v f x c => .write ⟨{ cmd := .set, entry := binStored now k v f x c }, c ≠ 0⟩
  | .add _ k v f x c => .write ⟨{ cmd := .add, entry := binStored now k v f x c }, c ≠ 0⟩
  | .replace _ k v f x c => .write ⟨{ cmd := .replace, entry := binStored now k v f x c }, c ≠ 0⟩
  | .append _ k v c => .write ⟨{ cmd := .append, entry := binJoined k v c }, false⟩
  | .prepend _ k v c => .write ⟨{ cmd := .prepend, entry := binJoined k v c }, false⟩
  | .delete _ k c => .write ⟨{ cmd := .delete, entry := { key := k, version := c } }, false⟩
  | .incr _ k a i x => .write ⟨{ cmd := .incr, entry := binCounter now k i x, value := a }, false⟩
  | .decr _ k a i x => .write ⟨{ cmd := .decr, entry := binCounter now k i x, value := a }, false⟩
  | .get _ _ k => .get k
  | .touch k x => .write ⟨{ cmd := .touch, entry := { key := k, expire := binExpiry now x } }, false⟩
  | .gat _ k x => .write ⟨{ cmd := .gat, entry := { key := k, expire := binExpiry now x } }, false⟩
  | .noop => .noop
  | .version => .version
  | .flush _ => .flush

/-- The keys that a client may use. -/
def BinAsk.KeyOk : BinAsk → Prop
  | .noop | .version | .flush _ => True
  | a => a.msg.key ≠ []

/-- What `taken` makes of the outcome of `cutRequest`. -/
def takenOf (n : Nat) : Except Fault BinReq → Option BReq
  | .ok b => some (binReqOf n b)
  | .error _ => none

theorem taken_header (now : Int64) (m : BinMsg) :
    m.taken now = takenOf m.opcode.toNat (cutRequest now (m.header 0x80) (m.extras ++ m.key ++ m.value)) := by
  rw [BinMsg.taken, BinMsg.bytes_eq, List.take_left' (m.header_length 0x80)]
  rfl

theorem ask_taken (now : Int64) (a : BinAsk) (hk : a.KeyOk) (hf : a.msg.Fits) :
    a.msg.taken now = some (a.meaning now) := by
  obtain ⟨g1, g2, g3, g4, -, g6⟩ := a.msg.header_get 0x80 hf
  have hmax : intMax = 2147483647 := rfl
  have h3 := hf.2.2
  have hc := fun hne => cutRequest_eq now (a.msg.header 0x80) a.msg.extras a.msg.key a.msg.value g3 g2 g4 (by omega) hne
  have hother : binOpOf a.msg.opcode.toNat = .other → a.msg.taken now = some (binReqOf a.msg.opcode.toNat { op := .other }) := by
    intro ho
    rw [taken_header, cutRequest, g1, ho]
    rfl
  rw [g1, g6, UInt64.ofNat_toNat] at hc
  have hb4 : ∀ (x : UInt32), beNat (beBytes 4 x.toNat) = x.toNat := fun x =>
    beNat_beBytes (w := 4) (by have := x.toNat_lt; omega)
  have hb8 : ∀ (x : UInt64), beNat (beBytes 8 x.toNat) = x.toNat := fun x =>
    beNat_beBytes (w := 8) (by have := x.toNat_lt; omega)
  have hcas : ∀ c : UInt64, decide (c > 0) = decide (c ≠ 0) := by
    intro c
    rw [decide_eq_decide]
    exact UInt64.pos_iff_ne_zero
  have hlen : ∀ n m, (beBytes n m).length = n := beBytes_length
  have hd4 : ∀ x y : UInt32, (beBytes 4 x.toNat ++ beBytes 4 y.toNat).take 4 = beBytes 4 x.toNat ∧
      ((beBytes 4 x.toNat ++ beBytes 4 y.toNat).drop 4).take 4 = beBytes 4 y.toNat := by
    intro x y
    rw [List.take_left' (hlen _ _), List.drop_left' (hlen _ _), List.take_of_length_le (Nat.le_of_eq (hlen _ _))]
    exact ⟨rfl, rfl⟩
  have hd8 : ∀ (x y : UInt64) (z : UInt32),
      (beBytes 8 x.toNat ++ beBytes 8 y.toNat ++ beBytes 4 z.toNat).take 8 = beBytes 8 x.toNat ∧
      ((beBytes 8 x.toNat ++ beBytes 8 y.toNat ++ beBytes 4 z.toNat).drop 8).take 8 = beBytes 8 y.toNat ∧
      (beBytes 8 x.toNat ++ beBytes 8 y.toNat ++ beBytes 4 z.toNat).drop 16 = beBytes 4 z.toNat := by
    intro x y z
    refine ⟨?_, ?_, List.drop_left' (by rw [List.length_append, hlen, hlen])⟩
    · rw [List.append_assoc, List.take_left' (hlen _ _)]
    · rw [List.append_assoc, List.drop_left' (hlen _ _), List.take_left' (hlen _ _)]
  have hmax32 : ∀ x : UInt32, x.toNat = 4294967295 ↔ x = 0xffffffff := by
    intro x
    exact ⟨fun h => UInt32.toNat_inj.1 (by rw [h]; rfl), fun h => by rw [h]; rfl⟩
  have hcount : ∀ (k : Bytes) (i : UInt64) (x : UInt32),
      (if x.toNat = 0xffffffff then ({ key := k, version := 0, size := UInt64.ofNat ([] : Bytes).length } : Entry)
        else ⟨k, 0, realtime now (Int64.ofNat x.toNat), UInt64.ofNat (decimal i.toNat).length, 0, 0, decimal i.toNat⟩) =
        binCounter now k i x := by
    intro k i x
    rw [binCounter]
    by_cases h : x = 0xffffffff
    · rw [if_pos h, if_pos ((hmax32 x).2 h)]; rfl
    · rw [if_neg h, if_neg (fun e => h ((hmax32 x).1 e))]; rfl
  by_cases hn : a.msg.key = []
  · cases a with
    | noop => rw [hother rfl]; rfl
    | version => rw [hother rfl]; rfl
    | flush q => rw [hother (by cases q <;> rfl)]; cases q <;> rfl
    | _ => exact absurd hn hk
  obtain ⟨c1, c2, c3, c4, c5, c6⟩ := hc (fun h => hn (by simp only [List.append_eq_nil_iff] at h; exact h.1.2))
  rw [taken_header]
  cases a with
  | noop => exact absurd rfl hn
  | version => exact absurd rfl hn
  | flush q => exact absurd rfl hn
  | set q k v f x c =>
    rw [c1 (by cases q <;> rfl) (by simp [BinAsk.msg])]
    simp only [BinAsk.msg, (hd4 f x).1, (hd4 f x).2, hb4, UInt32.ofNat_toNat]
    cases q <;> exact congrArg (fun b => some (BReq.write ⟨_, b⟩)) (hcas c)
  | add q k v f x c =>
    rw [c1 (by cases q <;> rfl) (by simp [BinAsk.msg])]
    simp only [BinAsk.msg, (hd4 f x).1, (hd4 f x).2, hb4, UInt32.ofNat_toNat]
    cases q <;> exact congrArg (fun b => some (BReq.write ⟨_, b⟩)) (hcas c)
  | replace q k v f x c =>
    rw [c1 (by cases q <;> rfl) (by simp [BinAsk.msg])]
    simp only [BinAsk.msg, (hd4 f x).1, (hd4 f x).2, hb4, UInt32.ofNat_toNat]
    cases q <;> exact congrArg (fun b => some (BReq.write ⟨_, b⟩)) (hcas c)
  | append q k v c => rw [c2 (by cases q <;> rfl) rfl]; cases q <;> rfl
  | prepend q k v c => rw [c2 (by cases q <;> rfl) rfl]; cases q <;> rfl
  | delete q k c => rw [c3 (by cases q <;> rfl) rfl]; cases q <;> rfl
  | incr q k n i x =>
    rw [c6 (by cases q <;> rfl) (by simp [BinAsk.msg])]
    simp only [BinAsk.msg, (hd8 n i x).1, (hd8 n i x).2, hb4, hb8, UInt64.ofNat_toNat, hcount]
    cases q <;> rfl
  | decr q k n i x =>
    rw [c6 (by cases q <;> rfl) (by simp [BinAsk.msg])]
    simp only [BinAsk.msg, (hd8 n i x).1, (hd8 n i x).2, hb4, hb8, UInt64.ofNat_toNat, hcount]
    cases q <;> rfl
  | get q w k => rw [c5 (by cases q <;> cases w <;> rfl) rfl hn]; cases q <;> cases w <;> rfl
  | touch k x =>
    rw [c4 rfl (by simp [BinAsk.msg])]
    simp only [BinAsk.msg, hb4]
    rfl
  | gat q k x =>
    rw [c4 (by cases q <;> rfl) (by simp [BinAsk.msg])]
    simp only [BinAsk.msg, hb4]
    cases q <;> rfl

theorem BinAsk.usual (a : BinAsk) (hf : a.msg.Fits) : a.msg.Usual := by
  refine ⟨hf, ?_⟩
  cases a with
  | get q w k => cases q <;> cases w <;> (simp only [BinAsk.msg]; decide)
  | touch k x => simp only [BinAsk.msg]; decide
  | noop => simp only [BinAsk.msg]; decide
  | version => simp only [BinAsk.msg]; decide
  | set q k v f x c => cases q <;> (simp only [BinAsk.msg]; decide)
  | add q k v f x c => cases q <;> (simp only [BinAsk.msg]; decide)
  | replace q k v f x c => cases q <;> (simp only [BinAsk.msg]; decide)
  | append q k v c => cases q <;> (simp only [BinAsk.msg]; decide)
  | prepend q k v c => cases q <;> (simp only [BinAsk.msg]; decide)
  | delete q k c => cases q <;> (simp only [BinAsk.msg]; decide)
  | incr q k a i x => cases q <;> (simp only [BinAsk.msg]; decide)
  | decr q k a i x => cases q <;> (simp only [BinAsk.msg]; decide)
  | gat q k x => cases q <;> (simp only [BinAsk.msg]; decide)
  | flush q => cases q <;> (simp only [BinAsk.msg]; decide)

/-- For every sequence of requests of a client that follows the protocol description: the node carries out what they
mean, in this order, each on the state the one before it left, and answers each of them. -/
theorem C72_meaning (B : BBack σ) (now : Int64) (as : List BinAsk) (hk : ∀ a ∈ as, a.KeyOk) (hf : ∀ a ∈ as, a.msg.Fits)
    (st : σ)
    (hs : ∀ r d, some (r, d) ∈ (bPerformAll B st (as.map fun a => some (a.meaning now))).2 → Did.BSound r d) :
    let t := binServeAll B now st (as.flatMap fun a => a.msg.encode)
    let p := bPerformAll B st (as.map fun a => some (a.meaning now))
    t.stop = .closed ∧ t.st = p.1 ∧ t.did = p.2.filterMap id ∧ t.did.map (·.1) = as.map (·.meaning now) ∧
      readBins as.length t.out = some (as.zipWith (fun a x => a.msg.reply x) p.2, []) := by
  have hm : (as.map BinAsk.msg).map (·.taken now) = as.map fun a => some (a.meaning now) := by
    rw [List.map_map]
    exact List.map_congr_left fun a ha => ask_taken now a (hk a ha) (hf a ha)
  have h := C72_in_step_partial B now (as.map BinAsk.msg)
    (fun m h => by obtain ⟨a, ha, rfl⟩ := List.mem_map.1 h; exact a.usual (hf a ha)) st (by rw [hm]; exact hs)
  rw [hm, List.flatMap_map, List.length_map] at h
  obtain ⟨h1, h2, h3, h4⟩ := h
  rw [List.zipWith_map_left] at h4
  refine ⟨h1, h2, h3, ?_, h4⟩
  rw [h3]
  clear hs h1 h2 h3 h4 hm hk hf
  induction as generalizing st with
  | nil => rfl
  | cons a as ih =>
    simp only [List.map_cons, bPerformAll, List.filterMap_cons, id, List.map_cons]
    exact congrArg _ (ih _)

/-- Six requests; the third is a store under a version that is not the one there. -/
def sixAsks : List BinAsk :=
  [.add true (ascii "n") (ascii "40") 7 0 0, .prepend false (ascii "n") (ascii "1") 0, .set false (ascii "n") (ascii "x") 0 0 9,
   .decr true (ascii "n") 100 5 0, .gat false (ascii "n") 50, .flush true]

example : sixAsks.all (fun a => a.msg.extras.length < 256 ∧ a.msg.key.length < 65536 ∧
    a.msg.extras.length + a.msg.key.length + a.msg.value.length < 2147483648) = true := by decide +kernel

example : let t := binServeAll (binNode 1000) 1000 { cacheSize := 0 } (sixAsks.flatMap fun a => a.msg.encode)
    t.stop = .closed ∧ t.did.map (·.1) = sixAsks.map (·.meaning 1000) ∧
    readBins 6 t.out = some (
      [.plain 0x12 0 [], .plain 0x0f 0 [], .plain 0x01 2 (ascii "Key exists"),
       .plain 0x16 0 [0, 0, 0, 0, 0, 0, 0, 40],
       { opcode := 0x1d, extras := [0, 0, 0, 7], key := [], value := ascii "40" }, .plain 0x18 0 []], []) := by decide +kernel

end Flare
