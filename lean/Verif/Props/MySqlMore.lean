import Verif.Props.MySql
import Verif.Lemmas.Base64

namespace Flare

/-! ### More keys -/

theorem sqlText_delete_shape {cf : SqlConf} (hcf : cf.Sane) {e : Entry} (hk : ∀ c ∈ e.key, c ≠ 0) :
    sqlText cf true e = ascii "DELETE FROM `" ++ (cf.table ++ 96 :: (ascii " WHERE k='" ++ (e.key ++ [39]))) := by
  simp only [sqlText, if_true, cstr_safe hk, cstr_safe fun c h => (hcf.1 c h).1,
    show ascii "` WHERE k='" = 96 :: ascii " WHERE k='" from by decide, show ascii "'" = [39] from rfl,
    List.append_assoc, List.cons_append]

/-- **A delete can empty the table.**  The delete of the key `'or'1'='1` is a statement whose condition always
holds. -/
theorem C74_delete_all {cf : SqlConf} (hcf : cf.Sane) {e : Entry} (hk : e.key = ascii "'or'1'='1") (tab : SqlTable) :
    sqlApply cf.table tab (sqlText cf true e) = some [] := by
  have hs : sqlStmt (sqlText cf true e) = some (.delete cf.table [.key [], .eq [49] [49]]) := by
    rw [sqlText_delete_shape hcf (by rw [hk]; decide), hk,
      sqlStmt_delete (fun c h => (hcf.1 c h).2) (b := []) (s := ascii "or'1'='1'") (by decide)]
    rfl
  rw [sqlApply, hs]
  simp [sqlExec, SqlCond.holds]

/-- **A quote in a key stops replication.**  A write on a key of safe bytes, one quote and further safe bytes, of which
the first is no blank, is no statement: the slave stops with an error. -/
theorem C74_quote_stops {cf : SqlConf} (hcf : cf.Sane) {x y : Bytes} {c : UInt8} (hx : SafeKey x)
    (hy : SafeKey (c :: y)) (hc : c ≠ 32 ∧ c ≠ 41 ∧ c ≠ 44) {e : Entry} (hk : e.key = x ++ 39 :: c :: y) (tab : SqlTable) :
    sqlApply cf.table tab (sqlText cf false e) = none := by
  have h0 : ∀ d ∈ x ++ 39 :: c :: y, d ≠ 0 := by
    intro d hd
    rcases List.mem_append.1 hd with hd | hd
    · exact (hx d hd).1
    · rcases List.mem_cons.1 hd with rfl | hd
      · decide
      · exact (hy d hd).1
  have hs : sqlStmt (sqlText cf false e) = none := by
    rw [sqlText_replace, cstr_safe fun c h => (hcf.1 c h).1, sqlStmt_replace (fun c h => (hcf.1 c h).2), hk,
      cstr_safe h0]
    obtain ⟨S, hS⟩ : ∃ S, S = c :: (y ++ 39 :: 44 :: sqlTail cf e) := ⟨_, rfl⟩
    have hv : sqlValue (39 :: (x ++ 39 :: S)) = some (.str x, S) := by
      rw [sqlValue_str, sqlString_safe hx]
      · rfl
      · rw [hS]; simp [(hy c List.mem_cons_self).2.1]
    have hvs : ∀ n, sqlValues n (39 :: (x ++ 39 :: S)) = none := by
      intro n
      cases n with
      | zero => rfl
      | succ n =>
        have : skipBlank S = S := by
          rw [hS, skipBlank, List.dropWhile_cons, if_neg (by simpa using hc.1)]
        simp only [sqlValues, hv, this]
        rw [hS]
        split
        · rename_i h; exact absurd (List.cons.inj h).1 hc.2.1
        · rename_i h; exact absurd (List.cons.inj h).1 hc.2.2
        · rfl
    have e1 : x ++ 39 :: c :: y ++ 39 :: 44 :: sqlTail cf e = x ++ 39 :: S := by
      rw [hS]; simp
    rw [e1]
    have : ∀ n, sqlRows n (40 :: 39 :: (x ++ 39 :: S)) = none := by
      intro n
      cases n with
      | zero => rfl
      | succ n =>
        simp only [sqlRows, show skipBlank (40 :: 39 :: (x ++ 39 :: S)) = 40 :: 39 :: (x ++ 39 :: S) from rfl, hvs]
    rw [this]
    rfl
  rw [sqlApply, hs]

/-- A statement whose key part is a string. -/
theorem sqlApply_key {cf : SqlConf} (hcf : cf.Sane) {e : Entry} {k : Bytes}
    (hk : ∀ r : Bytes, r.head? ≠ some 39 → sqlString (cstr e.key ++ 39 :: r) = some (k, r)) (tab : SqlTable) :
    sqlApply cf.table tab (sqlText cf false e) = some (tab.put k (sqlRowOf cf e)) := by
  have hs : sqlStmt (sqlText cf false e) = some (.replace cf.table [[.str k, .str (sqlRowOf cf e).value,
      .num (sqlRowOf cf e).flag, .num (sqlRowOf cf e).version, (sqlRowOf cf e).expire]]) := by
    rw [sqlText_replace, cstr_safe fun c h => (hcf.1 c h).1, sqlStmt_replace (fun c h => (hcf.1 c h).2)]
    have h1 : sqlValue (39 :: (cstr e.key ++ 39 :: 44 :: sqlTail cf e)) = some (.str k, 44 :: sqlTail cf e) := by
      rw [sqlValue_str, hk _ (by simp)]; rfl
    have h2 := sqlTail_values hcf e (39 :: (cstr e.key ++ 39 :: 44 :: sqlTail cf e)).length
      (by have := sqlTail_length cf e; simp only [List.length_cons, List.length_append]; omega) []
    rw [List.append_nil] at h2
    rw [sqlRows_one (r := .str k :: [.str (sqlRowOf cf e).value, .num (sqlRowOf cf e).flag,
      .num (sqlRowOf cf e).version, (sqlRowOf cf e).expire])]
    · rfl
    · rw [sqlValues_next h1, h2]; rfl
  rw [sqlApply, hs]
  simp [sqlExec, SqlTable.putRows]

/-- **A backslash in a key makes another key.**  The write of `x\by` is a row of `x`, a byte 8 and `y`. -/
theorem C74_backslash {cf : SqlConf} (hcf : cf.Sane) {x y : Bytes} (hx : SafeKey x) (hy : SafeKey y) {e : Entry}
    (hk : e.key = x ++ 92 :: 98 :: y) (tab : SqlTable) :
    sqlApply cf.table tab (sqlText cf false e) = some (tab.put (x ++ 8 :: y) (sqlRowOf cf e)) := by
  refine sqlApply_key hcf (fun r hr => ?_) tab
  rw [hk, cstr_safe]
  · rw [List.append_assoc, sqlString_before hx (by simp), List.cons_append, List.cons_append, sqlString_esc,
      sqlString_safe hy hr]
    rfl
  · intro d hd
    rcases List.mem_append.1 hd with hd | hd
    · exact (hx d hd).1
    · rcases List.mem_cons.1 hd with rfl | hd
      · decide
      · rcases List.mem_cons.1 hd with rfl | hd
        · decide
        · exact (hy d hd).1

/-- **A NUL in a key cuts it.**  The write of a key with a NUL is a row of what stands in front of it. -/
theorem C74_nul {cf : SqlConf} (hcf : cf.Sane) {x y : Bytes} (hx : SafeKey x) {e : Entry}
    (hk : e.key = x ++ 0 :: y) (tab : SqlTable) :
    sqlApply cf.table tab (sqlText cf false e) = some (tab.put x (sqlRowOf cf e)) := by
  refine sqlApply_key hcf (fun r hr => ?_) tab
  have : cstr e.key = x := by
    rw [hk]
    have : ∀ c ∈ x, c ≠ 0 := fun c h => (hx c h).1
    clear hk hx
    induction x with
    | nil => rfl
    | cons c x ih =>
      have h := this c List.mem_cons_self
      have ih := ih fun d hd => this d (List.mem_cons_of_mem _ hd)
      simp only [cstr, List.cons_append] at ih ⊢
      rw [List.takeWhile_cons, if_pos (by simpa using h), ih]
  rw [this, sqlString_safe hx hr]

/-! ### Lengths in signed bytes -/

theorem int32_neg {x : Int32} : x < 0 ↔ x.toBitVec.msb = true := by
  rw [Int32.lt_iff_toBitVec_slt]
  exact (BitVec.slt_zero_iff_msb_cond).trans (by rfl)

theorem int32_or_neg (x y : Int32) : x ||| y < 0 ↔ x < 0 ∨ y < 0 := by
  rw [int32_neg, int32_neg, int32_neg, Int32.toBitVec_or, BitVec.msb_or, Bool.or_eq_true]

theorem signedLen_neg {a b c : UInt8} : signedLen a b c < 0 ↔ 128 ≤ a ∨ 128 ≤ b ∨ 128 ≤ c := by
  have h0 : ∀ a : UInt8, signedChar a < 0 ↔ 128 ≤ a := all256 (by decide +kernel)
  have h8 : ∀ a : UInt8, (signedChar a) <<< 8 < 0 ↔ 128 ≤ a := all256 (by decide +kernel)
  have h16 : ∀ a : UInt8, (signedChar a) <<< 16 < 0 ↔ 128 ≤ a := all256 (by decide +kernel)
  rw [signedLen, int32_or_neg, int32_or_neg, h0, h8, h16]
  tauto

/-- **A length with a byte of 128 or more is refused.**  `_read` computes the length of a packet from signed bytes
(/repo/src/lib/mysql_replication.cc:566); a slave's packet of 128 to 255 bytes, say a long query, ends the connection. -/
theorem C74_signed_length {a b c i : UInt8} (h : 128 ≤ a ∨ 128 ≤ b ∨ 128 ≤ c) (packet : UInt32) (s : Bytes) :
    sqlRead packet (a :: b :: c :: i :: s) = .failed := by
  simp only [sqlRead, if_pos (signedLen_neg.2 h)]

theorem signedLen_pos {a b c : UInt8} (ha : a < 128) (hb : b < 128) (hc : c < 128) :
    signedLen a b c = Int32.ofNat (leNat [a, b, c]) := by
  have h0 : ∀ a : UInt8, a < 128 → (signedChar a).toBitVec = BitVec.ofNat 32 a.toNat := all256 (by decide +kernel)
  have h8 : ∀ a : UInt8, a < 128 → (signedChar a <<< 8).toBitVec = BitVec.ofNat 32 (a.toNat <<< 8) :=
    all256 (by decide +kernel)
  have h16 : ∀ a : UInt8, a < 128 → (signedChar a <<< 16).toBitVec = BitVec.ofNat 32 (a.toNat <<< 16) :=
    all256 (by decide +kernel)
  rw [← Int32.toBitVec_inj, signedLen, Int32.toBitVec_or, Int32.toBitVec_or, h0 a ha, h8 b hb, h16 c hc]
  rw [Int32.toBitVec_ofNat']
  have ha' := UInt8.lt_iff_toNat_lt.1 ha
  have hb' := UInt8.lt_iff_toNat_lt.1 hb
  have hc' := UInt8.lt_iff_toNat_lt.1 hc
  have h128 : (128 : UInt8).toNat = 128 := rfl
  rw [h128] at ha' hb' hc'
  apply BitVec.eq_of_toNat_eq
  simp only [BitVec.toNat_or, BitVec.toNat_ofNat, leNat]
  rw [Nat.mod_eq_of_lt (show c.toNat <<< 16 < 2 ^ 32 by rw [Nat.shiftLeft_eq]; omega),
    Nat.mod_eq_of_lt (show b.toNat <<< 8 < 2 ^ 32 by rw [Nat.shiftLeft_eq]; omega),
    Nat.mod_eq_of_lt (show a.toNat < 2 ^ 32 by omega), Nat.or_assoc,
    ← Nat.shiftLeft_add_eq_or_of_lt (show a.toNat < 2 ^ 8 by omega),
    ← Nat.shiftLeft_add_eq_or_of_lt (show b.toNat <<< 8 + a.toNat < 2 ^ 16 by rw [Nat.shiftLeft_eq]; omega)]
  rw [Nat.shiftLeft_eq, Nat.shiftLeft_eq]
  omega

/-! ### Before the events -/

theorem sqlRead_packet {b : Bytes} (hb : SmallLen b.length) (p : UInt32) (i : UInt8) (s : Bytes) :
    ∃ next : UInt32, next.toUInt8 = i + 1 ∧ sqlRead p (sqlPacket i b ++ s) = .packet b next s := by
  obtain ⟨n, hn⟩ : ∃ n, n = b.length := ⟨_, rfl⟩
  rw [← hn] at hb
  obtain ⟨h1, h2, h3⟩ := hb
  have hs : sqlPacket i b ++ s = UInt8.ofNat (n % 256) :: UInt8.ofNat (n / 256 % 256) ::
      UInt8.ofNat (n / 256 / 256 % 256) :: i :: (b ++ s) := by
    rw [sqlPacket, ← hn]
    simp [leBytes]
  have hlt : ∀ k, k % 256 < 128 → UInt8.ofNat (k % 256) < 128 := fun k hk => by
    rw [UInt8.lt_iff_toNat_lt, UInt8.toNat_ofNat', Nat.mod_mod]
    exact hk
  have hlen : signedLen (UInt8.ofNat (n % 256)) (UInt8.ofNat (n / 256 % 256)) (UInt8.ofNat (n / 256 / 256 % 256)) =
      Int32.ofNat n := by
    rw [signedLen_pos (hlt _ h1) (hlt _ h2) (hlt _ (by omega))]
    simp only [leNat, UInt8.toNat_ofNat']
    congr 1
    omega
  have hint : (Int32.ofNat n).toInt = n := Int32.toInt_ofNat_of_lt (by omega)
  have hnn : ¬ Int32.ofNat n < 0 := by
    rw [Int32.lt_iff_toInt_lt, hint]
    simp
  rw [hs]
  simp only [sqlRead, hlen, if_neg hnn, hint, Int.toNat_natCast]
  rw [if_neg (by rw [List.length_append]; omega), hn, List.take_left, List.drop_left]
  refine ⟨_, ?_, rfl⟩
  have hi : ∀ i : UInt8, (signedChar i).toUInt32.toUInt8 = i := all256 (by decide +kernel)
  have hj : ∀ i : UInt8, ∀ j : UInt8, signedChar i = j.toUInt32.toInt32 → i = j := by
    have hp : ∀ j : UInt8, j.toUInt32.toInt32.toUInt32.toUInt8 = j := all256 (by decide +kernel)
    intro i j h
    rw [← hi i, h, hp]
  rw [UInt32.toUInt8_add]
  split
  · rw [hi]; rfl
  · rename_i h
    rw [hj i p.toUInt8 (Decidable.not_not.1 h)]; rfl

theorem readMessages_writeAll (bs : List Bytes) : ∀ (l : SqlLink), (∀ b ∈ bs, 0 < b.length ∧ b.length < 1000) →
    readMessages bs.length l.packet (sqlWriteAll l bs).1 = some bs := by
  induction bs with
  | nil => intro l _; rfl
  | cons b bs ih =>
    intro l hb
    have hb1 := hb b List.mem_cons_self
    have ih := ih (sqlWrite l b).2 fun x hx => hb x (List.mem_cons_of_mem _ hx)
    simp only [sqlWriteAll, sqlWrite] at ih ⊢
    obtain ⟨p, q, hcut⟩ : ∃ p q, cutPackets maxPacket b.length l.packet b = (p, q) := ⟨_, _, rfl⟩
    have hlen := cutPackets_length (m := maxPacket) (by decide) b.length l.packet b (Nat.le_refl _)
    obtain ⟨r, hr⟩ : ∃ r, r = (sqlWriteAll { l with packet := q } bs).1 := ⟨_, rfl⟩
    have hm := readMessage_cut (m := maxPacket) (by decide) (by decide) b.length b l.packet ((p ++ r).length + 1) r
      (Nat.le_refl _) (by rw [hcut] at hlen; rw [List.length_append]; simp only at hlen; omega)
      (by rw [Nat.mod_eq_of_lt (Nat.lt_trans hb1.2 (by decide))]; omega)
    rw [hcut] at hm ih ⊢
    simp only [← hr] at hm ih ⊢
    simp only [List.length_cons, readMessages, hm, ih, Option.map_some]

theorem sqlAnswer_short {now : Int64} {q : Bytes} {bs : List Bytes} (h : sqlAnswer now q = some bs) :
    ∀ b ∈ bs, 0 < b.length ∧ b.length < 1000 := by
  have hnow : (decimalInt now.toInt).length ≤ 21 := by
    have h1 := now.toInt_lt
    have h2 := now.le_toInt
    have : (decimal now.toInt.natAbs).length ≤ 20 := decimal_length_64 (by omega)
    simp only [decimalInt]
    split
    · simp only [List.length_cons]; omega
    · omega
  have hcell : 0 < (sqlCell (decimalInt now.toInt)).length ∧ (sqlCell (decimalInt now.toInt)).length < 1000 := by
    simp only [sqlCell, List.length_cons]; omega
  simp only [sqlAnswer] at h
  repeat' split at h
  all_goals first
    | cases h; done
    | obtain rfl := Option.some.inj h
      intro b hb
      simp only [List.mem_cons, List.not_mem_nil, or_false] at hb
      try rcases hb with rfl | rfl | rfl | rfl | rfl
      all_goals first
        | exact hcell
        | decide +kernel

theorem sqlParse_queries {now : Int64} {j : UInt8} {d rest : Bytes} (hd : SmallLen (d.length + 1))
    (queries : List (UInt8 × Bytes)) : ∀ (n : Nat) (l : SqlLink), queries.length < n →
      (∀ x ∈ queries, SmallLen (x.2.length + 1) ∧ (sqlAnswer now x.2).isSome) →
      ∃ outs link, sqlParse now n l (queries.flatMap (fun x => sqlPacket x.1 (3 :: x.2)) ++ (sqlPacket j (18 :: d) ++ rest)) =
          (outs.flatten, .dump link rest) ∧
        List.Forall₂ (fun x out => ∃ id bs, UInt32.toUInt8 id = x.1 + 1 ∧ sqlAnswer now x.2 = some bs ∧
          readMessages bs.length id out = some bs) queries outs ∧
        link.packet.toUInt8 = j + 1 ∧ link.offset = l.offset := by
  induction queries with
  | nil =>
    intro n l hn _
    obtain ⟨n, rfl⟩ : ∃ k, n = k + 1 := ⟨n - 1, by simp at hn; omega⟩
    obtain ⟨next, h1, h2⟩ := sqlRead_packet (b := 18 :: d) hd l.packet j rest
    refine ⟨[], { l with packet := next }, ?_, .nil, h1, rfl⟩
    simp only [List.flatMap_nil, List.nil_append, sqlParse, h2]
    rfl
  | cons x queries ih =>
    intro n l hn hq
    obtain ⟨n, rfl⟩ : ∃ k, n = k + 1 := ⟨n - 1, by simp at hn; omega⟩
    obtain ⟨i, q⟩ := x
    obtain ⟨hlen, hans⟩ := hq (i, q) List.mem_cons_self
    obtain ⟨bs, hbs⟩ := Option.isSome_iff_exists.1 hans
    obtain ⟨s, hs⟩ : ∃ s, s = queries.flatMap (fun x => sqlPacket x.1 (3 :: x.2)) ++ (sqlPacket j (18 :: d) ++ rest) :=
      ⟨_, rfl⟩
    obtain ⟨next, h1, h2⟩ := sqlRead_packet (b := 3 :: q) hlen l.packet i s
    obtain ⟨outs, link, h3, h4, h5, h6⟩ := ih n (sqlWriteAll { l with packet := next } bs).2
      (by simp at hn; omega) fun y hy => hq y (List.mem_cons_of_mem _ hy)
    have hoff : ∀ (bs : List Bytes) (l : SqlLink), (sqlWriteAll l bs).2.offset = l.offset := by
      intro bs
      induction bs with
      | nil => intro l; rfl
      | cons b bs ih => intro l; simp only [sqlWriteAll, ih, sqlWrite]
    refine ⟨(sqlWriteAll { l with packet := next } bs).1 :: outs, link, ?_, .cons ⟨next, bs, h1, hbs, ?_⟩ h4, h5, ?_⟩
    · rw [List.flatMap_cons, List.append_assoc, ← hs]
      rw [← hs] at h3
      simp only [sqlParse, h2, show ((3 : UInt8) = 1) = False from by decide, show ((3 : UInt8) = 18) = False from by decide,
        if_false, if_true, hbs, h3, List.flatten_cons]
    · exact readMessages_writeAll bs { l with packet := next } (sqlAnswer_short hbs)
    · rw [h6, hoff]

/-- **A slave gets to its events.**  Whatever a slave says to the greeting, and whatever queries it then asks of those
that are answered, in packets whose lengths have small bytes: the greeting, the OK and the answers to each query arrive
as messages that are numbered on from the packet they answer, and COM_BINLOG_DUMP starts the events with the number
after its own. -/
theorem C74_greeting (cf : SqlConf) (now : Int64) {i j : UInt8} {auth d rest : Bytes} (ha : SmallLen auth.length)
    {queries : List (UInt8 × Bytes)}
    (hq : ∀ x ∈ queries, SmallLen (x.2.length + 1) ∧ (sqlAnswer now x.2).isSome) (hd : SmallLen (d.length + 1)) :
    ∃ hello ok outs link, sqlGreet cf now (sqlPacket i auth ++
        (queries.flatMap (fun x => sqlPacket x.1 (3 :: x.2)) ++ (sqlPacket j (18 :: d) ++ rest))) =
          (hello ++ ok ++ outs.flatten, .dump link rest) ∧
      readMessages 1 0 hello = some [sqlHello cf] ∧
      (∃ id, UInt32.toUInt8 id = i + 1 ∧ readMessages 1 id ok = some [sqlOk]) ∧
      List.Forall₂ (fun x out => ∃ id bs, UInt32.toUInt8 id = x.1 + 1 ∧ sqlAnswer now x.2 = some bs ∧
        readMessages bs.length id out = some bs) queries outs ∧
      link.packet.toUInt8 = j + 1 ∧ link.offset = 0 := by
  obtain ⟨s, hs⟩ : ∃ s, s = queries.flatMap (fun x => sqlPacket x.1 (3 :: x.2)) ++ (sqlPacket j (18 :: d) ++ rest) :=
    ⟨_, rfl⟩
  obtain ⟨next, h1, h2⟩ := sqlRead_packet ha (sqlWrite {} (sqlHello cf)).2.packet i s
  obtain ⟨l, hl⟩ : ∃ l, l = (sqlWrite { (sqlWrite {} (sqlHello cf)).2 with packet := next } sqlOk).2 := ⟨_, rfl⟩
  have hcount : queries.length < s.length + 1 := by
    have : ∀ qs : List (UInt8 × Bytes), qs.length ≤ (qs.flatMap (fun x => sqlPacket x.1 (3 :: x.2))).length := by
      intro qs
      induction qs with
      | nil => simp
      | cons x qs ih =>
        have hp : 0 < (sqlPacket x.1 (3 :: x.2)).length := by simp [sqlPacket]; omega
        simp only [List.flatMap_cons, List.length_append, List.length_cons]
        omega
    have := this queries
    rw [hs, List.length_append]
    omega
  obtain ⟨outs, link, h3, h4, h5, h6⟩ := sqlParse_queries (rest := rest) hd queries (s.length + 1) l hcount hq
  rw [← hs] at h3
  refine ⟨(sqlWrite {} (sqlHello cf)).1, (sqlWrite { (sqlWrite {} (sqlHello cf)).2 with packet := next } sqlOk).1, outs,
    link, ?_, ?_, ⟨next, h1, ?_⟩, h4, h5, ?_⟩
  · rw [← hs]
    simp only [sqlGreet, h2, ← hl, h3]
  · have := readMessages_writeAll [sqlHello cf] {} (fun b hb => by
      obtain rfl := List.mem_singleton.1 hb
      simp [sqlHello, leBytes, ascii])
    simpa [sqlWriteAll] using this
  · have := readMessages_writeAll [sqlOk] { (sqlWrite {} (sqlHello cf)).2 with packet := next } (fun b hb => by
      obtain rfl := List.mem_singleton.1 hb
      decide)
    simpa [sqlWriteAll] using this
  · rw [h6, hl]
    rfl

/-- **Most commands are not answered.**  Every command but COM_QUIT, COM_QUERY and COM_BINLOG_DUMP, and every query
that is not known, is passed over without a word (/repo/src/lib/mysql_replication.cc:88-150); a slave that waits for
the answer, as after COM_REGISTER_SLAVE (21), waits for ever. -/
theorem C74_silent {c : UInt8} (hc : c ≠ 1 ∧ c ≠ 18) {q : Bytes} (hq : c = 3 → sqlAnswer now q = some [])
    (hl : SmallLen (q.length + 1)) (n : Nat) (l : SqlLink) (i : UInt8) (rest : Bytes) :
    ∃ next, sqlParse now (n + 1) l (sqlPacket i (c :: q) ++ rest) = sqlParse now n { l with packet := next } rest := by
  obtain ⟨next, -, h2⟩ := sqlRead_packet (b := c :: q) hl l.packet i rest
  refine ⟨next, ?_⟩
  simp only [sqlParse, h2, if_neg hc.1, if_neg hc.2]
  by_cases h3 : c = 3
  · rw [if_pos h3, hq h3]
    rfl
  · rw [if_neg h3]

/-- **Any beginning is the whole.**  A query is compared with the known texts only over its own length
(/repo/src/lib/mysql_replication.cc:97): every beginning of the first text, the empty query included, is answered with
the time. -/
theorem C74_beginning (now : Int64) (k : Nat) : sqlAnswer now ((ascii "SELECT UNIX_TIMESTAMP()").take k) =
    some [[1], sqlField (ascii "UNIX_TIMESTAMP()") 7, sqlEof, sqlCell (decimalInt now.toInt), sqlEof] := by
  have : ∀ (w : Bytes) (k : Nat), caseMatch (w.take k) w = true := by
    intro w
    induction w with
    | nil => intro k; cases k <;> rfl
    | cons c w ih =>
      intro k
      cases k with
      | zero => rfl
      | succ k => simp [caseMatch, ih]
  simp only [sqlAnswer, this, if_true]

/-- **Reading behind the packet.**  A query that is a beginning of `SET NAMES` but not of the four known texts is
compared over nine bytes (/repo/src/lib/mysql_replication.cc:139), and a packet of length 0 is looked at as if it had a
command (:86). -/
theorem C74_beyond (now : Int64) (n : Nat) (l : SqlLink) (i : UInt8) (rest : Bytes) :
    (∀ k, 3 ≤ k → k < 9 → sqlAnswer now ((ascii "SET NAMES").take k) = none) ∧
      sqlParse now (n + 1) l (sqlPacket i [] ++ rest) = ([], .ub) := by
  constructor
  · intro k h1 h2
    have : k = 3 ∨ k = 4 ∨ k = 5 ∨ k = 6 ∨ k = 7 ∨ k = 8 := by omega
    rcases this with rfl | rfl | rfl | rfl | rfl | rfl <;> rfl
  · obtain ⟨next, -, h2⟩ := sqlRead_packet (b := []) ⟨by decide, by decide, by decide⟩ l.packet i rest
    simp only [sqlParse, h2]

theorem lenString_cons (b s : Bytes) (h : b.length < 251) : lenString (UInt8.ofNat b.length :: (b ++ s)) = some (b, s) := by
  have e : (UInt8.ofNat b.length).toNat = b.length := by
    rw [UInt8.toNat_ofNat']; omega
  simp only [lenString, e]
  rw [if_pos ⟨h, by simp⟩]
  simp

/-- The definition of a column is read by a MySQL client with the name it is for. -/
theorem C74_column (name : Bytes) (type : UInt8) (h : name.length < 251) :
    lenStrings 6 (sqlField name type) = some ([ascii "def", [], [], [], name, []],
      [12] ++ leBytes 2 63 ++ leBytes 4 11 ++ [type, 0, 0, 0, 0, 0]) := by
  have a1 : ∀ s, lenString ([3] ++ ascii "def" ++ s) = some (ascii "def", s) := fun s => lenString_cons (ascii "def") s (by decide)
  have a2 : ∀ s : Bytes, lenString (0 :: s) = some ([], s) := fun s => lenString_cons [] s (by decide)
  have e : sqlField name type = [3] ++ ascii "def" ++ (0 :: 0 :: 0 :: UInt8.ofNat name.length :: (name ++
      (0 :: ([12] ++ leBytes 2 63 ++ leBytes 4 11 ++ [type, 0, 0, 0, 0, 0])))) := by
    simp [sqlField]
  rw [e]
  simp only [lenStrings, a1, a2, lenString_cons name _ h, Option.bind_some, Option.map_some]

/-- A row is read as the strings it is made of. -/
theorem C74_cells (a b : Bytes) (ha : a.length < 251) (hb : b.length < 251) :
    lenStrings 2 (sqlCell a ++ sqlCell b) = some ([a, b], []) := by
  have e : sqlCell a ++ sqlCell b = UInt8.ofNat a.length :: (a ++ (UInt8.ofNat b.length :: (b ++ []))) := by simp [sqlCell]
  rw [e]
  simp only [lenStrings, lenString_cons a _ ha, lenString_cons b _ hb, Option.bind_some, Option.map_some]

/-- Defect: the columns of a result with more than one are defined in one message, where the protocol has one message for each:
two are announced and one comes, or five and one (/repo/src/lib/mysql_replication.cc:434-446). -/
theorem C74_columns_joined (now : Int64) :
    (∃ msgs, sqlAnswer now (ascii "SHOW VARIABLES LIKE 'SERVER_ID'") = some msgs ∧ msgs.head? = some [2] ∧
      (columnMessages msgs).length = 1) ∧
    (∃ msgs, sqlAnswer now (ascii "SHOW SLAVE HOSTS") = some msgs ∧ msgs.head? = some [5] ∧
      (columnMessages msgs).length = 1) ∧
    (∃ msgs, sqlAnswer now (ascii "SELECT UNIX_TIMESTAMP()") = some msgs ∧ msgs.head? = some [1] ∧
      (columnMessages msgs).length = 1) := by
  refine ⟨⟨[[2], sqlField (ascii "Variable_name") 0xfe ++ sqlField (ascii "Value") 3, sqlEof,
      sqlCell (ascii "server_id") ++ sqlCell (ascii "8"), sqlEof], ?_, rfl, by decide +kernel⟩,
    ⟨[[5], sqlField (ascii "Server_id") 3 ++ sqlField (ascii "Host") 0xfe ++ sqlField (ascii "Port") 3 ++
      sqlField (ascii "Rpl_recovery_rank") 3 ++ sqlField (ascii "Master_id") 3, sqlEof, sqlEof], ?_, rfl, by decide +kernel⟩,
    ⟨[[1], sqlField (ascii "UNIX_TIMESTAMP()") 7, sqlEof, sqlCell (decimalInt now.toInt), sqlEof], ?_, rfl, ?_⟩⟩
  · have h1 : caseMatch (ascii "SHOW VARIABLES LIKE 'SERVER_ID'") (ascii "SELECT UNIX_TIMESTAMP()") = false := by decide +kernel
    have h2 : caseMatch (ascii "SHOW VARIABLES LIKE 'SERVER_ID'") (ascii "select @@version_comment limit 1") = false := by
      decide +kernel
    have h3 : caseMatch (ascii "SHOW VARIABLES LIKE 'SERVER_ID'") (ascii "SHOW VARIABLES LIKE 'SERVER_ID'") = true := by
      decide +kernel
    simp only [sqlAnswer, h1, h2, h3, Bool.false_eq_true, if_false, if_true]
  · have h1 : caseMatch (ascii "SHOW SLAVE HOSTS") (ascii "SELECT UNIX_TIMESTAMP()") = false := by decide +kernel
    have h2 : caseMatch (ascii "SHOW SLAVE HOSTS") (ascii "select @@version_comment limit 1") = false := by decide +kernel
    have h3 : caseMatch (ascii "SHOW SLAVE HOSTS") (ascii "SHOW VARIABLES LIKE 'SERVER_ID'") = false := by decide +kernel
    have h4 : caseMatch (ascii "SHOW SLAVE HOSTS") (ascii "SHOW SLAVE HOSTS") = true := by decide +kernel
    simp only [sqlAnswer, h1, h2, h3, h4, Bool.false_eq_true, if_false, if_true]
  · have h1 : caseMatch (ascii "SELECT UNIX_TIMESTAMP()") (ascii "SELECT UNIX_TIMESTAMP()") = true := by decide +kernel
    simp only [sqlAnswer, h1, if_true]
  · have e : ∀ b : Bytes, (columnMessages [[1], sqlField (ascii "UNIX_TIMESTAMP()") 7, sqlEof, b, sqlEof]) =
        [sqlField (ascii "UNIX_TIMESTAMP()") 7] := by
      intro b
      have h1 : decide ((sqlField (ascii "UNIX_TIMESTAMP()") 7).head? ≠ some 0xfe ∨
          9 ≤ (sqlField (ascii "UNIX_TIMESTAMP()") 7).length) = true := by decide +kernel
      have h2 : decide (sqlEof.head? ≠ some 0xfe ∨ 9 ≤ sqlEof.length) = false := by decide +kernel
      simp only [columnMessages, List.tail_cons, List.takeWhile_cons, h1, h2, if_true, Bool.false_eq_true, if_false]
    rw [e]; rfl

theorem setNames_prefix : ∀ (x y r : Bytes), x.map lowerByte = y.map lowerByte → setNames (x ++ r) y = some true
  | [], [], r, _ => by cases r <;> rfl
  | [], _ :: _, _, h => by cases h
  | _ :: _, [], _, h => by cases h
  | a :: x, b :: y, r, h => by
    simp only [List.map_cons, List.cons.injEq] at h
    simp only [List.cons_append, setNames, if_pos h.1]
    exact setNames_prefix x y r h.2

theorem caseMatch_second {a b : UInt8} {x y : Bytes} (i : Nat) (u v : UInt8) (hx : (a :: x)[i]? = some u)
    (hy : (b :: y)[i]? = some v) (h : lowerByte u ≠ lowerByte v) : caseMatch (a :: x) (b :: y) = false := by
  have key : ∀ (i : Nat) (x y : Bytes), x[i]? = some u → y[i]? = some v → caseMatch x y = false := by
    intro i
    induction i with
    | zero =>
      intro x y hx hy
      cases x with
      | nil => cases hx
      | cons c x =>
        cases y with
        | nil => cases hy
        | cons d y =>
          simp only [List.getElem?_cons_zero, Option.some.injEq] at hx hy
          subst hx; subst hy
          simp [caseMatch, h]
    | succ i ih =>
      intro x y hx hy
      cases x with
      | nil => cases hx
      | cons c x =>
        cases y with
        | nil => cases hy
        | cons d y =>
          simp only [List.getElem?_cons_succ] at hx hy
          simp [caseMatch, ih x y hx hy]
  exact key i _ _ hx hy

/-- "SET NAMES", with whatever case and whatever follows, is answered by a single OK. -/
theorem C74_set_names (now : Int64) (x r : Bytes) (hx : x.map lowerByte = ascii "set names") :
    sqlAnswer now (x ++ r) = some [sqlOk] := by
  have hl : x.length = 9 := by
    have := congrArg List.length hx
    rw [List.length_map] at this
    exact this.trans (by decide +kernel)
  have hs : setNames (x ++ r) (ascii "SET NAMES") = some true :=
    setNames_prefix x _ r (hx.trans (by decide +kernel))
  have at2 : ∃ u, (x ++ r)[2]? = some u ∧ lowerByte u = 116 := by
    have : (x.map lowerByte)[2]? = some 116 := by rw [hx]; decide +kernel
    rw [List.getElem?_map] at this
    cases e : x[2]? with
    | none => rw [e] at this; cases this
    | some u =>
      rw [e] at this
      refine ⟨u, ?_, by simpa using this⟩
      rw [List.getElem?_append_left (by omega)]; exact e
  obtain ⟨u, hu, hv⟩ := at2
  have no : ∀ (v : UInt8) (y : Bytes), y[2]? = some v → lowerByte v ≠ 116 → caseMatch (x ++ r) y = false := by
    intro v y hy hne
    cases hxr : x ++ r with
    | nil => rw [hxr] at hu; cases hu
    | cons a t =>
      cases y with
      | nil => cases hy
      | cons b y => exact caseMatch_second 2 u v (hxr ▸ hu) hy (fun h => hne (h ▸ hv))
  rw [sqlAnswer, no 76 (ascii "SELECT UNIX_TIMESTAMP()") (by decide +kernel) (by decide),
    no 108 (ascii "select @@version_comment limit 1") (by decide +kernel) (by decide),
    no 79 (ascii "SHOW VARIABLES LIKE 'SERVER_ID'") (by decide +kernel) (by decide),
    no 79 (ascii "SHOW SLAVE HOSTS") (by decide +kernel) (by decide), hs]
  rfl

example : sqlAnswer 5 (ascii "set Names utf8") = some [sqlOk] := C74_set_names 5 (ascii "set Names") (ascii " utf8") (by decide +kernel)

/-- The greeting names the protocol, the version and the thread, as a MySQL client reads them. -/
theorem C74_hello (cf : SqlConf) :
    (sqlHello cf).head? = some 10 ∧ (sqlHello cf).tail.takeWhile (· ≠ 0) = ascii "5.0.23-flare-1.3.4" ∧
    leNat (((sqlHello cf).drop 20).take 4) = cf.thread.toNat ∧ (sqlHello cf).length = 64 := by
  obtain ⟨v, hv⟩ : ∃ v, v = ascii "5.0.23-flare-1.3.4" := ⟨_, rfl⟩
  have hl : v.length = 18 := by rw [hv]; decide +kernel
  have hz : ∀ c ∈ v, decide (c ≠ 0) = true := by rw [hv]; decide +kernel
  have e : sqlHello cf = 10 :: (v ++ (0 :: (leBytes 4 cf.thread.toNat ++ (List.replicate 8 0 ++ [0, 0, 0, 63, 2, 0] ++
      List.replicate 26 0)))) := by simp [sqlHello, hv]
  refine ⟨by rw [e]; rfl, ?_, ?_, ?_⟩
  · rw [e, List.tail_cons, List.takeWhile_append_of_pos hz, ← hv]
    simp
  · have d : (sqlHello cf).drop 20 = leBytes 4 cf.thread.toNat ++ (List.replicate 8 0 ++ [0, 0, 0, 63, 2, 0] ++
        List.replicate 26 0) := by
      rw [e, show (10 :: (v ++ (0 :: (leBytes 4 cf.thread.toNat ++ (List.replicate 8 0 ++ [0, 0, 0, 63, 2, 0] ++
        List.replicate 26 0))))) = (10 :: (v ++ [0])) ++ (leBytes 4 cf.thread.toNat ++ (List.replicate 8 0 ++
        [0, 0, 0, 63, 2, 0] ++ List.replicate 26 0)) by simp]
      exact List.drop_left' (by simp [hl])
    rw [d, List.take_left' (leBytes_length _ _), leNat_leBytes]
    have := cf.thread.toNat_lt
    omega
  · rw [e]; simp [hl, leBytes_length]

/-! ### The queue -/

/-- **What becomes of the copies.**  Of the copies that arrive while a slave is connected, in order: first those that
are done with, then those in the queue.  Each of the former has been sent or has been lost, in order; at most one is
lost per failed connection, and none is sent twice.  The clients that wait for the former, and only those, have been
let go. -/
theorem C74_sent (evs : List SqlEvent) :
    let f := SqlFeed.run {} evs
    ∃ done, done ++ f.queue = SqlFeed.accepted {} evs ∧ f.sent.Sublist done ∧ f.lost.Sublist done ∧
      (f.sent ++ f.lost).Perm done ∧ f.lost.length ≤ evs.count .fail ∧ f.released = (done.filter (·.waits)).length := by
  suffices h : ∀ (evs : List SqlEvent) (f : SqlFeed) (done acc : List SqlCopy) (k : Nat), done ++ f.queue = acc →
      f.sent.Sublist done → f.lost.Sublist done → (f.sent ++ f.lost).Perm done → f.lost.length ≤ k →
      f.released = (done.map SqlCopy.refs).sum →
      ∃ done', done' ++ (f.run evs).queue = acc ++ f.accepted evs ∧ (f.run evs).sent.Sublist done' ∧
        (f.run evs).lost.Sublist done' ∧ ((f.run evs).sent ++ (f.run evs).lost).Perm done' ∧
        (f.run evs).lost.length ≤ k + evs.count .fail ∧ (f.run evs).released = (done'.map SqlCopy.refs).sum by
    obtain ⟨done, h1, h2, h3, h4, h5, h6⟩ := h evs {} [] [] 0 rfl (.refl _) (.refl _) (.refl _) (Nat.le_refl _) rfl
    refine ⟨done, by simpa using h1, h2, h3, h4, by simpa using h5, h6.trans ?_⟩
    clear h1 h2 h3 h4 h5 h6
    induction done with
    | nil => rfl
    | cons c l ih => cases hc : c.waits <;> simp [SqlCopy.refs, hc, ih] <;> omega
  intro evs
  induction evs with
  | nil =>
    intro f done acc k h1 h2 h3 h4 h5 h6
    exact ⟨done, by simpa [SqlFeed.accepted, SqlFeed.run] using h1, h2, h3, h4, by simpa [SqlFeed.run] using h5, h6⟩
  | cons ev evs ih =>
    intro f done acc k h1 h2 h3 h4 h5 h6
    rw [show f.run (ev :: evs) = (f.step ev).run evs from rfl, SqlFeed.accepted, ← List.append_assoc]
    obtain ⟨on, queue, sent, lost, released⟩ := f
    simp only at h1 h2 h3 h4 h5 h6
    have stay : ∀ (f' : SqlFeed), f'.queue = queue → f'.sent = sent → f'.lost = lost → f'.released = released →
        ∃ done', done' ++ (f'.run evs).queue = acc ++ [] ++ f'.accepted evs ∧ (f'.run evs).sent.Sublist done' ∧
          (f'.run evs).lost.Sublist done' ∧ ((f'.run evs).sent ++ (f'.run evs).lost).Perm done' ∧
          (f'.run evs).lost.length ≤ k + (ev :: evs).count .fail ∧
          (f'.run evs).released = (done'.map SqlCopy.refs).sum := by
      rintro f' rfl rfl rfl rfl
      obtain ⟨d, i1, i2, i3, i4, i5, i6⟩ := ih f' done acc k h1 h2 h3 h4 h5 h6
      refine ⟨d, by simpa using i1, i2, i3, i4, Nat.le_trans i5 ?_, i6⟩
      have := List.count_le_count_cons (a := SqlEvent.fail) (b := ev) (l := evs)
      omega
    cases on
    · cases ev <;> exact stay _ rfl rfl rfl rfl
    · cases ev with
      | copy c =>
        obtain ⟨d, i1, i2, i3, i4, i5, i6⟩ := ih ⟨true, queue ++ [c], sent, lost, released⟩ done (acc ++ [c]) k
          (by rw [← h1]; simp) h2 h3 h4 h5 h6
        exact ⟨d, i1, i2, i3, i4, Nat.le_trans i5 (Nat.add_le_add_left List.count_le_count_cons k), i6⟩
      | connect => exact stay _ rfl rfl rfl rfl
      | take =>
        cases queue with
        | nil => exact stay _ rfl rfl rfl rfl
        | cons c q =>
          obtain ⟨d, i1, i2, i3, i4, i5, i6⟩ := ih ⟨true, q, sent ++ [c], lost, released + c.refs⟩ (done ++ [c]) acc k
            (by rw [← h1]; simp) (h2.append (.refl _)) (h3.trans (List.sublist_append_left _ _))
            (by
              refine List.Perm.trans ?_ (h4.append_right [c])
              simp only [List.append_assoc]
              exact (List.perm_append_comm).append_left sent) h5 (by rw [h6]; simp)
          exact ⟨d, by rw [show SqlFeed.accepts _ SqlEvent.take = [] from rfl, List.append_nil]; exact i1, i2, i3, i4,
            Nat.le_trans i5 (Nat.add_le_add_left List.count_le_count_cons k), i6⟩
      | fail =>
        cases queue with
        | nil => exact stay _ rfl rfl rfl rfl
        | cons c q =>
          obtain ⟨d, i1, i2, i3, i4, i5, i6⟩ := ih ⟨false, q, sent, lost ++ [c], released + c.refs⟩ (done ++ [c]) acc (k + 1)
            (by rw [← h1]; simp) (h2.trans (List.sublist_append_left _ _)) (h3.append (.refl _))
            (by rw [← List.append_assoc]; exact h4.append_right [c]) (by simpa using h5) (by rw [h6]; simp)
          refine ⟨d, by rw [show SqlFeed.accepts _ SqlEvent.fail = [] from rfl, List.append_nil]; exact i1, i2, i3, i4,
            Nat.le_trans i5 ?_, i6⟩
          rw [List.count_cons_self]
          omega
      | gone =>
        by_cases hq : queue = []
        · subst hq; exact stay _ rfl rfl rfl rfl
        · have : SqlFeed.step ⟨true, queue, sent, lost, released⟩ .gone = ⟨true, queue, sent, lost, released⟩ := by
            simp [SqlFeed.step, hq]
          rw [this]
          exact stay _ rfl rfl rfl rfl

/-- **With no slave nothing moves.**  While no slave is connected, and until one connects, nothing that happens changes
anything: the copies of the writes made meanwhile are never sent (the position a slave asks for is not looked at,
/repo/src/lib/mysql_replication.cc:88-91), and the clients that wait for what is in the queue go on waiting. -/
theorem C74_off {f : SqlFeed} (hf : f.on = false) {evs : List SqlEvent} (h : SqlEvent.connect ∉ evs) :
    f.run evs = f ∧ f.accepted evs = [] := by
  induction evs with
  | nil => exact ⟨rfl, rfl⟩
  | cons ev evs ih =>
    have hs : f.step ev = f := by
      cases ev with
      | connect => exact absurd List.mem_cons_self h
      | _ => simp [SqlFeed.step, hf]
    obtain ⟨h1, h2⟩ := ih fun hm => h (List.mem_cons_of_mem _ hm)
    refine ⟨?_, ?_⟩
    · rw [show f.run (ev :: evs) = (f.step ev).run evs from rfl, hs, h1]
    · simp only [SqlFeed.accepted, hs, h2, List.append_nil]
      cases ev <;> simp [SqlFeed.accepts, hf]

/-- **Versions are not compared.**  Two copies of one key that reach the queue in the other order leave the older value
in the table, whatever their versions are; a slave node refuses the older one. -/
theorem C74_overtaken {cf : SqlConf} (hcf : cf.Sane) {date : Bytes → Option Int64}
    (hd : ∀ x, 0 < x → date (cf.clock x) = some x) {new old : Entry} (h1 : new.Ok) (h2 : old.Ok) (hk : SafeKey new.key)
    (hkk : old.key = new.key) (hx : old.expire = 0) (tab : SqlTable) :
    ∃ tab', sqlApplyAll cf.table tab [sqlText cf false new, sqlText cf false old] = some tab' ∧
      ∀ t, tab'.lookup date t new.key = some ⟨old.data, old.flag, 0, old.version⟩ := by
  obtain ⟨⟨t1, e1, -⟩, -⟩ := C74_row hcf hd tab h1 hk
  obtain ⟨⟨t2, e2, e3⟩, -⟩ := C74_row hcf hd t1 h2 (by rw [hkk]; exact hk)
  refine ⟨t2, by simp only [sqlApplyAll, e1, e2], fun t => ?_⟩
  rw [e3, if_pos hkk.symm, hx, if_neg (by simp)]

/-- **`flush_all` is not copied.**  After a flush at the master that succeeds, no copy is made, nothing is read at the
master, and a table that says anything about any key no longer agrees. -/
theorem C74_flush_stays {date : Bytes → Option Int64} {m : Store} {env : Env} (he : env.vanishOk = true)
    {tab : SqlTable} {t0 t : Int64} {k : Bytes} (ht : t0 ≤ t) (hk : tab.lookup date t k ≠ none) :
    (sqlHistory m [.flushMaster env]).2 = [] ∧ (∀ t k, lookup (sqlHistory m [.flushMaster env]).1 t k = none) ∧
      ¬ SqlAgrees date tab (sqlHistory m [.flushMaster env]).1 t0 := by
  have hl : ∀ t k, lookup (sqlHistory m [.flushMaster env]).1 t k = none := by
    intro t k
    simp only [sqlHistory, truncate, he, if_true]
    rfl
  refine ⟨rfl, hl, fun h => hk ?_⟩
  rw [h t ht k, hl]
  rfl

/-! ### Examples -/

/-- Dates as seconds. -/
def sqlConfEx : SqlConf :=
  { id := 4, db := ascii "test", table := ascii "flare", thread := 9, clock := fun x => decimal x.toUInt64.toNat }

def sqlDateEx (b : Bytes) : Option Int64 := some (Int64.ofNat (decValue b))

theorem sqlConfEx_sane : sqlConfEx.Sane := by
  refine ⟨by decide, by decide, by decide, by decide, fun x => ⟨fun c hc => ?_, ?_⟩⟩
  · have h := decimal_digits _ c hc
    refine ⟨?_, ?_, ?_⟩ <;> rintro rfl <;> exact absurd h (by decide)
  · exact Nat.le_trans (decimal_length_u64 _) (by decide)

theorem sqlDateEx_reads (x : Int64) (_ : 0 < x) : sqlDateEx (sqlConfEx.clock x) = some x := by
  simp only [sqlDateEx, sqlConfEx, decValue_decimal]
  congr 1
  have h : (Int64.ofNat x.toUInt64.toNat).toUInt64 = x.toUInt64 := UInt64.ofNat_toNat
  exact congrArg UInt64.toInt64 h

/-- A value for a first, then the events of `repEvents`. -/
def sqlEventsEx : List Event :=
  .write { now := 2999999 } [] { cmd := .set, entry := { key := [97], flag := 5, expire := 3000100, size := 1, data := [55] } }
    { now := 3000000 } :: repEvents

def sqlStoreEx : Store := { cacheSize := 10 }

def sqlSendsEx : List (Int64 × SqlCopy) := (sqlHistory sqlStoreEx sqlEventsEx).2.map fun c => (3000001, c)

theorem sqlEventsEx_timely : SqlTimely 0 sqlEventsEx := by
  simp only [sqlEventsEx, repEvents, SqlTimely, Entry.Ok, SafeKey]
  decide +kernel

/-- The hypotheses of `C74_mirror_partial` hold for these events, and the table then has both keys. -/
example : (∃ bs l' es tab', sqlSendAll sqlConfEx {} sqlSendsEx = some (bs, l') ∧
      readLog sqlSendsEx.length 0 bs = some es ∧ sqlApplyAll sqlConfEx.table [] (es.map (·.query)) = some tab' ∧
      SqlAgrees sqlDateEx tab' (sqlHistory sqlStoreEx sqlEventsEx).1 (sqlEndTime 0 sqlEventsEx)) ∧
    sqlSendsEx.length = 7 ∧ sqlEndTime 0 sqlEventsEx = 3000041 ∧
    (lookup (sqlHistory sqlStoreEx sqlEventsEx).1 3000080 [97]).map Item.data = some (ascii "12x") ∧
    (lookup (sqlHistory sqlStoreEx sqlEventsEx).1 3000080 [98]).map Item.data = some (ascii "zz") := by
  refine ⟨C74_mirror_partial sqlConfEx_sane sqlDateEx_reads (m := sqlStoreEx) ?_ (t0 := 0) ?_ sqlEventsEx_timely {} ?_ ?_, ?_⟩
  · exact ⟨(fun k raw h => nomatch h), by decide, by decide⟩
  · intro t _ k; rfl
  · simp only [sqlSendsEx, List.map_map]
    exact List.map_id _
  · intro x hx
    have : ∀ x ∈ sqlSendsEx, decide (x.2.entry.size.toNat ≤ x.2.entry.data.length) = true ∧
      decide (8192 + x.2.entry.key.length + 2 * x.2.entry.size.toNat ≤ intMax) = true ∧
      decide ((34 + sqlConfEx.db.length + (sqlText sqlConfEx x.2.delete x.2.entry).length) % maxPacket ≠ 0) = true := by
      decide +kernel
    obtain ⟨h1, h2, h3⟩ := this x hx
    exact ⟨of_decide_eq_true h1, of_decide_eq_true h2, of_decide_eq_true h3⟩
  · decide +kernel

/-- A value with a quote, a backslash, a NUL and the end of a line in it. -/
example : sqlText sqlConfEx false { key := ascii "k", size := 6, data := [39, 92, 0, 10, 34, 120], version := 7 } =
    ascii "REPLACE INTO `flare` VALUES ('k', '\\'\\\\\\0\\n\\\"x', 0, 7, 0)" ∧
    (sqlApply (ascii "flare") [] (sqlText sqlConfEx false
      { key := ascii "k", size := 6, data := [39, 92, 0, 10, 34, 120], version := 7 })).map (·.get (ascii "k")) =
      some (some ⟨[39, 92, 0, 10, 34, 120], 0, 7, .num 0⟩) := by decide +kernel

/-- A client's write on a key without blanks changes the row of another key. -/
example : sqlApply (ascii "flare") [(ascii "admin", ⟨ascii "no", 0, 1, .num 0⟩)]
      (sqlText sqlConfEx false { key := ascii "x','v',0,0,0),('admin", size := 3, data := ascii "yes", version := 1 }) =
    some [(ascii "admin", ⟨ascii "yes", 0, 1, .num 0⟩), (ascii "x", ⟨ascii "v", 0, 0, .num 0⟩)] ∧
    PlainKey (ascii "x','v',0,0,0),('admin") 8192 ∧ rowKey (ascii "x") (ascii "v") (ascii "admin") = ascii "x','v',0,0,0),('admin" := by
  refine ⟨by decide +kernel, ⟨by decide, by decide, by decide⟩, by decide⟩

example : sqlApply (ascii "flare") [(ascii "a", ⟨ascii "1", 0, 1, .num 0⟩), (ascii "b", ⟨ascii "2", 0, 1, .num 0⟩)]
      (sqlText sqlConfEx true { key := ascii "'or'1'='1" }) = some [] ∧
    sqlApply (ascii "flare") [] (sqlText sqlConfEx false { key := ascii "it's" }) = none ∧
    sqlApply (ascii "flare") [] (sqlText sqlConfEx false { key := ascii "a\\b" }) =
      some [([97, 8], ⟨[], 0, 0, .num 0⟩)] ∧
    sqlApply (ascii "flare") [] (sqlText sqlConfEx false { key := [97, 0, 98] }) =
      some [([97], ⟨[], 0, 0, .num 0⟩)] := by decide +kernel

/-- A slave logs in with 60 bytes, asks for the time and starts; its query of 200 bytes ends the connection. -/
example : (sqlGreet sqlConfEx 5 (sqlPacket 1 (List.replicate 60 1) ++ (sqlPacket 0 (3 :: ascii "SELECT UNIX_TIMESTAMP()") ++
      sqlPacket 0 (18 :: List.replicate 10 0)))).2 = .dump { packet := 1, offset := 0 } [] ∧
    (sqlGreet sqlConfEx 5 (sqlPacket 1 (List.replicate 60 1) ++ (sqlPacket 0 (3 :: List.replicate 199 32)))).2 = .failed ∧
    sqlAnswer 5 (ascii "SELECT VERSION()") = some [] := by decide +kernel

/-- Three writes, of which two wait: the first is sent, the second lost with the connection, the third stays and its
client waits. -/
example : SqlFeed.run {} [.connect, .copy ⟨false, { key := [97] }, false⟩, .copy ⟨false, { key := [98] }, true⟩,
      .copy ⟨false, { key := [99] }, true⟩, .take, .fail, .copy ⟨false, { key := [100] }, true⟩] =
    { on := false, queue := [⟨false, { key := [99] }, true⟩], sent := [⟨false, { key := [97] }, false⟩],
      lost := [⟨false, { key := [98] }, true⟩], released := 1 } := by decide +kernel

end Flare
