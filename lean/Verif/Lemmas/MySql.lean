import Verif.Spec.MySql
import Verif.Lemmas.Replication
import Verif.Lemmas.Decimal
import Verif.Lemmas.Bytes

namespace Flare

/-! ### Strings -/

theorem sqlString_plain {c : UInt8} {s : Bytes} (h1 : c ≠ 92) (h2 : c ≠ 39) (hs : s ≠ []) :
    sqlString (c :: s) = (sqlString s).map fun x => (c :: x.1, x.2) := by
  cases s with
  | nil => exact absurd rfl hs
  | cons d s => rw [sqlString]; simp only [if_neg h1, if_neg h2]

theorem sqlString_esc {u : UInt8} {s : Bytes} :
    sqlString (92 :: u :: s) = (sqlString s).map fun x => (sqlUnescape u ++ x.1, x.2) := by
  rw [sqlString]; simp only [if_true]

theorem sqlString_end {r : Bytes} (hr : r.head? ≠ some 39) : sqlString (39 :: r) = some ([], r) := by
  cases r with
  | nil => rfl
  | cons d s =>
    rw [sqlString]
    have : d ≠ 39 := fun h => hr (by rw [h]; rfl)
    simp only [if_neg (show (39 : UInt8) ≠ 92 by decide), if_true, if_neg this]

theorem sqlString_escapeByte (c : UInt8) (s : Bytes) (hs : s ≠ []) :
    sqlString (sqlEscapeByte c ++ s) = (sqlString s).map fun x => (c :: x.1, x.2) := by
  simp only [sqlEscapeByte]
  repeat' split
  all_goals try subst_vars
  all_goals first
    | exact sqlString_esc
    | exact sqlString_plain (by assumption) (by assumption) hs

theorem sqlString_escape (d : Bytes) {r : Bytes} (hr : r.head? ≠ some 39) :
    sqlString (sqlEscape d ++ 39 :: r) = some (d, r) := by
  induction d with
  | nil => exact sqlString_end hr
  | cons c d ih =>
    simp only [sqlEscape, List.flatMap_cons, List.append_assoc] at ih ⊢
    rw [sqlString_escapeByte c _ (by simp), ih]
    rfl

theorem sqlString_safe {k : Bytes} (hk : SafeKey k) {r : Bytes} (hr : r.head? ≠ some 39) :
    sqlString (k ++ 39 :: r) = some (k, r) := by
  induction k with
  | nil => exact sqlString_end hr
  | cons c d ih =>
    have h := hk c List.mem_cons_self
    rw [List.cons_append, sqlString_plain h.2.2 h.2.1 (by simp), ih (fun x hx => hk x (List.mem_cons_of_mem _ hx))]
    rfl

theorem sqlEscape_length (d : Bytes) : (sqlEscape d).length ≤ 2 * d.length := by
  induction d with
  | nil => exact Nat.zero_le _
  | cons c d ih =>
    have : (sqlEscapeByte c).length ≤ 2 := by
      simp only [sqlEscapeByte]
      repeat' split
      all_goals simp
    simp only [sqlEscape, List.flatMap_cons, List.length_append, List.length_cons] at ih ⊢
    omega

theorem cstr_safe {k : Bytes} (hk : ∀ c ∈ k, c ≠ 0) : cstr k = k := by
  simp only [cstr]
  induction k with
  | nil => rfl
  | cons c k ih =>
    rw [List.takeWhile_cons_of_pos (by simp [hk c List.mem_cons_self]), ih fun x hx => hk x (List.mem_cons_of_mem _ hx)]

/-! ### Values and statements -/

theorem sqlValue_str {s : Bytes} : sqlValue (39 :: s) = (sqlString s).map fun x => (.str x.1, x.2) := rfl

theorem sqlValue_blank {s : Bytes} : sqlValue (32 :: s) = sqlValue s := by
  simp only [sqlValue, skipBlank]
  rw [List.dropWhile_cons_of_pos (by decide)]

theorem span_digits {a r : Bytes} (ha : ∀ c ∈ a, isDigit c = true) (hr : ∀ c, r.head? = some c → isDigit c = false) :
    (a ++ r).takeWhile isDigit = a ∧ (a ++ r).dropWhile isDigit = r := by
  induction a with
  | nil =>
    cases r with
    | nil => exact ⟨rfl, rfl⟩
    | cons c r =>
      have := hr c rfl
      simp [this]
  | cons c a ih =>
    have h := ih fun x hx => ha x (List.mem_cons_of_mem _ hx)
    simp [ha c List.mem_cons_self, h.1, h.2]

theorem sqlValue_num (n : Nat) {r : Bytes} (hr : ∀ c, r.head? = some c → isDigit c = false) :
    sqlValue (decimal n ++ r) = some (.num n, r) := by
  have h := span_digits (decimal_digits n) hr
  have hv := decValue_decimal n
  have hd := decimal_digits n
  cases e : decimal n with
  | nil => exact absurd e (decimal_ne_nil n)
  | cons c a =>
    rw [e] at h hv hd
    have hc := hd c List.mem_cons_self
    have h39 : c ≠ 39 := by rintro rfl; cases hc
    have h32 : c ≠ 32 := by rintro rfl; cases hc
    have hb : skipBlank (c :: (a ++ r)) = c :: (a ++ r) := by
      simp only [skipBlank]
      rw [List.dropWhile_cons_of_neg (by simpa using h32)]
    rw [List.cons_append] at h ⊢
    simp only [sqlValue, hb, if_neg h39, hc, if_true, h.1, h.2, hv]

theorem sqlExpect_self (w s : Bytes) : sqlExpect w (w ++ s) = some s := by
  simp only [sqlExpect]
  rw [if_pos (by simp), List.drop_left]

theorem span_name {a r : Bytes} (ha : ∀ c ∈ a, c ≠ (96 : UInt8)) :
    (a ++ 96 :: r).takeWhile (· ≠ 96) = a ∧ (a ++ 96 :: r).dropWhile (· ≠ 96) = 96 :: r := by
  induction a with
  | nil => simp
  | cons c a ih =>
    have h := ih fun x hx => ha x (List.mem_cons_of_mem _ hx)
    have := ha c List.mem_cons_self
    simp only [List.cons_append]
    rw [List.takeWhile_cons_of_pos (by simpa using this), List.dropWhile_cons_of_pos (by simpa using this), h.1, h.2]
    exact ⟨rfl, rfl⟩

theorem sqlValues_last {n : Nat} {s r : Bytes} {v : SqlVal} (h : sqlValue s = some (v, 41 :: r)) :
    sqlValues (n + 1) s = some ([v], r) := by
  simp only [sqlValues, h]; rfl

theorem sqlValues_next {n : Nat} {s r : Bytes} {v : SqlVal} (h : sqlValue s = some (v, 44 :: r)) :
    sqlValues (n + 1) s = (sqlValues n r).map fun x => (v :: x.1, x.2) := by
  simp only [sqlValues, h]; rfl

/-- The text of the expiry. -/
def sqlExpire (cf : SqlConf) (e : Entry) : SqlVal :=
  if e.expire > 0 then .str (cf.clock e.expire) else .num 0

/-- The last column and the end of the row. -/
theorem sqlValue_expire {cf : SqlConf} (hc : SafeKey (cf.clock e.expire)) (r : Bytes) :
    sqlValue ((if e.expire > 0 then ascii "'" ++ cf.clock e.expire ++ ascii "')" else ascii "0)") ++ r) =
      some (sqlExpire cf e, 41 :: r) := by
  simp only [sqlExpire]
  split
  · rw [show ascii "'" ++ cf.clock e.expire ++ ascii "')" ++ r = 39 :: (cf.clock e.expire ++ 39 :: 41 :: r) by
      simp only [show ascii "'" = [39] from rfl, show ascii "')" = [39, 41] from rfl, List.append_assoc]; rfl,
      sqlValue_str, sqlString_safe hc (by simp)]
    rfl
  · have := sqlValue_num 0 (r := 41 :: r) (by intro c h; cases h; rfl)
    exact this

/-- The columns behind the key. -/
theorem sqlValues_rest {cf : SqlConf} {e : Entry} (hc : SafeKey (cf.clock e.expire)) (d r : Bytes) (n : Nat) (hn : 4 ≤ n) :
    sqlValues n (ascii " '" ++ sqlEscape d ++ ascii "', " ++ decimal e.flag.toNat ++ ascii ", " ++
      decimal e.version.toNat ++ ascii ", " ++
      (if e.expire > 0 then ascii "'" ++ cf.clock e.expire ++ ascii "')" else ascii "0)") ++ r) =
      some ([.str d, .num e.flag.toNat, .num e.version.toNat, sqlExpire cf e], r) := by
  obtain ⟨n, rfl⟩ : ∃ k, n = k + 4 := ⟨n - 4, by omega⟩
  obtain ⟨x, hx⟩ : ∃ x, x = (if e.expire > 0 then ascii "'" ++ cf.clock e.expire ++ ascii "')" else ascii "0)") ++ r :=
    ⟨_, rfl⟩
  have h4 : sqlValue (32 :: x) = some (sqlExpire cf e, 41 :: r) := by
    rw [sqlValue_blank, hx]; exact sqlValue_expire hc r
  have nd : ∀ (y : Bytes) (c : UInt8), (44 :: y).head? = some c → isDigit c = false := by
    intro y c h; cases h; rfl
  have h3 : sqlValue (32 :: (decimal e.version.toNat ++ 44 :: 32 :: x)) = some (.num e.version.toNat, 44 :: 32 :: x) := by
    rw [sqlValue_blank]; exact sqlValue_num _ (nd _)
  have h2 : sqlValue (32 :: (decimal e.flag.toNat ++ 44 :: 32 :: (decimal e.version.toNat ++ 44 :: 32 :: x))) =
      some (.num e.flag.toNat, 44 :: 32 :: (decimal e.version.toNat ++ 44 :: 32 :: x)) := by
    rw [sqlValue_blank]; exact sqlValue_num _ (nd _)
  have h1 : sqlValue (32 :: 39 :: (sqlEscape d ++ 39 :: 44 :: 32 ::
      (decimal e.flag.toNat ++ 44 :: 32 :: (decimal e.version.toNat ++ 44 :: 32 :: x)))) =
      some (.str d, 44 :: 32 :: (decimal e.flag.toNat ++ 44 :: 32 :: (decimal e.version.toNat ++ 44 :: 32 :: x))) := by
    rw [sqlValue_blank, sqlValue_str, sqlString_escape d (by simp)]
    rfl
  rw [show ascii " '" ++ sqlEscape d ++ ascii "', " ++ decimal e.flag.toNat ++ ascii ", " ++
      decimal e.version.toNat ++ ascii ", " ++
      (if e.expire > 0 then ascii "'" ++ cf.clock e.expire ++ ascii "')" else ascii "0)") ++ r =
      32 :: 39 :: (sqlEscape d ++ 39 :: 44 :: 32 ::
      (decimal e.flag.toNat ++ 44 :: 32 :: (decimal e.version.toNat ++ 44 :: 32 :: x))) by
    rw [hx]
    simp only [show ascii " '" = [32, 39] from rfl, show ascii "', " = [39, 44, 32] from rfl,
      show ascii ", " = [44, 32] from rfl, List.append_assoc]
    rfl]
  rw [sqlValues_next h1, sqlValues_next h2, sqlValues_next h3, sqlValues_last h4]
  rfl

theorem sqlRows_one {n : Nat} {s : Bytes} {r : List SqlVal} (h : sqlValues (s.length + 1) s = some (r, [])) :
    sqlRows (n + 1) (40 :: s) = some [r] := by
  simp only [sqlRows]
  rw [show skipBlank (40 :: s) = 40 :: s from rfl]
  simp only [h]
  rfl

theorem sqlRows_more {n : Nat} {s t : Bytes} {r : List SqlVal} (h : sqlValues (s.length + 1) s = some (r, 44 :: t)) :
    sqlRows (n + 1) (40 :: s) = (sqlRows n t).map fun x => r :: x := by
  simp only [sqlRows]
  rw [show skipBlank (40 :: s) = 40 :: s from rfl]
  simp only [h]
  rfl

/-- What stands behind the key. -/
def sqlTail (cf : SqlConf) (e : Entry) : Bytes :=
  ascii " '" ++ sqlEscape (e.data.take e.size.toNat) ++ ascii "', " ++ decimal e.flag.toNat ++ ascii ", " ++
    decimal e.version.toNat ++ ascii ", " ++
    (if e.expire > 0 then ascii "'" ++ cf.clock e.expire ++ ascii "')" else ascii "0)")

theorem sqlText_replace {cf : SqlConf} {e : Entry} : sqlText cf false e =
    ascii "REPLACE INTO `" ++ (cstr cf.table ++ 96 :: (ascii " VALUES " ++ 40 :: 39 :: (cstr e.key ++ 39 :: 44 ::
      sqlTail cf e))) := by
  simp only [sqlText, sqlTail, Bool.false_eq_true, if_false,
    show ascii "` VALUES ('" = 96 :: (ascii " VALUES " ++ [40, 39]) from by decide,
    show ascii "', '" = 39 :: 44 :: ascii " '" from by decide, List.append_assoc, List.cons_append, List.nil_append]

/-- A statement whose text behind `VALUES` is `r`. -/
theorem sqlStmt_replace {t r : Bytes} (ht : ∀ c ∈ t, c ≠ 96) :
    sqlStmt (ascii "REPLACE INTO `" ++ (t ++ 96 :: (ascii " VALUES " ++ r))) =
      (sqlRows (r.length + 1) r).map (.replace t) := by
  have h := span_name (r := ascii " VALUES " ++ r) ht
  simp only [sqlStmt, sqlExpect_self, h.1, h.2]
  rw [show 96 :: (ascii " VALUES " ++ r) = ascii "` VALUES " ++ r from by
    rw [show ascii "` VALUES " = 96 :: ascii " VALUES " from by decide]; rfl, sqlExpect_self]

theorem sqlStmt_delete {t r : Bytes} (ht : ∀ c ∈ t, c ≠ 96) {b s : Bytes} (h : sqlString r = some (b, s)) :
    sqlStmt (ascii "DELETE FROM `" ++ (t ++ 96 :: (ascii " WHERE k='" ++ r))) =
      (sqlOrs (s.length + 1) s).map fun x => .delete t (.key b :: x) := by
  have e0 : sqlExpect (ascii "REPLACE INTO `")
      (ascii "DELETE FROM `" ++ (t ++ 96 :: (ascii " WHERE k='" ++ r))) = none := by
    simp only [sqlExpect]
    rw [if_neg]
    rw [show ascii "REPLACE INTO `" = 82 :: (ascii "EPLACE INTO `") from by decide,
      show ascii "DELETE FROM `" = 68 :: ascii "ELETE FROM `" from by decide]
    simp
  have h1 := span_name (r := ascii " WHERE k='" ++ r) ht
  simp only [sqlStmt, e0, sqlExpect_self, h1.1, h1.2]
  rw [show 96 :: (ascii " WHERE k='" ++ r) = ascii "` WHERE k=" ++ 39 :: r from by
    rw [show ascii "` WHERE k=" = 96 :: ascii " WHERE k=" from by decide,
      show ascii " WHERE k='" = ascii " WHERE k=" ++ [39] from by decide, List.append_assoc]; rfl, sqlExpect_self]
  simp only [sqlValue_str, h, Option.map_some]

/-- The values of the copy of an entry. -/
def sqlRowOf (cf : SqlConf) (e : Entry) : SqlRow :=
  ⟨e.data.take e.size.toNat, e.flag.toNat, e.version.toNat, sqlExpire cf e⟩

theorem sqlTail_values {cf : SqlConf} (hcf : cf.Sane) (e : Entry) (n : Nat) (hn : 4 ≤ n) (r : Bytes) :
    sqlValues n (sqlTail cf e ++ r) = some ([.str (sqlRowOf cf e).value, .num (sqlRowOf cf e).flag,
      .num (sqlRowOf cf e).version, (sqlRowOf cf e).expire], r) :=
  sqlValues_rest (hcf.2.2.2.2 e.expire).1 _ r n hn

theorem sqlTail_length (cf : SqlConf) (e : Entry) : 4 ≤ (sqlTail cf e).length := by
  simp only [sqlTail, List.length_append, show (ascii " '").length = 2 from rfl, show (ascii "', ").length = 3 from rfl]
  omega

theorem sqlText_stmt {cf : SqlConf} (hcf : cf.Sane) {e : Entry} (hk : SafeKey e.key) :
    sqlStmt (sqlText cf false e) = some (.replace cf.table [[.str e.key, .str (sqlRowOf cf e).value,
      .num (sqlRowOf cf e).flag, .num (sqlRowOf cf e).version, (sqlRowOf cf e).expire]]) := by
  rw [sqlText_replace, cstr_safe (fun c h => (hcf.1 c h).1), cstr_safe (fun c h => (hk c h).1),
    sqlStmt_replace (fun c h => (hcf.1 c h).2)]
  have h1 : sqlValue (39 :: (e.key ++ 39 :: 44 :: sqlTail cf e)) = some (.str e.key, 44 :: sqlTail cf e) := by
    rw [sqlValue_str, sqlString_safe hk (by simp)]; rfl
  have h2 := sqlTail_values hcf e (39 :: (e.key ++ 39 :: 44 :: sqlTail cf e)).length
    (by have := sqlTail_length cf e; simp; omega) []
  rw [List.append_nil] at h2
  rw [sqlRows_one (by rw [sqlValues_next h1, h2]; rfl)]
  rfl

theorem sqlText_delete {cf : SqlConf} (hcf : cf.Sane) {e : Entry} (hk : SafeKey e.key) :
    sqlStmt (sqlText cf true e) = some (.delete cf.table [.key e.key]) := by
  have : sqlText cf true e = ascii "DELETE FROM `" ++ (cf.table ++ 96 :: (ascii " WHERE k='" ++ (e.key ++ 39 :: []))) := by
    simp only [sqlText, if_true, cstr_safe (fun c h => (hcf.1 c h).1), cstr_safe (fun c h => (hk c h).1),
      show ascii "` WHERE k='" = 96 :: ascii " WHERE k='" from by decide, show ascii "'" = [39] from rfl,
      List.append_assoc, List.cons_append]
  rw [this, sqlStmt_delete (fun c h => (hcf.1 c h).2) (sqlString_safe hk (by simp))]
  rfl

/-! ### The buffer -/

theorem sqlText_length {cf : SqlConf} (hcf : cf.Sane) (d : Bool) (e : Entry) (he : e.size.toNat ≤ e.data.length) :
    (sqlText cf d e).length < 8192 + e.key.length + 2 * e.size.toNat := by
  have h1 : (cstr cf.table).length ≤ 4096 := by
    have := List.takeWhile_prefix (p := (· ≠ (0 : UInt8))) (l := cf.table)
    have := this.length_le
    have := hcf.2.1
    simp only [cstr]
    omega
  have h2 : (cstr e.key).length ≤ e.key.length := (List.takeWhile_prefix _).length_le
  have h3 := sqlEscape_length (e.data.take e.size.toNat)
  rw [List.length_take, Nat.min_eq_left he] at h3
  have h4 : (decimal e.flag.toNat).length ≤ 20 := decimal_length (by decide) (by
    have := e.flag.toNat_lt; omega)
  have h5 : (decimal e.version.toNat).length ≤ 20 := decimal_length (by decide) (by
    have := e.version.toNat_lt; omega)
  have h6 := (hcf.2.2.2.2 e.expire).2
  simp only [sqlText]
  split
  · simp only [List.length_append, show (ascii "DELETE FROM `").length = 13 from rfl,
      show (ascii "` WHERE k='").length = 11 from rfl, show (ascii "'").length = 1 from rfl]
    omega
  · simp only [List.length_append, show (ascii "REPLACE INTO `").length = 14 from rfl,
      show (ascii "` VALUES ('").length = 11 from rfl, show (ascii "', '").length = 4 from rfl,
      show (ascii "', ").length = 3 from rfl, show (ascii ", ").length = 2 from rfl]
    split
    · simp only [List.length_append, show (ascii "'").length = 1 from rfl, show (ascii "')").length = 2 from rfl]
      omega
    · simp only [show (ascii "0)").length = 2 from rfl]
      omega

theorem sqlQuery_ok {cf : SqlConf} (hcf : cf.Sane) (d : Bool) {e : Entry} (he : e.size.toNat ≤ e.data.length)
    (hs : 8192 + e.key.length + 2 * e.size.toNat ≤ intMax) : sqlQuery cf d e = some (sqlText cf d e) := by
  have := sqlText_length hcf d e he
  simp only [sqlQuery]
  rw [if_neg (by omega)]

/-! ### The table -/

theorem SqlTable.get_put (t : SqlTable) (k : Bytes) (r : SqlRow) (x : Bytes) :
    (t.put k r).get x = if x = k then some r else t.get x := by
  simp only [SqlTable.put, SqlTable.get]
  by_cases h : x = k
  · subst h; simp
  · rw [if_neg h, List.find?_cons_of_neg (by simpa using fun e => h e.symm)]
    congr 1
    induction t with
    | nil => rfl
    | cons y t ih =>
      by_cases h1 : y.1 = k
      · rw [List.filter_cons_of_neg (by simpa using h1), ih,
          List.find?_cons_of_neg (by simpa using fun e => h (e.symm.trans h1))]
      · rw [List.filter_cons_of_pos (by simpa using h1)]
        by_cases h2 : y.1 = x
        · rw [List.find?_cons_of_pos (by simpa using h2), List.find?_cons_of_pos (by simpa using h2)]
        · rw [List.find?_cons_of_neg (by simpa using h2), List.find?_cons_of_neg (by simpa using h2), ih]

theorem SqlTable.get_del (t : SqlTable) (k x : Bytes) :
    SqlTable.get (t.filter fun y => !([SqlCond.key k].any (SqlCond.holds y.1))) x =
      if x = k then none else t.get x := by
  simp only [SqlTable.get, List.any_cons, List.any_nil, Bool.or_false, SqlCond.holds]
  induction t with
  | nil => simp
  | cons y t ih =>
    by_cases h1 : y.1 = k
    · rw [List.filter_cons_of_neg (by simp [h1]), ih]
      by_cases h : x = k
      · rw [if_pos h, if_pos h]
      · rw [if_neg h, if_neg h, List.find?_cons_of_neg (by simpa using fun e => h (e.symm.trans h1))]
    · rw [List.filter_cons_of_pos (by simp [h1])]
      by_cases h2 : y.1 = x
      · rw [List.find?_cons_of_pos (by simpa using h2), if_neg (fun h => h1 (h2.trans h)),
          List.find?_cons_of_pos (by simpa using h2)]
      · rw [List.find?_cons_of_neg (by simpa using h2), ih, List.find?_cons_of_neg (by simpa using h2)]

/-- The slave executes the copy of an entry. -/
theorem sqlApply_replace {cf : SqlConf} (hcf : cf.Sane) {e : Entry} (hk : SafeKey e.key) (t : SqlTable) :
    sqlApply cf.table t (sqlText cf false e) = some (t.put e.key (sqlRowOf cf e)) := by
  simp only [sqlApply, sqlText_stmt hcf hk, sqlExec, if_true, SqlTable.putRows]

theorem sqlApply_delete {cf : SqlConf} (hcf : cf.Sane) {e : Entry} (hk : SafeKey e.key) (t : SqlTable) :
    sqlApply cf.table t (sqlText cf true e) =
      some (t.filter fun y => !([SqlCond.key e.key].any (SqlCond.holds y.1))) := by
  simp only [sqlApply, sqlText_delete hcf hk, sqlExec, if_true]

/-! ### Packets -/

theorem readMessage_cons {m n : Nat} {id : UInt32} {k : Nat} {i : UInt8} {d s : Bytes} (hk : k < 16777216)
    (hd : d.length = k) (hi : i = id.toUInt8) :
    readMessage m (n + 1) id (leBytes 3 k ++ [i] ++ d ++ s) =
      if k = m then (readMessage m n (id + 1) s).map fun x => (d ++ x.1, x.2) else some (d, id + 1, s) := by
  obtain ⟨a, b, c, h⟩ : ∃ a b c, leBytes 3 k = [a, b, c] := ⟨_, _, _, rfl⟩
  have hl : leNat [a, b, c] = k := by rw [← h, leNat_leBytes_mod]; exact Nat.mod_eq_of_lt hk
  rw [h]
  simp only [List.cons_append, List.nil_append, readMessage, hl]
  have h1 : ¬ (i ≠ id.toUInt8 ∨ (d ++ s).length < k) := by
    rw [List.length_append]; intro h; rcases h with h | h
    · exact h hi
    · omega
  rw [if_neg h1]
  have h2 : (d ++ s).take k = d := by rw [← hd, List.take_left]
  have h3 : (d ++ s).drop k = s := by rw [← hd, List.drop_left]
  rw [h2, h3]
  split
  · cases readMessage m n (id + 1) s <;> rfl
  · rfl

theorem readMessage_cut {m : Nat} (hm : 0 < m) (h24 : m < 16777216) (k : Nat) :
    ∀ (b : Bytes) (id : UInt32) (n : Nat) (more : Bytes), b.length ≤ k → b.length ≤ n → b.length % m ≠ 0 →
      readMessage m n id ((cutPackets m k id b).1 ++ more) = some (b, (cutPackets m k id b).2, more) := by
  induction k with
  | zero =>
    intro b id n more hk hn hb
    rw [Nat.le_zero.1 hk] at hb
    exact absurd (Nat.zero_mod _) hb
  | succ k ih =>
    intro b id n more hk hn hb
    have h0 : b.length ≠ 0 := fun h => hb (by rw [h]; exact Nat.zero_mod _)
    obtain ⟨n, rfl⟩ : ∃ j, n = j + 1 := ⟨n - 1, by omega⟩
    simp only [cutPackets, if_neg h0]
    by_cases h1 : b.length > m
    · simp only [if_pos h1]
      rw [List.append_assoc, readMessage_cons h24 (by rw [List.length_take]; omega) rfl, if_pos rfl,
        ih (b.drop m) (id + 1) n more (by rw [List.length_drop]; omega) (by rw [List.length_drop]; omega)
          (by rw [List.length_drop, ← Nat.mod_eq_sub_mod (by omega)]; exact hb)]
      simp
    · simp only [if_neg h1]
      have h2 : b.length ≠ m := fun h => hb (by rw [h]; exact Nat.mod_self _)
      have h3 : cutPackets m k (id + 1) (b.drop b.length) = ([], id + 1) := by
        rw [List.drop_length]; cases k <;> rfl
      rw [h3, List.append_assoc, readMessage_cons (by omega) (by rw [List.take_length]) rfl, if_neg h2]
      simp

theorem readMessage_full {m : Nat} (hm : 0 < m) (h24 : m < 16777216) (j : Nat) :
    ∀ (b : Bytes) (id : UInt32) (k n : Nat) (s : Bytes), b.length ≤ k → b.length = j * m →
      readMessage m (j + n) id ((cutPackets m k id b).1 ++ s) =
        (readMessage m n (cutPackets m k id b).2 s).map fun x => (b ++ x.1, x.2) := by
  induction j with
  | zero =>
    intro b id k n s hk hb
    have : b = [] := List.eq_nil_of_length_eq_zero (by omega)
    subst this
    have h3 : cutPackets m k id [] = ([], id) := by cases k <;> rfl
    rw [h3, Nat.zero_add, List.nil_append]
    cases readMessage m n id s <;> rfl
  | succ j ih =>
    intro b id k n s hk hb
    rw [Nat.add_mul, Nat.one_mul] at hb
    obtain ⟨x, hx⟩ : ∃ x, x = j * m := ⟨_, rfl⟩
    rw [← hx] at hb
    have hmb : m ≤ b.length := by omega
    obtain ⟨k, rfl⟩ : ∃ i, k = i + 1 := ⟨k - 1, by omega⟩
    rw [show j + 1 + n = (j + n) + 1 by omega]
    simp only [cutPackets]
    rw [if_neg (show b.length ≠ 0 by omega)]
    have hk' : (if b.length > m then m else b.length) = m := by
      split
      · rfl
      · omega
    simp only [hk']
    rw [List.append_assoc, readMessage_cons h24 (by rw [List.length_take]; omega) rfl, if_pos rfl,
      ih (b.drop m) (id + 1) k n s (by rw [List.length_drop]; omega) (by rw [List.length_drop, ← hx]; omega)]
    cases readMessage m n _ s with
    | none => rfl
    | some x =>
      simp only [Option.map_some, Option.some.injEq, Prod.mk.injEq, and_true]
      rw [← List.append_assoc, List.take_append_drop]

/-! ### Events -/

theorem readEvent_query {cf : SqlConf} (hdb : ∀ c ∈ cf.db, c ≠ 0) (hl : cf.db.length < 256) (now : Int64)
    (offset : UInt32) (q : Bytes) (hq : q.length + 512 < 4294967296) {b : Bytes} {next : UInt32}
    (h : queryEvent cf now offset q = some (b, next)) :
    readEvent b = some { time := now.toUInt64.toNat % 4294967296, server := cf.id.toNat, length := 33 + cf.db.length + q.length
                         next := next.toNat, thread := cf.thread.toNat, db := cf.db, query := q } ∧
      b.length = 34 + cf.db.length + q.length ∧ next = offset + UInt32.ofNat (33 + cf.db.length + q.length) := by
  simp only [queryEvent, cstr_safe hdb] at h
  split at h
  · cases h
  · simp only [Option.some.injEq, Prod.mk.injEq] at h
    obtain ⟨h1, h2⟩ := h
    have hlen : 19 + 13 + cf.db.length + 1 + q.length = 33 + cf.db.length + q.length := by omega
    rw [hlen] at h1 h2
    have hb : b.length = 34 + cf.db.length + q.length := by
      rw [← h1]
      simp only [List.length_append, leBytes_length, List.length_cons, List.length_nil]
      omega
    refine ⟨?_, hb, h2.symm⟩
    rw [h2] at h1
    obtain ⟨len, el⟩ : ∃ n, n = 33 + cf.db.length + q.length := ⟨_, rfl⟩
    obtain ⟨t, et⟩ : ∃ n, n = now.toUInt64.toNat := ⟨_, rfl⟩
    rw [← el, ← et] at h1 ⊢
    simp only [List.append_assoc] at h1
    have nx : ∀ (i k : Nat) (p r : Bytes), b.drop i = p ++ r → p.length = k →
        (b.drop i).take k = p ∧ b.drop (i + k) = r := by
      intro i k p r h hk
      rw [← List.drop_drop, h, ← hk, List.take_left, List.drop_left]
      exact ⟨rfl, rfl⟩
    obtain ⟨f1, e1⟩ := nx 0 1 _ _ h1.symm rfl
    obtain ⟨f2, e2⟩ := nx 1 4 _ _ e1 rfl
    obtain ⟨f3, e3⟩ := nx 5 1 _ _ e2 rfl
    obtain ⟨f4, e4⟩ := nx 6 4 _ _ e3 rfl
    obtain ⟨f5, e5⟩ := nx 10 4 _ _ e4 rfl
    obtain ⟨f6, e6⟩ := nx 14 4 _ _ e5 rfl
    obtain ⟨-, e7⟩ := nx 18 2 _ _ e6 rfl
    obtain ⟨f7, e8⟩ := nx 20 4 _ _ e7 rfl
    obtain ⟨-, e9⟩ := nx 24 4 _ _ e8 rfl
    obtain ⟨f8, e10⟩ := nx 28 1 _ _ e9 rfl
    obtain ⟨-, e11⟩ := nx 29 2 _ _ e10 rfl
    obtain ⟨f9, f10⟩ := nx 31 2 _ _ e11 rfl
    replace f10 : b.drop 33 = cf.db ++ 0 :: q := f10
    have l4 : ∀ n, n < 4294967296 → leNat (leBytes 4 n) = n := fun n hn => by
      rw [leNat_leBytes_mod, show (256 : Nat) ^ 4 = 4294967296 from rfl]; exact Nat.mod_eq_of_lt hn
    have g4 : leNat (leBytes 4 cf.id.toNat) = cf.id.toNat := l4 _ cf.id.toNat_lt
    have g6 : leNat (leBytes 4 next.toNat) = next.toNat := l4 _ next.toNat_lt
    have g7 : leNat (leBytes 4 cf.thread.toNat) = cf.thread.toNat := l4 _ cf.thread.toNat_lt
    have g5 : leNat (leBytes 4 len) = len := l4 _ (by omega)
    have g8 : leNat [UInt8.ofNat cf.db.length] = cf.db.length := by
      simp only [leNat, UInt8.toNat_ofNat']
      omega
    have g9 : leNat (leBytes 2 0) = 0 := rfl
    have g2 : leNat (leBytes 4 t) = t % 4294967296 := by
      rw [leNat_leBytes_mod, show (256 : Nat) ^ 4 = 4294967296 from rfl]
    have d1 : b.drop (33 + 0 + cf.db.length) = 0 :: q := by
      rw [Nat.add_zero, ← List.drop_drop, f10, List.drop_left]
    have d2 : b.drop (34 + 0 + cf.db.length) = q := by
      rw [show 34 + 0 + cf.db.length = (33 + 0 + cf.db.length) + 1 by omega, ← List.drop_drop, d1]; rfl
    simp only [readEvent, f1, f2, f3, f4, f5, f6, f7, f8, f9, g4, g5, g6, g7, g8, g9, g2, d1, d2, Nat.add_zero, f10,
      List.take_left]
    rw [if_neg]
    rw [hb, show leNat [0] = 0 from rfl, show leNat [2] = 2 from rfl, el]
    simp
    omega

end Flare
