import Verif.Model.DumpKey
import Verif.Lemmas.Control
import Verif.Props.Keys
import Verif.Props.Dump

/-! C85: the dump that is asked for is the one that is sent, and a list of keys is complete. -/
namespace Flare

/-- What can be meant: everything, or one of the partitions. -/
def DumpAsk.Meant (a : DumpAsk) : Prop :=
  0 ≤ a.wait.toInt ∧ ((a.partition.toInt < 0 ∧ a.size.toInt = 0) ∨
    (0 ≤ a.partition.toInt ∧ a.partition.toInt < a.size.toInt))

theorem scanLimitOr_field {n : UInt64} {t q : Bytes} (ht : Ends t) (hq : 32 ≤ q.length) :
    ∃ q', scanLimitOr 0 (chSpace :: decimal n.toNat ++ t) q = .ok (n, t, q') ∧ q'.length = q.length := by
  have hl := decimal_length_u64 n
  obtain ⟨q', h1, h2, h3⟩ := scanDigit_field (q := q) (t := t) (w := decimal n.toNat)
    (fun c hc => by
      have := decimal_digits _ c hc
      simp only [isDigit, Bool.and_eq_true, decide_eq_true_eq, UInt8.le_iff_toNat_le] at this
      have hne : c ≠ 0 ∧ c ≠ chNl := by
        constructor <;> (rintro rfl; revert this; decide)
      simp [digitChar, decimal_digits _ c hc, hne]) (decimal_ne_nil _) ht (by omega)
  refine ⟨q', ?_, h3⟩
  simp only [scanLimitOr, h1, h2, if_neg (decimal_ne_nil _), lexUnsigned_decimal n.toNat_lt, UInt64.ofNat_toNat]

theorem scanLimitOr_none {q : Bytes} (hq : 32 ≤ q.length) :
    ∃ q', scanLimitOr 0 [chNl] q = .ok (0, [chNl], q') := by
  obtain ⟨q', h1, h2, -⟩ := scanDigit_tok (w := []) (c := chNl) (rest := []) (q := q) 0
    (by simp) (by decide) (by simp; omega) (fun _ => by decide)
  refine ⟨q', ?_⟩
  have h1' : scanDigit [chNl] q = .ok ([chNl], q') := h1
  simp only [scanLimitOr, h1', h2, if_true]

theorem checkDump_iff (a b : DumpAsk) : checkDump a = .ok b ↔
    a = b ∧ a.partition ≠ 2147483647 ∧ ((a.partition.toInt < 0 ∧ a.size.toInt ≤ 0) ∨
      (0 ≤ a.partition.toInt ∧ a.partition.toInt < a.size.toInt)) := by
  have hz : (0 : Int32).toInt = 0 := rfl
  have hp := a.partition.toInt_lt
  have hp' := a.partition.le_toInt
  have hs := a.size.toInt_lt
  simp only [checkDump, Int32.le_iff_toInt_le, Int32.lt_iff_toInt_lt, hz]
  by_cases h0 : a.partition = 2147483647
  · have h1 : a.partition.toInt = 2147483647 := by rw [h0]; rfl
    rw [if_pos h0]
    split
    · exact ⟨(fun h => nomatch h), fun h => absurd h0 h.2.1⟩
    · exact ⟨(fun h => nomatch h), fun h => absurd h0 h.2.1⟩
  · have h1 : a.partition.toInt ≠ 2147483647 := by
      intro e; exact h0 (Int32.toInt_inj.1 (by rw [e]; rfl))
    have h2 : (a.partition + 1).toInt = a.partition.toInt + 1 := by
      rw [Int32.toInt_add]
      have : (1 : Int32).toInt = 1 := rfl
      rw [this, Int.bmod_eq_of_le (by omega) (by omega)]
    rw [if_neg h0, h2]
    constructor
    · intro h
      split at h
      · cases h
      · split at h
        · cases h
        · split at h
          · cases h
          · cases h
            exact ⟨rfl, h0, by omega⟩
    · rintro ⟨rfl, -, h⟩
      rw [if_neg (by omega), if_neg (by omega), if_neg (by omega)]

theorem dumpRest_fields (a : DumpAsk) (ha : a.Meant) (q : Bytes) (hq : q.length = 8192) :
    dumpRest a.wait (dumpFields a ++ [chNl]) q = .ok a := by
  obtain ⟨lim, hlim⟩ : ∃ l, l = (if 0 < a.limit then chSpace :: decimal a.limit.toNat else []) ++ [chNl] := ⟨_, rfl⟩
  have hends : Ends lim := by
    rw [hlim]; split
    · exact ends_space _
    · exact ends_nl _
  have hsh : dumpFields a ++ [chNl] = chSpace :: printInt a.partition ++ (chSpace :: printInt a.size ++ lim) := by
    simp [dumpFields, hlim]
  obtain ⟨q1, e1, l1⟩ := scanIntOr_field (i := a.partition) (old := -1) (t := chSpace :: printInt a.size ++ lim) (q := q)
    (ends_space _) (by omega)
  obtain ⟨q2, e2, l2⟩ := scanIntOr_field (i := a.size) (old := 0) (t := lim) (q := q1) hends (by omega)
  have h3 : ∃ p q3, scanLimitOr 0 lim q2 = .ok (a.limit, p, q3) := by
    rw [hlim]
    by_cases h : 0 < a.limit
    · rw [if_pos h]
      obtain ⟨q3, e3, -⟩ := scanLimitOr_field (n := a.limit) (t := [chNl]) (q := q2) (ends_nl _) (by omega)
      exact ⟨_, _, e3⟩
    · rw [if_neg h]
      have h0 : a.limit = 0 := by
        have : ¬ 0 < a.limit.toNat := fun g => h (UInt64.lt_iff_toNat_lt.2 g)
        exact UInt64.toNat_inj.1 (by simpa using this)
      obtain ⟨q3, e3⟩ := scanLimitOr_none (q := q2) (by omega)
      exact ⟨_, _, by rw [h0]; exact e3⟩
  obtain ⟨p3, q3, e3⟩ := h3
  have hneg : ¬ a.size < 0 := by
    rw [Int32.lt_iff_toInt_lt]
    have hz : (0 : Int32).toInt = 0 := rfl
    rcases ha.2 with h | h <;> omega
  rw [hsh]
  simp only [dumpRest, e1, e2, if_neg hneg, e3]
  rw [checkDump_iff]
  refine ⟨rfl, ?_, ?_⟩
  · intro e
    have := congrArg Int32.toInt e
    have h2 : (2147483647 : Int32).toInt = 2147483647 := rfl
    have := a.size.toInt_lt
    rcases ha.2 with h | h <;> simp only at * <;> omega
  · rcases ha.2 with h | h
    · left; simp only; omega
    · right; exact h

/-- **C85, requests arrive.**  A node that asks for a dump - of everything or of one partition of any number, with any wait
and limit - is understood. -/
theorem C85_asked (a : DumpAsk) (ha : a.Meant) (q : Bytes) (hq : q.length = 8192) :
    ∃ rest, dumpRequest a = ascii "dump" ++ rest ++ crlf ∧ dumpParams (rest ++ [chNl]) q = .ok a := by
  refine ⟨chSpace :: printInt a.wait ++ dumpFields a, rfl, ?_⟩
  obtain ⟨q1, e1, l1⟩ := scanIntOr_field (i := a.wait) (old := 0) (t := dumpFields a ++ [chNl]) (q := q)
    (ends_space _) (by omega)
  have hneg : ¬ a.wait < 0 := by
    rw [Int32.lt_iff_toInt_lt]
    have hz : (0 : Int32).toInt = 0 := rfl
    have := ha.1
    omega
  rw [List.append_assoc]
  simp only [dumpParams, e1, if_neg hneg]
  exact dumpRest_fields a ha q1 (by omega)

/-- **C85, the same for lists of keys.** -/
theorem C85_asked_keys (a : DumpAsk) (ha : a.Meant) (hw : a.wait = 0) (q : Bytes) (hq : q.length = 8192) :
    ∃ rest, dumpKeyRequest a = ascii "dump_key" ++ rest ++ crlf ∧ dumpKeyParams (rest ++ [chNl]) q = .ok a := by
  refine ⟨dumpFields a, rfl, ?_⟩
  have := dumpRest_fields a ha q hq
  rw [hw] at this
  exact this

/-- **C85, what is accepted can be meant**, whatever the line. -/
theorem C85_accepted (p q : Bytes) (a : DumpAsk) (h : dumpParams p q = .ok a ∨ dumpKeyParams p q = .ok a) : a.Meant := by
  have hz : (0 : Int32).toInt = 0 := rfl
  have rest : ∀ (w : Int32) (p q : Bytes), dumpRest w p q = .ok a → a.wait = w ∧
      ((a.partition.toInt < 0 ∧ a.size.toInt = 0) ∨ (0 ≤ a.partition.toInt ∧ a.partition.toInt < a.size.toInt)) := by
    intro w p q h
    simp only [dumpRest] at h
    split at h
    · cases h
    · split at h
      · cases h
      · rename_i size p2 q2 e2
        split at h
        · cases h
        · rename_i hs
          rw [Int32.lt_iff_toInt_lt, hz] at hs
          split at h
          · cases h
          · obtain ⟨e, -, h5⟩ := (checkDump_iff _ _).1 h
            rw [← e]
            dsimp only at h5 ⊢
            exact ⟨rfl, by omega⟩
  rcases h with h | h
  · simp only [dumpParams] at h
    split at h
    · cases h
    · rename_i w p2 q2 e2
      split at h
      · cases h
      · rename_i hw
        rw [Int32.lt_iff_toInt_lt, hz] at hw
        obtain ⟨h1, h2⟩ := rest _ _ _ h
        exact ⟨by rw [h1]; omega, h2⟩
  · obtain ⟨h1, h2⟩ := rest _ _ _ h
    exact ⟨by rw [h1]; exact Int.le_refl _, h2⟩

/-- A request and its line. -/
example : dumpRequest { wait := 5, partition := 1, size := 3, limit := 100 } = ascii "dump 5 1 3 100\r\n" ∧
    dumpParams (ascii " 5 1 3 100\n") (List.replicate 64 0) = .ok { wait := 5, partition := 1, size := 3, limit := 100 } ∧
    dumpKeyParams (ascii "\n") (List.replicate 64 0) = .ok {} ∧
    dumpKeyParams (ascii " 3 3\n") (List.replicate 64 0) = .error .err := by
  refine ⟨by decide +kernel, by decide +kernel, by decide +kernel, by decide +kernel⟩

/-- **C85, defect**: the largest partition number overflows in the check; so any client can make a node do what the
language does not define. -/
theorem C85_overflow : ∃ line, line = ascii " 2147483647 1\n" ∧ dumpKeyParams line (List.replicate 64 0) = .error .ub :=
  ⟨_, rfl, by decide +kernel⟩

/-- **C85, defect**: the number of partitions is not compared with the size of the table by which keys are divided: with a
larger one, which is accepted, the first key is looked up outside of the table. -/
theorem C85_outside (kr : Resolver) (hash : Bytes → Int32) (n : Int32) (hn : (kr.size : Int) ≤ n.toInt) (h0 : 0 < n.toInt) (q : Bytes)
    (hq : q.length = 8192) (rs : List ListRound) (k : Bytes) (w : Bool) :
    dumpKeyParams (dumpFields { partition := 0, size := n } ++ [chNl]) q = .ok { partition := 0, size := n } ∧
    inPartition kr hash 0 n.toInt.toNat (cstr k) = none ∧
    listLoop (inPartition kr hash 0 n.toInt.toNat) ({ ans := .continue_ k, writeOk := w } :: rs) = ([], none) := by
  have hm : ({ partition := 0, size := n } : DumpAsk).Meant :=
    ⟨Int.le_refl _, .inr ⟨Int.le_refl _, h0⟩⟩
  have h1 : inPartition kr hash 0 n.toInt.toNat (cstr k) = none := by
    simp only [inPartition, resolve]
    rw [if_pos (by decide), if_neg (by omega)]
  refine ⟨dumpRest_fields _ hm q hq, h1, ?_⟩
  simp only [listLoop, h1]

/-! ### The list -/

theorem listLoop_all (b : Bytes → Option Bool) (ks : List Bytes) (rest : List ListRound)
    (hb : ∀ k ∈ ks, b (cstr k) ≠ none) :
    listLoop b (ks.map (fun k => { ans := .continue_ k }) ++ rest) =
      ((ks.map cstr).filter (fun k => b k = some true) ++ (listLoop b rest).1, (listLoop b rest).2) := by
  induction ks with
  | nil => rfl
  | cons k ks ih =>
    have h := ih fun x hx => hb x (List.mem_cons_of_mem _ hx)
    have hk := hb k List.mem_cons_self
    simp only [List.map_cons, List.cons_append, listLoop]
    cases hbk : b (cstr k) with
    | none => exact absurd hbk hk
    | some v =>
      cases v with
      | false => simp only [h]; rw [List.filter_cons_of_neg (by simp [hbk])]
      | true => simp only [h, if_true]; rw [List.filter_cons_of_pos (by simp [hbk])]; rfl

/-- **C85, only these.**  Whatever the iteration gives and wherever the connection breaks: every key whose line arrives is one
that the iteration gave (cut at a NUL), of the partition asked for; and END arrives only if the iteration has come to its
end and every line before has been written. -/
theorem C85_only (b : Bytes → Option Bool) (rs : List ListRound) :
    (∀ k ∈ (listLoop b rs).1, b k = some true ∧ ∃ r ∈ rs, ∃ k', r.ans = .continue_ k' ∧ k = cstr k') ∧
    ((listLoop b rs).2 = some (strEnd ++ crlf) → ∃ pre r post, rs = pre ++ r :: post ∧ r.ans = .end_ ∧
      (listLoop b rs).1 = (pre.filterMap fun x => match x.ans with | .continue_ k => some (cstr k) | _ => none).filter
        (fun k => b k = some true)) := by
  induction rs with
  | nil => exact ⟨(fun k h => nomatch h), (fun h => nomatch h)⟩
  | cons r rs ih =>
    obtain ⟨ans, w⟩ := r
    cases ans with
    | end_ => exact ⟨(fun k h => nomatch h), fun _ => ⟨[], _, rs, rfl, rfl, rfl⟩⟩
    | error => exact ⟨(fun k h => nomatch h), fun h => absurd (Option.some.inj h) (by decide)⟩
    | continue_ k =>
      simp only [listLoop]
      cases hb : b (cstr k) with
      | none => exact ⟨(fun k h => nomatch h), (fun h => nomatch h)⟩
      | some v =>
        have lift : ∀ x, (b x = some true ∧ ∃ r ∈ rs, ∃ k', r.ans = .continue_ k' ∧ x = cstr k') →
            b x = some true ∧ ∃ r ∈ (⟨.continue_ k, w⟩ : ListRound) :: rs, ∃ k', r.ans = .continue_ k' ∧ x = cstr k' :=
          fun x ⟨h1, r, hr, h2⟩ => ⟨h1, r, List.mem_cons_of_mem _ hr, h2⟩
        cases v with
        | false =>
          refine ⟨fun x hx => lift x (ih.1 x hx), fun h => ?_⟩
          obtain ⟨pre, r, post, e1, e2, e3⟩ := ih.2 h
          refine ⟨⟨.continue_ k, w⟩ :: pre, r, post, by rw [e1]; rfl, e2, ?_⟩
          simp only [List.filterMap_cons]
          rw [List.filter_cons_of_neg (by simp [hb])]
          exact e3
        | true =>
          cases w with
          | false => exact ⟨(fun k h => nomatch h), (fun h => nomatch h)⟩
          | true =>
            simp only [if_true]
            refine ⟨fun x hx => ?_, fun h => ?_⟩
            · rcases List.mem_cons.1 hx with rfl | hx
              · exact ⟨hb, _, List.mem_cons_self, k, rfl, rfl⟩
              · exact lift x (ih.1 x hx)
            · obtain ⟨pre, r, post, e1, e2, e3⟩ := ih.2 h
              refine ⟨⟨.continue_ k, true⟩ :: pre, r, post, by rw [e1]; rfl, e2, ?_⟩
              simp only [List.filterMap_cons]
              rw [List.filter_cons_of_pos (by simp [hb]), e3]

theorem dumpKeyClient_eq (w : Bytes) (fuel : Nat) : ∀ (n : Nat) (s : Bytes) (acc : List Bytes),
    ((keysClient w fuel s acc).1, (keysClient w fuel s acc).2.1) =
      ((match (dumpKeyClient w (fun _ => false) fuel n s).2 with
        | .ok => GetEnd.done | .failed => .failed | .ub => .ub), acc ++ (dumpKeyClient w (fun _ => false) fuel n s).1) := by
  induction fuel with
  | zero => intro n s acc; simp [keysClient, dumpKeyClient]
  | succ fuel ih =>
    intro n s acc
    simp only [keysClient, dumpKeyClient, Bool.false_eq_true, if_false]
    cases readLine s with
    | none => simp
    | some x =>
      obtain ⟨line, s⟩ := x
      simp only
      by_cases he : line = strEnd ++ [chNl]
      · simp [he]
      · simp only [if_neg he]
        cases scanWord line w with
        | error f => cases f <;> simp [GetEnd.ofFault]
        | ok x =>
          obtain ⟨p, w'⟩ := x
          simp only
          by_cases hk : cstr w' ≠ ascii "KEY"
          · simp [hk]
          · simp only [if_neg hk]
            cases scanWord p w' with
            | error f => cases f <;> simp [GetEnd.ofFault]
            | ok x =>
              obtain ⟨p, w'⟩ := x
              simp only
              by_cases hz : cstr w' = []
              · simp [hz]
              · simp only [if_neg hz]
                rw [ih (n + 2)]
                simp

/-- **C85, the list is complete.**  The iteration goes over all records and the connection holds: then the receiver reads,
as the list of keys, exactly the keys of the partition, each once, and takes the list for complete.  In particular all
keys that can be read at any time.  (For keys without blank and newline, as the text protocol has them.) -/
theorem C85_listed_partial {s : Store} (hs : s.Ok) (b : Bytes → Option Bool) (ks : List Bytes) (hn : ks.Nodup)
    (hall : ∀ k, k ∈ ks ↔ dbGet s.db k ≠ none) (hk : ∀ k ∈ ks, PlainKey k 8192) (hb : ∀ k ∈ ks, b k ≠ none)
    (w more : Bytes) (hw : w.length = 8192) (fuel : Nat) (hf : ks.length < fuel) (n : Nat) :
    let out := dumpKeyServer b true (ks.map (fun k => { ans := .continue_ k }) ++ [{ ans := .end_ }])
    ∃ l, dumpKeyClient w (fun _ => false) fuel n (out ++ more) = (l, .ok) ∧ l.Nodup ∧
      (∀ k, k ∈ l ↔ b k = some true ∧ dbGet s.db k ≠ none) ∧
      ∀ now k, lookup s now k ≠ none → b k = some true → k ∈ l := by
  have hc : ∀ k ∈ ks, cstr k = k := by
    intro k hk'
    exact takeWhile_nonzero fun h0 => ((hk k hk').2.1 0 h0).1 rfl
  have hmap : ks.map cstr = ks := by
    conv_rhs => rw [← List.map_id ks]
    exact List.map_congr_left hc
  intro out
  obtain ⟨l, hl⟩ : ∃ l, l = ks.filter (fun k => b k = some true) := ⟨_, rfl⟩
  have hout : out = keyLines l ++ (strEnd ++ crlf) := by
    have := listLoop_all b ks [{ ans := .end_ }] (fun k h => by rw [hc k h]; exact hb k h)
    simp only [out, dumpKeyServer, if_true, this, hmap, listLoop, List.append_nil, Option.getD_some, hl]
  have hlk : ∀ k ∈ l, PlainKey k 8192 := fun k h => hk k (List.mem_filter.1 (hl ▸ h)).1
  have hmem : ∀ k, k ∈ l ↔ b k = some true ∧ dbGet s.db k ≠ none := by
    intro k
    rw [hl, List.mem_filter, hall]
    simp [and_comm]
  refine ⟨l, ?_, hl ▸ hn.filter _, hmem, ?_⟩
  · have hlen : l.length ≤ ks.length := hl ▸ List.length_filter_le _ _
    obtain ⟨m, hm⟩ : ∃ m, fuel = l.length + (m + 1) := ⟨fuel - l.length - 1, by omega⟩
    have h1 := dumpKeyClient_eq w fuel n (out ++ more) []
    have h2 : keysClient w fuel (out ++ more) [] = (.done, l, more) := by
      rw [hm, hout, List.append_assoc, keysClient_lines hw l hlk, keysClient_end]
      rfl
    rw [h2] at h1
    obtain ⟨x, hx⟩ : ∃ x, x = dumpKeyClient w (fun _ => false) fuel n (out ++ more) := ⟨_, rfl⟩
    rw [← hx] at h1 ⊢
    obtain ⟨x1, x2⟩ := x
    simp only [List.nil_append, Prod.mk.injEq] at h1
    cases x2 with
    | ok => rw [h1.2]
    | failed => exact absurd h1.1 (by simp)
    | ub => exact absurd h1.1 (by simp)
  · intro now k hlook hbk
    rw [hmem]
    refine ⟨hbk, ?_⟩
    cases hlo : lookup s now k with
    | none => exact absurd hlo hlook
    | some it =>
      obtain ⟨raw, hraw, -⟩ := (lookup_eq_some hs).1 hlo
      rw [hraw]; exact fun h => nomatch h

/-- **C85, a cut list is not complete**: without the line END the receiver fails, unless it is being shut down. -/
theorem C85_cut (w : Bytes) (hw : w.length = 8192) (l : List Bytes) (hk : ∀ k ∈ l, PlainKey k 8192) (s : Bytes)
    (hs : ∀ c ∈ s, c ≠ chNl) (fuel n : Nat) (hf : l.length < fuel) :
    dumpKeyClient w (fun _ => false) fuel n (keyLines l ++ s) = (l, .failed) := by
  obtain ⟨m, hm⟩ : ∃ m, fuel = l.length + (m + 1) := ⟨fuel - l.length - 1, by omega⟩
  have h1 := dumpKeyClient_eq w fuel n (keyLines l ++ s) []
  have h2 : keysClient w fuel (keyLines l ++ s) [] = (.failed, l, []) := by
    rw [hm, keysClient_lines hw l hk, keysClient_cut hs]
    rfl
  rw [h2] at h1
  obtain ⟨x, hx⟩ : ∃ x, x = dumpKeyClient w (fun _ => false) fuel n (keyLines l ++ s) := ⟨_, rfl⟩
  rw [← hx] at h1 ⊢
  obtain ⟨x1, x2⟩ := x
  simp only [List.nil_append, Prod.mk.injEq] at h1
  cases x2 with
  | ok => exact absurd h1.1 (by simp)
  | failed => rw [h1.2]
  | ub => exact absurd h1.1 (by simp)

/-- **C85, defect**: a key that a client of the binary protocol has stored may hold the end of the list.  What comes after
it is not in the list that the receiver takes for complete. -/
theorem C85_key_ends_list : ∃ k out, out = dumpKeyServer (fun _ => some true) true
      [{ ans := .continue_ k }, { ans := .continue_ (ascii "b") }, { ans := .end_ }] ∧
    dumpKeyClient (List.replicate 64 0) (fun _ => false) 10 0 out = ([ascii "a"], .ok) :=
  ⟨ascii "a\r\nEND", _, rfl, by decide +kernel⟩

theorem dbGet_mem {db : List (Bytes × Bytes)} {k v : Bytes} (h : dbGet db k = some v) : (k, v) ∈ db := by
  induction db with
  | nil => cases h
  | cons x db ih =>
    obtain ⟨k', v'⟩ := x
    simp only [dbGet] at h
    split at h
    · rename_i e
      cases h; subst e; exact List.mem_cons_self
    · exact List.mem_cons_of_mem _ (ih h)

/-- **C85, defect**: keys whose records have expired are listed, although they are not to be read. -/
theorem C85_expired_listed : ∃ s : Store, s.Ok ∧ lookup s 900 (ascii "a") = none ∧
    (∀ k, k ∈ [ascii "a"] ↔ dbGet s.db k ≠ none) ∧
    dumpKeyServer (fun _ => some true) true [{ ans := .continue_ (ascii "a") }, { ans := .end_ }] =
      ascii "KEY a\r\nEND\r\n" := by
  refine ⟨(step (Store.empty 10) { now := 100 } (.set { key := ascii "a", expire := 500, size := 1, data := [120] } {})).1,
    ?_, by decide +kernel, ?_, by decide +kernel⟩
  · exact C01_reachable_ok 10 [({ now := 100 }, .set { key := ascii "a", expire := 500, size := 1, data := [120] } {})]
  · intro k
    obtain ⟨db, hdb, h1, h2⟩ : ∃ db, db = (step (Store.empty 10) { now := 100 }
        (.set { key := ascii "a", expire := 500, size := 1, data := [120] } {})).1.db ∧ db.map Prod.fst = [ascii "a"] ∧
        dbGet db (ascii "a") ≠ none := ⟨_, rfl, by decide +kernel, by decide +kernel⟩
    rw [← hdb]
    constructor
    · intro h
      rw [List.mem_singleton.1 h]; exact h2
    · intro h
      rw [← h1]
      cases hg : dbGet db k with
      | none => exact absurd hg h
      | some v => exact List.mem_map.2 ⟨_, dbGet_mem hg, rfl⟩

/-- A list of two partitions. -/
example : dumpKeyServer (fun k => some (k ≠ ascii "b")) true [{ ans := .continue_ (ascii "a") },
    { ans := .continue_ (ascii "b") }, { ans := .continue_ (ascii "c") }, { ans := .end_ }] =
    ascii "KEY a\r\nKEY c\r\nEND\r\n" ∧
    dumpKeyClient (List.replicate 64 0) (fun _ => false) 9 0 (ascii "KEY a\r\nKEY c\r\nEND\r\n") =
    ([ascii "a", ascii "c"], .ok) := by
  refine ⟨by decide +kernel, by decide +kernel⟩

/-- While another request holds the iteration no keys are listed, and the one who asks sees that it has failed. -/
theorem C85_busy (belongs : Bytes → Option Bool) (rs : List ListRound) (w more : Bytes) (hw : w.length = 8192)
    (sd : Nat → Bool) (fuel n : Nat) (h1 : sd n = false) (h2 : sd (n + 1) = false) :
    dumpKeyClient w sd (fuel + 1) n (dumpKeyServer belongs false rs ++ more) = ([], .failed) := by
  have hs : dumpKeyServer belongs false rs = ascii "SERVER_ERROR database busy" ++ crlf := by
    simp [dumpKeyServer]
  obtain ⟨q', e1, e2, -⟩ := scanWord_first (w := ascii "SERVER_ERROR") (t := ascii " database busy" ++ [chNl]) (q := w)
    (ascii_word_ok (by decide)) (by decide) (ends_space _) (by rw [hw]; decide)
  have hl : ascii "SERVER_ERROR database busy" ++ [chNl] = ascii "SERVER_ERROR" ++ (ascii " database busy" ++ [chNl]) := by
    decide
  have hne : ascii "SERVER_ERROR" ++ (ascii " database busy" ++ [chNl]) ≠ strEnd ++ [chNl] := by decide
  have hnk : ascii "SERVER_ERROR" ≠ ascii "KEY" := by decide
  rw [hs, dumpKeyClient, readLine_crlf (by decide)]
  simp only [h1, h2, Bool.false_eq_true, if_false, hl, hne, e1, e2, ne_eq, hnk, not_false_eq_true, if_true]

example : dumpKeyClient (List.replicate 64 0) (fun _ => false) 9 0
    (dumpKeyServer (fun _ => some true) false [⟨.continue_ [97], true⟩, ⟨.end_, true⟩]) = ([], .failed) := by decide +kernel

end Flare
