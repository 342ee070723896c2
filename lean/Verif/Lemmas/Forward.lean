import Verif.Model.Forward
import Verif.Lemmas.ConnRequest
import Verif.Lemmas.Replication

/-! What the parser can make of a line: every write that a node has read can be sent on. -/
namespace Flare

/-- A time at which relative expiries do not get mixed up with absolute ones: after January 1970, and
not near the end of 64-bit time. -/
def SaneNow (now : Int64) : Prop := maxRealtimeDelta < now ∧ now.toInt ≤ 2 ^ 62

theorem lexTime_nonneg {s : Bytes} {x : Int64} (hs : isUnsignedString s = true)
    (h : lexTime s = some x) : 0 ≤ x.toInt := by
  simp only [lexTime] at h
  cases hn : lexNumber s with
  | none => rw [hn] at h; cases h
  | some y =>
    obtain ⟨neg, m⟩ := y
    rw [hn] at h
    dsimp only at h
    have hneg : neg = false := by
      cases s with
      | nil => cases hn
      | cons c d =>
        have hc : isDigit c = true := by
          simp only [isUnsignedString, List.all_cons, Bool.and_eq_true] at hs
          exact hs.2.1
        simp only [lexNumber, if_neg (digit_ne hc (d := chMinus) (by decide)),
          if_neg (digit_ne hc (d := chPlus) (by decide)), hs, if_true] at hn
        cases hn; rfl
    subst hneg
    simp only [Bool.false_eq_true, if_false] at h
    split at h
    · cases h
      rename_i hm
      rw [Int64.toInt_ofNat_of_lt hm]
      exact Int.natCast_nonneg _
    · cases h

theorem realtime_sane {now t : Int64} (hn : SaneNow now) (ht : 0 ≤ t.toInt) :
    Absolute (realtime now t) := by
  simp only [realtime]
  split
  · exact Or.inl rfl
  · split
    · rename_i h0 h1
      right
      obtain ⟨h2, h3⟩ := hn
      rw [Int64.le_iff_toInt_le] at h1
      rw [Int64.lt_iff_toInt_lt] at h2 ⊢
      have e : maxRealtimeDelta.toInt = 2592000 := by decide
      rw [e] at h1 h2 ⊢
      rw [Int64.toInt_add, Int.bmod_eq_of_le (by omega) (by omega)]
      omega
    · rename_i h0 h1
      right
      rw [Int64.le_iff_toInt_le] at h1
      rw [Int64.lt_iff_toInt_lt]
      omega

theorem scanWord_reads {p q p' q' : Bytes} (hq : 0 < q.length) (h : scanWord p q = .ok (p', q')) :
    q'.length = q.length ∧ (cstr q').length < q.length ∧ ∀ c ∈ cstr q', wordChar c = true := by
  have hl := (scanWord_len hq h).2.1
  simp only [scanWord, nextWord_eq p q hq, Except.ok.injEq, Prod.mk.injEq] at h
  obtain ⟨rfl, rfl⟩ := h
  have hc : cstr (wordTok p q.length ++ 0 :: q.drop ((wordTok p q.length).length + 1)) =
      wordTok p q.length := cstr_append (fun c hc => by
    have := wordTok_mem c hc
    simp only [wordChar, decide_eq_true_eq] at this
    exact this.1)
  rw [hc]
  exact ⟨hl, wordTok_length hq, fun c hc => wordTok_mem c hc⟩

theorem parseKey_reads {p q p' q' : Bytes} {e e' : Entry} (hq : 0 < q.length)
    (h : parseKey (p, q, e) = .ok (p', q', e')) :
    q'.length = q.length ∧ ∃ k, PlainKey k q.length ∧ e' = { e with key := k } := by
  simp only [parseKey] at h
  cases hs : scanWord p q with
  | error f => rw [hs] at h; cases h
  | ok x =>
    obtain ⟨p1, q1⟩ := x
    rw [hs] at h
    obtain ⟨h1, h2, h3⟩ := scanWord_reads hq hs
    dsimp only at h
    split at h
    · cases h
    · rename_i hne
      cases h
      refine ⟨h1, _, ⟨hne, fun c hc => ?_, h2⟩, rfl⟩
      have := h3 c hc
      simpa [wordChar] using this

theorem parseFlag_reads {t : ParseType} {p q p' q' : Bytes} {e e' : Entry}
    (h : parseFlag t (p, q, e) = .ok (p', q', e')) :
    q'.length = q.length ∧ ∃ f, e' = { e with flag := f } := by
  simp only [parseFlag] at h
  split at h
  · cases hs : scanDigit p q with
    | error f => rw [hs] at h; cases h
    | ok x =>
      obtain ⟨p1, q1⟩ := x
      rw [hs] at h
      have hl := (scanDigit_len hs).2
      dsimp only at h
      repeat' split at h
      all_goals cases h
      exact ⟨hl, _, rfl⟩
  · cases h
    exact ⟨rfl, _, rfl⟩

theorem parseExpire_reads {now : Int64} {t : ParseType} {p q p' q' : Bytes} {e e' : Entry}
    (h : parseExpire now t (p, q, e) = .ok (p', q', e')) :
    q'.length = q.length ∧ ∃ x, (x = e.expire ∨ ∃ u : Int64, 0 ≤ u.toInt ∧ x = realtime now u) ∧
      e' = { e with expire := x } := by
  simp only [parseExpire] at h
  split at h
  · cases hs : scanDigit p q with
    | error f => rw [hs] at h; cases h
    | ok x =>
      obtain ⟨p1, q1⟩ := x
      rw [hs] at h
      have hl := (scanDigit_len hs).2
      dsimp only at h
      split at h
      · split at h
        · cases h
        · cases h; exact ⟨hl, _, Or.inl rfl, rfl⟩
      · split at h
        · cases h
        · rename_i hu
          split at h
          · cases h
          · rename_i u hx
            cases h
            exact ⟨hl, _, Or.inr ⟨u, lexTime_nonneg (by simpa using hu) hx, rfl⟩, rfl⟩
  · cases h
    exact ⟨rfl, _, Or.inl rfl, rfl⟩

theorem parseSize_reads {t : ParseType} {p q p' q' : Bytes} {e e' : Entry}
    (h : parseSize t (p, q, e) = .ok (p', q', e')) :
    q'.length = q.length ∧ ∃ n, e' = { e with size := n } := by
  simp only [parseSize] at h
  split at h
  · cases hs : scanDigit p q with
    | error f => rw [hs] at h; cases h
    | ok x =>
      obtain ⟨p1, q1⟩ := x
      rw [hs] at h
      have hl := (scanDigit_len hs).2
      dsimp only at h
      repeat' split at h
      all_goals cases h
      exact ⟨hl, _, rfl⟩
  · cases h
    exact ⟨rfl, _, rfl⟩

theorem parseVersion_reads {t : ParseType} {p q p' q' : Bytes} {e e' : Entry}
    (h : parseVersion t (p, q, e) = .ok (p', q', e')) :
    q'.length = q.length ∧ ∃ v, e' = { e with version := v } := by
  simp only [parseVersion] at h
  cases hs : scanDigit p q with
  | error f => rw [hs] at h; cases h
  | ok x =>
    obtain ⟨p1, q1⟩ := x
    rw [hs] at h
    have hl := (scanDigit_len hs).2
    dsimp only at h
    repeat' split at h
    all_goals cases h
    · exact ⟨hl, _, rfl⟩
    · exact ⟨hl, _, rfl⟩

theorem option_or_lt {a r : UInt32} {s : Bytes} (ha : a < 8) (hr : optionCast s = some r) :
    a ||| r < 8 := by
  have hr' : r < 8 := by
    simp only [optionCast] at hr
    repeat' split at hr
    all_goals cases hr
    all_goals decide
  rw [UInt32.lt_iff_toNat_lt] at *
  rw [UInt32.toNat_or]
  exact Nat.or_lt_two_pow (n := 3) ha hr'

theorem parseOptions_reads {n : Nat} {p q p' q' : Bytes} {e e' : Entry} (hq : 0 < q.length)
    (ho : e.option < 8) (h : parseOptions n (p, q, e) = .ok (p', q', e')) :
    ∃ o, o < 8 ∧ e' = { e with option := o } := by
  induction n generalizing p q e with
  | zero => simp only [parseOptions] at h; cases h; exact ⟨_, ho, rfl⟩
  | succ n ih =>
    simp only [parseOptions] at h
    cases hs : scanWord p q with
    | error f => rw [hs] at h; cases h
    | ok x =>
      obtain ⟨p1, q1⟩ := x
      rw [hs] at h
      have hl := (scanWord_len hq hs).2.1
      dsimp only at h
      split at h
      · cases h; exact ⟨_, ho, rfl⟩
      · split at h
        · cases h
        · rename_i r hr
          obtain ⟨o, h1, h2⟩ := ih (by omega) (option_or_lt ho hr) h
          exact ⟨o, h1, h2⟩

/-- What `entry::parse` makes of the line of a write. -/
theorem entryParse_reads {now : Int64} {t : ParseType} {p q : Bytes} {e : Entry} (hn : SaneNow now)
    (hq : q.length = 8192) (h : entryParse now t p q { key := [] } = .ok e) (ht : t ≠ .get) :
    PlainKey e.key 8192 ∧ e.option < 8 ∧ Absolute e.expire := by
  simp only [entryParse, bind, Except.bind] at h
  cases h1 : parseKey (p, q, { key := [] }) with
  | error f => rw [h1] at h; cases h
  | ok c1 =>
  rw [h1] at h; dsimp only at h
  obtain ⟨p1, q1, e1⟩ := c1
  cases h2 : parseFlag t (p1, q1, e1) with
  | error f => rw [h2] at h; cases h
  | ok c2 =>
  rw [h2] at h; dsimp only at h
  obtain ⟨p2, q2, e2⟩ := c2
  cases h3 : parseExpire now t (p2, q2, e2) with
  | error f => rw [h3] at h; cases h
  | ok c3 =>
  rw [h3] at h; dsimp only at h
  obtain ⟨p3, q3, e3⟩ := c3
  cases h4 : parseSize t (p3, q3, e3) with
  | error f => rw [h4] at h; cases h
  | ok c4 =>
  rw [h4] at h; dsimp only at h
  obtain ⟨p4, q4, e4⟩ := c4
  cases h5 : parseVersion t (p4, q4, e4) with
  | error f => rw [h5] at h; cases h
  | ok c5 =>
  rw [h5] at h; dsimp only at h
  obtain ⟨p5, q5, e5⟩ := c5
  rw [parseExpireGet_skip ht] at h
  dsimp only at h
  rw [if_pos ht] at h
  cases h6 : parseOptions (p.length + 1) (p5, q5, e5) with
  | error f => rw [h6] at h; cases h
  | ok c6 =>
  rw [h6] at h; dsimp only at h
  obtain ⟨p6, q6, e6⟩ := c6
  obtain ⟨l1, k, hk, rfl⟩ := parseKey_reads (by omega) h1
  obtain ⟨l2, f, rfl⟩ := parseFlag_reads h2
  obtain ⟨l3, x, hx, rfl⟩ := parseExpire_reads h3
  obtain ⟨l4, n, rfl⟩ := parseSize_reads h4
  obtain ⟨l5, v, rfl⟩ := parseVersion_reads h5
  obtain ⟨o, ho, rfl⟩ := parseOptions_reads (by omega) (show (0 : UInt32) < 8 by decide) h6
  cases h
  refine ⟨by rw [hq] at hk; exact hk, ho, ?_⟩
  rcases hx with rfl | ⟨u, hu, rfl⟩
  · exact Or.inl rfl
  · exact realtime_sane hn hu

theorem parseCount_reads {p q : Bytes} {e : Entry} {v : UInt64} (hq : q.length = 8192)
    (h : parseCount p q { key := [] } = .ok (e, v)) :
    PlainKey e.key 8192 ∧ e.option < 8 ∧ e.expire = 0 := by
  simp only [parseCount] at h
  cases h1 : parseKey (p, q, { key := [] }) with
  | error f => rw [h1] at h; cases h
  | ok c1 =>
  obtain ⟨p1, q1, e1⟩ := c1
  rw [h1] at h; dsimp only at h
  obtain ⟨l1, k, hk, rfl⟩ := parseKey_reads (by omega) h1
  cases h2 : scanDigit p1 q1 with
  | error f => rw [h2] at h; cases h
  | ok c2 =>
  obtain ⟨p2, q2⟩ := c2
  have l2 := (scanDigit_len h2).2
  rw [h2] at h; dsimp only at h
  split at h
  · cases h
  · split at h
    · cases h
    · cases h3 : parseOptions (p2.length + 1) (p2, q2, { key := k }) with
      | error f => rw [h3] at h; cases h
      | ok c3 =>
        obtain ⟨p3, q3, e3⟩ := c3
        rw [h3] at h; dsimp only at h
        obtain ⟨o, ho, rfl⟩ := parseOptions_reads (by omega) (show (0 : UInt32) < 8 by decide) h3
        cases h
        exact ⟨by rw [hq] at hk; exact hk, ho, rfl⟩

theorem splitCommaAux_mem {s acc t : Bytes} (h : t ∈ splitCommaAux s acc) (P : UInt8 → Prop)
    (hs : ∀ c ∈ s, P c) (ha : ∀ c ∈ acc, P c ∧ c ≠ chComma) :
    t ≠ [] ∧ ∀ c ∈ t, P c ∧ c ≠ chComma := by
  induction s generalizing acc with
  | nil =>
    simp only [splitCommaAux] at h
    split at h
    · cases h
    · rename_i hne
      rw [List.mem_singleton] at h; subst h
      exact ⟨hne, ha⟩
  | cons c s ih =>
    simp only [splitCommaAux] at h
    have hs' : ∀ x ∈ s, P x := fun x hx => hs x (List.mem_cons_of_mem _ hx)
    split at h
    · split at h
      · exact ih h hs' (by simp)
      · rename_i hne
        rcases List.mem_cons.1 h with rfl | h
        · exact ⟨hne, ha⟩
        · exact ih h hs' (by simp)
    · rename_i hc
      refine ih h hs' ?_
      intro x hx
      rcases List.mem_append.1 hx with hx | hx
      · exact ha x hx
      · rw [List.mem_singleton] at hx; subst hx
        exact ⟨hs x (by simp), hc⟩

theorem before_takeWhile {p : UInt8 → Bool} {l : Bytes} {g x : UInt8} (hg : g ∈ l.takeWhile p)
    (hx : x ∈ l.takeWhile (· ≠ g)) : p x = true := by
  induction l with
  | nil => cases hx
  | cons c l ih =>
    rw [List.takeWhile_cons] at hg hx
    split at hg
    · rename_i hc
      split at hx
      · rename_i hcg
        rcases List.mem_cons.1 hx with rfl | hx
        · exact hc
        · rcases List.mem_cons.1 hg with rfl | hg
          · simp at hcg
          · exact ih hg hx
      · cases hx
    · cases hg

theorem readLine_shape {s line rest : Bytes} (h : readLine s = some (line, rest)) :
    ∃ l, line = l ++ [chNl] ∧ ∀ c ∈ l, c ≠ chNl := by
  have hmem : ∀ c ∈ s.takeWhile (· ≠ chNl), c ≠ chNl := fun c hc => by simpa using mem_takeWhile hc
  simp only [readLine] at h
  split at h
  · cases h
  · cases h
    refine ⟨_, rfl, ?_⟩
    split
    · intro c hc; exact hmem c ((List.dropLast_prefix _).subset hc)
    · exact hmem

/-- The path in front of a request names plain nodes. -/
theorem parseServer_path {l first : Bytes} {path : Option (List Bytes)} {w rest : Bytes}
    (hl : ∀ c ∈ l, c ≠ chNl) (h : parseServer (l ++ [chNl]) first = .ok (path, w, rest)) :
    PlainPath (path.getD []) := by
  simp only [parseServer] at h
  split at h
  · cases h
  · cases h
    cases l with
    | nil =>
      rw [List.nil_append]
      dsimp only
      rw [if_neg (by intro h; exact absurd h.1 (by decide))]
      intro n hn; cases hn
    | cons c b =>
      dsimp only [List.cons_append]
      split
      · rename_i hc
        intro n hn
        have hgt : chGt ∈ b := by
          have h1 : chGt ∈ b ++ [chNl] := (List.takeWhile_prefix _).subset hc.2
          rcases List.mem_append.1 h1 with h1 | h1
          · exact h1
          · exact absurd (List.mem_singleton.1 h1) (by decide)
        have hP : ∀ x ∈ (b ++ [chNl]).takeWhile (· ≠ chGt), x ≠ 0 ∧ x ≠ chNl ∧ x ≠ chGt := by
          intro x hx
          have e1 : x ≠ chGt := by simpa using mem_takeWhile hx
          have e2 : x ≠ 0 := by simpa using before_takeWhile hc.2 hx
          have hnl : chGt ∈ (b ++ [chNl]).takeWhile (· ≠ chNl) := by
            rw [List.takeWhile_append_of_pos (fun y hy => by simpa using hl y (List.mem_cons_of_mem _ hy))]
            exact List.mem_append_left _ hgt
          have e3 : x ≠ chNl := by simpa using before_takeWhile hnl hx
          exact ⟨e2, e3, e1⟩
        obtain ⟨h1, h2⟩ := splitCommaAux_mem hn (fun x => x ≠ 0 ∧ x ≠ chNl ∧ x ≠ chGt) hP (by simp)
        exact ⟨h1, fun x hx => ⟨(h2 x hx).1.1, (h2 x hx).1.2.1, (h2 x hx).2, (h2 x hx).1.2.2⟩⟩
      · intro n hn; cases hn

/-- Every write that a node reads from a connection. -/
theorem decodeWrite_reads {now : Int64} {first q s rest : Bytes} {r : WriteReq} (hn : SaneNow now)
    (hq : q.length = 8192) (h : decodeWrite now first q s = .ok (r, rest)) :
    PlainPath r.path ∧ PlainKey r.entry.key 8192 ∧ r.entry.option < 8 ∧ Absolute r.entry.expire ∧
      (r.cmd.kind = .store → r.entry.data.length = r.entry.size.toNat) := by
  simp only [decodeWrite] at h
  split at h
  · cases h
  · rename_i hline
    split at h
    · cases h
    · rename_i path w rest0 hps
      have hpp : PlainPath (path.getD []) := by
        obtain ⟨l, rfl, hl⟩ := readLine_shape hline
        exact parseServer_path hl hps
      split at h
      · cases h
      · rename_i cmd _
        simp only [parseParams] at h
        split at h
        · -- store
          rename_i hk
          split at h
          · cases h
          · rename_i e he
            split at h
            · cases h
            · rename_i d s' hd
              cases h
              obtain ⟨h1, h2, h3⟩ := entryParse_reads hn hq he (by split <;> decide)
              refine ⟨hpp, h1, h2, h3, fun _ => ?_⟩
              simp only [readSize] at hd
              split at hd
              · cases hd
              · split at hd
                · cases hd
                · cases hd
                  simp only [List.take_take, List.length_take]
                  omega
        · rename_i hk
          split at h
          · cases h
          · rename_i e v he
            cases h
            obtain ⟨h1, h2, h3⟩ := parseCount_reads hq he
            exact ⟨hpp, h1, h2, Or.inl h3, fun h => by dsimp only at h; rw [hk] at h; cases h⟩
        · rename_i hk
          split at h
          · cases h
          · rename_i e he
            cases h
            obtain ⟨h1, h2, h3⟩ := entryParse_reads hn hq he (by decide)
            exact ⟨hpp, h1, h2, h3, fun h => by dsimp only at h; rw [hk] at h; cases h⟩
        · rename_i hk
          split at h
          · cases h
          · rename_i e he
            split at h
            · cases h
              obtain ⟨h1, h2, h3⟩ := entryParse_reads hn hq he (by decide)
              exact ⟨hpp, h1, h2, h3, fun h => by dsimp only at h; rw [hk] at h; cases h⟩
            · cases h

end Flare
