import Verif.Spec.IndexSession
import Verif.Lemmas.Control
import Verif.Lemmas.Connection

namespace Flare

theorem numChar_eq : numChar = digitChar := by
  funext c
  simp only [numChar, digitChar]
  rw [Bool.eq_iff_iff]
  simp only [Bool.or_eq_true, beq_iff_eq, decide_eq_true_eq]
  constructor
  · intro h
    refine ⟨?_, h, ?_⟩
    · rintro rfl; revert h; decide
    · rintro rfl; revert h; decide
  · exact fun h => h.2.1

theorem digitChar_word {c : UInt8} (h : digitChar c = true) : wordChar c = true := by
  simp only [digitChar, decide_eq_true_eq] at h
  simp only [wordChar, decide_eq_true_eq]
  refine ⟨h.1, ?_, h.2.2⟩
  rintro rfl
  exact absurd h.2.1 (by decide)

/-- What is left of a line begins with a blank or is its end. -/
theorem spaced_ends (ws : List (Nat × Bytes)) (k : Nat) : Ends (spaced ws k ++ [chNl]) := by
  cases ws with
  | nil =>
    cases k with
    | zero => exact ends_nl []
    | succ k => simp only [spaced, List.replicate_succ, List.cons_append]; exact ends_space _
  | cons x ws =>
    obtain ⟨n, x⟩ := x
    simp only [spaced, List.replicate_succ, List.cons_append]
    exact ends_space _

theorem scanWord_at {x q : Bytes} {n : Nat} {ws : List (Nat × Bytes)} {k : Nat} (hx : ∀ c ∈ x, wordChar c = true)
    (hn : x ≠ []) (hl : x.length < q.length) :
    ∃ q', scanWord (List.replicate n chSpace ++ x ++ (spaced ws k ++ [chNl])) q =
      .ok (spaced ws k ++ [chNl], q') ∧ cstr q' = x ∧ q'.length = q.length := by
  obtain ⟨c, r, e, hc⟩ := spaced_ends ws k
  rw [e]
  exact scanWord_tok n hx (by rcases hc with rfl | rfl <;> decide) hl (fun h => absurd h hn)

theorem scanWord_cons {x q : Bytes} {n : Nat} {ws : List (Nat × Bytes)} {k : Nat} (hx : PlainKey x 1024)
    (hl : 1024 ≤ q.length) :
    ∃ q', scanWord (spaced ((n, x) :: ws) k ++ [chNl]) q =
      .ok (spaced ws k ++ [chNl], q') ∧ cstr q' = x ∧ q'.length = q.length := by
  have := scanWord_at (x := x) (q := q) (n := n + 1) (ws := ws) (k := k) hx.word hx.1 (by have := hx.2.2; omega)
  simpa only [spaced, List.append_assoc] using this

theorem scanWord_none {q : Bytes} {k : Nat} (hl : 1024 ≤ q.length) :
    ∃ q', scanWord (spaced [] k ++ [chNl]) q = .ok ([chNl], q') ∧ cstr q' = [] ∧ q'.length = q.length := by
  have := scanWord_tok (w := []) (c := chNl) (rest := []) (q := q) k (by simp) (by decide)
    (by simp; omega) (fun _ => by decide)
  simpa [spaced] using this

theorem scanDigit_cons {x q : Bytes} {n : Nat} {ws : List (Nat × Bytes)} {k : Nat} (hx : PlainKey x 1024)
    (hl : (spaced ((n, x) :: ws) k).length < q.length) :
    ∃ q', scanDigit (spaced ((n, x) :: ws) k ++ [chNl]) q =
      .ok (x.dropWhile digitChar ++ (spaced ws k ++ [chNl]), q') ∧ cstr q' = x.takeWhile digitChar ∧
        q'.length = q.length := by
  have hsplit : x.takeWhile digitChar ++ x.dropWhile digitChar = x := List.takeWhile_append_dropWhile
  have hlen : (x.takeWhile digitChar).length ≤ x.length := (List.takeWhile_prefix _).length_le
  obtain ⟨c, r, e, hc, hsp⟩ : ∃ c r, x.dropWhile digitChar ++ (spaced ws k ++ [chNl]) = c :: r ∧
      digitChar c = false ∧ (x.takeWhile digitChar = [] → c ≠ chSpace) := by
    cases hd : x.dropWhile digitChar with
    | nil =>
      obtain ⟨c, r, e, hc⟩ := spaced_ends ws k
      refine ⟨c, r, by simpa using e, by rcases hc with rfl | rfl <;> decide, ?_⟩
      intro h
      rw [h, hd] at hsplit
      exact absurd hsplit.symm hx.1
    | cons c r =>
      refine ⟨c, r ++ (spaced ws k ++ [chNl]), rfl, ?_, ?_⟩
      · have := List.head?_dropWhile_not digitChar x
        rw [hd] at this
        simpa using this
      · intro _ h0
        have hm : c ∈ x := by rw [← hsplit, hd]; simp
        have := hx.word c hm
        rw [h0] at this
        exact absurd this (by decide)
  have := scanDigit_tok (w := x.takeWhile digitChar) (c := c) (rest := r) (q := q) (n + 1)
    (fun y hy => by simpa using mem_takeWhile hy) hc (by
      simp only [spaced, List.length_append, List.length_replicate] at hl; omega) hsp
  rw [← e] at this
  have e2 : spaced ((n, x) :: ws) k ++ [chNl] = List.replicate (n + 1) chSpace ++ x.takeWhile digitChar ++
      (x.dropWhile digitChar ++ (spaced ws k ++ [chNl])) := by
    simp only [spaced, List.append_assoc]
    rw [← List.append_assoc (x.takeWhile digitChar), hsplit]
  rw [e2]
  exact this

theorem scanDigit_none {q : Bytes} {k : Nat} (hl : (spaced [] k).length < q.length) :
    ∃ q', scanDigit (spaced [] k ++ [chNl]) q = .ok ([chNl], q') ∧ cstr q' = [] ∧ q'.length = q.length := by
  have := scanDigit_tok (w := []) (c := chNl) (rest := []) (q := q) k (by simp) (by decide)
    (by simpa [spaced] using hl) (fun _ => by decide)
  simpa [spaced] using this

theorem takeWhile_every {p : UInt8 → Bool} {x : Bytes} (h : x.all p = true) : x.takeWhile p = x ∧ x.dropWhile p = [] := by
  constructor
  · induction x with
    | nil => rfl
    | cons c x ih =>
      simp only [List.all_cons, Bool.and_eq_true] at h
      simp [h.1, ih h.2]
  · induction x with
    | nil => rfl
    | cons c x ih =>
      simp only [List.all_cons, Bool.and_eq_true] at h
      simp [h.1, ih h.2]

theorem dropWhile_ne {p : UInt8 → Bool} {x : Bytes} (h : x.all p = false) : x.dropWhile p ≠ [] := by
  induction x with
  | nil => simp at h
  | cons c x ih =>
    simp only [List.dropWhile_cons]
    split
    · rename_i hc
      simp only [List.all_cons, hc, Bool.true_and] at h
      exact ih h
    · simp

/-! ### The parameters -/

theorem noMore_word {r : IxReq} {x q : Bytes} {ws : List (Nat × Bytes)} {k : Nat} (hx : PlainKey x 1024)
    (hl : 1024 ≤ q.length) : noMore r (x ++ (spaced ws k ++ [chNl])) q = .error .err := by
  obtain ⟨q', a, b, _⟩ := scanWord_at (x := x) (q := q) (n := 0) (ws := ws) (k := k) hx.word hx.1
    (by have := hx.2.2; omega)
  simp only [List.replicate_zero, List.nil_append] at a
  simp only [noMore, a, b, hx.1, if_false]

theorem noMore_eq {r : IxReq} {q : Bytes} {ws : List (Nat × Bytes)} {k : Nat} (hx : ∀ x ∈ ws.map (·.2), PlainKey x 1024)
    (hl : 1024 ≤ q.length) :
    noMore r (spaced ws k ++ [chNl]) q = if ws.map (·.2) = [] then .ok r else .error .err := by
  cases ws with
  | nil =>
    obtain ⟨q', a, b, _⟩ := scanWord_none (q := q) (k := k) hl
    simp [noMore, a, b]
  | cons y ws =>
    obtain ⟨n, x⟩ := y
    have h1 : PlainKey x 1024 := hx x (by simp)
    obtain ⟨q', a, b, _⟩ := scanWord_cons (n := n) (ws := ws) (k := k) h1 hl
    simp [noMore, a, b, h1.1]

/-- A word that is a number is read as such. -/
theorem scanInt_some {x q : Bytes} {n : Nat} {ws : List (Nat × Bytes)} {k : Nat} {i : Int32} (hx : PlainKey x 1024)
    (hl : (spaced ((n, x) :: ws) k).length < q.length) (hi : intWord x = some i) :
    ∃ q', scanInt (spaced ((n, x) :: ws) k ++ [chNl]) q = .ok (i, spaced ws k ++ [chNl], q') ∧
      q'.length = q.length := by
  simp only [intWord, numChar_eq] at hi
  split at hi
  · rename_i hall
    obtain ⟨q', a, b, c⟩ := scanDigit_cons hx hl
    obtain ⟨h1, h2⟩ := takeWhile_every hall
    rw [h1] at b
    rw [h2, List.nil_append] at a
    refine ⟨q', ?_, c⟩
    simp only [scanInt, a, b, hx.1, if_false, hi]
  · cases hi

/-- Any other word is refused, or what is behind its digits is left. -/
theorem scanInt_other {x q : Bytes} {n : Nat} {ws : List (Nat × Bytes)} {k : Nat} (hx : PlainKey x 1024)
    (hl : (spaced ((n, x) :: ws) k).length < q.length) (hi : intWord x = none) :
    scanInt (spaced ((n, x) :: ws) k ++ [chNl]) q = .error .err ∨
    ∃ i y q', scanInt (spaced ((n, x) :: ws) k ++ [chNl]) q = .ok (i, y ++ (spaced ws k ++ [chNl]), q') ∧
      PlainKey y 1024 ∧ q'.length = q.length ∧ x.all numChar = false ∧ x.head?.all numChar = true := by
  simp only [intWord, numChar_eq] at hi ⊢
  obtain ⟨q', a, b, c⟩ := scanDigit_cons hx hl
  by_cases he : x.takeWhile digitChar = []
  · left
    simp only [scanInt, a, b, he, if_true]
  · cases hx' : lexInt (x.takeWhile digitChar) with
    | none => left; simp only [scanInt, a, b, he, if_false, hx']
    | some i =>
      right
      have hall : x.all digitChar = false := by
        cases h : x.all digitChar with
        | false => rfl
        | true =>
          rw [(takeWhile_every h).1] at hx'
          rw [if_pos h, hx'] at hi
          cases hi
      refine ⟨i, x.dropWhile digitChar, q', by simp only [scanInt, a, b, he, if_false, hx'], ?_, c, hall, ?_⟩
      · have hsub : (x.dropWhile digitChar) <:+ x := List.dropWhile_suffix _
        exact ⟨dropWhile_ne hall, fun c hc => hx.2.1 c (hsub.subset hc), Nat.lt_of_le_of_lt hsub.length_le hx.2.2⟩
      · cases x with
        | nil => rfl
        | cons d x =>
          simp only [List.takeWhile_cons] at he
          cases hd : digitChar d with
          | true => simp [hd]
          | false => simp [hd] at he

theorem scanInt_none {q : Bytes} {k : Nat} (hl : (spaced [] k).length < q.length) :
    scanInt (spaced [] k ++ [chNl]) q = .error .err := by
  obtain ⟨q', a, b, c⟩ := scanDigit_none hl
  simp only [scanInt, a, b, if_true]

theorem spaced_tail {n : Nat} {x : Bytes} {ws : List (Nat × Bytes)} {k m : Nat}
    (h : (spaced ((n, x) :: ws) k).length < m) : (spaced ws k).length < m := by
  simp only [spaced, List.length_append] at h; omega

/-- Name and port of a line. -/
theorem scanNode_words {q : Bytes} {n m : Nat} {x y : Bytes} {ws : List (Nat × Bytes)} {k : Nat} (hx : PlainKey x 1024)
    (hy : PlainKey y 1024) (hq : q.length = 1024) (hl : (spaced ((n, x) :: (m, y) :: ws) k).length < 1024) :
    match intWord y with
    | some i => ∃ q', scanNode (spaced ((n, x) :: (m, y) :: ws) k ++ [chNl]) q =
        .ok (x, i, spaced ws k ++ [chNl], q') ∧ q'.length = 1024
    | none => scanNode (spaced ((n, x) :: (m, y) :: ws) k ++ [chNl]) q = .error .err ∨
      ∃ i z q', scanNode (spaced ((n, x) :: (m, y) :: ws) k ++ [chNl]) q =
        .ok (x, i, z ++ (spaced ws k ++ [chNl]), q') ∧ PlainKey z 1024 ∧ q'.length = 1024 ∧
          y.all numChar = false ∧ y.head?.all numChar = true := by
  obtain ⟨q1, a1, b1, c1⟩ := scanWord_cons (q := q) (n := n) (ws := (m, y) :: ws) (k := k) hx (by omega)
  have hl' : (spaced ((m, y) :: ws) k).length < q1.length := by rw [c1, hq]; exact spaced_tail hl
  cases hi : intWord y with
  | some i =>
    obtain ⟨q2, a2, c2⟩ := scanInt_some hy hl' hi
    refine ⟨q2, ?_, by omega⟩
    simp only [scanNode, a1, b1, hx.1, if_false, a2]
  | none =>
    rcases scanInt_other hy hl' hi with h | ⟨i, z, q2, h, h2, h3, h4⟩
    · left; simp only [scanNode, a1, b1, hx.1, if_false, h]
    · right
      exact ⟨i, z, q2, by simp only [scanNode, a1, b1, hx.1, if_false, h], h2, by omega, h4⟩

theorem scanNode_few {q : Bytes} {ws : List (Nat × Bytes)} {k : Nat} (hx : ∀ x ∈ ws.map (·.2), PlainKey x 1024)
    (hq : q.length = 1024) (hl : (spaced ws k).length < 1024) (hf : ws.length < 2) :
    scanNode (spaced ws k ++ [chNl]) q = .error .err := by
  match ws, hf with
  | [], _ =>
    obtain ⟨q', a, b, _⟩ := scanWord_none (q := q) (k := k) (by omega)
    simp only [scanNode, a, b, if_true]
  | [(n, x)], _ =>
    have h1 : PlainKey x 1024 := hx x (by simp)
    obtain ⟨q1, a1, b1, c1⟩ := scanWord_cons (q := q) (n := n) (ws := []) (k := k) h1 (by omega)
    have := scanInt_none (q := q1) (k := k) (by rw [c1, hq]; exact spaced_tail hl)
    simp only [scanNode, a1, b1, h1.1, if_false, this]

/-- The result of reading a line that means `m`. -/
def told (m : Option IxReq) : Except Fault IxReq :=
  match m with
  | some r => .ok r
  | none => .error .err

theorem nodeParams_eq {r : Bytes → Int32 → IxReq} {q : Bytes} {ws : List (Nat × Bytes)} {k : Nat}
    (hx : ∀ x ∈ ws.map (·.2), PlainKey x 1024) (hq : q.length = 1024) (hl : (spaced ws k).length < 1024) :
    nodeParams r (spaced ws k ++ [chNl]) q = told (nodeMeaning r (ws.map (·.2))) := by
  match ws, hx, hl with
  | [], hx, hl => simp only [nodeParams, scanNode_few hx hq hl (by simp)]; rfl
  | [(n, x)], hx, hl => simp only [nodeParams, scanNode_few hx hq hl (by simp)]; rfl
  | (n, x) :: (m, y) :: ws, hx, hl =>
    have h1 : PlainKey x 1024 := hx x (by simp)
    have h2 : PlainKey y 1024 := hx y (by simp)
    have h3 : ∀ x ∈ ws.map (·.2), PlainKey x 1024 := fun z hz => hx z (by simp only [List.map_cons, List.mem_cons]; exact .inr (.inr hz))
    have hs := scanNode_words (q := q) h1 h2 hq hl
    cases hi : intWord y with
    | some i =>
      rw [hi] at hs
      obtain ⟨q', a, b⟩ := hs
      simp only [nodeParams, a, noMore_eq h3 (show 1024 ≤ q'.length by omega)]
      cases ws with
      | nil => simp [nodeMeaning, hi, told]
      | cons z ws => simp [nodeMeaning, told]
    | none =>
      rw [hi] at hs
      have hn : told (nodeMeaning r (((n, x) :: (m, y) :: ws).map (·.2))) = .error .err := by
        cases ws with
        | nil => simp [nodeMeaning, hi, told]
        | cons z ws => simp [nodeMeaning, told]
      rw [hn]
      rcases hs with hs | ⟨i, z, q', a, b, c, _⟩
      · simp only [nodeParams, hs]
      · simp only [nodeParams, a, noMore_word b (show 1024 ≤ q'.length by omega)]

theorem stateParams_eq {q : Bytes} {ws : List (Nat × Bytes)} {k : Nat}
    (hx : ∀ x ∈ ws.map (·.2), PlainKey x 1024) (hq : q.length = 1024) (hl : (spaced ws k).length < 1024)
    (hg : gluedPort (ascii "node" :: ascii "state" :: ws.map (·.2)) = false) :
    stateParams (spaced ws k ++ [chNl]) q = told (stateMeaning (ws.map (·.2))) := by
  match ws, hx, hl, hg with
  | [], hx, hl, _ => simp only [stateParams, scanNode_few hx hq hl (by simp)]; rfl
  | [(n, x)], hx, hl, _ => simp only [stateParams, scanNode_few hx hq hl (by simp)]; rfl
  | (n, x) :: (m, y) :: ws, hx, hl, hg =>
    have h1 : PlainKey x 1024 := hx x (by simp)
    have h2 : PlainKey y 1024 := hx y (by simp)
    have h3 : ∀ x ∈ ws.map (·.2), PlainKey x 1024 := fun z hz => hx z (by simp only [List.map_cons, List.mem_cons]; exact .inr (.inr hz))
    have hs := scanNode_words (q := q) h1 h2 hq hl
    cases hi : intWord y with
    | some i =>
      rw [hi] at hs
      obtain ⟨q', a, b⟩ := hs
      cases ws with
      | nil =>
        obtain ⟨q2, a2, b2, _⟩ := scanWord_none (q := q') (k := k) (by omega)
        have : stateCast [] = none := by decide
        simp only [stateParams, a, a2, b2, this]
        rfl
      | cons z ws =>
        obtain ⟨l, z⟩ := z
        have h4 : PlainKey z 1024 := h3 z (by simp)
        obtain ⟨q2, a2, b2, c2⟩ := scanWord_cons (q := q') (n := l) (ws := ws) (k := k) h4 (by omega)
        have h5 : ∀ x ∈ ws.map (·.2), PlainKey x 1024 := fun z hz => h3 z (by simp only [List.map_cons, List.mem_cons]; exact .inr hz)
        cases hc : stateCast z with
        | none =>
          simp only [stateParams, a, a2, b2, hc]
          cases ws with
          | nil => simp [stateMeaning, hi, hc, told]
          | cons z ws => simp [stateMeaning, told]
        | some s =>
          simp only [stateParams, a, a2, b2, hc, noMore_eq h5 (show 1024 ≤ q2.length by omega)]
          cases ws with
          | nil => simp [stateMeaning, hi, hc, told]
          | cons z ws => simp [stateMeaning, told]
    | none =>
      rw [hi] at hs
      have hn : told (stateMeaning (((n, x) :: (m, y) :: ws).map (·.2))) = .error .err := by
        match ws with
        | [] => simp [stateMeaning, told]
        | [(l, z)] => simp [stateMeaning, hi, told]
        | _ :: _ :: _ => simp [stateMeaning, told]
      rw [hn]
      rcases hs with hs | ⟨i, z, q', a, b, c, d1, d2⟩
      · simp only [stateParams, hs]
      · simp [gluedPort, d1, d2] at hg

theorem killParams_eq {q : Bytes} {ws : List (Nat × Bytes)} {k : Nat}
    (hx : ∀ x ∈ ws.map (·.2), PlainKey x 1024) (hq : q.length = 1024) (hl : (spaced ws k).length < 1024) :
    killParams (spaced ws k ++ [chNl]) q = told (killMeaning (ws.map (·.2))) := by
  cases ws with
  | nil =>
    obtain ⟨q', a, b, _⟩ := scanDigit_none (q := q) (k := k) (by omega)
    simp only [killParams, a, b, if_true]; rfl
  | cons y ws =>
    obtain ⟨n, x⟩ := y
    have h1 : PlainKey x 1024 := hx x (by simp)
    have h3 : ∀ x ∈ ws.map (·.2), PlainKey x 1024 := fun z hz => hx z (by simp only [List.map_cons, List.mem_cons]; exact .inr hz)
    obtain ⟨q', a, b, c⟩ := scanDigit_cons (q := q) (n := n) (ws := ws) (k := k) h1 (by omega)
    cases hall : x.all digitChar with
    | true =>
      obtain ⟨e1, e2⟩ := takeWhile_every hall
      rw [e2, List.nil_append] at a
      rw [e1] at b
      cases hu : lexUnsigned 32 x with
      | none =>
        simp only [killParams, a, b, h1.1, if_false, hu]
        cases ws with
        | nil => simp [killMeaning, hu, told]
        | cons z ws => simp [killMeaning, told]
      | some i =>
        simp only [killParams, a, b, h1.1, if_false, hu, noMore_eq h3 (show 1024 ≤ q'.length by omega)]
        cases ws with
        | nil => simp [killMeaning, hu, told, numChar_eq, hall]
        | cons z ws => simp [killMeaning, told]
    | false =>
      have hn : told (killMeaning (((n, x) :: ws).map (·.2))) = .error .err := by
        cases ws with
        | nil => simp [killMeaning, told, numChar_eq, hall]
        | cons z ws => simp [killMeaning, told]
      rw [hn]
      simp only [killParams, a]
      split
      · rfl
      · split
        · rfl
        · have hsub : (x.dropWhile digitChar) <:+ x := List.dropWhile_suffix _
          exact noMore_word ⟨dropWhile_ne hall, fun c hc => h1.2.1 c (hsub.subset hc),
            Nat.lt_of_le_of_lt hsub.length_le h1.2.2⟩ (by omega)

theorem scanIntOr_word {old i : Int32} {x q : Bytes} {n : Nat} {ws : List (Nat × Bytes)} {k : Nat} (hx : PlainKey x 1024)
    (hl : (spaced ((n, x) :: ws) k).length < q.length) (hi : intWord x = some i) :
    ∃ q', scanIntOr old (spaced ((n, x) :: ws) k ++ [chNl]) q = .ok (i, spaced ws k ++ [chNl], q') ∧
      q'.length = q.length := by
  simp only [intWord, numChar_eq] at hi
  split at hi
  · rename_i hall
    obtain ⟨q', a, b, c⟩ := scanDigit_cons hx hl
    obtain ⟨h1, h2⟩ := takeWhile_every hall
    rw [h1] at b
    rw [h2, List.nil_append] at a
    refine ⟨q', ?_, c⟩
    simp only [scanIntOr, a, b, hx.1, if_false, hi]
  · cases hi

theorem scanIntOr_none {old : Int32} {q : Bytes} {k : Nat} (hl : (spaced [] k).length < q.length) :
    ∃ q', scanIntOr old (spaced [] k ++ [chNl]) q = .ok (old, spaced [] 0 ++ [chNl], q') ∧ q'.length = q.length := by
  obtain ⟨q', a, b, c⟩ := scanDigit_none hl
  refine ⟨q', ?_, c⟩
  simp only [scanIntOr, a, b, if_true]
  rfl

/-- A `node role` that is typed as it should be is read as it is meant. -/
theorem roleParams_some {q : Bytes} {ws : List (Nat × Bytes)} {k : Nat} {r : IxReq}
    (hx : ∀ x ∈ ws.map (·.2), PlainKey x 1024) (hq : q.length = 1024) (hl : (spaced ws k).length < 1024)
    (hm : roleMeaning (ws.map (·.2)) = some r) : (roleParams (spaced ws k ++ [chNl]) q).map .role = .ok r := by
  match ws, hx, hl, hm with
  | [], _, _, hm => cases hm
  | [_], _, _, hm => cases hm
  | [_, _], _, _, hm => cases hm
  | (n, x) :: (m, y) :: (l, z) :: ws, hx, hl, hm =>
    have h1 : PlainKey x 1024 := hx x (by simp)
    have h2 : PlainKey y 1024 := hx y (by simp)
    have h3 : PlainKey z 1024 := hx z (by simp)
    have hs := scanNode_words (q := q) h1 h2 hq hl
    have hl1 := spaced_tail (spaced_tail (spaced_tail hl))
    have key : ∀ i c, intWord y = some i → roleCast z = some c →
        ∃ q2, q2.length = 1024 ∧ roleParams (spaced ((n, x) :: (m, y) :: (l, z) :: ws) k ++ [chNl]) q =
          (match scanIntOr (-1) (spaced ws k ++ [chNl]) q2 with
          | .error f => .error f
          | .ok (balance, p, q) =>
            match scanIntOr (-1) p q with
            | .error f => .error f
            | .ok (partition, _, _) => .ok ⟨x, i, c, balance, partition⟩) := by
      intro i c hi hc
      rw [hi] at hs
      obtain ⟨q1, a1, c1⟩ := hs
      obtain ⟨q2, a2, b2, c2⟩ := scanWord_cons (q := q1) (n := l) (ws := ws) (k := k) h3 (by omega)
      refine ⟨q2, by omega, ?_⟩
      simp only [roleParams, a1, a2, b2, hc]
      rfl
    clear hs
    match ws, hx, hm, hl1, key with
    | [], hx, hm, hl1, key =>
      cases hi : intWord y with
      | none => simp [roleMeaning, hi] at hm
      | some i =>
        cases hc : roleCast z with
        | none => simp [roleMeaning, hi, hc] at hm
        | some c =>
          obtain ⟨q2, g, e⟩ := key i c hi hc
          obtain ⟨q3, a3, c3⟩ := scanIntOr_none (old := -1) (q := q2) (k := k) (by omega)
          obtain ⟨q4, a4, c4⟩ := scanIntOr_none (old := -1) (q := q3) (k := 0) (by simp [spaced]; omega)
          simp only [roleMeaning, List.map_cons, List.map_nil, hi, hc, Option.some.injEq] at hm
          rw [e, a3]
          simp only [a4]
          rw [← hm]; rfl
    | [(n1, b)], hx, hm, hl1, key =>
      have h4 : PlainKey b 1024 := hx b (by simp)
      cases hi : intWord y with
      | none => simp [roleMeaning, hi] at hm
      | some i =>
        cases hc : roleCast z with
        | none => simp [roleMeaning, hi, hc] at hm
        | some c =>
          cases hb : intWord b with
          | none => simp [roleMeaning, hi, hc, hb] at hm
          | some v =>
            obtain ⟨q2, g, e⟩ := key i c hi hc
            obtain ⟨q3, a3, c3⟩ := scanIntOr_word (old := -1) (q := q2) (ws := []) (n := n1) (k := k) h4 (by omega) hb
            obtain ⟨q4, a4, c4⟩ := scanIntOr_none (old := -1) (q := q3) (k := k) (by have := spaced_tail hl1; omega)
            simp only [roleMeaning, List.map_cons, List.map_nil, hi, hc, hb, Option.some.injEq] at hm
            rw [e, a3]
            simp only [a4]
            rw [← hm]; rfl
    | [(n1, b), (n2, t)], hx, hm, hl1, key =>
      have h4 : PlainKey b 1024 := hx b (by simp)
      have h5 : PlainKey t 1024 := hx t (by simp)
      cases hi : intWord y with
      | none => simp [roleMeaning, hi] at hm
      | some i =>
        cases hc : roleCast z with
        | none => simp [roleMeaning, hi, hc] at hm
        | some c =>
          cases hb : intWord b with
          | none => simp [roleMeaning, hi, hc, hb] at hm
          | some v =>
            cases ht : intWord t with
            | none => simp [roleMeaning, hi, hc, hb, ht] at hm
            | some u =>
              obtain ⟨q2, g, e⟩ := key i c hi hc
              obtain ⟨q3, a3, c3⟩ := scanIntOr_word (old := -1) (q := q2) (ws := [(n2, t)]) (n := n1) (k := k) h4 (by omega) hb
              obtain ⟨q4, a4, c4⟩ := scanIntOr_word (old := -1) (q := q3) (ws := []) (n := n2) (k := k) h5
                (by have := spaced_tail hl1; omega) ht
              simp only [roleMeaning, List.map_cons, List.map_nil, hi, hc, hb, ht, Option.some.injEq] at hm
              rw [e, a3]
              simp only [a4]
              rw [← hm]; rfl
    | _ :: _ :: _ :: _, _, hm, _, _ => simp [roleMeaning] at hm

theorem ascii_ne (a : String) (h : ascii a ≠ []) : ¬ ([] : Bytes) = ascii a := fun e => h e.symm

theorem statsParams_some {w : Bytes} {ws : List (Nat × Bytes)} {k : Nat} {r : IxReq}
    (hx : ∀ x ∈ ws.map (·.2), PlainKey x 1024) (hw : w.length = 8192)
    (hm : statsMeaning (ws.map (·.2)) = some r) : statsParams (spaced ws k ++ [chNl]) w = .ok r := by
  match ws, hx, hm with
  | [], hx, hm =>
    obtain ⟨q', a, b, _⟩ := scanWord_none (q := w) (k := k) (by omega)
    simp only [statsMeaning, List.map_nil, Option.some.injEq] at hm
    simp only [statsParams, a, b, if_true, hm]
  | [(n, x)], hx, hm =>
    have h1 : PlainKey x 1024 := hx x (by simp)
    obtain ⟨q', a, b, _⟩ := scanWord_cons (q := w) (n := n) (ws := []) (k := k) h1 (by omega)
    obtain ⟨q2, a2, b2, _⟩ := scanWord_none (q := w) (k := k) (by omega)
    simp only [statsMeaning, List.map_cons, List.map_nil] at hm
    simp only [statsParams, a, b, a2, b2, if_true, h1.1, if_false]
    grind
  | [(n, x), (m, y)], hx, hm =>
    have h1 : PlainKey x 1024 := hx x (by simp)
    have h2 : PlainKey y 1024 := hx y (by simp)
    obtain ⟨q', a, b, _⟩ := scanWord_cons (q := w) (n := n) (ws := [(m, y)]) (k := k) h1 (by omega)
    obtain ⟨q2, a2, b2, _⟩ := scanWord_cons (q := w) (n := m) (ws := []) (k := k) h2 (by omega)
    simp only [statsMeaning, List.map_cons, List.map_nil] at hm
    have hx2 : x = ascii "threads" := by
      by_cases h : x = ascii "threads"
      · exact h
      · simp [h] at hm
    subst hx2
    have e1 : ascii "threads" ≠ ascii "items" := by decide
    have e2 : ascii "threads" ≠ ascii "slabs" := by decide
    have e3 : ascii "threads" ≠ ascii "sizes" := by decide
    simp only [if_true] at hm
    simp only [statsParams, a, b, a2, b2, h1.1, h2.1, if_false, e1, e2, e3, if_true]
    grind
  | _ :: _ :: _ :: _, _, hm => simp [statsMeaning] at hm

theorem verbosityParams_some {w : Bytes} {ws : List (Nat × Bytes)} {k : Nat} {r : IxReq}
    (hx : ∀ x ∈ ws.map (·.2), PlainKey x 1024) (hw : w.length = 8192) (hl : (spaced ws k).length < 1024)
    (hm : verbosityMeaning (ws.map (·.2)) = some r) : verbosityParams (spaced ws k ++ [chNl]) w = .ok r := by
  have number : ∀ n x i, PlainKey x 1024 → ∀ ws : List (Nat × Bytes), (spaced ((n, x) :: ws) k).length < 1024 → intWord x = some i →
      ∃ q', q'.length = 8192 ∧ cstr q' = x ∧ lexInt x = some i ∧
        scanDigit (spaced ((n, x) :: ws) k ++ [chNl]) w = .ok (spaced ws k ++ [chNl], q') := by
    intro n x i h1 ws hl hi
    simp only [intWord, numChar_eq] at hi
    split at hi
    · rename_i hall
      obtain ⟨q', a, b, c⟩ := scanDigit_cons (q := w) h1 (show (spaced ((n, x) :: ws) k).length < w.length by omega)
      obtain ⟨e1, e2⟩ := takeWhile_every hall
      rw [e1] at b
      rw [e2, List.nil_append] at a
      exact ⟨q', by omega, b, hi, a⟩
    · cases hi
  match ws, hx, hl, hm with
  | [], _, _, hm => cases hm
  | [(n, x)], hx, hl, hm =>
    have h1 : PlainKey x 1024 := hx x (by simp)
    cases hi : intWord x with
    | none => simp [verbosityMeaning, hi] at hm
    | some i =>
      simp only [verbosityMeaning, List.map_cons, List.map_nil, hi, Option.map_some, Option.some.injEq] at hm
      obtain ⟨q', g, b, c, a⟩ := number n x i h1 [] hl hi
      obtain ⟨q2, a2, b2, _⟩ := scanWord_none (q := q') (k := k) (by omega)
      simp only [verbosityParams, a, b, c, parseOptions, a2, b2, if_true]
      rw [← hm]; rfl
  | [(n, x), (m, y)], hx, hl, hm =>
    have h1 : PlainKey x 1024 := hx x (by simp)
    have h2 : PlainKey y 1024 := hx y (by simp)
    cases hi : intWord x with
    | none => simp [verbosityMeaning, hi] at hm
    | some i =>
      by_cases hy : y = strNoreply
      · subst hy
        simp only [verbosityMeaning, List.map_cons, List.map_nil, hi, if_true, Option.map_some, Option.some.injEq] at hm
        obtain ⟨q', g, b, c, a⟩ := number n x i h1 [(m, strNoreply)] hl hi
        obtain ⟨q2, a2, b2, c2⟩ := scanWord_cons (q := q') (n := m) (ws := []) (k := k) h2 (by omega)
        obtain ⟨q3, a3, b3, _⟩ := scanWord_none (q := q2) (k := k) (by omega)
        obtain ⟨f, hf⟩ : ∃ f, (spaced [(m, strNoreply)] k ++ [chNl]).length = f + 1 := ⟨_, by
          rw [List.length_append, List.length_singleton]⟩
        have ho : optionCast strNoreply = some optNoreply := by decide
        have hn : strNoreply ≠ [] := by decide
        simp only [verbosityParams, a, b, c, hf, parseOptions, a2, b2, hn, if_false, ho, a3, b3, if_true]
        rw [← hm]; rfl
      · simp [verbosityMeaning, hy] at hm
  | _ :: _ :: _ :: _, _, _, hm => simp [verbosityMeaning] at hm

theorem showParams_some {w : Bytes} {ws : List (Nat × Bytes)} {k : Nat}
    (hx : ∀ x ∈ ws.map (·.2), PlainKey x 1024) (hw : w.length = 8192)
    (hm : ws.map (·.2) = [ascii "variables"]) : showParams (spaced ws k ++ [chNl]) w = .ok .variables := by
  match ws, hx, hm with
  | [], _, hm => cases hm
  | [(n, x)], hx, hm =>
    have h1 : PlainKey x 1024 := hx x (by simp)
    simp only [List.map_cons, List.map_nil, List.cons.injEq, and_true] at hm
    obtain ⟨q', a, b, _⟩ := scanWord_cons (q := w) (n := n) (ws := []) (k := k) h1 (by omega)
    rw [hm] at b
    simp only [showParams, a, b, if_true]
  | _ :: _ :: _, _, hm => simp at hm

theorem statsParams_eq {w : Bytes} {ws : List (Nat × Bytes)} {k : Nat}
    (hx : ∀ x ∈ ws.map (·.2), PlainKey x 1024) (hw : w.length = 8192)
    (hm : statsMeaning (ws.map (·.2)) = none → lenient (ascii "stats" :: ws.map (·.2)) = false) :
    statsParams (spaced ws k ++ [chNl]) w = told (statsMeaning (ws.map (·.2))) := by
  cases he : statsMeaning (ws.map (·.2)) with
  | some r => exact statsParams_some hx hw he
  | none =>
    have hl := hm he
    clear hm
    match ws, hx, he, hl with
    | [], hx, he, hl => cases he
    | [(n, x)], hx, he, hl =>
      have h1 : PlainKey x 1024 := hx x (by simp)
      obtain ⟨q', a, b, _⟩ := scanWord_cons (q := w) (n := n) (ws := []) (k := k) h1 (by omega)
      simp only [statsMeaning, List.map_cons, List.map_nil] at he
      simp only [statsParams, a, b, h1.1, if_false]
      grind [told]
    | [(n, x), (m, y)], hx, he, hl =>
      have h1 : PlainKey x 1024 := hx x (by simp)
      have h2 : PlainKey y 1024 := hx y (by simp)
      obtain ⟨q', a, b, _⟩ := scanWord_cons (q := w) (n := n) (ws := [(m, y)]) (k := k) h1 (by omega)
      obtain ⟨q2, a2, b2, _⟩ := scanWord_cons (q := w) (n := m) (ws := []) (k := k) h2 (by omega)
      have hx2 : x = ascii "threads" := by simpa [lenient] using hl
      subst hx2
      have e1 : ascii "threads" ≠ ascii "items" := by decide
      have e2 : ascii "threads" ≠ ascii "slabs" := by decide
      have e3 : ascii "threads" ≠ ascii "sizes" := by decide
      simp only [statsMeaning, List.map_cons, List.map_nil, if_true] at he
      simp only [statsParams, a, b, a2, b2, h1.1, h2.1, if_false, e1, e2, e3, if_true]
      grind [told]
    | _ :: _ :: _ :: _, _, _, hl => simp [lenient] at hl

theorem showParams_eq {w : Bytes} {ws : List (Nat × Bytes)} {k : Nat}
    (hx : ∀ x ∈ ws.map (·.2), PlainKey x 1024) (hw : w.length = 8192)
    (hm : ws.map (·.2) ≠ [ascii "variables"] → lenient (ascii "show" :: ws.map (·.2)) = false) :
    showParams (spaced ws k ++ [chNl]) w =
      told (if ws.map (·.2) = [ascii "variables"] then some .variables else none) := by
  by_cases hv : ws.map (·.2) = [ascii "variables"]
  · rw [if_pos hv]; exact showParams_some hx hw hv
  · have hl := hm hv
    rw [if_neg hv]
    clear hm
    match ws, hx, hv, hl with
    | [], _, _, _ =>
      obtain ⟨q', a, b, _⟩ := scanWord_none (q := w) (k := k) (by omega)
      have e : ¬ ([] : Bytes) = ascii "variables" := by decide
      simp only [showParams, a, b, e, if_false]; rfl
    | [(n, x)], hx, hv, _ =>
      have h1 : PlainKey x 1024 := hx x (by simp)
      obtain ⟨q', a, b, _⟩ := scanWord_cons (q := w) (n := n) (ws := []) (k := k) h1 (by omega)
      have e : x ≠ ascii "variables" := fun h => hv (by simp [h])
      simp only [showParams, a, b, e, if_false]; rfl
    | _ :: _ :: _, _, _, hl =>
      have e1 : ascii "show" ≠ ascii "stats" := by decide
      simp [lenient, e1] at hl

theorem verbosityParams_eq {w : Bytes} {ws : List (Nat × Bytes)} {k : Nat}
    (hx : ∀ x ∈ ws.map (·.2), PlainKey x 1024) (hw : w.length = 8192) (hl : (spaced ws k).length < 1024)
    (hm : verbosityMeaning (ws.map (·.2)) = none → lenient (ascii "verbosity" :: ws.map (·.2)) = false) :
    verbosityParams (spaced ws k ++ [chNl]) w = told (verbosityMeaning (ws.map (·.2))) := by
  have e1 : ascii "verbosity" ≠ ascii "stats" := by decide
  have e2 : ascii "verbosity" ≠ ascii "show" := by decide
  cases he : verbosityMeaning (ws.map (·.2)) with
  | some r => exact verbosityParams_some hx hw hl he
  | none =>
    have hn := hm he
    clear hm
    match ws, hx, hl, he, hn with
    | [], _, hl, _, _ =>
      obtain ⟨q', a, b, _⟩ := scanDigit_none (q := w) (k := k) (by omega)
      have e : lexInt ([] : Bytes) = none := by decide
      simp only [verbosityParams, a, b, e]; rfl
    | [(n, x)], hx, hl, he, hn =>
      have h1 : PlainKey x 1024 := hx x (by simp)
      have hall : x.all numChar = true := by simpa [lenient, e1, e2] using hn
      obtain ⟨q', a, b, _⟩ := scanDigit_cons (q := w) h1 (show (spaced [(n, x)] k).length < w.length by omega)
      rw [numChar_eq] at hall
      obtain ⟨t1, t2⟩ := takeWhile_every hall
      rw [t1] at b
      have hi : lexInt x = none := by
        rw [← numChar_eq] at hall
        simp only [verbosityMeaning, List.map_cons, List.map_nil, intWord, hall, if_true, Option.map_eq_none_iff] at he
        exact he
      simp only [verbosityParams, a, b, hi]; rfl
    | [(n, x), (m, y)], hx, hl, he, hn =>
      have h1 : PlainKey x 1024 := hx x (by simp)
      have h2 : PlainKey y 1024 := hx y (by simp)
      have hn' : x.all numChar = true ∧ y ≠ strAsync := by
        simpa [lenient, e1, e2] using hn
      obtain ⟨hall, hy⟩ := hn'
      obtain ⟨q', a, b, c⟩ := scanDigit_cons (q := w) h1 (show (spaced [(n, x), (m, y)] k).length < w.length by omega)
      have hall' := hall
      rw [numChar_eq] at hall
      obtain ⟨t1, t2⟩ := takeWhile_every hall
      rw [t1] at b
      rw [t2, List.nil_append] at a
      cases hi : lexInt x with
      | none => simp only [verbosityParams, a, b, hi]; rfl
      | some i =>
        have hno : y ≠ strNoreply := by
          intro h
          simp [verbosityMeaning, intWord, hall', hi, h] at he
        obtain ⟨q2, a2, b2, c2⟩ := scanWord_cons (q := q') (n := m) (ws := []) (k := k) h2 (by omega)
        obtain ⟨q3, a3, b3, _⟩ := scanWord_none (q := q2) (k := k) (by omega)
        by_cases hs : y = strSync
        · subst hs
          have ho : optionCast strSync = some optSync := by decide
          obtain ⟨f, hf⟩ : ∃ f, (spaced [(m, strSync)] k ++ [chNl]).length = f + 1 := ⟨_, by
            rw [List.length_append, List.length_singleton]⟩
          simp only [verbosityParams, a, b, hi, hf, parseOptions, a2, b2, h2.1, if_false, ho]
          simp only [a3, b3, if_true]
          rw [if_pos (by decide)]; rfl
        · have ho : optionCast y = none := by
            simp only [optionCast, if_neg h2.1, if_neg hno, if_neg hs, if_neg hy]
          simp only [verbosityParams, a, b, hi, parseOptions, a2, b2, h2.1, if_false, ho]; rfl
    | _ :: _ :: _ :: _, _, _, _, hn => simp [lenient, e1, e2] at hn

/-- The parameters of a line: as they are meant, for every command if they mean something, and for all but the
lenient ones if they do not. -/
theorem ixParams_eq {c q w : Bytes} {ws : List (Nat × Bytes)} {k : Nat}
    (hx : ∀ x ∈ ws.map (·.2), PlainKey x 1024) (hq : q.length = 1024) (hw : w.length = 8192)
    (hl : (spaced ws k).length < 1024)
    (hm : ixMeaning (c :: ws.map (·.2)) = none → lenient (c :: ws.map (·.2)) = false ∧
      gluedPort (c :: ws.map (·.2)) = false) :
    ixParams c (spaced ws k ++ [chNl]) q w = told (ixMeaning (c :: ws.map (·.2))) := by
  have bare : ∀ r q, 1024 ≤ q.length → noMore r (spaced ws k ++ [chNl]) q = told (bareMeaning r (ws.map (·.2))) := by
    intro r q hq
    rw [noMore_eq hx hq]
    by_cases h : ws.map (·.2) = []
    · simp only [bareMeaning, h, if_true]; rfl
    · simp only [bareMeaning, h, if_false]; rfl
  by_cases h1 : c = ascii "ping"
  · simp only [ixParams, ixMeaning, h1, if_true]
    exact bare _ _ (by omega)
  by_cases h2 : c = ascii "stats"
  · subst h2
    have em : ixMeaning (ascii "stats" :: ws.map (·.2)) = statsMeaning (ws.map (·.2)) := rfl
    rw [em] at hm ⊢
    simp only [ixParams, h1, if_true, if_false]
    exact statsParams_eq hx hw fun h => (hm h).1
  by_cases h3 : c = ascii "node"
  · cases ws with
    | nil =>
      obtain ⟨q', a, b, _⟩ := scanWord_none (q := w) (k := k) (by omega)
      simp only [ixParams, ixMeaning, h1, h2, h3, if_true, if_false, a, b, List.map_nil]
      rfl
    | cons x ws =>
      obtain ⟨n, v⟩ := x
      have hv : PlainKey v 1024 := hx v (by simp)
      have hx' : ∀ x ∈ ws.map (·.2), PlainKey x 1024 := fun z hz => hx z (by simp only [List.map_cons, List.mem_cons]; exact .inr hz)
      have hl' := spaced_tail hl
      obtain ⟨q', a, b, _⟩ := scanWord_cons (q := w) (n := n) (ws := ws) (k := k) hv (by omega)
      simp only [ixParams, h1, h2, h3, if_true, if_false, a, b]
      by_cases g1 : v = ascii "add"
      · simp only [ixMeaning, List.map_cons, h1, h2, h3, g1, if_true, if_false]
        exact nodeParams_eq hx' hq hl'
      by_cases g2 : v = ascii "remove"
      · simp only [ixMeaning, List.map_cons, h1, h2, h3, g1, g2, if_true, if_false]
        exact nodeParams_eq hx' hq hl'
      by_cases g3 : v = ascii "role"
      · subst h3 g3
        have em : ixMeaning (ascii "node" :: ((n, ascii "role") :: ws).map (·.2)) = roleMeaning (ws.map (·.2)) := rfl
        simp only [g1, g2, if_true, if_false]
        rw [em] at hm ⊢
        cases he : roleMeaning (ws.map (·.2)) with
        | none =>
          have := (hm he).1
          have g7 : ascii "node" ≠ ascii "show" := by decide
          have g8 : ascii "node" ≠ ascii "verbosity" := by decide
          simp [lenient, h2, g7, g8] at this
        | some r => exact roleParams_some hx' hq hl' he
      by_cases g4 : v = ascii "state"
      · subst h3 g4
        have em : ixMeaning (ascii "node" :: ((n, ascii "state") :: ws).map (·.2)) = stateMeaning (ws.map (·.2)) := rfl
        simp only [g1, g2, g3, if_true, if_false]
        rw [em] at hm ⊢
        have hg : gluedPort (ascii "node" :: ascii "state" :: ws.map (·.2)) = false := by
          cases he : stateMeaning (ws.map (·.2)) with
          | none => exact (hm he).2
          | some r =>
            match ws, he with
            | [], he => rfl
            | [_], he => rfl
            | [_, _], he => cases he
            | [(a1, b1), (a2, p), (a3, s)], he =>
              cases hi : intWord p with
              | none => simp [stateMeaning, hi] at he
              | some i =>
                simp only [intWord] at hi
                split at hi
                · rename_i hh
                  simp only [gluedPort, List.map_cons, hh, Bool.not_true, Bool.and_false, Bool.false_and]
                · cases hi
            | _ :: _ :: _ :: _ :: _, he => simp [stateMeaning] at he
        exact stateParams_eq hx' hq hl' hg
      simp only [ixMeaning, List.map_cons, h1, h2, h3, g1, g2, g3, g4, if_true, if_false]
      rfl
  by_cases h4 : c = ascii "kill"
  · simp only [ixParams, ixMeaning, h1, h2, h3, h4, if_true, if_false]
    exact killParams_eq hx hq hl
  by_cases h5 : c = ascii "quit"
  · simp only [ixParams, ixMeaning, h1, h2, h3, h4, h5, if_true, if_false]
    exact bare _ _ (by omega)
  by_cases h6 : c = ascii "meta"
  · simp only [ixParams, ixMeaning, h1, h2, h3, h4, h5, h6, if_true, if_false]
    exact bare _ _ (by omega)
  by_cases h7 : c = ascii "verbosity"
  · subst h7
    have em : ixMeaning (ascii "verbosity" :: ws.map (·.2)) = verbosityMeaning (ws.map (·.2)) := rfl
    rw [em] at hm ⊢
    simp only [ixParams, h1, h2, h3, h4, h5, h6, if_true, if_false]
    exact verbosityParams_eq hx hw hl fun h => (hm h).1
  by_cases h8 : c = ascii "version"
  · simp only [ixParams, ixMeaning, h1, h2, h3, h4, h5, h6, h7, h8, if_true, if_false]
    exact bare _ _ (by omega)
  by_cases h9 : c = ascii "show"
  · subst h9
    have em : ixMeaning (ascii "show" :: ws.map (·.2)) =
        if ws.map (·.2) = [ascii "variables"] then some .variables else none := rfl
    rw [em] at hm ⊢
    simp only [ixParams, h1, h2, h3, h4, h5, h6, h7, h8, if_true, if_false]
    exact showParams_eq hx hw fun h => (hm (if_neg h)).1
  by_cases h10 : c = ascii "shutdown"
  · simp only [ixParams, ixMeaning, h1, h2, h3, h4, h5, h6, h7, h8, h9, h10, if_true, if_false]
    exact nodeParams_eq hx hq hl
  simp only [ixParams, ixMeaning, h1, h2, h3, h4, h5, h6, h7, h8, h9, h10, if_false]
  rfl

theorem spaced_chars {ws : List (Nat × Bytes)} {k : Nat} (h : ∀ x ∈ ws.map (·.2), PlainKey x 1024) :
    ∀ c ∈ spaced ws k, c ≠ chNl := by
  induction ws with
  | nil =>
    intro c hc
    simp only [spaced, List.mem_replicate] at hc
    rw [hc.2]; decide
  | cons x ws ih =>
    obtain ⟨n, x⟩ := x
    intro c hc
    simp only [spaced, List.mem_append, List.mem_replicate] at hc
    rcases hc with (hc | hc) | hc
    · rw [hc.2]; decide
    · exact ((h x (by simp)).2.1 c hc).2.2
    · exact ih (fun y hy => h y (by simp only [List.map_cons, List.mem_cons]; exact .inr hy)) c hc

theorem CmdLine.Ok.noNl {l : CmdLine} (h : l.Ok) : ∀ c ∈ l.text, c ≠ chNl := by
  intro c hc
  simp only [CmdLine.text, List.mem_append, List.mem_replicate] at hc
  rcases hc with (hc | hc) | hc
  · rw [hc.2]; decide
  · exact ((h.words l.cmd (by simp [CmdLine.words])).2.1 c hc).2.2
  · exact spaced_chars (fun x hx => h.words x (by simp only [CmdLine.words, List.mem_cons]; exact .inr hx)) c hc

theorem CmdLine.Ok.ne {l : CmdLine} (h : l.Ok) : l.text ≠ [] := by
  have := (h.words l.cmd (by simp [CmdLine.words])).1
  simp [CmdLine.text, this]

theorem readLine_cmd {l : CmdLine} (h : l.Ok) (more : Bytes) :
    readLine (l.bytes ++ more) = some (l.text ++ [chNl], more) := by
  cases hc : l.cr with
  | true =>
    simp only [CmdLine.bytes, hc, if_true]
    exact readLine_crlf h.noNl
  | false =>
    have hn : chNl ∉ l.text := fun hm => h.noNl chNl hm rfl
    simp only [CmdLine.bytes, hc, Bool.false_eq_true, if_false]
    rw [List.append_assoc, List.singleton_append, readLine_nl hn, stripCr, if_neg (h.cr hc)]

theorem spaced_every (n : Nat) : ∀ t : Bytes, t.length ≤ n → (∀ c ∈ t, c ≠ 0 ∧ c ≠ chNl) → t.length ≤ 1024 →
    (t = [] ∨ t.head? = some chSpace) → ∃ ws k, spaced ws k = t ∧ ∀ x ∈ ws.map (·.2), PlainKey x 1024 := by
  induction n with
  | zero =>
    intro t hn _ _ _
    have : t = [] := List.length_eq_zero_iff.1 (by omega)
    exact ⟨[], 0, by rw [this]; rfl, by simp⟩
  | succ n ih =>
    intro t hn h hl hb
    rcases hb with rfl | hb
    · exact ⟨[], 0, rfl, by simp⟩
    · -- the blanks, the word, what is left
      obtain ⟨bl, eb⟩ : ∃ b, b = t.takeWhile (· == chSpace) := ⟨_, rfl⟩
      obtain ⟨t1, e1⟩ : ∃ b, b = t.dropWhile (· == chSpace) := ⟨_, rfl⟩
      have hsplit : bl ++ t1 = t := by rw [eb, e1]; exact List.takeWhile_append_dropWhile
      have hbl : bl = List.replicate bl.length chSpace := by
        rw [List.eq_replicate_iff]
        refine ⟨rfl, fun c hc => ?_⟩
        rw [eb] at hc
        simpa using mem_takeWhile hc
      have hbl1 : 0 < bl.length := by
        cases t with
        | nil => cases hb
        | cons c t =>
          simp only [List.head?_cons, Option.some.injEq] at hb
          rw [eb, hb]; simp
      obtain ⟨x, ex⟩ : ∃ b, b = t1.takeWhile (· != chSpace) := ⟨_, rfl⟩
      obtain ⟨t2, e2⟩ : ∃ b, b = t1.dropWhile (· != chSpace) := ⟨_, rfl⟩
      have hsplit2 : x ++ t2 = t1 := by rw [ex, e2]; exact List.takeWhile_append_dropWhile
      have hlen : bl.length + (x.length + t2.length) = t.length := by
        rw [← hsplit, ← hsplit2]; simp
      have hmem : ∀ c, c ∈ x ∨ c ∈ t2 → c ≠ 0 ∧ c ≠ chNl := by
        intro c hc
        apply h
        rw [← hsplit, ← hsplit2]
        rcases hc with hc | hc <;> simp [hc]
      have ht2 : t2 = [] ∨ t2.head? = some chSpace := by
        cases hd : t2 with
        | nil => exact .inl rfl
        | cons c r =>
          right
          have := List.head?_dropWhile_not (fun c => c != chSpace) t1
          rw [← e2, hd] at this
          simpa using this
      by_cases hx : x = []
      · -- only blanks are left
        have : t1 = [] := by
          cases hd : t1 with
          | nil => rfl
          | cons c r =>
            have h1 := List.head?_dropWhile_not (fun c => c == chSpace) t
            rw [← e1, hd] at h1
            rw [ex, hd] at hx
            simp only [List.head?_cons] at h1
            have h2 : (c != chSpace) = true := by simpa using h1
            simp [h2] at hx
        rw [this, List.append_nil] at hsplit
        exact ⟨[], bl.length, by rw [spaced, ← hbl, hsplit], by simp⟩
      · have hx0 : 0 < x.length := List.length_pos_iff.2 hx
        obtain ⟨ws, k, e, hws⟩ := ih t2 (by omega) (fun c hc => hmem c (.inr hc)) (by omega) ht2
        refine ⟨(bl.length - 1, x) :: ws, k, ?_, ?_⟩
        · rw [spaced, e, show bl.length - 1 + 1 = bl.length by omega, ← hbl, List.append_assoc, hsplit2, hsplit]
        · intro y hy
          simp only [List.map_cons, List.mem_cons] at hy
          rcases hy with rfl | hy
          · refine ⟨hx, fun c hc => ⟨(hmem c (.inl hc)).1, ?_, (hmem c (.inl hc)).2⟩, by omega⟩
            rw [ex] at hc
            simpa using mem_takeWhile hc
          · exact hws y hy

end Flare
