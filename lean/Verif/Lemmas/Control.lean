import Verif.Spec.Control
import Verif.Lemmas.TextLines

/-! Lemmas about the messages between index server and nodes. -/
namespace Flare

/-! ### Casts -/

theorem cast_step {α : Type} {s n : Bytes} {a v : α} {r : Option α}
    (h : (if s = n then some a else r) = some v) : (s = n ∧ a = v) ∨ r = some v := by
  by_cases e : s = n
  · rw [if_pos e] at h; exact .inl ⟨e, Option.some.inj h⟩
  · rw [if_neg e] at h; exact .inr h

/-! ### Numbers -/

theorem int32_natAbs {i : Int32} (h : 0 ≤ i.toInt) :
    Int32.ofNat i.toInt.natAbs = i ∧ i.toInt.natAbs < 2 ^ 31 := by
  have hl := i.toInt_lt
  have h2 : ((i.toInt.natAbs : Nat) : Int) = i.toInt := by omega
  constructor
  · rw [← Int32.ofInt_eq_ofNat, h2, Int32.ofInt_toInt]
  · omega

theorem lexInt_print (i : Int32) : lexInt (printInt i) = some i := by
  unfold printInt
  by_cases h : i.toInt < 0
  · have hl := i.le_toInt
    simp only [decimalInt, if_pos h, lexInt, lexNumber_minus, if_true]
    rw [if_pos (by omega)]
    congr 1
    have : -((i.toInt.natAbs : Nat) : Int) = i.toInt := by omega
    rw [this, Int32.ofInt_toInt]
  · obtain ⟨h1, h2⟩ := int32_natAbs (i := i) (by omega)
    simp only [decimalInt, if_neg h, lexInt, lexNumber_decimal, Bool.false_eq_true, if_false]
    rw [if_pos h2, h1]

theorem printInt_length (i : Int32) : (printInt i).length ≤ 11 := by
  have h1 := i.toInt_lt
  have h2 := i.le_toInt
  have h3 : (decimal i.toInt.natAbs).length ≤ 10 := decimal_length_lt (by omega) (by
    have : (10 : Nat) ^ 10 = 10000000000 := by decide
    rw [this]; omega)
  simp only [printInt, decimalInt]; split
  · simp only [List.length_cons]; omega
  · omega

theorem printInt_chars (i : Int32) : ∀ c ∈ printInt i, digitChar c = true := decimalInt_chars _

theorem printInt_ne_nil (i : Int32) : printInt i ≠ [] := decimalInt_ne_nil _

theorem printInt_word (i : Int32) : ∀ c ∈ printInt i, wordChar c = true := by
  intro c hc
  have := printInt_chars i c hc
  simp only [digitChar, decide_eq_true_eq] at this
  simp only [wordChar, decide_eq_true_eq]
  refine ⟨this.1, ?_, this.2.2⟩
  rintro rfl
  exact absurd this.2.1 (by decide)

theorem scanInt_field {i : Int32} {t q : Bytes} (ht : Ends t) (hq : 32 ≤ q.length) :
    ∃ q', scanInt (chSpace :: printInt i ++ t) q = .ok (i, t, q') ∧ q'.length = q.length := by
  have hl := printInt_length i
  obtain ⟨q', h1, h2, h3⟩ := scanDigit_field (q := q) (t := t) (printInt_chars i)
    (printInt_ne_nil i) ht (by omega)
  refine ⟨q', ?_, h3⟩
  simp only [scanInt, h1, h2, if_neg (printInt_ne_nil i), lexInt_print]

theorem scanIntOr_field {i old : Int32} {t q : Bytes} (ht : Ends t) (hq : 32 ≤ q.length) :
    ∃ q', scanIntOr old (chSpace :: printInt i ++ t) q = .ok (i, t, q') ∧
      q'.length = q.length := by
  have hl := printInt_length i
  obtain ⟨q', h1, h2, h3⟩ := scanDigit_field (q := q) (t := t) (printInt_chars i)
    (printInt_ne_nil i) ht (by omega)
  refine ⟨q', ?_, h3⟩
  simp only [scanIntOr, h1, h2, if_neg (printInt_ne_nil i), lexInt_print]

/-! ### Words -/

theorem scanWord_first {w t q : Bytes} (hw : ∀ x ∈ w, wordChar x = true) (hn : w ≠ [])
    (ht : Ends t) (hl : w.length < q.length) :
    ∃ q', scanWord (w ++ t) q = .ok (t, q') ∧ cstr q' = w ∧ q'.length = q.length := by
  obtain ⟨c, r, rfl, hc⟩ := ht
  have := scanWord_tok (w := w) (c := c) (rest := r) (q := q) 0 hw
    (by rcases hc with rfl | rfl <;> decide) hl (fun h => absurd h hn)
  simpa using this

/-- The text of a command word. -/
theorem ascii_word_ok {s : String} (h : (ascii s).all wordChar = true) :
    ∀ x ∈ ascii s, wordChar x = true := List.all_eq_true.1 h

theorem word_no_nl {w : Bytes} (h : ∀ c ∈ w, wordChar c = true) : ∀ c ∈ w, c ≠ chNl := by
  intro c hc
  have := h c hc
  simp only [wordChar, decide_eq_true_eq] at this
  exact this.2.2

/-! ### Node lines -/

theorem ends_of {w t p : Bytes} (e : p = chSpace :: w ++ t) : Ends p :=
  e ▸ ends_space _

/-- The fields of a node line. -/
theorem parseNodeLine_ok {n : NodeLine} {q : Bytes} (hn : n.Ok) (hq : q.length = 8192) :
    parseNodeLine (ascii "NODE" ++ (chSpace :: n.name ++ (chSpace :: printInt n.port ++
      (chSpace :: printInt n.role ++ (chSpace :: printInt n.state ++
      (chSpace :: printInt n.partition ++ (chSpace :: printInt n.balance ++
      (chSpace :: printInt n.threadType ++ [chNl])))))))) q = .ok n := by
  have hnode : ∀ x ∈ ascii "NODE", wordChar x = true := ascii_word_ok (by decide)
  obtain ⟨t8, e8⟩ : ∃ t, t = chSpace :: printInt n.threadType ++ [chNl] := ⟨_, rfl⟩
  obtain ⟨t7, e7⟩ : ∃ t, t = chSpace :: printInt n.balance ++ t8 := ⟨_, rfl⟩
  obtain ⟨t6, e6⟩ : ∃ t, t = chSpace :: printInt n.partition ++ t7 := ⟨_, rfl⟩
  obtain ⟨t5, e5⟩ : ∃ t, t = chSpace :: printInt n.state ++ t6 := ⟨_, rfl⟩
  obtain ⟨t4, e4⟩ : ∃ t, t = chSpace :: printInt n.role ++ t5 := ⟨_, rfl⟩
  obtain ⟨t3, e3⟩ : ∃ t, t = chSpace :: printInt n.port ++ t4 := ⟨_, rfl⟩
  obtain ⟨t2, e2⟩ : ∃ t, t = chSpace :: n.name ++ t3 := ⟨_, rfl⟩
  obtain ⟨q1, a1, b1, c1⟩ := scanWord_first (q := q) (t := t2) hnode (by decide) (ends_of e2)
    (by rw [hq]; decide)
  obtain ⟨q2, a2, b2, c2⟩ := scanWord_field (q := q1) (w := n.name) hn.word hn.1 (ends_of e3)
    (by have := hn.2.2; omega)
  obtain ⟨q3, a3, c3⟩ := scanInt_field (q := q2) (i := n.port) (ends_of e4) (by omega)
  obtain ⟨q4, a4, c4⟩ := scanInt_field (q := q3) (i := n.role) (ends_of e5) (by omega)
  obtain ⟨q5, a5, c5⟩ := scanInt_field (q := q4) (i := n.state) (ends_of e6) (by omega)
  obtain ⟨q6, a6, c6⟩ := scanInt_field (q := q5) (i := n.partition) (ends_of e7) (by omega)
  obtain ⟨q7, a7, c7⟩ := scanInt_field (q := q6) (i := n.balance) (ends_of e8) (by omega)
  obtain ⟨q8, a8, c8⟩ := scanInt_field (q := q7) (i := n.threadType) (ends_nl []) (by omega)
  rw [← e2] at a2
  rw [← e3] at a3
  rw [← e4] at a4
  rw [← e5] at a5
  rw [← e6] at a6
  rw [← e7] at a7
  rw [← e8] at a8
  rw [← e8, ← e7, ← e6, ← e5, ← e4, ← e3, ← e2]
  simp only [parseNodeLine, a1, a2, a3, a4, a5, a6, a7, a8, b1, b2, if_neg hn.1, ne_eq,
    not_true_eq_false, if_false]

/-- A node line as it is sent. -/
theorem nodeLine_eq {n : NodeLine} (hn : n.Ok) :
    ∃ l, nodeLine n = l ++ crlf ∧ (∀ c ∈ l, c ≠ chNl) ∧
      l ++ [chNl] = ascii "NODE" ++ (chSpace :: n.name ++ (chSpace :: printInt n.port ++
      (chSpace :: printInt n.role ++ (chSpace :: printInt n.state ++
      (chSpace :: printInt n.partition ++ (chSpace :: printInt n.balance ++
      (chSpace :: printInt n.threadType ++ [chNl])))))))  := by
  refine ⟨ascii "NODE " ++ n.name ++ [chSpace] ++ printInt n.port ++ [chSpace] ++
    printInt n.role ++ [chSpace] ++ printInt n.state ++ [chSpace] ++ printInt n.partition ++
    [chSpace] ++ printInt n.balance ++ [chSpace] ++ printInt n.threadType, ?_, ?_, ?_⟩
  · rw [nodeLine, cstr_plain hn.word, snprintfBuf, List.take_of_length_le]
    have h := hn.2.2
    have h1 := printInt_length n.port
    have h2 := printInt_length n.role
    have h3 := printInt_length n.state
    have h4 := printInt_length n.partition
    have h5 := printInt_length n.balance
    have h6 := printInt_length n.threadType
    have h0 : (ascii "NODE ").length = 5 := by decide
    simp only [List.length_append, List.length_singleton, h0]
    omega
  · intro c hc
    have hi : ∀ i, c ∈ printInt i → c ≠ chNl := fun i h => word_no_nl (printInt_word i) c h
    have hs : c ∈ [chSpace] → c ≠ chNl := by
      intro h; rw [List.mem_singleton.1 h]; decide
    have ha : c ∈ ascii "NODE " → c ≠ chNl := by
      intro h
      have : ∀ c ∈ ascii "NODE ", c ≠ chNl := by decide
      exact this c h
    simp only [List.mem_append] at hc
    rcases hc with ((((((((((((hc | hc) | hc) | hc) | hc) | hc) | hc) | hc) | hc) | hc) | hc) | hc) | hc) | hc
    all_goals first
      | exact hi _ hc | exact hs hc | exact ha hc | exact word_no_nl hn.word c hc
  · have : ascii "NODE " = ascii "NODE" ++ [chSpace] := by decide
    rw [this]
    simp only [List.append_assoc, List.cons_append, List.nil_append]

theorem readNodes_ok {q : Bytes} (hq : q.length = 8192) (rest : Bytes) :
    ∀ (ns : List NodeLine) (n : Nat), ns.length < n → (∀ x ∈ ns, x.Ok) →
      readNodes q n (nodeLines ns ++ rest) = .ok (ns, rest)
  | [], n + 1, _, _ => by
    have hl : readLine (nodeLines [] ++ rest) = some (strEnd ++ [chNl], rest) := by
      have := readLine_crlf (l := strEnd) (rest := rest) (by decide)
      exact this
    simp only [readNodes, hl]
    rw [if_pos (by decide)]
  | x :: ns, n + 1, hn, hok => by
    obtain ⟨l, h1, h2, h3⟩ := nodeLine_eq (hok x (List.mem_cons_self ..))
    have hs : nodeLines (x :: ns) ++ rest = l ++ crlf ++ (nodeLines ns ++ rest) := by
      simp only [nodeLines, List.map_cons, List.flatten_cons, h1, List.append_assoc]
    have hp := parseNodeLine_ok (q := q) (hok x (List.mem_cons_self ..)) hq
    rw [hs]
    simp only [readNodes, readLine_crlf h2]
    rw [h3, if_neg ?_, hp]
    · dsimp only
      rw [readNodes_ok hq rest ns n (by simpa using hn)
        (fun y hy => hok y (List.mem_cons_of_mem _ hy))]
    · intro h
      have h' : ∀ t, (cstr (ascii "NODE" ++ (chSpace :: t))).head? = some 78 := fun t => rfl
      have := congrArg List.head? h
      rw [List.cons_append, h'] at this
      exact absurd this (by decide)

theorem nodeLines_length (ns : List NodeLine) : ns.length ≤ (nodeLines ns).length := by
  have : ∀ ns : List NodeLine, ns.length ≤ ((ns.map nodeLine).flatten).length := by
    intro ns
    induction ns with
    | nil => simp
    | cons x ns ih =>
      have : 0 < (nodeLine x).length := by simp [nodeLine, crlf]
      simp only [List.map_cons, List.flatten_cons, List.length_append, List.length_cons]
      omega
  have := this ns
  simp only [nodeLines, List.length_append]; omega

/-! ### Command lines -/

theorem noNl_append {a b : Bytes} (ha : ∀ c ∈ a, c ≠ chNl) (hb : ∀ c ∈ b, c ≠ chNl) :
    ∀ c ∈ a ++ b, c ≠ chNl := by
  intro c hc
  rcases List.mem_append.1 hc with h | h
  · exact ha c h
  · exact hb c h

theorem noNl_field {w : Bytes} (hw : ∀ c ∈ w, wordChar c = true) :
    ∀ c ∈ chSpace :: w, c ≠ chNl := by
  intro c hc
  rcases List.mem_cons.1 hc with rfl | h
  · decide
  · exact word_no_nl hw c h

theorem parseServer_word {w t first : Bytes} (hw : ∀ x ∈ w, wordChar x = true) (hn : w ≠ [])
    (hlt : w.head? ≠ some chLt) (ht : Ends t) (hl : w.length < first.length) :
    parseServer (w ++ t) first = .ok (none, w, t) := by
  obtain ⟨q', a, b, _⟩ := scanWord_first hw hn ht hl
  cases w with
  | nil => exact absurd rfl hn
  | cons x w =>
    have hx : x ≠ chLt := by simpa using hlt
    rw [List.cons_append] at a ⊢
    simp only [parseServer, hx, false_and, if_false, a, b]

theorem readNodeCommand_ok {l w t s first second : Bytes} (hl : ∀ c ∈ l, c ≠ chNl)
    (hw : ∀ x ∈ w, wordChar x = true) (hn : w ≠ []) (ht : Ends t)
    (he : l ++ [chNl] = ascii "node" ++ (chSpace :: w ++ t)) (h1 : 4 < first.length)
    (h2 : w.length < second.length) :
    readNodeCommand first second (l ++ crlf ++ s) = .ok (w, t, s) := by
  obtain ⟨q', a, b, _⟩ := scanWord_field (q := second) hw hn ht h2
  have hp := parseServer_word (w := ascii "node") (t := chSpace :: w ++ t) (first := first)
    (ascii_word_ok (by decide)) (by decide) (by decide) (ends_space _) h1
  simp only [readNodeCommand, readLine_crlf hl, he, hp, a, b, ne_eq, not_true_eq_false, if_false]

theorem scanNode_ok {name : Bytes} {port : Int32} {t q : Bytes} (hn : PlainKey name q.length)
    (ht : Ends t) (hq : 32 ≤ q.length) :
    ∃ q', scanNode (chSpace :: name ++ (chSpace :: printInt port ++ t)) q =
      .ok (name, port, t, q') ∧ q'.length = q.length := by
  obtain ⟨q1, a1, b1, c1⟩ := scanWord_field (q := q) (w := name)
    (t := chSpace :: printInt port ++ t) hn.word hn.1 (ends_space _) hn.2.2
  obtain ⟨q2, a2, c2⟩ := scanInt_field (q := q1) (i := port) ht (by omega)
  refine ⟨q2, ?_, by omega⟩
  simp only [scanNode, a1, a2, b1, if_neg hn.1]

/-! ### meta -/

theorem metaInt_field {i : Int32} {t q : Bytes} (ht : Ends t) (hq : 32 ≤ q.length) :
    metaInt (chSpace :: printInt i ++ t) q = .ok (some i) := by
  have hl := printInt_length i
  obtain ⟨q', h1, h2, h3⟩ := scanDigit_field (q := q) (t := t) (printInt_chars i)
    (printInt_ne_nil i) ht (by omega)
  simp only [metaInt, h1, h2, if_neg (printInt_ne_nil i), lexInt_print]

/-- The first two words of a meta line. -/
theorem meta_words {w t q : Bytes} (hw : ∀ x ∈ w, wordChar x = true) (hn : w ≠ [])
    (ht : Ends t) (hl : w.length < q.length) (hq : 32 ≤ q.length) :
    ∃ q1 q2, scanWord (ascii "META" ++ (chSpace :: w ++ t)) q = .ok (chSpace :: w ++ t, q1) ∧
      cstr q1 = ascii "META" ∧ scanWord (chSpace :: w ++ t) q1 = .ok (t, q2) ∧ cstr q2 = w ∧
      q2.length = q.length := by
  obtain ⟨q1, a1, b1, c1⟩ := scanWord_first (q := q) (w := ascii "META")
    (t := chSpace :: w ++ t) (ascii_word_ok (by decide)) (by decide) (ends_space _)
    (by have : (ascii "META").length = 4 := by decide
        omega)
  obtain ⟨q2, a2, b2, c2⟩ := scanWord_field (q := q1) hw hn ht (by omega)
  exact ⟨q1, q2, a1, b1, a2, b2, by omega⟩

/-- One step of reading the answer to `meta`. -/
theorem readMeta_step {l rest q : Bytes} {n : Nat} {v v' : MetaVars} (hl : ∀ c ∈ l, c ≠ chNl)
    (hh : ∃ t, l = ascii "META" ++ t) (hm : metaLine (l ++ [chNl]) q v = .ok v') :
    readMeta q (n + 1) (l ++ crlf ++ rest) v = readMeta q n rest v' := by
  simp only [readMeta, readLine_crlf hl, hm]
  rw [if_neg]
  intro h
  obtain ⟨t, rfl⟩ := hh
  have h' : ∀ t, (cstr (ascii "META" ++ t)).head? = some 77 := fun t => rfl
  have := congrArg List.head? h
  rw [List.append_assoc, h'] at this
  exact absurd this (by decide)

/-- A field that `snprintf` leaves as it is. -/
theorem snprintfBuf_short {b : Bytes} (h : b.length ≤ 8191) : snprintfBuf b = b :=
  List.take_of_length_le h

theorem HashAlgorithm.name_facts (a : HashAlgorithm) :
    (∀ x ∈ a.name, wordChar x = true) ∧ a.name ≠ [] ∧ a.name.length ≤ 8 ∧
      hashAlgorithmCast a.name = some a := by
  cases a <;> decide

theorem ResolverType.name_facts (a : ResolverType) :
    (∀ x ∈ a.name, wordChar x = true) ∧ a.name ≠ [] ∧ a.name.length ≤ 8 ∧
      resolverTypeCast a.name = some a := by
  cases a; decide

theorem Role.name_facts (a : Role) :
    (∀ x ∈ a.name, wordChar x = true) ∧ a.name ≠ [] ∧ a.name.length ≤ 8 ∧
      roleCast a.name = some a := by
  cases a <;> decide

theorem NState.name_facts (a : NState) :
    (∀ x ∈ a.name, wordChar x = true) ∧ a.name ≠ [] ∧ a.name.length ≤ 8 ∧
      stateCast a.name = some a := by
  cases a <;> decide

/-- The five lines of an answer to `meta` as they are read. -/
theorem metaLine_size {i : Int32} {q : Bytes} {v : MetaVars} (hq : 32 ≤ q.length) :
    metaLine (ascii "META" ++ (chSpace :: ascii "partition-size" ++
      (chSpace :: printInt i ++ [chNl]))) q v = .ok { v with partitionSize := i } := by
  obtain ⟨q1, q2, a1, b1, a2, b2, c2⟩ := meta_words (w := ascii "partition-size")
    (t := chSpace :: printInt i ++ [chNl]) (q := q) (ascii_word_ok (by decide)) (by decide)
    (ends_space _) (by have : (ascii "partition-size").length = 14 := by decide
                       omega) hq
  have hm := metaInt_field (i := i) (t := [chNl]) (q := q2) (ends_nl []) (by omega)
  simp only [metaLine, a1, b1, a2, b2, hm]
  rw [if_neg (fun h => h rfl), if_neg (by decide), if_pos trivial]
  rfl

theorem metaLine_hash {a : HashAlgorithm} {q : Bytes} {v : MetaVars} (hq : 32 ≤ q.length) :
    metaLine (ascii "META" ++ (chSpace :: ascii "key-hash-algorithm" ++
      (chSpace :: a.name ++ [chNl]))) q v = .ok { v with hash := a } := by
  obtain ⟨q1, q2, a1, b1, a2, b2, c2⟩ := meta_words (w := ascii "key-hash-algorithm")
    (t := chSpace :: a.name ++ [chNl]) (q := q) (ascii_word_ok (by decide)) (by decide)
    (ends_space _) (by have : (ascii "key-hash-algorithm").length = 18 := by decide
                       omega) hq
  obtain ⟨f1, f2, f3, f4⟩ := a.name_facts
  obtain ⟨q3, a3, b3, c3⟩ := scanWord_field (q := q2) (t := [chNl]) f1 f2 (ends_nl []) (by omega)
  simp only [metaLine, a1, b1, a2, b2, a3, b3, f4]
  rw [if_neg (fun h => h rfl), if_neg (by decide), if_neg (by decide), if_pos trivial]

theorem metaLine_type {a : ResolverType} {q : Bytes} {v : MetaVars} (hq : 32 ≤ q.length) :
    metaLine (ascii "META" ++ (chSpace :: ascii "partition-type" ++
      (chSpace :: a.name ++ [chNl]))) q v = .ok { v with type := some a } := by
  obtain ⟨q1, q2, a1, b1, a2, b2, c2⟩ := meta_words (w := ascii "partition-type")
    (t := chSpace :: a.name ++ [chNl]) (q := q) (ascii_word_ok (by decide)) (by decide)
    (ends_space _) (by have : (ascii "partition-type").length = 14 := by decide
                       omega) hq
  obtain ⟨f1, f2, f3, f4⟩ := a.name_facts
  obtain ⟨q3, a3, b3, c3⟩ := scanWord_field (q := q2) (t := [chNl]) f1 f2 (ends_nl []) (by omega)
  simp only [metaLine, a1, b1, a2, b2, a3, b3, f4]
  rw [if_neg (fun h => h rfl), if_neg (by decide), if_neg (by decide), if_neg (by decide),
    if_pos trivial]

theorem metaLine_hint {i : Int32} {q : Bytes} {v : MetaVars} (hq : 32 ≤ q.length) :
    metaLine (ascii "META" ++ (chSpace :: ascii "partition-modular-hint" ++
      (chSpace :: printInt i ++ [chNl]))) q v = .ok { v with hint := i } := by
  obtain ⟨q1, q2, a1, b1, a2, b2, c2⟩ := meta_words (w := ascii "partition-modular-hint")
    (t := chSpace :: printInt i ++ [chNl]) (q := q) (ascii_word_ok (by decide)) (by decide)
    (ends_space _) (by have : (ascii "partition-modular-hint").length = 22 := by decide
                       omega) hq
  have hm := metaInt_field (i := i) (t := [chNl]) (q := q2) (ends_nl []) (by omega)
  simp only [metaLine, a1, b1, a2, b2, hm]
  rw [if_neg (fun h => h rfl), if_neg (by decide), if_neg (by decide), if_neg (by decide),
    if_neg (by decide), if_pos trivial]
  rfl

theorem metaLine_virtual {i : Int32} {q : Bytes} {v : MetaVars} (hq : 32 ≤ q.length) :
    metaLine (ascii "META" ++ (chSpace :: ascii "partition-modular-virtual" ++
      (chSpace :: printInt i ++ [chNl]))) q v = .ok { v with virtual_ := i } := by
  obtain ⟨q1, q2, a1, b1, a2, b2, c2⟩ := meta_words (w := ascii "partition-modular-virtual")
    (t := chSpace :: printInt i ++ [chNl]) (q := q) (ascii_word_ok (by decide)) (by decide)
    (ends_space _) (by have : (ascii "partition-modular-virtual").length = 25 := by decide
                       omega) hq
  have hm := metaInt_field (i := i) (t := [chNl]) (q := q2) (ends_nl []) (by omega)
  simp only [metaLine, a1, b1, a2, b2, hm]
  rw [if_neg (fun h => h rfl), if_neg (by decide), if_neg (by decide), if_neg (by decide),
    if_neg (by decide), if_neg (by decide), if_pos trivial]
  rfl

theorem meta_split {h w v : Bytes} (hh : h = ascii "META" ++ (chSpace :: w ++ [chSpace])) :
    h ++ v ++ [chNl] = ascii "META" ++ (chSpace :: w ++ (chSpace :: v ++ [chNl])) := by
  subst hh; simp only [List.append_assoc, List.cons_append, List.nil_append]

theorem meta_noNl {h w v : Bytes} (hh : h = ascii "META" ++ (chSpace :: w ++ [chSpace]))
    (hw : ∀ x ∈ w, wordChar x = true) (hv : ∀ x ∈ v, wordChar x = true) :
    ∀ c ∈ h ++ v, c ≠ chNl := by
  subst hh
  exact noNl_append (noNl_append (by decide) (noNl_append (noNl_field hw) (by decide)))
    (word_no_nl hv)

theorem meta_head {h w v : Bytes} (hh : h = ascii "META" ++ (chSpace :: w ++ [chSpace])) :
    ∃ t, h ++ v = ascii "META" ++ t :=
  ⟨(chSpace :: w ++ [chSpace]) ++ v, by subst hh; rw [List.append_assoc]⟩

/-! ### Node keys -/

theorem printInt_noColon (i : Int32) : ∀ c ∈ printInt i, c ≠ chColon := by
  intro c hc h
  subst h
  have hd : ∀ n : Nat, chColon ∉ decimal n := by
    intro n hm
    exact absurd (decimal_digits n _ hm) (by decide)
  simp only [printInt, decimalInt] at hc
  split at hc
  · rcases List.mem_cons.1 hc with h | h
    · exact absurd h (by decide)
    · exact hd _ h
  · exact hd _ hc

/-- A list that ends in a colon and something without colon can be cut in one way only. -/
theorem split_colon {a b c d : Bytes} (hb : ∀ x ∈ b, x ≠ chColon) (hd : ∀ x ∈ d, x ≠ chColon)
    (h : a ++ chColon :: b = c ++ chColon :: d) : a = c ∧ b = d := by
  have hr := congrArg List.reverse h
  simp only [List.reverse_append, List.reverse_cons, List.append_assoc, List.singleton_append]
    at hr
  have tw : ∀ (x y : Bytes), (∀ z ∈ x, z ≠ chColon) →
      (x.reverse ++ chColon :: y).takeWhile (· ≠ chColon) = x.reverse := by
    intro x y hx
    rw [List.takeWhile_append_of_pos (fun z hz => by simpa using hx z (by simpa using hz))]
    simp
  have h1 := congrArg (List.takeWhile (· ≠ chColon)) hr
  rw [tw b _ hb, tw d _ hd] at h1
  have h2 : b = d := List.reverse_inj.1 h1
  subst h2
  have h3 := List.append_cancel_left hr
  exact ⟨List.reverse_inj.1 (List.cons.inj h3).2, rfl⟩

end Flare
