import Verif.Model.Archive
import Verif.Lemmas.Decimal
import Verif.Lemmas.Text

/-! Lemmas about the stored text: a reader that takes exactly what was written, and refuses every part of it. -/
namespace Flare

/-- `u` is a beginning of `w`, and not all of it. -/
def Cut (u w : Bytes) : Prop := ∃ t, t ≠ [] ∧ u ++ t = w

theorem cut_append {u a b : Bytes} (h : Cut u (a ++ b)) : Cut u a ∨ ∃ t, u = a ++ t ∧ Cut t b := by
  obtain ⟨t, ht, h⟩ := h
  rcases List.append_eq_append_iff.1 h with ⟨c, hc, hb⟩ | ⟨c, hc, hb⟩
  · by_cases hn : c = []
    · subst hn
      refine .inr ⟨[], ?_, t, ht, ?_⟩
      · simpa using hc.symm
      · simpa using hb
    · exact .inl ⟨c, hn, hc.symm⟩
  · exact .inr ⟨c, hc, t, ht, hb.symm⟩

theorem cut_mem {u w : Bytes} (h : Cut u w) {c : UInt8} (hc : c ∈ u) : c ∈ w := by
  obtain ⟨t, _, rfl⟩ := h; simp [hc]

theorem cut_length {u w : Bytes} (h : Cut u w) : u.length < w.length := by
  obtain ⟨t, ht, rfl⟩ := h
  have := List.length_pos_iff.2 ht
  simp; omega

theorem cut_nil {u : Bytes} (h : Cut u []) : False := by have := cut_length h; simp at this

theorem cut_snoc {u w : Bytes} {c : UInt8} (h : Cut u (w ++ [c])) : ∃ t, u ++ t = w := by
  rcases cut_append h with ⟨t, _, h⟩ | ⟨t, rfl, h⟩
  · exact ⟨t, h⟩
  · have := cut_length h
    have : t = [] := List.length_eq_zero_iff.1 (by simpa using this)
    exact ⟨[], by simp [this]⟩

theorem cut_take {w : Bytes} {n : Nat} (h : n < w.length) : Cut (w.take n) w :=
  ⟨w.drop n, by simp [List.drop_eq_nil_iff]; omega, List.take_append_drop n w⟩

/-- Takes exactly `w`, and refuses every beginning of it. -/
def Tight {α : Type} (p : Bytes → Option (α × Bytes)) (w : Bytes) (v : α) : Prop :=
  (∀ rest, p (w ++ rest) = some (v, rest)) ∧ ∀ u, Cut u w → p u = none

theorem Tight.bind {α β : Type} {p : Bytes → Option (α × Bytes)} {q : α → Bytes → Option (β × Bytes)} {w w' : Bytes}
    {v : α} {v' : β} (h : Tight p w v) (h' : Tight (q v) w' v') :
    Tight (fun s => (p s).bind fun x => q x.1 x.2) (w ++ w') v' := by
  refine ⟨fun rest => ?_, fun u hu => ?_⟩
  · simp only [List.append_assoc, h.1, Option.bind_some, h'.1]
  · rcases cut_append hu with hu | ⟨t, rfl, ht⟩
    · simp only [h.2 u hu, Option.bind_none]
    · simp only [h.1, Option.bind_some, h'.2 t ht]

theorem Tight.map {α β : Type} {p : Bytes → Option (α × Bytes)} {w : Bytes} {v : α} (h : Tight p w v) (f : α → β) :
    Tight (fun s => (p s).bind fun x => some (f x.1, x.2)) w (f v) :=
  ⟨fun rest => by simp only [h.1, Option.bind_some], fun u hu => by simp only [h.2 u hu, Option.bind_none]⟩

/-! ### Tags -/

def Blanks (b : Bytes) : Prop := ∀ c ∈ b, xmlBlank c = true

theorem blanks_indent (d : Nat) : Blanks (xmlIndent d) := by
  intro c hc
  rcases List.mem_cons.1 hc with rfl | hc
  · decide
  · rw [(List.mem_replicate.1 hc).2]; decide

theorem dropWhile_blanks {b s : Bytes} (h : Blanks b) : (b ++ s).dropWhile xmlBlank = s.dropWhile xmlBlank := by
  induction b with
  | nil => rfl
  | cons c b ih =>
    rw [List.cons_append, List.dropWhile_cons, if_pos (h c (by simp))]
    exact ih (fun x hx => h x (by simp [hx]))

theorem dropWhile_all {b : Bytes} (h : Blanks b) : b.dropWhile xmlBlank = [] := by
  have := dropWhile_blanks (s := []) h
  simpa using this

theorem upTo_hit {c : UInt8} {a : Bytes} (h : c ∉ a) (rest : Bytes) : xmlUpTo c (a ++ c :: rest) = some (a, rest) := by
  have h1 : (a ++ c :: rest).dropWhile (· ≠ c) = c :: rest := by
    induction a with
    | nil => simp
    | cons x a ih =>
      rw [List.cons_append, List.dropWhile_cons, if_pos (by
        have : x ≠ c := fun e => h (by simp [e])
        simpa using this)]
      exact ih (fun hx => h (by simp [hx]))
  have h2 : (a ++ c :: rest).takeWhile (· ≠ c) = a := by
    clear h1
    induction a with
    | nil => simp
    | cons x a ih =>
      rw [List.cons_append, List.takeWhile_cons, if_pos (by
        have : x ≠ c := fun e => h (by simp [e])
        simpa using this)]
      rw [ih (fun hx => h (by simp [hx]))]
  simp only [xmlUpTo, h1, h2]

theorem upTo_miss {c : UInt8} {a : Bytes} (h : c ∉ a) : xmlUpTo c a = none := by
  have h1 : a.dropWhile (· ≠ c) = [] := by
    induction a with
    | nil => simp
    | cons x a ih =>
      rw [List.dropWhile_cons, if_pos (by
        have : x ≠ c := fun e => h (by simp [e])
        simpa using this)]
      exact ih (fun hx => h (by simp [hx]))
  simp only [xmlUpTo, h1]

/-- A name and what follows it in a tag. -/
structure TagOk (name more : Bytes) : Prop where
  start : ∃ c t, name = c :: t ∧ xmlNameStart c = true
  gtName : chGt ∉ name
  gtMore : chGt ∉ more

theorem start_open {b name more : Bytes} (hb : Blanks b) (h : TagOk name more) (rest : Bytes) :
    xmlStart (b ++ (xmlOpen name more ++ rest)) = some rest := by
  obtain ⟨c, t, rfl, hc⟩ := h.start
  have e : (b ++ (xmlOpen (c :: t) more ++ rest)).dropWhile xmlBlank = 60 :: c :: (t ++ more ++ chGt :: rest) := by
    rw [dropWhile_blanks hb]
    have : xmlOpen (c :: t) more ++ rest = 60 :: c :: (t ++ more ++ chGt :: rest) := by simp [xmlOpen]
    rw [this, List.dropWhile_cons, if_neg (by decide)]
  unfold xmlStart
  rw [e]
  simp only [hc, if_true]
  have hm : chGt ∉ c :: (t ++ more) := by
    have h1 := h.gtName
    have h2 := h.gtMore
    simp only [List.mem_cons, List.mem_append, not_or] at h1 ⊢
    exact ⟨h1.1, h1.2, h2⟩
  have := upTo_hit hm rest
  rw [List.cons_append] at this
  rw [this]; rfl

theorem start_cut {b name more u : Bytes} (hb : Blanks b) (h : TagOk name more) (hu : Cut u (b ++ xmlOpen name more)) :
    xmlStart u = none := by
  rcases cut_append hu with hu | ⟨t, rfl, ht⟩
  · have : Blanks u := fun c hc => hb c (cut_mem hu hc)
    unfold xmlStart
    rw [dropWhile_all this]
  · unfold xmlStart
    rw [dropWhile_blanks hb]
    have : Cut t ((chLt :: name ++ more) ++ [chGt]) := ht
    obtain ⟨r, hr⟩ := cut_snoc this
    have hm : chGt ∉ t := by
      intro hc
      have : chGt ∈ chLt :: name ++ more := hr ▸ List.mem_append_left _ hc
      simp only [List.cons_append, List.mem_cons, List.mem_append] at this
      rcases this with e | e | e
      · exact absurd e (by decide)
      · exact h.gtName e
      · exact h.gtMore e
    cases t with
    | nil => rfl
    | cons x t =>
      obtain ⟨rfl, hr⟩ : x = chLt ∧ t ++ r = name ++ more := by simpa using hr
      rw [List.dropWhile_cons, if_neg (by decide)]
      cases t with
      | nil => rfl
      | cons y t =>
        show (if xmlNameStart y then _ else none) = none
        split
        · rw [upTo_miss (fun hc => hm (by simp at hc ⊢; exact .inr hc))]; rfl
        · rfl

theorem end_shut {b name : Bytes} (hb : Blanks b) (h : chGt ∉ name) (rest : Bytes) :
    xmlEnd (b ++ (xmlShut name ++ rest)) = some (name, rest) := by
  have e : (b ++ (xmlShut name ++ rest)).dropWhile xmlBlank = 60 :: 47 :: (name ++ chGt :: rest) := by
    rw [dropWhile_blanks hb]
    have : xmlShut name ++ rest = 60 :: 47 :: (name ++ chGt :: rest) := by simp [xmlShut]
    rw [this, List.dropWhile_cons, if_neg (by decide)]
  unfold xmlEnd
  rw [e]
  exact upTo_hit h rest

theorem end_cut {b name u : Bytes} (hb : Blanks b) (h : chGt ∉ name) (hu : Cut u (b ++ xmlShut name)) : xmlEnd u = none := by
  rcases cut_append hu with hu | ⟨t, rfl, ht⟩
  · have : Blanks u := fun c hc => hb c (cut_mem hu hc)
    unfold xmlEnd
    rw [dropWhile_all this]
  · unfold xmlEnd
    rw [dropWhile_blanks hb]
    have : Cut t ((chLt :: 47 :: name) ++ [chGt]) := ht
    obtain ⟨r, hr⟩ := cut_snoc this
    have hm : chGt ∉ t := by
      intro hc
      have : chGt ∈ chLt :: 47 :: name := hr ▸ List.mem_append_left _ hc
      simp only [List.mem_cons] at this
      rcases this with e | e | e
      · exact absurd e (by decide)
      · exact absurd e (by decide)
      · exact h e
    cases t with
    | nil => rfl
    | cons x t =>
      obtain ⟨rfl, hr⟩ : x = chLt ∧ t ++ r = 47 :: name := by simpa using hr
      rw [List.dropWhile_cons, if_neg (by decide)]
      cases t with
      | nil => rfl
      | cons y t =>
        obtain ⟨rfl, hr⟩ : y = 47 ∧ t ++ r = name := by simpa using hr
        exact upTo_miss (fun hc => hm (List.mem_cons_of_mem _ (List.mem_cons_of_mem _ hc)))

/-- Contents and end tag. -/
def xmlBody {α : Type} (name : Bytes) (p : Bytes → Option (α × Bytes)) (s : Bytes) : Option (α × Bytes) :=
  (p s).bind fun (x, s) => (xmlEnd s).bind fun (n, s) => if n = name then some (x, s) else none

theorem tight_member {α : Type} {p : Bytes → Option (α × Bytes)} {b name more body : Bytes} {v : α} (hb : Blanks b)
    (h : TagOk name more) (ht : Tight (xmlBody name p) body v) :
    Tight (xmlMember name p) (b ++ (xmlOpen name more ++ body)) v := by
  refine ⟨fun rest => ?_, fun u hu => ?_⟩
  · have e : b ++ (xmlOpen name more ++ body) ++ rest = b ++ (xmlOpen name more ++ (body ++ rest)) := by simp
    unfold xmlMember
    rw [e, start_open hb h]
    exact ht.1 rest
  · rw [← List.append_assoc] at hu
    unfold xmlMember
    rcases cut_append hu with hu | ⟨t, rfl, hc⟩
    · rw [start_cut hb h hu]; rfl
    · rw [List.append_assoc, start_open hb h]
      exact ht.2 t hc

/-- The contents are tight themselves. -/
theorem tight_body {α : Type} {p : Bytes → Option (α × Bytes)} {b name body : Bytes} {v : α} (hb : Blanks b)
    (h : chGt ∉ name) (ht : Tight p body v) : Tight (xmlBody name p) (body ++ (b ++ xmlShut name)) v := by
  refine ⟨fun rest => ?_, fun u hu => ?_⟩
  · unfold xmlBody
    rw [List.append_assoc, List.append_assoc, ht.1, Option.bind_some]
    show (xmlEnd _).bind _ = _
    rw [end_shut hb h]
    simp
  · unfold xmlBody
    rcases cut_append hu with hu | ⟨t, rfl, hc⟩
    · rw [ht.2 u hu]; rfl
    · rw [ht.1, Option.bind_some]
      show (xmlEnd _).bind _ = _
      rw [end_cut hb h hc]; rfl

/-- The contents end where a tag begins. -/
theorem tight_body_lt {α : Type} {p : Bytes → Option (α × Bytes)} {name body : Bytes} {v : α} (h : chGt ∉ name)
    (h1 : ∀ r, p (body ++ chLt :: r) = some (v, chLt :: r))
    (h2 : ∀ u, (∃ t, u ++ t = body) → p u = none ∨ ∃ x, p u = some (x, [])) :
    Tight (xmlBody name p) (body ++ xmlShut name) v := by
  have hsh : ∀ r, xmlShut name ++ r = chLt :: (47 :: name ++ [chGt] ++ r) := fun r => by simp [xmlShut]
  have hend : ∀ r, xmlEnd (xmlShut name ++ r) = some (name, r) := fun r => end_shut (b := []) (by simp [Blanks]) h r
  refine ⟨fun rest => ?_, fun u hu => ?_⟩
  · unfold xmlBody
    rw [List.append_assoc, hsh, h1, Option.bind_some]
    show (xmlEnd _).bind _ = _
    rw [← hsh, hend]
    simp
  · have hpart : ∀ u, (∃ t, u ++ t = body) → xmlBody name p u = none := by
      intro u hu
      unfold xmlBody
      rcases h2 u hu with e | ⟨x, e⟩
      · rw [e]; rfl
      · rw [e]; rfl
    rcases cut_append hu with ⟨t, _, hu⟩ | ⟨t, rfl, hc⟩
    · exact hpart u ⟨t, hu⟩
    · cases t with
      | nil => rw [List.append_nil]; exact hpart body ⟨[], by simp⟩
      | cons x t =>
        have hx : x = chLt := by
          obtain ⟨r, _, hr⟩ := hc
          have : x :: (t ++ r) = chLt :: (47 :: name ++ [chGt]) := by simpa [xmlShut] using hr
          exact (List.cons.inj this).1
        subst hx
        unfold xmlBody
        rw [h1, Option.bind_some]
        show (xmlEnd _).bind _ = _
        rw [end_cut (b := []) (by simp [Blanks]) h hc]; rfl

/-! ### Contents -/

theorem plain_ok : ∀ (s : Bytes) (n : Nat), (xmlText s).length ≤ n → xmlPlain n (xmlText s) = some s := by
  intro s
  induction s with
  | nil => intro n _; cases n <;> simp [xmlText, xmlPlain]
  | cons c s ih =>
    intro n hn
    have e : xmlText (c :: s) = xmlChar c ++ xmlText s := by simp [xmlText]
    rw [e] at hn ⊢
    cases n with
    | zero =>
      exfalso
      have : 0 < (xmlChar c).length := by
        unfold xmlChar
        repeat' split
        all_goals simp [ascii]
      simp at hn
      have := hn.1
      simp_all
    | succ n =>
      have hle : ∀ k, k ≤ (xmlChar c).length → 0 < k → (xmlText s).length ≤ n := by
        intro k hk h0
        simp at hn; omega
      by_cases h1 : c = 60
      · subst h1
        have : (xmlText s).length ≤ n := by
          have : (xmlChar 60).length = 4 := by decide
          simp at hn; omega
        have e : xmlChar 60 = [38, 108, 116, 59] := by decide
        rw [e]
        simp [xmlPlain, ascii, ih n this]
      by_cases h2 : c = 62
      · subst h2
        have : (xmlText s).length ≤ n := by
          have : (xmlChar 62).length = 4 := by decide
          simp at hn; omega
        have e : xmlChar 62 = [38, 103, 116, 59] := by decide
        rw [e]
        simp [xmlPlain, ascii, ih n this]
      by_cases h3 : c = 38
      · subst h3
        have : (xmlText s).length ≤ n := by
          have : (xmlChar 38).length = 5 := by decide
          simp at hn; omega
        have e : xmlChar 38 = [38, 97, 109, 112, 59] := by decide
        rw [e]
        simp [xmlPlain, ascii, ih n this]
      by_cases h4 : c = 34
      · subst h4
        have : (xmlText s).length ≤ n := by
          have : (xmlChar 34).length = 6 := by decide
          simp at hn; omega
        have e : xmlChar 34 = [38, 113, 117, 111, 116, 59] := by decide
        rw [e]
        simp [xmlPlain, ascii, ih n this]
      by_cases h5 : c = 39
      · subst h5
        have : (xmlText s).length ≤ n := by
          have : (xmlChar 39).length = 6 := by decide
          simp at hn; omega
        have e : xmlChar 39 = [38, 97, 112, 111, 115, 59] := by decide
        rw [e]
        simp [xmlPlain, ascii, ih n this]
      have e : xmlChar c = [c] := by simp [xmlChar, h1, h2, h3, h4, h5]
      have : (xmlText s).length ≤ n := by rw [e] at hn; simp at hn; omega
      rw [e]
      simp [xmlPlain, h3, ih n this]

theorem text_lt (s : Bytes) : chLt ∉ xmlText s := by
  intro h
  obtain ⟨c, _, hc⟩ := List.mem_flatMap.1 h
  unfold xmlChar at hc
  split at hc
  · exact absurd hc (by decide)
  split at hc
  · exact absurd hc (by decide)
  split at hc
  · exact absurd hc (by decide)
  split at hc
  · exact absurd hc (by decide)
  split at hc
  · exact absurd hc (by decide)
  rename_i h1 _ _ _ _
  exact h1 (List.mem_singleton.1 hc).symm

theorem while_lt {a : Bytes} (h : chLt ∉ a) (rest : Bytes) :
    (a ++ chLt :: rest).dropWhile (· ≠ chLt) = chLt :: rest ∧ (a ++ chLt :: rest).takeWhile (· ≠ chLt) = a := by
  induction a with
  | nil => simp
  | cons x a ih =>
    have hx : (decide (x ≠ chLt)) = true := by
      have : x ≠ chLt := fun e => h (by simp [e])
      simpa using this
    have := ih (fun hx => h (by simp [hx]))
    rw [List.cons_append, List.dropWhile_cons, List.takeWhile_cons, if_pos hx, if_pos hx, this.1, this.2]
    exact ⟨rfl, rfl⟩

theorem string_text (s r : Bytes) : xmlString (xmlText s ++ chLt :: r) = some (s, chLt :: r) := by
  obtain ⟨h1, h2⟩ := while_lt (text_lt s) r
  unfold xmlString
  rw [h1]
  simp only [h2, plain_ok s _ (Nat.le_refl _), Option.map_some]

theorem string_part {u w : Bytes} (hw : chLt ∉ w) (h : ∃ t, u ++ t = w) : xmlString u = none := by
  obtain ⟨t, rfl⟩ := h
  have : u.dropWhile (· ≠ chLt) = [] := by
    have hu : chLt ∉ u := fun hc => hw (by simp [hc])
    clear hw
    induction u with
    | nil => rfl
    | cons x u ih =>
      have hx : (decide (x ≠ chLt)) = true := by
        have : x ≠ chLt := fun e => hu (by simp [e])
        simpa using this
      rw [List.dropWhile_cons, if_pos hx]
      exact ih (fun hc => hu (by simp [hc]))
  unfold xmlString
  rw [this]

theorem tight_string {name : Bytes} (h : chGt ∉ name) (s : Bytes) :
    Tight (xmlBody name xmlString) (xmlText s ++ xmlShut name) s :=
  tight_body_lt h (string_text s) (fun _ hu => .inl (string_part (text_lt s) hu))

theorem dropWhile_digits {d rest : Bytes} (hd : ∀ c ∈ d, isDigit c = true)
    (hr : ∀ c, rest.head? = some c → isDigit c = false) : (d ++ rest).dropWhile isDigit = rest := by
  induction d with
  | nil =>
    cases rest with
    | nil => rfl
    | cons c rest => simp [hr c rfl]
  | cons x d ih =>
    rw [List.cons_append, List.dropWhile_cons, if_pos (hd x (by simp))]
    exact ih (fun c hc => hd c (by simp [hc]))

theorem digit_not_blank {c : UInt8} (h : isDigit c = true) : xmlBlank c = false := by
  have := isDigit_iff.1 h
  have e : ∀ x : UInt8, x.toNat < 48 → c ≠ x := fun x hx e => by subst e; omega
  simp [xmlBlank, e 32 (by decide), e 9 (by decide), e 10 (by decide), e 13 (by decide)]

theorem noblank_digits {d rest : Bytes} (hd : ∀ c ∈ d, isDigit c = true) (hr : ∀ c, rest.head? = some c → xmlBlank c = false) :
    (d ++ rest).dropWhile xmlBlank = d ++ rest := by
  cases d with
  | nil =>
    cases rest with
    | nil => rfl
    | cons c rest => rw [List.nil_append, List.dropWhile_cons, hr c rfl]; rfl
  | cons x d =>
    rw [List.cons_append, List.dropWhile_cons, digit_not_blank (hd x (by simp))]; rfl

theorem nat_lt {n : Nat} (hn : n < 2 ^ 64) (r : Bytes) : xmlNat (decimal n ++ chLt :: r) = some (n, chLt :: r) := by
  have hd := decimal_digits n
  have hne := decimal_ne_nil n
  have hr : ∀ c, (chLt :: r).head? = some c → isDigit c = false := by
    intro c hc; obtain rfl : chLt = c := by simpa using hc
    decide
  have hb : ∀ c, (chLt :: r).head? = some c → xmlBlank c = false := by
    intro c hc; obtain rfl : chLt = c := by simpa using hc
    decide
  have : ¬ (2 ^ 64 ≤ n) := by omega
  unfold xmlNat
  simp only [noblank_digits hd hb, takeWhile_digits hd hr, dropWhile_digits hd hr, decValue_decimal]
  rw [if_neg]
  simp only [Bool.or_eq_true, List.isEmpty_iff, decide_eq_true_eq, not_or]
  exact ⟨hne, this⟩

theorem nat_part {u w : Bytes} (hw : ∀ c ∈ w, isDigit c = true) (h : ∃ t, u ++ t = w) :
    xmlNat u = none ∨ ∃ x, xmlNat u = some (x, []) := by
  obtain ⟨t, rfl⟩ := h
  have hu : ∀ c ∈ u, isDigit c = true := fun c hc => hw c (by simp [hc])
  have e1 : u.dropWhile xmlBlank = u := by
    have := noblank_digits (rest := []) hu (fun c hc => by simp at hc)
    simpa using this
  have e2 : u.dropWhile isDigit = [] := by
    have := dropWhile_digits (rest := []) hu (fun c hc => by simp at hc)
    simpa using this
  unfold xmlNat
  simp only [e1, e2]
  split
  · exact .inl rfl
  · exact .inr ⟨_, rfl⟩

theorem tight_nat {name : Bytes} (h : chGt ∉ name) {n : Nat} (hn : n < 2 ^ 64) :
    Tight (xmlBody name xmlNat) (decimal n ++ xmlShut name) n :=
  tight_body_lt h (nat_lt hn) (fun _ hu => nat_part (decimal_digits n) hu)

/-- What an `int` can be. -/
def IntOk (i : Int) : Prop := -2147483648 ≤ i ∧ i ≤ 2147483647

theorem int_lt {i : Int} (hi : IntOk i) (r : Bytes) : xmlInt (decimalInt i ++ chLt :: r) = some (i, chLt :: r) := by
  have hd := decimal_digits i.natAbs
  have hne := decimal_ne_nil i.natAbs
  have hr : ∀ c, (chLt :: r).head? = some c → isDigit c = false := by
    intro c hc; obtain rfl : chLt = c := by simpa using hc
    decide
  have hb : ∀ c, (chLt :: r).head? = some c → xmlBlank c = false := by
    intro c hc; obtain rfl : chLt = c := by simpa using hc
    decide
  unfold IntOk at hi
  unfold xmlInt decimalInt
  by_cases h0 : i < 0
  · have e1 : (chMinus :: decimal i.natAbs ++ chLt :: r).dropWhile xmlBlank = chMinus :: (decimal i.natAbs ++ chLt :: r) := by
      rw [List.cons_append, List.dropWhile_cons, if_neg (by decide)]
    simp only [if_pos h0, e1, List.head?_cons, if_true, List.drop_succ_cons, List.drop_zero,
      takeWhile_digits hd hr, dropWhile_digits hd hr, decValue_decimal]
    rw [if_neg (by simpa using hne)]
    have e : -(i.natAbs : Int) = i := by omega
    rw [e, if_neg (by omega)]
  · simp only [if_neg h0, noblank_digits hd hb]
    have hm : (decimal i.natAbs ++ chLt :: r).head? ≠ some chMinus := by
      cases e : decimal i.natAbs with
      | nil => exact absurd e hne
      | cons x d =>
        have hx : isDigit x = true := hd x (by rw [e]; simp)
        intro hc
        obtain rfl : x = chMinus := by simpa using hc
        exact absurd hx (by decide)
    simp only [hm, if_false, Bool.false_eq_true, takeWhile_digits hd hr, dropWhile_digits hd hr, decValue_decimal]
    rw [if_neg (by simpa using hne)]
    have e : (i.natAbs : Int) = i := by omega
    rw [e, if_neg (by omega)]

theorem int_part {u : Bytes} {i : Int} (h : ∃ t, u ++ t = decimalInt i) : xmlInt u = none ∨ ∃ x, xmlInt u = some (x, []) := by
  obtain ⟨t, h⟩ := h
  have hd := decimal_digits i.natAbs
  have key : ∀ (neg : Bool) (d : Bytes), (∀ c ∈ d, isDigit c = true) → u = (if neg then [chMinus] else []) ++ d →
      xmlInt u = none ∨ ∃ x, xmlInt u = some (x, []) := by
    intro neg d hdd e
    have e2 : d.dropWhile isDigit = [] := by
      have := dropWhile_digits (rest := []) hdd (fun c hc => by simp at hc)
      simpa using this
    have e1 : d.dropWhile xmlBlank = d := by
      have := noblank_digits (rest := []) hdd (fun c hc => by simp at hc)
      simpa using this
    have hm : d.head? ≠ some chMinus := by
      cases d with
      | nil => simp
      | cons x d =>
        intro hc
        obtain rfl : x = chMinus := by simpa using hc
        exact absurd (hdd chMinus (by simp)) (by decide)
    subst e
    unfold xmlInt
    cases neg with
    | true =>
      have e1 : ([chMinus] ++ d).dropWhile xmlBlank = chMinus :: d := by
        rw [List.cons_append, List.dropWhile_cons, if_neg (by decide), List.nil_append]
      simp only [if_true, e1, List.head?_cons, decide_true, List.drop_succ_cons, List.drop_zero, e2]
      split
      · exact .inl rfl
      · split
        · exact .inl rfl
        · exact .inr ⟨_, rfl⟩
    | false =>
      simp only [Bool.false_eq_true, if_false, List.nil_append, e1, hm, decide_false, e2]
      split
      · exact .inl rfl
      · split
        · exact .inl rfl
        · exact .inr ⟨_, rfl⟩
  unfold decimalInt at h
  split at h
  · cases u with
    | nil => exact key false [] (by simp) (by simp)
    | cons x u =>
      obtain ⟨rfl, h'⟩ : x = chMinus ∧ u ++ t = decimal i.natAbs := by simpa using h
      exact key true u (fun c hc => hd c (by rw [← h']; simp [hc])) (by simp)
  · exact key false u (fun c hc => hd c (by rw [← h]; simp [hc])) (by simp)

theorem tight_int {name : Bytes} (h : chGt ∉ name) {i : Int} (hi : IntOk i) :
    Tight (xmlBody name xmlInt) (decimalInt i ++ xmlShut name) i :=
  tight_body_lt h (int_lt hi) (fun _ hu => int_part hu)

/-! ### Members -/

theorem tight_leaf_text (d : Nat) {name : Bytes} (h : TagOk name []) (s : Bytes) :
    Tight (xmlMember name xmlString) (xmlLeaf d name (xmlText s)) s :=
  tight_member (blanks_indent d) h (tight_string h.gtName s)

theorem tight_leaf_nat (d : Nat) {name : Bytes} (h : TagOk name []) {n : Nat} (hn : n < 2 ^ 64) :
    Tight (xmlMember name xmlNat) (xmlLeaf d name (decimal n)) n :=
  tight_member (blanks_indent d) h (tight_nat h.gtName hn)

theorem tight_leaf_int (d : Nat) {name : Bytes} (h : TagOk name []) {i : Int} (hi : IntOk i) :
    Tight (xmlMember name xmlInt) (xmlLeaf d name (decimalInt i)) i :=
  tight_member (blanks_indent d) h (tight_int h.gtName hi)

theorem tight_tree {α : Type} {p : Bytes → Option (α × Bytes)} (d : Nat) {name more body : Bytes} {v : α}
    (h : TagOk name more) (ht : Tight p body v) : Tight (xmlMember name p) (xmlTree d name more body) v :=
  tight_member (blanks_indent d) h (tight_body (blanks_indent d) h.gtName ht)

theorem tagOk_of {name more : Bytes} (h : (∃ c t, name = c :: t ∧ xmlNameStart c = true) ∧ chGt ∉ name ∧ chGt ∉ more) :
    TagOk name more := ⟨h.1, h.2.1, h.2.2⟩

/-- The numbers of a node fit an `int`. -/
structure NodeFits (n : ArcNode) : Prop where
  port : IntOk n.port
  role : IntOk n.role
  state : IntOk n.state
  partition : IntOk n.partition
  balance : IntOk n.balance
  threadType : IntOk n.threadType

theorem tight_fields {n : ArcNode} (h : NodeFits n) : Tight arcReadFields (arcFields n) n := by
  have ok : ∀ {name : Bytes}, name.head?.any xmlNameStart = true ∧ chGt ∉ name → TagOk name [] := by
    intro name h
    cases name with
    | nil => exact absurd h.1 (by simp)
    | cons c t => exact ⟨⟨c, t, rfl, by simpa using h.1⟩, h.2, by simp⟩
  have h1 := tight_leaf_text 3 (ok (name := ascii "node_server_name") (by decide)) n.name
  have h2 := tight_leaf_int 3 (ok (name := ascii "node_server_port") (by decide)) h.port
  have h3 := tight_leaf_int 3 (ok (name := ascii "node_role") (by decide)) h.role
  have h4 := tight_leaf_int 3 (ok (name := ascii "node_state") (by decide)) h.state
  have h5 := tight_leaf_int 3 (ok (name := ascii "node_partition") (by decide)) h.partition
  have h6 := tight_leaf_int 3 (ok (name := ascii "node_balance") (by decide)) h.balance
  have h7 := tight_leaf_int 3 (ok (name := ascii "node_thread_type") (by decide)) h.threadType
  have k7 := h7.map (fun t => (⟨n.name, n.port, n.role, n.state, n.partition, n.balance, t⟩ : ArcNode))
  have k6 := h6.bind (q := fun b s => (xmlMember (ascii "node_thread_type") xmlInt s).bind fun x =>
    some ((⟨n.name, n.port, n.role, n.state, n.partition, b, x.1⟩ : ArcNode), x.2)) k7
  have k5 := h5.bind (q := fun p s => (xmlMember (ascii "node_balance") xmlInt s).bind fun b =>
    (xmlMember (ascii "node_thread_type") xmlInt b.2).bind fun x =>
    some ((⟨n.name, n.port, n.role, n.state, p, b.1, x.1⟩ : ArcNode), x.2)) k6
  have k4 := h4.bind (q := fun st s => (xmlMember (ascii "node_partition") xmlInt s).bind fun p =>
    (xmlMember (ascii "node_balance") xmlInt p.2).bind fun b =>
    (xmlMember (ascii "node_thread_type") xmlInt b.2).bind fun x =>
    some ((⟨n.name, n.port, n.role, st, p.1, b.1, x.1⟩ : ArcNode), x.2)) k5
  have k3 := h3.bind (q := fun r s => (xmlMember (ascii "node_state") xmlInt s).bind fun st =>
    (xmlMember (ascii "node_partition") xmlInt st.2).bind fun p =>
    (xmlMember (ascii "node_balance") xmlInt p.2).bind fun b =>
    (xmlMember (ascii "node_thread_type") xmlInt b.2).bind fun x =>
    some ((⟨n.name, n.port, r, st.1, p.1, b.1, x.1⟩ : ArcNode), x.2)) k4
  have k2 := h2.bind (q := fun po s => (xmlMember (ascii "node_role") xmlInt s).bind fun r =>
    (xmlMember (ascii "node_state") xmlInt r.2).bind fun st =>
    (xmlMember (ascii "node_partition") xmlInt st.2).bind fun p =>
    (xmlMember (ascii "node_balance") xmlInt p.2).bind fun b =>
    (xmlMember (ascii "node_thread_type") xmlInt b.2).bind fun x =>
    some ((⟨n.name, po, r.1, st.1, p.1, b.1, x.1⟩ : ArcNode), x.2)) k3
  exact h1.bind (q := fun nm s => (xmlMember (ascii "node_server_port") xmlInt s).bind fun po =>
    (xmlMember (ascii "node_role") xmlInt po.2).bind fun r =>
    (xmlMember (ascii "node_state") xmlInt r.2).bind fun st =>
    (xmlMember (ascii "node_partition") xmlInt st.2).bind fun p =>
    (xmlMember (ascii "node_balance") xmlInt p.2).bind fun b =>
    (xmlMember (ascii "node_thread_type") xmlInt b.2).bind fun x =>
    some ((⟨nm, po.1, r.1, st.1, p.1, b.1, x.1⟩ : ArcNode), x.2)) k2

theorem class_gt (first : Bool) {id : Bytes} (h : chGt ∉ id) : chGt ∉ arcClass first id := by
  unfold arcClass
  split
  · simp only [List.mem_append, not_or]
    exact ⟨⟨by decide, h⟩, by decide⟩
  · simp

theorem tight_item (first : Bool) {e : Bytes × ArcNode} (h : NodeFits e.2) : Tight arcReadItem (arcItem first e) e := by
  have h1 := tight_leaf_text 2 (name := ascii "first") ⟨⟨102, ascii "irst", by decide, by decide⟩, by decide, by simp⟩ e.1
  have h2 := tight_tree 2 (name := ascii "second") (more := arcClass first (ascii "2"))
    ⟨⟨115, ascii "econd", by decide, by decide⟩, by decide, class_gt first (by decide)⟩ (tight_fields h)
  have k2 := h2.map (fun n => (e.1, n))
  have k1 := h1.bind (q := fun k s => (xmlMember (ascii "second") arcReadFields s).bind fun x => some ((k, x.1), x.2)) k2
  exact tight_tree 1 (name := ascii "item") (more := arcClass first (ascii "1"))
    ⟨⟨105, ascii "tem", by decide, by decide⟩, by decide, class_gt first (by decide)⟩ k1

/-! ### The map -/

/-- All keys different. -/
def Distinct : List (Bytes × ArcNode) → Prop
  | [] => True
  | e :: l => (∀ x ∈ l, x.1 ≠ e.1) ∧ Distinct l

theorem items_all : ∀ (l : List (Bytes × ArcNode)) (first : Bool) (done : List (Bytes × ArcNode)) (rest : Bytes),
    (∀ e ∈ l, NodeFits e.2) → Distinct l → (∀ e ∈ l, ∀ x ∈ done, x.1 ≠ e.1) →
    arcReadItems l.length (arcItems first l ++ rest) done = (done ++ l, some rest) := by
  intro l
  induction l with
  | nil => intro first done rest _ _ _; simp [arcReadItems, arcItems]
  | cons e l ih =>
    intro first done rest hf hd hx
    have e1 : arcItems first (e :: l) ++ rest = arcItem first e ++ (arcItems false l ++ rest) := by simp [arcItems]
    have hi : arcInsert done e = done ++ [e] := by
      unfold arcInsert
      rw [if_neg]
      simp only [List.any_eq_true, decide_eq_true_eq, not_exists, not_and]
      exact fun x hm => hx e (by simp) x hm
    rw [e1]
    simp only [List.length_cons, arcReadItems, (tight_item first (hf e (by simp))).1, hi]
    rw [ih false (done ++ [e]) rest (fun x hm => hf x (by simp [hm])) hd.2 (by
      intro x hm y hy
      rcases List.mem_append.1 hy with hy | hy
      · exact hx x (by simp [hm]) y hy
      · rw [List.mem_singleton.1 hy]
        exact fun he => hd.1 x hm he.symm)]
    simp

theorem items_cut : ∀ (l : List (Bytes × ArcNode)) (first : Bool) (done : List (Bytes × ArcNode)) (u : Bytes),
    (∀ e ∈ l, NodeFits e.2) → Cut u (arcItems first l) → (arcReadItems l.length u done).2 = none := by
  intro l
  induction l with
  | nil => intro first done u _ hu; exact (cut_nil hu).elim
  | cons e l ih =>
    intro first done u hf hu
    have hu : Cut u (arcItem first e ++ arcItems false l) := hu
    simp only [List.length_cons, arcReadItems]
    rcases cut_append hu with hu | ⟨t, rfl, ht⟩
    · rw [(tight_item first (hf e (by simp))).2 u hu]
    · rw [(tight_item first (hf e (by simp))).1]
      exact ih false _ t (fun x hm => hf x (by simp [hm])) ht

/-- What can be stored: numbers that fit, every key once. -/
structure ArcFits (a : ArcState) : Prop where
  version : a.version < 2 ^ 64
  count : a.nodes.length < 2 ^ 64
  nodes : ∀ e ∈ a.nodes, NodeFits e.2
  keys : Distinct a.nodes
  threadType : IntOk a.threadType

def arcMapText (a : ArcState) : Bytes :=
  xmlTop (ascii "node_map") (arcClass true (ascii "0"))
    (xmlLeaf 1 (ascii "count") (decimal a.nodes.length) ++ (xmlLeaf 1 (ascii "item_version") (decimal 0) ++
      (arcItems true a.nodes ++ [chNl])))

def arcTypeText (a : ArcState) : Bytes := chNl :: xmlTop (ascii "thread_type") [] (decimalInt a.threadType)

theorem arcRest_eq (a : ArcState) : arcRest a = arcMapText a ++ arcTypeText a := rfl

theorem map_tag : TagOk (ascii "node_map") (arcClass true (ascii "0")) :=
  ⟨⟨110, ascii "ode_map", by decide, by decide⟩, by decide, class_gt true (by decide)⟩

theorem count_tight {a : ArcState} (h : ArcFits a) :
    Tight (xmlMember (ascii "count") xmlNat) (xmlLeaf 1 (ascii "count") (decimal a.nodes.length)) a.nodes.length :=
  tight_leaf_nat 1 ⟨⟨99, ascii "ount", by decide, by decide⟩, by decide, by simp⟩ h.count

theorem iver_tight : Tight (xmlMember (ascii "item_version") xmlNat) (xmlLeaf 1 (ascii "item_version") (decimal 0)) 0 :=
  tight_leaf_nat 1 ⟨⟨105, ascii "tem_version", by decide, by decide⟩, by decide, by simp⟩ (by decide)

theorem map_eq (a : ArcState) (rest : Bytes) : arcMapText a ++ rest =
    [] ++ (xmlOpen (ascii "node_map") (arcClass true (ascii "0")) ++
      (xmlLeaf 1 (ascii "count") (decimal a.nodes.length) ++ (xmlLeaf 1 (ascii "item_version") (decimal 0) ++
        (arcItems true a.nodes ++ ([chNl] ++ (xmlShut (ascii "node_map") ++ rest)))))) := by
  simp only [arcMapText, xmlTop, List.append_assoc, List.nil_append]

theorem blanks_nil : Blanks [] := fun _ h => nomatch h

theorem blanks_nl : Blanks [chNl] := by
  intro c hc; rw [List.mem_singleton.1 hc]; decide

/-- The map is read as it was written. -/
theorem map_all {a : ArcState} (h : ArcFits a) (b : Bytes) (hb : Blanks b) (l : List (Bytes × ArcNode)) (rest : Bytes) :
    arcReadMap (b ++ (arcMapText a ++ rest)) l = (a.nodes, some rest) := by
  rw [map_eq]
  unfold arcReadMap
  rw [List.nil_append, start_open hb map_tag]
  simp only [(count_tight h).1, iver_tight.1]
  rw [items_all a.nodes true [] _ h.nodes h.keys (by simp)]
  simp only [List.nil_append]
  rw [end_shut blanks_nl (by decide)]
  rfl

/-- A part of it is refused. -/
theorem map_cut {a : ArcState} (h : ArcFits a) {b u : Bytes} (hb : Blanks b) (l : List (Bytes × ArcNode))
    (hu : Cut u (b ++ arcMapText a)) : (arcReadMap u l).2 = none := by
  have e := map_eq a []
  rw [List.append_nil, List.append_nil, List.nil_append] at e
  rw [e, ← List.append_assoc] at hu
  unfold arcReadMap
  rcases cut_append hu with h0 | ⟨u1, rfl, h1⟩
  · rw [start_cut hb map_tag h0]
  rw [List.append_assoc, start_open hb map_tag]
  rcases cut_append h1 with h0 | ⟨u2, rfl, h2⟩
  · simp only [(count_tight h).2 _ h0]
  simp only [(count_tight h).1]
  rcases cut_append h2 with h0 | ⟨u3, rfl, h3⟩
  · simp only [iver_tight.2 _ h0]
  simp only [iver_tight.1]
  rcases cut_append h3 with h0 | ⟨u4, rfl, h4⟩
  · have := items_cut a.nodes true [] u3 h.nodes h0
    cases hr : arcReadItems a.nodes.length u3 [] with
    | mk l r => rw [hr] at this; cases this; rfl
  rw [items_all a.nodes true [] _ h.nodes h.keys (by simp)]
  simp only
  rw [end_cut blanks_nl (by decide) h4]
  rfl

/-! ### Numbers at the top -/

theorem top_all {α : Type} {p : Bytes → Option (α × Bytes)} {b name body : Bytes} {v : α} (hb : Blanks b) (h : TagOk name [])
    (h1 : ∀ r, p (body ++ chLt :: r) = some (v, chLt :: r)) (old : α) (rest : Bytes) :
    arcReadTop p (b ++ (xmlTop name [] body ++ rest)) old = (v, some rest) := by
  have hsh : ∀ r, xmlShut name ++ r = chLt :: (47 :: name ++ [chGt] ++ r) := fun r => by simp [xmlShut]
  have hend : ∀ r, xmlEnd (xmlShut name ++ r) = some (name, r) := fun r => end_shut (b := []) blanks_nil h.gtName r
  unfold arcReadTop xmlTop
  rw [List.append_assoc, List.append_assoc, start_open hb h, Option.bind_some, hsh, h1]
  simp only
  rw [← hsh, hend]; rfl

theorem top_cut {α : Type} {p : Bytes → Option (α × Bytes)} {b name body u : Bytes} {v : α} (hb : Blanks b) (h : TagOk name [])
    (h1 : ∀ r, p (body ++ chLt :: r) = some (v, chLt :: r))
    (h2 : ∀ u, (∃ t, u ++ t = body) → p u = none ∨ ∃ x, p u = some (x, [])) (old : α)
    (hu : Cut u (b ++ xmlTop name [] body)) : (arcReadTop p u old).2 = none := by
  unfold xmlTop at hu
  rw [← List.append_assoc] at hu
  unfold arcReadTop
  rcases cut_append hu with hu | ⟨u, rfl, hv⟩
  · rw [start_cut hb h hu]; rfl
  rw [List.append_assoc, start_open hb h, Option.bind_some]
  have hpart : ∀ u, (∃ t, u ++ t = body) →
      (match p u with
        | none => ((old, none) : α × Option Bytes)
        | some (x, s) => (x, (xmlEnd s).map (fun y : Bytes × Bytes => y.2))).2 = none := by
    intro u hu
    rcases h2 u hu with e | ⟨x, e⟩
    · rw [e]
    · rw [e]; rfl
  rcases cut_append hv with ⟨t, _, hu⟩ | ⟨t, rfl, hc⟩
  · exact hpart u ⟨t, hu⟩
  · cases t with
    | nil => rw [List.append_nil]; exact hpart body ⟨[], by simp⟩
    | cons x t =>
      have hx : x = chLt := by
        obtain ⟨r, _, hr⟩ := hc
        have : x :: (t ++ r) = chLt :: (47 :: name ++ [chGt]) := by simpa [xmlShut] using hr
        exact (List.cons.inj this).1
      subst hx
      rw [h1]
      simp only
      rw [end_cut (b := []) blanks_nil h.gtName hc]; rfl

theorem type_tag : TagOk (ascii "thread_type") [] := ⟨⟨116, ascii "hread_type", by decide, by decide⟩, by decide, by simp⟩

theorem version_tag : TagOk (ascii "version") [] := ⟨⟨118, ascii "ersion", by decide, by decide⟩, by decide, by simp⟩

/-! ### All of it -/

theorem rest_all {a : ArcState} (h : ArcFits a) (b : Bytes) (hb : Blanks b) (m : ArcState) (rest : Bytes) :
    arcReadRest (b ++ (arcRest a ++ rest)) m = (⟨m.version, a.nodes, a.threadType⟩, true) := by
  unfold arcReadRest
  rw [arcRest_eq, List.append_assoc, map_all h b hb]
  simp only
  have : arcTypeText a ++ rest = [chNl] ++ (xmlTop (ascii "thread_type") [] (decimalInt a.threadType) ++ rest) := by
    simp [arcTypeText]
  rw [this, top_all blanks_nl type_tag (int_lt h.threadType)]

theorem rest_cut {a : ArcState} (h : ArcFits a) {b u : Bytes} (hb : Blanks b) (m : ArcState)
    (hu : Cut u (b ++ arcRest a)) : (arcReadRest u m).2 = false := by
  rw [arcRest_eq, ← List.append_assoc] at hu
  unfold arcReadRest
  rcases cut_append hu with hu | ⟨u, rfl, hv⟩
  · have := map_cut h hb m.nodes hu
    cases hr : arcReadMap u m.nodes with
    | mk l r => rw [hr] at this; cases this; rfl
  · rw [List.append_assoc, map_all h b hb]
    simp only
    have : (arcReadTop xmlInt u m.threadType).2 = none :=
      top_cut (b := [chNl]) blanks_nl type_tag (int_lt h.threadType) (fun _ hu => int_part hu) _ hv
    cases hr : arcReadTop xmlInt u m.threadType with
    | mk l r => rw [hr] at this; cases this; rfl

theorem head_all (s : Bytes) : arcReadHead (arcHead ++ s) = some s := by
  unfold arcReadHead
  generalize arcHead = w
  rw [if_pos (by simp)]
  simp

theorem head_cut {u : Bytes} (h : Cut u arcHead) : arcReadHead u = none := by
  unfold arcReadHead
  have := cut_length h
  rw [if_neg]
  intro hp
  have := (List.isPrefixOf_iff_prefix.1 hp).length_le
  omega

/-! ### Any text -/

theorem member_some {α : Type} {name : Bytes} {p : Bytes → Option (α × Bytes)} {s r : Bytes} {x : α}
    (h : xmlMember name p s = some (x, r)) : ∃ s' r', p s' = some (x, r') := by
  unfold xmlMember at h
  obtain ⟨s1, _, h⟩ := Option.bind_eq_some_iff.1 h
  obtain ⟨⟨y, s2⟩, h1, h⟩ := Option.bind_eq_some_iff.1 h
  obtain ⟨⟨n, s3⟩, _, h⟩ := Option.bind_eq_some_iff.1 h
  simp only at h
  split at h
  · cases h; exact ⟨s1, s2, h1⟩
  · exact nomatch h

theorem int_some {s r : Bytes} {x : Int} (h : xmlInt s = some (x, r)) : IntOk x := by
  unfold xmlInt at h
  simp only at h
  unfold IntOk
  split at h
  all_goals
    split at h
    · simp at h
    · split at h
      · simp at h
      · rename_i hn
        have := (Prod.mk.inj (Option.some.inj h)).1
        omega

theorem nat_some {s r : Bytes} {x : Nat} (h : xmlNat s = some (x, r)) : x < 2 ^ 64 := by
  unfold xmlNat at h
  simp only at h
  split at h
  · simp at h
  · rename_i hn
    cases h
    simp only [Bool.or_eq_true, decide_eq_true_eq, not_or] at hn
    omega

theorem fields_some {s r : Bytes} {n : ArcNode} (h : arcReadFields s = some (n, r)) : NodeFits n := by
  unfold arcReadFields at h
  obtain ⟨⟨y, s1⟩, _, h⟩ := Option.bind_eq_some_iff.1 h
  obtain ⟨⟨y2, s2⟩, h2, h⟩ := Option.bind_eq_some_iff.1 h
  obtain ⟨⟨y3, s3⟩, h3, h⟩ := Option.bind_eq_some_iff.1 h
  obtain ⟨⟨y4, s4⟩, h4, h⟩ := Option.bind_eq_some_iff.1 h
  obtain ⟨⟨y5, s5⟩, h5, h⟩ := Option.bind_eq_some_iff.1 h
  obtain ⟨⟨y6, s6⟩, h6, h⟩ := Option.bind_eq_some_iff.1 h
  obtain ⟨⟨y7, s7⟩, h7, h⟩ := Option.bind_eq_some_iff.1 h
  have key : ∀ {name s r : Bytes} {x : Int}, xmlMember name xmlInt s = some (x, r) → IntOk x := by
    intro name s r x h
    obtain ⟨_, _, h⟩ := member_some h
    exact int_some h
  cases h
  exact ⟨key h2, key h3, key h4, key h5, key h6, key h7⟩

theorem item_some {s r : Bytes} {e : Bytes × ArcNode} (h : arcReadItem s = some (e, r)) : NodeFits e.2 := by
  unfold arcReadItem at h
  obtain ⟨s1, r1, h⟩ := member_some h
  obtain ⟨⟨k, s2⟩, _, h⟩ := Option.bind_eq_some_iff.1 h
  obtain ⟨⟨n, s3⟩, h2, h⟩ := Option.bind_eq_some_iff.1 h
  obtain ⟨_, _, h3⟩ := member_some h2
  cases h
  exact fields_some h3

theorem distinct_snoc {l : List (Bytes × ArcNode)} {e : Bytes × ArcNode} (h : Distinct l) (he : ∀ x ∈ l, x.1 ≠ e.1) :
    Distinct (l ++ [e]) := by
  induction l with
  | nil => exact ⟨fun x hx => (nomatch hx), trivial⟩
  | cons a l ih =>
    refine ⟨?_, ih h.2 (fun x hx => he x (by simp [hx]))⟩
    intro x hx
    rcases List.mem_append.1 hx with hx | hx
    · exact h.1 x hx
    · rw [List.mem_singleton.1 hx]; exact fun e' => he a (by simp) e'.symm

/-- What can be in the map. -/
structure MapFits (l : List (Bytes × ArcNode)) : Prop where
  nodes : ∀ e ∈ l, NodeFits e.2
  keys : Distinct l

theorem insert_fits {l : List (Bytes × ArcNode)} {e : Bytes × ArcNode} (h : MapFits l) (he : NodeFits e.2) :
    MapFits (arcInsert l e) ∧ (arcInsert l e).length ≤ l.length + 1 := by
  unfold arcInsert
  split
  · exact ⟨h, by omega⟩
  · rename_i hn
    simp only [List.any_eq_true, decide_eq_true_eq, not_exists, not_and] at hn
    refine ⟨⟨fun x hx => ?_, distinct_snoc h.keys hn⟩, by simp⟩
    rcases List.mem_append.1 hx with hx | hx
    · exact h.nodes x hx
    · rw [List.mem_singleton.1 hx]; exact he

theorem items_fits : ∀ (n : Nat) (s : Bytes) (l : List (Bytes × ArcNode)), MapFits l →
    MapFits (arcReadItems n s l).1 ∧ (arcReadItems n s l).1.length ≤ l.length + n := by
  intro n
  induction n with
  | zero => intro s l h; exact ⟨h, Nat.le_refl _⟩
  | succ n ih =>
    intro s l h
    simp only [arcReadItems]
    cases hi : arcReadItem s with
    | none => exact ⟨h, by simp⟩
    | some x =>
      obtain ⟨e, s'⟩ := x
      obtain ⟨h1, h2⟩ := insert_fits h (item_some hi)
      obtain ⟨h3, h4⟩ := ih s' (arcInsert l e) h1
      exact ⟨h3, by simp only; omega⟩

theorem mapFits_nil : MapFits [] := ⟨fun _ h => (nomatch h), trivial⟩

theorem readMap_fits {s : Bytes} {l : List (Bytes × ArcNode)} (h : MapFits l) (hl : l.length < 2 ^ 64) :
    MapFits (arcReadMap s l).1 ∧ (arcReadMap s l).1.length < 2 ^ 64 := by
  unfold arcReadMap
  cases xmlStart s with
  | none => exact ⟨h, hl⟩
  | some s1 =>
    simp only
    cases hc : xmlMember (ascii "count") xmlNat s1 with
    | none => exact ⟨mapFits_nil, by simp⟩
    | some x =>
      obtain ⟨n, s2⟩ := x
      simp only
      cases xmlMember (ascii "item_version") xmlNat s2 with
      | none => exact ⟨mapFits_nil, by simp⟩
      | some y =>
        obtain ⟨_, s3⟩ := y
        simp only
        obtain ⟨_, _, hc⟩ := member_some hc
        have hn := nat_some hc
        obtain ⟨h1, h2⟩ := items_fits n s3 [] mapFits_nil
        cases hr : arcReadItems n s3 [] with
        | mk l' r =>
          rw [hr] at h1 h2
          cases r with
          | none => exact ⟨h1, by simp only [List.length_nil] at h2 ⊢; omega⟩
          | some r => exact ⟨h1, by simp only [List.length_nil] at h2 ⊢; omega⟩

theorem top_fits {α : Type} {p : Bytes → Option (α × Bytes)} {P : α → Prop} (hp : ∀ s x r, p s = some (x, r) → P x)
    {s : Bytes} {old : α} (ho : P old) : P (arcReadTop p s old).1 := by
  unfold arcReadTop
  cases h : (xmlStart s).bind p with
  | none => exact ho
  | some x =>
    obtain ⟨x, r⟩ := x
    obtain ⟨s', _, h⟩ := Option.bind_eq_some_iff.1 h
    exact hp _ _ _ h

theorem readRest_fits {s : Bytes} {m : ArcState} (h : ArcFits m) : ArcFits (arcReadRest s m).1 := by
  obtain ⟨h1, h2⟩ := readMap_fits (s := s) ⟨h.nodes, h.keys⟩ h.count
  unfold arcReadRest
  cases hr : arcReadMap s m.nodes with
  | mk l r =>
    rw [hr] at h1 h2
    cases r with
    | none => exact ⟨h.version, h2, h1.nodes, h1.keys, h.threadType⟩
    | some r =>
      simp only
      have ht := top_fits (p := xmlInt) (P := IntOk) (fun _ _ _ h => int_some h) (s := r) h.threadType
      cases hq : arcReadTop xmlInt r m.threadType with
      | mk t q =>
        rw [hq] at ht
        cases q with
        | none => exact ⟨h.version, h2, h1.nodes, h1.keys, ht⟩
        | some q => exact ⟨h.version, h2, h1.nodes, h1.keys, ht⟩

theorem read_fits {x : Bytes} {m : ArcState} (h : ArcFits m) : ArcFits (arcRead x m).1 := by
  unfold arcRead
  cases arcReadHead x with
  | none => exact h
  | some s =>
    simp only
    have hv := top_fits (p := xmlNat) (P := fun v => v < 2 ^ 64) (fun _ _ _ h => nat_some h) (s := s) h.version
    cases hq : arcReadTop xmlNat s m.version with
    | mk v q =>
      rw [hq] at hv
      have : ArcFits { m with version := v } := ⟨hv, h.count, h.nodes, h.keys, h.threadType⟩
      cases q with
      | none => exact this
      | some q => exact readRest_fits this

theorem readOld_fits {x : Bytes} {m : ArcState} (h : ArcFits m) : ArcFits (arcReadOld x m).1 := by
  unfold arcReadOld
  cases arcReadHead x with
  | none => exact h
  | some s => exact readRest_fits ⟨by simp, h.count, h.nodes, h.keys, h.threadType⟩

theorem load_fits {x : Bytes} {m : ArcState} (h : ArcFits m) : ArcFits (arcLoad x m).1 := by
  unfold arcLoad
  split
  · exact h
  · have h1 := read_fits (x := x) h
    cases hr : arcRead x m with
    | mk m1 ok =>
      rw [hr] at h1
      cases ok with
      | true => exact h1
      | false =>
        simp only
        have h2 := readOld_fits (x := x) h1
        cases hq : arcReadOld x m1 with
        | mk m2 ok =>
          rw [hq] at h2
          cases ok <;> exact h2

/-! ### What is no entity is not read -/

theorem append_skip {a e t b : Bytes} (he : (38 : UInt8) ∉ e) (h : a ++ 38 :: b = e ++ t) : ∃ a', t = a' ++ 38 :: b := by
  rcases List.append_eq_append_iff.1 h with ⟨u, h1, h2⟩ | ⟨u, h1, h2⟩
  · cases u with
    | nil => exact ⟨[], by simpa using h2.symm⟩
    | cons c u =>
      rw [List.cons_append] at h2
      have : c = 38 := (List.cons.inj h2).1.symm
      subst this
      exact absurd (by rw [h1]; simp) he
  · exact ⟨u, h2⟩

theorem xmlPlain_known : ∀ (n : Nat) (s x : Bytes), xmlPlain n s = some x → ∀ a b, s = a ++ 38 :: b →
    ∃ e ∈ [ascii "lt;", ascii "gt;", ascii "amp;", ascii "quot;", ascii "apos;"], e.isPrefixOf b = true
  | 0, s, x, h, a, b, hs => by
    subst hs
    simp [xmlPlain] at h
  | n + 1, s, x, h, a, b, hs => by
    cases s with
    | nil => simp at hs
    | cons c t =>
      simp only [xmlPlain] at h
      cases a with
      | nil =>
        obtain ⟨rfl, rfl⟩ := List.cons.inj (show c :: t = 38 :: b from hs)
        rw [if_pos rfl] at h
        by_cases h1 : (ascii "lt;").isPrefixOf t = true
        · exact ⟨_, by simp, h1⟩
        rw [if_neg h1] at h
        by_cases h1 : (ascii "gt;").isPrefixOf t = true
        · exact ⟨_, by simp, h1⟩
        rw [if_neg h1] at h
        by_cases h1 : (ascii "amp;").isPrefixOf t = true
        · exact ⟨_, by simp, h1⟩
        rw [if_neg h1] at h
        by_cases h1 : (ascii "quot;").isPrefixOf t = true
        · exact ⟨_, by simp, h1⟩
        rw [if_neg h1] at h
        by_cases h1 : (ascii "apos;").isPrefixOf t = true
        · exact ⟨_, by simp, h1⟩
        rw [if_neg h1] at h
        cases h
      | cons c' a =>
        obtain ⟨rfl, ht⟩ := List.cons.inj (show c :: t = c' :: (a ++ 38 :: b) from hs)
        have go : ∀ (e : Bytes) (k : Nat) (d : UInt8), (38 : UInt8) ∉ e → e.length = k → e.isPrefixOf t = true →
            (xmlPlain n (t.drop k)).map (d :: ·) = some x →
            ∃ e ∈ [ascii "lt;", ascii "gt;", ascii "amp;", ascii "quot;", ascii "apos;"], e.isPrefixOf b = true := by
          intro e k d he hk hp hx
          obtain ⟨t', ht'⟩ := List.isPrefixOf_iff_prefix.1 hp
          obtain ⟨y, hy, -⟩ := Option.map_eq_some_iff.1 hx
          have hd : t.drop k = t' := by rw [← ht', ← hk, List.drop_left]
          rw [hd] at hy
          obtain ⟨a', ha'⟩ := append_skip (a := a) (b := b) he (ht.symm.trans ht'.symm)
          exact xmlPlain_known n t' y hy a' b ha'
        split at h
        · split at h
          · rename_i h1; exact go _ 3 _ (by decide) (by decide) h1 h
          split at h
          · rename_i h1; exact go _ 3 _ (by decide) (by decide) h1 h
          split at h
          · rename_i h1; exact go _ 4 _ (by decide) (by decide) h1 h
          split at h
          · rename_i h1; exact go _ 5 _ (by decide) (by decide) h1 h
          split at h
          · rename_i h1; exact go _ 5 _ (by decide) (by decide) h1 h
          · cases h
        · obtain ⟨y, hy, -⟩ := Option.map_eq_some_iff.1 h
          exact xmlPlain_known n t y hy a b ht

end Flare
