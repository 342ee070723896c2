import Verif.Lemmas.Archive

/-! C98: The stored index state is read back as it was written, or refused without harm. -/
namespace Flare

/-- What was stored is in memory after loading it, whatever was there before: any bytes as names and keys, any numbers
that fit. -/
theorem C98_round_trip {a : ArcState} (h : ArcFits a) (m : ArcState) : arcLoad (arcWrite a) m = (a, a.sane) := by
  have hne : arcWrite a ≠ [] := by
    intro e
    have := congrArg List.length e
    rw [arcWrite, arcCore, List.length_append, List.length_append] at this
    have h0 : 0 < arcHead.length := by decide +kernel
    simp only [List.length_nil] at this
    omega
  have hr : arcRead (arcWrite a) m = (a, true) := by
    unfold arcRead
    have e : arcWrite a = arcHead ++ ([] ++ (arcVersion a ++ ([chNl] ++ (arcRest a ++ arcTail)))) := by
      simp [arcWrite, arcCore]
    rw [e, head_all]
    simp only
    rw [show arcVersion a = xmlTop (ascii "version") [] (decimal a.version) from rfl,
      top_all blanks_nil version_tag (nat_lt h.version)]
    simp only
    rw [rest_all h [chNl] blanks_nl]
  unfold arcLoad
  rw [if_neg hne, hr]

/-- Two states that are stored as the same text are the same. -/
theorem C98_injective {a b : ArcState} (ha : ArcFits a) (hb : ArcFits b) (h : arcWrite a = arcWrite b) : a = b := by
  have h1 := C98_round_trip ha ⟨0, [], 0⟩
  rw [h, C98_round_trip hb] at h1
  exact (congrArg Prod.fst h1).symm

/-- What a former version of the program has stored is read too; it has no version, and gets none. -/
theorem C98_old {a : ArcState} (h : ArcFits a) (m : ArcState) :
    arcLoad (arcWriteOld a) m = ({ a with version := 0 }, a.sane) := by
  have hne : arcWriteOld a ≠ [] := by
    intro e
    have := congrArg List.length e
    rw [arcWriteOld, List.length_append] at this
    have h0 : 0 < arcHead.length := by decide +kernel
    simp only [List.length_nil] at this
    omega
  have hr : arcRead (arcWriteOld a) m = (m, false) := by
    unfold arcRead arcWriteOld
    rw [head_all]
    simp only
    unfold arcReadTop
    rw [arcRest_eq, List.append_assoc, map_eq, start_open blanks_nil map_tag, Option.bind_some]
    have : ∀ r, xmlNat (xmlLeaf 1 (ascii "count") (decimal a.nodes.length) ++ r) = none := by
      intro r
      unfold xmlNat xmlLeaf
      rw [List.append_assoc, dropWhile_blanks (blanks_indent 1)]
      rfl
    rw [this]
  have ho : arcReadOld (arcWriteOld a) m = ({ a with version := 0 }, true) := by
    unfold arcReadOld arcWriteOld
    rw [head_all]
    simp only
    have := rest_all h [] blanks_nil { m with version := 0 } arcTail
    rw [List.nil_append] at this
    rw [this]
  unfold arcLoad
  rw [if_neg hne, hr]
  simp only
  rw [ho]
  rfl

/-! ### A part of the text -/

theorem head_pos : 0 < arcHead.length := by decide +kernel

/-- `<version>`. -/
def arcFirstTag : Bytes := xmlOpen (ascii "version") []

theorem core_eq (a : ArcState) : arcCore a =
    arcHead ++ (arcFirstTag ++ (decimal a.version ++ (xmlShut (ascii "version") ++ ([chNl] ++ arcRest a)))) := by
  simp [arcCore, arcVersion, xmlTop, arcFirstTag]

/-- The second block finds the version where it looks for the map. -/
theorem old_on_new {u : Bytes} (m : ArcState) (hu : ∀ c, u.head? = some c → isDigit c = true) :
    arcReadOld (arcHead ++ (arcFirstTag ++ u)) m = (⟨0, [], m.threadType⟩, false) := by
  unfold arcReadOld
  rw [head_all]
  simp only
  have e : arcReadMap (arcFirstTag ++ u) m.nodes = ([], none) := by
    unfold arcReadMap
    have := start_open blanks_nil version_tag u
    rw [List.nil_append] at this
    rw [show arcFirstTag = xmlOpen (ascii "version") [] from rfl, this]
    have : xmlMember (ascii "count") xmlNat u = none := by
      unfold xmlMember xmlStart
      cases u with
      | nil => rfl
      | cons c u =>
        have hc := hu c rfl
        rw [List.dropWhile_cons, digit_not_blank hc]
        simp only [Bool.false_eq_true, if_false]
        split
        · rename_i h
          obtain ⟨rfl, _⟩ := List.cons.inj h
          exact absurd hc (by decide)
        · rfl
    simp only [this]
  unfold arcReadRest
  simp only [e]

theorem read_cut {a : ArcState} (h : ArcFits a) {u : Bytes} (m : ArcState) (hu : Cut u (arcCore a)) :
    (arcRead u m).2 = false := by
  unfold arcCore at hu
  unfold arcRead
  rcases cut_append hu with h0 | ⟨u1, e1, h1⟩
  · rw [head_cut h0]
  rw [e1, head_all]
  rcases cut_append h1 with h0 | ⟨u2, rfl, h2⟩
  · have : (arcReadTop xmlNat u1 m.version).2 = none :=
      top_cut (b := []) blanks_nil version_tag (nat_lt h.version) (fun _ hu => nat_part (decimal_digits _) hu) _ h0
    cases hr : arcReadTop xmlNat u1 m.version with
    | mk l r => rw [hr] at this; cases this; simp only [hr]
  · have e : arcReadTop xmlNat (arcVersion a ++ u2) m.version = (a.version, some u2) :=
      top_all (b := []) blanks_nil version_tag (nat_lt h.version) _ u2
    simp only [e]
    exact rest_cut (b := [chNl]) h blanks_nl _ h2

/-- Every part of the text, from the beginning: what it does to the memory, and whether it is accepted.
Nothing at all is accepted, and does nothing; a part that ends before the last member ends is refused — but the nodes are
forgotten, if as much as the first tag is there; the rest of the text does not matter. -/
theorem C98_part {a : ArcState} (h : ArcFits a) (m : ArcState) (n : Nat) :
    (n = 0 → arcLoad ((arcWrite a).take n) m = (m, m.sane)) ∧
    (0 < n → n < arcHead.length → arcLoad ((arcWrite a).take n) m = (m, false)) ∧
    (arcHead.length ≤ n → n < arcHead.length + arcFirstTag.length →
      arcLoad ((arcWrite a).take n) m = ({ m with version := 0 }, false)) ∧
    (arcHead.length + arcFirstTag.length ≤ n → n < (arcCore a).length →
      ∃ t, arcLoad ((arcWrite a).take n) m = (⟨0, [], t⟩, false)) ∧
    ((arcCore a).length ≤ n → arcLoad ((arcWrite a).take n) m = (a, a.sane)) := by
  have hp := head_pos
  obtain ⟨c, hc⟩ : ∃ c, c = decimal a.version ++ (xmlShut (ascii "version") ++ ([chNl] ++ arcRest a)) := ⟨_, rfl⟩
  have hcore : arcCore a = arcHead ++ (arcFirstTag ++ c) := by rw [core_eq, hc]
  have hlen : (arcCore a).length = arcHead.length + (arcFirstTag.length + c.length) := by rw [hcore]; simp
  have htake : ∀ k, k < (arcCore a).length → (arcWrite a).take k = (arcCore a).take k := by
    intro k hk; unfold arcWrite; exact List.take_append_of_le_length (Nat.le_of_lt hk)
  have hne : 0 < n → (arcWrite a).take n ≠ [] := by
    intro h0 e
    have := congrArg List.length e
    have h1 : (arcWrite a).length = (arcCore a).length + arcTail.length := by simp [arcWrite]
    rw [List.length_take, h1, hlen] at this
    simp only [List.length_nil] at this
    omega
  refine ⟨?_, ?_, ?_, ?_, ?_⟩
  · rintro rfl; rw [List.take_zero]; unfold arcLoad; rw [if_pos rfl]
  · intro h0 h1
    have e := hne h0
    rw [htake n (by omega), hcore, List.take_append_of_le_length (Nat.le_of_lt h1)] at e ⊢
    have hh := head_cut (cut_take h1)
    unfold arcLoad arcRead arcReadOld
    rw [if_neg e]
    simp only [hh]
  · intro h0 h1
    have e := hne (by omega)
    have et : (arcHead ++ (arcFirstTag ++ c)).take n = arcHead ++ arcFirstTag.take (n - arcHead.length) := by
      rw [List.take_append, List.take_of_length_le h0, List.take_append_of_le_length (by omega)]
    rw [htake n (by omega), hcore, et] at e ⊢
    have hs : xmlStart (arcFirstTag.take (n - arcHead.length)) = none :=
      start_cut (b := []) blanks_nil version_tag (cut_take (by omega))
    have r1 : ∀ old : Nat, arcReadTop xmlNat (arcFirstTag.take (n - arcHead.length)) old = (old, none) := by
      intro old; unfold arcReadTop; rw [hs]; rfl
    have r2 : ∀ l, arcReadMap (arcFirstTag.take (n - arcHead.length)) l = (l, none) := by
      intro l; unfold arcReadMap; rw [hs]
    unfold arcLoad arcRead arcReadOld arcReadRest
    rw [if_neg e]
    simp only [head_all, r1, r2]
  · intro h0 h1
    have e := hne (by omega)
    have hcut := read_cut h m (cut_take h1)
    have et : (arcHead ++ (arcFirstTag ++ c)).take n =
        arcHead ++ (arcFirstTag ++ c.take (n - arcHead.length - arcFirstTag.length)) := by
      rw [List.take_append, List.take_of_length_le (by omega), List.take_append, List.take_of_length_le (by omega)]
    rw [htake n h1] at e ⊢
    unfold arcLoad
    rw [if_neg e]
    cases hr : arcRead ((arcCore a).take n) m with
    | mk m' ok =>
      rw [hr] at hcut
      obtain rfl : ok = false := hcut
      simp only
      rw [hcore, et, old_on_new]
      · exact ⟨_, rfl⟩
      · intro x hx
        have hd := decimal_digits a.version
        have hn := decimal_ne_nil a.version
        cases hv : decimal a.version with
        | nil => exact absurd hv hn
        | cons y d =>
          rw [hc, hv] at hx
          cases hk : n - arcHead.length - arcFirstTag.length with
          | zero => rw [hk] at hx; simp at hx
          | succ k =>
            rw [hk] at hx
            obtain rfl : y = x := by simpa using hx
            exact hd y (by rw [hv]; simp)
  · intro h0
    have e := hne (by omega)
    have et : (arcWrite a).take n = arcCore a ++ arcTail.take (n - (arcCore a).length) := by
      unfold arcWrite; rw [List.take_append, List.take_of_length_le h0]
    rw [et] at e ⊢
    have hr : arcRead (arcCore a ++ arcTail.take (n - (arcCore a).length)) m = (a, true) := by
      unfold arcRead
      have e : arcCore a ++ arcTail.take (n - (arcCore a).length) =
          arcHead ++ ([] ++ (arcVersion a ++ ([chNl] ++ (arcRest a ++ arcTail.take (n - (arcCore a).length))))) := by
        simp [arcCore]
      rw [e, head_all]
      simp only
      rw [show arcVersion a = xmlTop (ascii "version") [] (decimal a.version) from rfl,
        top_all blanks_nil version_tag (nat_lt h.version)]
      simp only
      rw [rest_all h [chNl] blanks_nl]
    unfold arcLoad
    rw [if_neg e, hr]

/-- A part that is accepted as a state is the whole state. -/
theorem C98_accepted {a : ArcState} (h : ArcFits a) (m : ArcState) {n : Nat} (hn : 0 < n)
    (hl : (arcLoad ((arcWrite a).take n) m).2 = true) : (arcLoad ((arcWrite a).take n) m).1 = a := by
  obtain ⟨_, h1, h2, h3, h4⟩ := C98_part h m n
  by_cases k1 : n < arcHead.length
  · rw [h1 hn k1] at hl; exact nomatch hl
  by_cases k2 : n < arcHead.length + arcFirstTag.length
  · rw [h2 (by omega) k2] at hl; exact nomatch hl
  by_cases k3 : n < (arcCore a).length
  · obtain ⟨t, e⟩ := h3 (by omega) k3
    rw [e] at hl; exact nomatch hl
  · rw [h4 (by omega)]

/-- Whatever text is loaded, what is in memory afterwards - every key once, numbers that fit - can be stored, and comes
back as it is. -/
theorem C98_any_text (x : Bytes) {m : ArcState} (h : ArcFits m) (m' : ArcState) :
    arcLoad (arcWrite (arcLoad x m).1) m' = ((arcLoad x m).1, (arcLoad x m).1.sane) :=
  C98_round_trip (load_fits h) m'

/-- C98.  What is accepted as a member is closed by the end tag of its own name: behind what the contents leave there
are only blanks, `</`, the name and `>`. -/
theorem C98_member {α : Type} {name : Bytes} {p : Bytes → Option (α × Bytes)} {s : Bytes} {x : α} {rest : Bytes}
    (h : xmlMember name p s = some (x, rest)) :
    ∃ t u b, xmlStart s = some t ∧ p t = some (x, u) ∧ (∀ c ∈ b, xmlBlank c = true) ∧
      u = b ++ ascii "</" ++ name ++ ascii ">" ++ rest := by
  simp only [xmlMember, Option.bind_eq_some_iff] at h
  obtain ⟨t, ht, ⟨x', u⟩, hp, ⟨n, r⟩, he, hn⟩ := h
  dsimp only at he hn
  split at hn
  · rename_i hn'
    simp only [Option.some.injEq, Prod.mk.injEq] at hn
    obtain ⟨rfl, rfl⟩ := hn
    subst hn'
    refine ⟨t, u, u.takeWhile xmlBlank, ht, hp, fun c hc => mem_takeWhile hc, ?_⟩
    have hu : u.takeWhile xmlBlank ++ u.dropWhile xmlBlank = u := List.takeWhile_append_dropWhile
    unfold xmlEnd at he
    split at he
    · rename_i v hv
      unfold xmlUpTo at he
      split at he
      · cases he
      · rename_i c w hw
        simp only [Option.some.injEq, Prod.mk.injEq] at he
        obtain ⟨rfl, rfl⟩ := he
        have hc : c = chGt := by
          have := List.head?_dropWhile_not (fun c => decide (c ≠ chGt)) v
          rw [hw] at this
          simpa using this
        have hv' : v.takeWhile (· ≠ chGt) ++ v.dropWhile (· ≠ chGt) = v := List.takeWhile_append_dropWhile
        rw [hw, hc] at hv'
        have h1 : ascii "</" = [60, 47] := by decide +kernel
        have h2 : ascii ">" = [chGt] := by decide +kernel
        have hx : u.takeWhile xmlBlank ++ 60 :: 47 :: (v.takeWhile (· ≠ chGt) ++ chGt :: w) = u := by
          rw [hv', ← hv]; exact hu
        rw [h1, h2]
        conv => lhs; rw [← hx]
        simp
    · cases he
  · cases hn

example : xmlMember (ascii "a") (fun s => some ((), s)) (ascii "<a> </a>z") = some ((), ascii "z") ∧
    xmlMember (ascii "a") (fun s => some ((), s)) (ascii "<a> <a>z") = none ∧
    xmlMember (ascii "a") (fun s => some ((), s)) (ascii "<a></b>z") = none := by decide +kernel

/-- A string with an entity that does not exist is not read: every `&` up to the next tag begins one of the five. -/
theorem C98_entities {s x rest : Bytes} (h : xmlString s = some (x, rest)) (a b : Bytes)
    (hs : s.takeWhile (· ≠ chLt) = a ++ 38 :: b) :
    ∃ e ∈ [ascii "lt;", ascii "gt;", ascii "amp;", ascii "quot;", ascii "apos;"], e.isPrefixOf b = true := by
  simp only [xmlString] at h
  split at h
  · cases h
  · obtain ⟨y, hy, -⟩ := Option.map_eq_some_iff.1 h
    exact xmlPlain_known _ _ y hy a b hs

example : xmlString (ascii "a&lt;b</c>") = some (ascii "a<b", ascii "</c>") ∧ xmlString (ascii "a&nbsp;b</c>") = none := by
  decide +kernel

/-- A text with a key twice: the first one counts. -/
theorem C98_twice (x : Bytes) {m : ArcState} (h : ArcFits m) : Distinct (arcLoad x m).1.nodes := (load_fits h).keys

/-! ### With a full disk -/

/-- The disk is full while the state is stored in its file: the index server takes it for stored.  The next thing it is
asked to do loads the file: that is refused, and from then on there is not a node in memory or in the file. -/
theorem C98_disk_full {a : ArcState} (h : ArcFits a) (d : Disk) (m : ArcState) {n : Nat}
    (h0 : arcHead.length + arcFirstTag.length ≤ n) (h1 : n < (arcCore a).length) :
    (d.save (arcWrite a) (.write n)).2 = true ∧
    ∃ t, arcLoadFile (d.save (arcWrite a) (.write n)).1 m = (⟨0, [], t⟩, false) := by
  refine ⟨rfl, ?_⟩
  obtain ⟨t, e⟩ := (C98_part h m n).2.2.2.1 h0 h1
  refine ⟨t, ?_⟩
  rw [← e]
  simp [arcLoadFile, Disk.save, Disk.applyAll, saveOps, Disk.apply, Disk.load]

/-- A file that was stored without a fault is loaded. -/
theorem C98_stored {a : ArcState} (h : ArcFits a) (d : Disk) (m : ArcState) :
    arcLoadFile (d.save (arcWrite a) .none_).1 m = (a, a.sane) := by
  rw [← C98_round_trip h m]
  simp [arcLoadFile, Disk.save, Disk.applyAll, saveOps, Disk.apply, Disk.load]

/-! ### With ZooKeeper -/

/-- While the state that is stored does not become longer between the two requests, or is short, one of the two is in
memory afterwards. -/
theorem C98_update_partial {a b : ArcState} (ha : ArcFits a) (hb : ArcFits b) (m : ArcState)
    (h : (arcWrite a).length ≤ 8192 ∨ (arcWrite b).length ≤ (arcWrite a).length) :
    arcUpdate (arcWrite a) (arcWrite b) m = (a, a.sane) ∨ arcUpdate (arcWrite a) (arcWrite b) m = (b, b.sane) := by
  unfold arcUpdate zkRestore
  split
  · exact .inl (C98_round_trip ha m)
  · rename_i hl
    rcases h with h | h
    · exact absurd h hl
    · rw [List.take_of_length_le h]
      exact .inr (C98_round_trip hb m)

/-- A long state that becomes longer between the two requests is cut, which nobody notices; all nodes are forgotten. -/
theorem C98_grown {a b : ArcState} (hb : ArcFits b) (m : ArcState) (h : 8192 < (arcWrite a).length)
    (hl : (arcWrite a).length < (arcCore b).length) :
    ∃ t, arcUpdate (arcWrite a) (arcWrite b) m = (⟨0, [], t⟩, false) := by
  unfold arcUpdate zkRestore
  rw [if_neg (by omega)]
  refine (C98_part hb m _).2.2.2.1 ?_ hl
  have : arcHead.length + arcFirstTag.length ≤ 8192 := by decide +kernel
  omega

/-! ### Examples -/

/-- Two nodes, one with a name that has to be written with entities. -/
def arcEx : ArcState :=
  ⟨7, [(ascii "a<&:1", ⟨ascii "a<&", 1, 0, 0, -1, 1, 16⟩), (ascii "b:2", ⟨ascii "b", 2, 1, 1, 0, 1, 17⟩)], 18⟩

theorem arcEx_fits : ArcFits arcEx := by
  refine ⟨by decide, by decide, ?_, ?_, by unfold IntOk arcEx; decide⟩
  · intro e he
    simp only [arcEx, List.mem_cons, List.not_mem_nil, or_false] at he
    rcases he with rfl | rfl <;> exact ⟨by unfold IntOk; decide, by unfold IntOk; decide, by unfold IntOk; decide, by unfold IntOk; decide, by unfold IntOk; decide, by unfold IntOk; decide⟩
  · simp only [arcEx, Distinct, List.mem_singleton, List.not_mem_nil]
    refine ⟨fun x hx => ?_, fun x hx => hx.elim, trivial⟩
    subst hx; decide

example : arcLoad (arcWrite arcEx) ⟨3, [], 16⟩ = (arcEx, true) := by rw [C98_round_trip arcEx_fits]; decide
example : arcLoad (arcWriteOld arcEx) ⟨3, [], 16⟩ = ({ arcEx with version := 0 }, true) := by rw [C98_old arcEx_fits]; decide
/-- The same by running the reader. -/
example : arcLoad (arcWrite arcEx) ⟨3, [], 16⟩ = (arcEx, true) := by decide +kernel

/-- The key `b:2` twice. -/
example : arcLoad (arcWrite { arcEx with nodes := arcEx.nodes ++ [(ascii "b:2", ⟨ascii "c", 3, 1, 1, 0, 1, 17⟩)] })
    ⟨3, [], 16⟩ = (arcEx, true) := by decide +kernel

/-- After 500 bytes the disk is full. -/
example : ((⟨none, none⟩ : Disk).save (arcWrite arcEx) (.write 500)).2 = true ∧
    ∃ t, arcLoadFile ((⟨none, none⟩ : Disk).save (arcWrite arcEx) (.write 500)).1 arcEx = (⟨0, [], t⟩, false) :=
  C98_disk_full arcEx_fits _ _ (by decide +kernel) (by decide +kernel)

/-- A node whose type is not below the next one: the state is refused, and in memory all the same. -/
example : arcLoad (arcWrite { arcEx with threadType := 17 }) ⟨3, [], 16⟩ = ({ arcEx with threadType := 17 }, false) := by
  decide +kernel

/-- A node with any name, and further nodes. -/
def arcNamed (name : Bytes) (more : List (Bytes × ArcNode)) : ArcState :=
  ⟨7, (ascii "a:1", ⟨name, 1, 0, 0, 0, 1, 16⟩) :: more, 18⟩

theorem text_plain : ∀ n, (xmlText (List.replicate n 97)).length = n
  | 0 => rfl
  | n + 1 => by
    have : xmlText (List.replicate (n + 1) 97) = xmlChar 97 ++ xmlText (List.replicate n 97) := by
      simp [xmlText, List.replicate_succ]
    rw [this, List.length_append, text_plain n]
    have : (xmlChar 97).length = 1 := by decide
    omega

theorem named_core (name : Bytes) (more : List (Bytes × ArcNode)) :
    (arcCore (arcNamed name more)).length = (arcCore (arcNamed [] more)).length + (xmlText name).length := by
  have h0 : (xmlText []).length = 0 := rfl
  simp only [arcCore, arcRest, arcNamed, arcItems, arcItem, xmlTree, xmlTop, arcFields, xmlLeaf, arcVersion,
    List.length_append, List.length_cons, h0]
  omega

theorem named_fits (name : Bytes) (more : List (Bytes × ArcNode)) (h : more = [] ∨ more = [(ascii "b:2", ⟨ascii "b", 2, 1, 1, 0, 1, 17⟩)]) :
    ArcFits (arcNamed name more) := by
  rcases h with rfl | rfl
  · refine ⟨by simp [arcNamed], by simp [arcNamed], ?_, by simp [arcNamed, Distinct], by simp [IntOk, arcNamed]⟩
    intro e he
    obtain rfl := List.mem_singleton.1 he
    exact ⟨by simp [IntOk], by simp [IntOk], by simp [IntOk], by simp [IntOk], by simp [IntOk], by simp [IntOk]⟩
  · refine ⟨by simp [arcNamed], by simp [arcNamed], ?_, ?_, by simp [IntOk, arcNamed]⟩
    · intro e he
      simp only [arcNamed, List.mem_cons, List.not_mem_nil, or_false] at he
      rcases he with rfl | rfl <;> exact ⟨by simp [IntOk], by simp [IntOk], by simp [IntOk], by simp [IntOk], by simp [IntOk], by simp [IntOk]⟩
    · simp only [arcNamed, Distinct, List.mem_singleton, List.not_mem_nil]
      refine ⟨fun x hx => ?_, fun x hx => hx.elim, trivial⟩
      subst hx; decide

/-- A state of more than 8192 bytes to which a node is added between the two requests. -/
example : ∃ t, arcUpdate (arcWrite (arcNamed (List.replicate 9000 97) []))
    (arcWrite (arcNamed (List.replicate 9000 97) [(ascii "b:2", ⟨ascii "b", 2, 1, 1, 0, 1, 17⟩)]))
    (arcNamed (List.replicate 9000 97) []) = (⟨0, [], t⟩, false) := by
  have h1 := named_core (List.replicate 9000 97) []
  have h2 := named_core (List.replicate 9000 97) [(ascii "b:2", ⟨ascii "b", 2, 1, 1, 0, 1, 17⟩)]
  rw [text_plain] at h1 h2
  have h3 : (arcCore (arcNamed [] [])).length + 24 <
      (arcCore (arcNamed [] [(ascii "b:2", ⟨ascii "b", 2, 1, 1, 0, 1, 17⟩)])).length := by decide +kernel
  have h4 : ∀ a, (arcWrite a).length = (arcCore a).length + 24 := by
    intro a
    have : arcTail.length = 24 := by decide +kernel
    rw [arcWrite, List.length_append, this]
  refine C98_grown (named_fits _ _ (.inr rfl)) _ ?_ ?_
  · rw [h4]; omega
  · rw [h4]; omega

end Flare
