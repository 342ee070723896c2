import Verif.Model.IndexStart
import Verif.Props.KeyResolver

/-! C95: the partitioning an index server starts with. -/
namespace Flare

/-- Everything in the directory could be read. -/
def AllRead (l : List (Bytes × VarRead)) : Prop := ∀ x ∈ l, ∃ d, x.2 = .data d

/-- What is in the directory under a name, as far as it is read. -/
def sharedVar : List (Bytes × VarRead) → Bytes → Option Bytes
  | [], _ => none
  | (k, .data d) :: l, q => if q = k then some (d.take 512) else sharedVar l q
  | _ :: l, q => sharedVar l q

theorem sharedVar_none {l : List (Bytes × VarRead)} {q : Bytes} (h : q ∉ l.map (·.1)) :
    sharedVar l q = none := by
  induction l with
  | nil => rfl
  | cons x l ih =>
    simp only [List.map_cons, List.mem_cons, not_or] at h
    obtain ⟨k, r⟩ := x
    cases r <;> simp only [sharedVar]
    · exact ih h.2
    · exact ih h.2
    · rw [if_neg h.1]; exact ih h.2

theorem readVars_all (l : List (Bytes × VarRead)) (h : AllRead l) (nd : (l.map (·.1)).Nodup)
    (vars : List (Bytes × Bytes)) :
    ∃ w, readVars l true vars = .ok (true, w) ∧
      ∀ q, w.lookup q = match sharedVar l q with | some v => some v | none => vars.lookup q := by
  induction l generalizing vars with
  | nil => exact ⟨vars, rfl, fun q => by simp [sharedVar]⟩
  | cons x l ih =>
    obtain ⟨k, r⟩ := x
    obtain ⟨d, e⟩ := h (k, r) (List.mem_cons_self ..)
    simp only at e; subst e
    simp only [List.map_cons, List.nodup_cons] at nd
    obtain ⟨w, hw, lw⟩ := ih (fun y hy => h y (List.mem_cons_of_mem _ hy)) nd.2 ((k, d.take 512) :: vars)
    refine ⟨w, by simpa only [readVars] using hw, fun q => ?_⟩
    rw [lw q]
    simp only [sharedVar]
    by_cases hq : q = k
    · subst hq
      rw [sharedVar_none nd.1, if_pos rfl]
      simp [List.lookup]
    · rw [if_neg hq]
      cases sharedVar l q with
      | some v => rfl
      | none =>
        simp only
        rw [List.lookup_cons]
        have : (q == k) = false := by simpa using hq
        rw [this]

theorem sharedVar_perm {l l' : List (Bytes × VarRead)} (p : l.Perm l') (nd : (l.map (·.1)).Nodup) (q : Bytes) :
    sharedVar l q = sharedVar l' q := by
  induction p with
  | nil => rfl
  | cons x _ ih =>
    simp only [List.map_cons, List.nodup_cons] at nd
    obtain ⟨k, r⟩ := x
    cases r <;> simp only [sharedVar, ih nd.2]
  | swap x y l =>
    obtain ⟨k, r⟩ := x
    obtain ⟨k', r'⟩ := y
    simp only [List.map_cons, List.nodup_cons, List.mem_cons, not_or] at nd
    have ne : k' ≠ k := nd.1.1
    cases r <;> cases r' <;> simp only [sharedVar]
    by_cases h1 : q = k'
    · subst h1; simp [ne]
    · simp [h1]
  | trans p1 _ ih1 ih2 => exact (ih1 nd).trans (ih2 ((p1.map _).nodup_iff.1 nd))

/-- A start that reads everything, in terms of what is in the directory. -/
theorem indexStart_all {l : List (Bytes × VarRead)} (h : AllRead l)
    (nd : (l.map (·.1)).Nodup) : ∃ w, getMeta (some l) = .ok (true, w) ∧
      ∀ q, w.lookup q = sharedVar l q := by
  obtain ⟨w, e, lw⟩ := readVars_all l h nd []
  refine ⟨w, e, fun q => ?_⟩
  rw [lw q]
  cases sharedVar l q <;> simp

theorem sharedVar_some {l : List (Bytes × VarRead)} {q : Bytes} (h : AllRead l) (hq : q ∈ l.map (·.1)) :
    ∃ v, sharedVar l q = some v := by
  induction l with
  | nil => simp at hq
  | cons x l ih =>
    obtain ⟨k, r⟩ := x
    obtain ⟨d, e⟩ := h (k, r) (List.mem_cons_self ..)
    simp only at e; subst e
    simp only [sharedVar]
    by_cases hk : q = k
    · exact ⟨_, if_pos hk⟩
    · rw [if_neg hk]
      refine ih (fun y hy => h y (List.mem_cons_of_mem _ hy)) ?_
      simp only [List.map_cons, List.mem_cons] at hq
      rcases hq with hq | hq
      · exact absurd hq hk
      · exact hq

/-- Two servers that read everything in the directory, in whatever order they get it, start in the same
way and with the same partitioning, provided that every option is in the directory or the same for both. -/
theorem C95_same (own own' : Parting) (l l' : List (Bytes × VarRead)) (p : l.Perm l') (h : AllRead l)
    (nd : (l.map (·.1)).Nodup)
    (a : ascii "partition-modular-hint" ∈ l.map (·.1) ∨ own.hint = own'.hint)
    (b : ascii "partition-modular-virtual" ∈ l.map (·.1) ∨ own.virtual_ = own'.virtual_)
    (c : ascii "partition-size" ∈ l.map (·.1) ∨ own.size = own'.size)
    (d : ascii "partition-type" ∈ l.map (·.1) ∨ own.type = own'.type)
    (e : ascii "key-hash-algorithm" ∈ l.map (·.1) ∨ own.hash = own'.hash) :
    indexStart own (some l) = indexStart own' (some l') := by
  obtain ⟨w, ew, lw⟩ := indexStart_all h nd
  obtain ⟨w', ew', lw'⟩ := indexStart_all (l := l') (fun x hx => h x (p.mem_iff.2 hx))
    ((p.map _).nodup_iff.1 nd)
  have same : ∀ q, w'.lookup q = w.lookup q := fun q => by rw [lw', lw, sharedVar_perm p nd]
  have num : ∀ k x y, ascii k ∈ l.map (·.1) ∨ x = y → varInt w k x = varInt w' k y := by
    intro k x y hk
    simp only [varInt, same]
    rcases hk with hk | hk
    · obtain ⟨v, hv⟩ := sharedVar_some h hk
      rw [lw, hv]
    · rw [hk]
  have text : ∀ k x y, ascii k ∈ l.map (·.1) ∨ x = y → varText w k x = varText w' k y := by
    intro k x y hk
    simp only [varText, same]
    rcases hk with hk | hk
    · obtain ⟨v, hv⟩ := sharedVar_some h hk
      rw [lw, hv]; rfl
    · rw [hk]
  have mix : mixParting own w = mixParting own' w' := by
    simp only [mixParting, num _ _ _ a, num _ _ _ b, num _ _ _ c, text _ _ _ d, text _ _ _ e]
  simp only [indexStart, ew, ew', mix]

/-- The usual options. -/
def usualParting : Parting := ⟨1, 4096, 1024, ascii "modular", ascii "simple"⟩

example : indexStart { usualParting with hint := 7 } (some [(ascii "partition-modular-hint", .data (ascii "4"))]) =
    .ok (⟨1024, 4, 4096⟩, .simple) := by decide +kernel

/-- A server that starts, with at least one virtual slot, finds a partition for every hash value that is
not negative, at every number of partitions its table is made for. -/
theorem C95_resolves (own : Parting) (ch : Option (List (Bytes × VarRead))) (kr : Resolver) (ha : HashAlgorithm)
    (s : indexStart own ch = .ok (kr, ha)) (hv : 1 ≤ kr.virtual_) (n : Nat) (h1 : 1 ≤ n) (hn : n < kr.size)
    (h : Int) (h0 : 0 ≤ h) : ∃ p, resolve kr h n = some p ∧ p < n := by
  have hh : 1 ≤ kr.hint := by
    unfold indexStart at s
    split at s
    · cases s
    · cases s
    · split at s
      · cases s
      · rename_i p _
        split at s
        · cases s
        · split at s
          · cases s
          · split at s
            · cases s
            · rename_i hr
              simp only [Except.ok.injEq, Prod.mk.injEq] at s
              obtain ⟨s, -⟩ := s
              subst s
              simp only at hv hn ⊢
              unfold resolverStart at hr
              split at hr
              · cases hr
              · split at hr
                · omega
                · split at hr
                  · cases hr
                  · split at hr
                    · cases hr
                    · rename_i hc
                      omega
  exact C18_in_range hh hv h1 hn h0

/-- What a server that starts is sure of: it listed the directory, and the last variable it read could be
read. -/
theorem C95_last_read (own : Parting) (l : List (Bytes × VarRead)) (k : Bytes)
    (nn : ∀ x ∈ l, x.2 ≠ .null) : indexStart own (some (l ++ [(k, .failed)])) = .error .refused ∧
      indexStart own none = .error .refused := by
  have key : ∀ (l : List (Bytes × VarRead)) ok vars, (∀ x ∈ l, x.2 ≠ .null) →
      ∃ w, readVars (l ++ [(k, .failed)]) ok vars = .ok (false, w) := by
    intro l
    induction l with
    | nil => intro ok vars _; exact ⟨vars, rfl⟩
    | cons x l ih =>
      intro ok vars nn
      obtain ⟨q, r⟩ := x
      have nn' := fun y hy => nn y (List.mem_cons_of_mem _ hy)
      cases r with
      | failed => exact ih _ _ nn'
      | null => exact absurd rfl (nn (q, .null) (List.mem_cons_self ..))
      | data d => exact ih _ _ nn'
  obtain ⟨w, e⟩ := key l true [] nn
  exact ⟨by simp only [indexStart, getMeta, e], rfl⟩

/-- Defect: a variable that could not be read counts as one that is not there, unless it is the last one:
the server starts with its own option in its place. -/
theorem C95_unread (own : Parting) (pre post : List (Bytes × VarRead)) (k k' d : Bytes) :
    indexStart own (some (pre ++ (k, .failed) :: post ++ [(k', .data d)])) =
      indexStart own (some (pre ++ post ++ [(k', .data d)])) := by
  have flag : ∀ (post : List (Bytes × VarRead)) a b vars,
      readVars (post ++ [(k', .data d)]) a vars = readVars (post ++ [(k', .data d)]) b vars := by
    intro post
    cases post with
    | nil => intro a b vars; rfl
    | cons x l => intro a b vars; obtain ⟨q, r⟩ := x; cases r <;> rfl
  have key : ∀ (pre : List (Bytes × VarRead)) a vars,
      readVars (pre ++ (k, .failed) :: post ++ [(k', .data d)]) a vars =
        readVars (pre ++ post ++ [(k', .data d)]) a vars := by
    intro pre
    induction pre with
    | nil => intro a vars; exact flag post false a vars
    | cons x l ih =>
      intro a vars; obtain ⟨q, r⟩ := x
      cases r with
      | failed => exact ih _ _
      | null => rfl
      | data d => exact ih _ _
  simp only [indexStart, getMeta, key]

/-- So two servers with the same options that started from the same directory send the same key to
different partitions: one of them did not get to read the hint. -/
theorem C95_unread_differ :
    let dir := [(ascii "partition-modular-hint", VarRead.data (ascii "3")), (ascii "partition-size", VarRead.data (ascii "8"))]
    let dir' := [(ascii "partition-modular-hint", VarRead.failed), (ascii "partition-size", VarRead.data (ascii "8"))]
    let own : Parting := { usualParting with virtual_ := 6 }
    indexStart own (some dir) = .ok (⟨8, 3, 6⟩, .simple) ∧ indexStart own (some dir') = .ok (⟨8, 1, 6⟩, .simple) ∧
    resolve ⟨8, 3, 6⟩ 0 3 = some 0 ∧ resolve ⟨8, 1, 6⟩ 0 3 = some 1 := by decide +kernel

/-- A server that has started does not distribute the keys over the partitions with one of the hashes that
are in use inside a node: else the keys of one node would not be spread there.  This holds for the hash of the directory, too. -/
theorem C95_hash_apart (own : Parting) (ch : Option (List (Bytes × VarRead))) (kr : Resolver) (ha : HashAlgorithm)
    (s : indexStart own ch = .ok (kr, ha)) : ha ≠ .bitshift ∧ ha ≠ .adler32 ∧ ha ≠ .murmur := by
  unfold indexStart at s
  split at s
  · cases s
  · cases s
  · split at s
    · cases s
    · rename_i p _
      split at s
      · cases s
      · rename_i h hh
        have : ha = h := by
          split at s
          · cases s
          · split at s
            · cases s
            · cases s; rfl
        subst this
        unfold hashAllowed at hh
        cases hc : hashAlgorithmCast p.hash with
        | none => rw [hc] at hh; cases hh
        | some x => rw [hc] at hh; cases x <;> cases hh <;> exact ⟨by simp, by simp, by simp⟩

example : indexStart { usualParting with hash := ascii "crc32" } (some []) = .ok (⟨1024, 1, 4096⟩, .crc32) ∧
    indexStart usualParting (some [(ascii "key-hash-algorithm", .data (ascii "murmur"))]) = .error .refused := by
  decide +kernel

/-- Defect: a type in the directory that is not known is used as it is: an uninitialised variable decides. -/
theorem C95_unknown_type (own : Parting) (t : Bytes) (ht : t.take 512 ≠ ascii "modular")
    (hh : hashAllowed own.hash ≠ none) :
    indexStart own (some [(ascii "partition-type", .data t)]) = .error .ub := by
  have e1 : (ascii "partition-modular-hint" == ascii "partition-type") = false := by decide +kernel
  have e2 : (ascii "partition-modular-virtual" == ascii "partition-type") = false := by decide +kernel
  have e3 : (ascii "partition-size" == ascii "partition-type") = false := by decide +kernel
  have e4 : (ascii "key-hash-algorithm" == ascii "partition-type") = false := by decide +kernel
  have m : mixParting own [(ascii "partition-type", t.take 512)] = some { own with type := t.take 512 } := by
    simp [mixParting, varInt, varText, List.lookup_cons, e1, e2, e3, e4]
  cases hc : hashAllowed own.hash with
  | none => exact absurd hc hh
  | some h => simp only [indexStart, getMeta, readVars, m, hc, resolverTypeCast, if_neg ht]

example : indexStart usualParting (some [(ascii "partition-type", .data (ascii "Modular"))]) = .error .ub := by
  decide +kernel

/-- Defect: a hint below 1, from the options or the directory, makes the server compute row 1 of its table
from a null pointer. -/
theorem C95_hint_below_one (own : Parting) (t : own.type = ascii "modular") (hh : hashAllowed own.hash ≠ none)
    (hi : own.hint.toInt < 1) (hs : 2 ≤ own.size.toInt) (hv : 1 ≤ own.virtual_.toInt) :
    indexStart own (some []) = .error .ub := by
  have m : mixParting own [] = some own := by simp [mixParting, varInt, varText]
  have r : resolverStart own = some .ub := by
    unfold resolverStart
    rw [if_neg (by omega), if_neg (by omega), if_neg (by omega), if_pos (by omega)]
  cases hc : hashAllowed own.hash with
  | none => exact absurd hc hh
  | some h =>
    simp only [indexStart, getMeta, readVars, m, hc, t, resolverTypeCast, if_true, r]

example : (0 : Int32).toInt < 1 ∧ indexStart { usualParting with hint := 0 } (some []) = .error .ub := by
  decide +kernel

/-- Defect: a server with no virtual slots starts and then has no partition for any key (the remainder by
zero is undefined). -/
theorem C95_no_slots (own : Parting) (t : own.type = ascii "modular") (ha : HashAlgorithm)
    (hh : hashAllowed own.hash = some ha) (hs : 0 ≤ own.size.toInt) (hv : own.virtual_.toInt = 0) :
    ∃ kr, indexStart own (some []) = .ok (kr, ha) ∧ ∀ h n, resolve kr h n = none := by
  have m : mixParting own [] = some own := by simp [mixParting, varInt, varText]
  have r : resolverStart own = none := by
    unfold resolverStart
    rw [if_neg (by omega)]
    split
    · rfl
    · rw [if_neg (by omega), if_neg (by omega)]
  refine ⟨⟨own.size.toInt.toNat, own.hint.toInt.toNat, own.virtual_.toInt.toNat⟩, ?_, fun h n => ?_⟩
  · simp only [indexStart, getMeta, readVars, m, hh, t, resolverTypeCast, if_true, r]
  · simp [resolve, hv]

/-- Defect: a variable that was created without data ends the process. -/
theorem C95_null_variable (own : Parting) (pre post : List (Bytes × VarRead)) (k : Bytes) :
    indexStart own (some (pre ++ (k, .null) :: post)) = .error .abort := by
  have key : ∀ (pre : List (Bytes × VarRead)) a vars,
      readVars (pre ++ (k, .null) :: post) a vars = .error .abort := by
    intro pre
    induction pre with
    | nil => intro a vars; rfl
    | cons x l ih => intro a vars; obtain ⟨q, r⟩ := x; cases r <;> first | exact ih _ _ | rfl
  simp only [indexStart, getMeta, key]

example : indexStart usualParting (some [(ascii "note", .null)]) = .error .abort := by decide +kernel

end Flare
