import Verif.Spec.Uri
import Verif.Lemmas.Config
import Verif.Lemmas.Decimal

/-! # Lemmas on the URI of the index server's state -/

namespace Flare

theorem until_take {c : UInt8} {l r : Bytes} (h : c ∉ l) : (l ++ c :: r).takeWhile (· ≠ c) = l :=
  takeWhile_pre (fun a ha => by simpa using fun e : a = c => h (e ▸ ha)) (by simp)

theorem until_drop {c : UInt8} {l r : Bytes} (h : c ∉ l) : (l ++ c :: r).dropWhile (· ≠ c) = c :: r :=
  dropWhile_pre (fun a ha => by simpa using fun e : a = c => h (e ▸ ha)) (by simp)

theorem until_none {c : UInt8} {l : Bytes} (h : c ∉ l) : l.takeWhile (· ≠ c) = l ∧ l.dropWhile (· ≠ c) = [] := by
  induction l with
  | nil => exact ⟨rfl, rfl⟩
  | cons a l ih =>
    have ha : a ≠ c := fun e => h (e ▸ List.mem_cons_self)
    have := ih (fun hm => h (List.mem_cons_of_mem _ hm))
    simpa [List.takeWhile_cons, List.dropWhile_cons, ha] using this

theorem until_split (c : UInt8) (l : Bytes) : c ∉ l ∨ ∃ a b, l = a ++ c :: b ∧ c ∉ a := by
  induction l with
  | nil => exact .inl (by simp)
  | cons x l ih =>
    by_cases hx : x = c
    · exact .inr ⟨[], l, by simp [hx], by simp⟩
    · rcases ih with h | ⟨a, b, e, h⟩
      · exact .inl (by simp only [List.mem_cons, not_or]; exact ⟨Ne.symm hx, h⟩)
      · exact .inr ⟨x :: a, b, by simp [e], by simp only [List.mem_cons, not_or]; exact ⟨Ne.symm hx, h⟩⟩

theorem ascii_file : ascii "file" = [102, 105, 108, 101] := by decide
theorem ascii_zk : ascii "zookeeper" = [122, 111, 111, 107, 101, 101, 112, 101, 114] := by decide
theorem ascii_sep : ascii "://" = [58, 47, 47] := by decide
theorem ascii_file_sep : ascii "file://" = ascii "file" ++ 58 :: 47 :: [47] := by decide
theorem ascii_zk_sep : ascii "zookeeper://" = ascii "zookeeper" ++ 58 :: 47 :: [47] := by decide

/-- A URI with a scheme, cut. -/
theorem uriParts_some {s x : Bytes} (hs : s ≠ []) (hc : 58 ∉ s) :
    uriParts (s ++ 58 :: 47 :: 47 :: x) = match x.dropWhile (· ≠ 47) with
      | [] => none
      | p => some (s, x.takeWhile (· ≠ 47), p.takeWhile (· ≠ 63)) := by
  unfold uriParts
  rw [until_take hc, until_drop hc]
  cases s with
  | nil => exact absurd rfl hs
  | cons a s => rfl

theorem uriParts_cut {s a b : Bytes} (hs : s ≠ []) (hc : 58 ∉ s) (ha : 47 ∉ a) :
    uriParts (s ++ 58 :: 47 :: 47 :: (a ++ 47 :: b)) = some (s, a, 47 :: b.takeWhile (· ≠ 63)) := by
  rw [uriParts_some hs hc, until_take ha, until_drop ha]
  simp

theorem uriParts_none {s a : Bytes} (hs : s ≠ []) (hc : 58 ∉ s) (ha : 47 ∉ a) :
    uriParts (s ++ 58 :: 47 :: 47 :: a) = none := by
  rw [uriParts_some hs hc, (until_none ha).2]

theorem factoryScheme_some {s x : Bytes} (hc : 58 ∉ s) (hx : x ≠ []) :
    factoryScheme (s ++ 58 :: 47 :: 47 :: x) = s := by
  unfold factoryScheme
  rw [until_take hc, until_drop hc]
  cases x with
  | nil => exact absurd rfl hx
  | cons a x => rfl

theorem factoryScheme_form {u : Bytes} (h : factoryScheme u ≠ []) :
    ∃ x, x ≠ [] ∧ u = factoryScheme u ++ 58 :: 47 :: 47 :: x := by
  unfold factoryScheme at h
  split at h
  · rename_i c t hb
    refine ⟨c :: t, by simp, ?_⟩
    unfold factoryScheme
    simp only [hb]
    rw [← hb, List.takeWhile_append_dropWhile]
  · exact absurd rfl h

theorem file_colon : (58 : UInt8) ∉ ascii "file" := by decide
theorem zk_colon : (58 : UInt8) ∉ ascii "zookeeper" := by decide

theorem fileKeeper {x : Bytes} (hx : x ≠ []) :
    createKeeper (ascii "file://" ++ x) = .file (uriPath (ascii "file" ++ 58 :: 47 :: 47 :: x) ++ ascii "/flare.xml") := by
  rw [ascii_file_sep, List.append_assoc, List.cons_append, List.cons_append, List.singleton_append]
  unfold createKeeper
  rw [factoryScheme_some file_colon hx, if_pos rfl]

theorem zkKeeper {x : Bytes} (hx : x ≠ []) :
    createKeeper (ascii "zookeeper://" ++ x) = .zookeeper (zkConn (ascii "zookeeper" ++ 58 :: 47 :: 47 :: x)) := by
  rw [ascii_zk_sep, List.append_assoc, List.cons_append, List.cons_append, List.singleton_append]
  unfold createKeeper
  rw [factoryScheme_some zk_colon hx, if_neg (by decide), if_pos rfl]

/-- The path that is read from a text after `file://`. -/
theorem uriPath_file (a b : Bytes) (ha : 47 ∉ a) :
    uriPath (ascii "file" ++ 58 :: 47 :: 47 :: (a ++ 47 :: b)) =
      if (authParts a).isSome then 47 :: b.takeWhile (· ≠ 63) else [] := by
  unfold uriPath
  rw [uriParts_cut (by decide) file_colon ha]

theorem uriPath_file_none (a : Bytes) (ha : 47 ∉ a) : uriPath (ascii "file" ++ 58 :: 47 :: 47 :: a) = [] := by
  unfold uriPath
  rw [uriParts_none (by decide) file_colon ha]

theorem authParts_plain {a : Bytes} (h : 58 ∉ a) (h2 : 64 ∉ a) : authParts a = some ([], a, []) := by
  unfold authParts
  simp only [if_neg h2, (until_none h).1, (until_none h).2]
  rw [if_neg (by simp [h2])]

theorem authParts_port {a d : Bytes} (h : 58 ∉ a) (h2 : 64 ∉ a) (hd : d ≠ []) (hn : ∀ c ∈ d, isDigit c = true) :
    authParts (a ++ 58 :: d) = some ([], a, d) := by
  have h64 : (64 : UInt8) ∉ a ++ 58 :: d := by
    simp only [List.mem_append, List.mem_cons, not_or]
    exact ⟨h2, by decide, fun hm => by have := hn _ hm; revert this; decide⟩
  unfold authParts
  simp only [if_neg h64, until_take h, until_drop h]
  rw [if_neg (by simp [h2]), if_pos ⟨hd, by simpa using hn⟩]

/-- The user is cut off. -/
theorem authParts_user {u r : Bytes} (hu : 64 ∉ u) : authParts (u ++ 64 :: r) =
    if 58 ∈ u ∨ 64 ∈ r.takeWhile (· ≠ 58) then none else match r.dropWhile (· ≠ 58) with
      | [] => some (u, r.takeWhile (· ≠ 58), [])
      | _ :: d => if d ≠ [] ∧ d.all isDigit then some (u, r.takeWhile (· ≠ 58), d) else none := by
  have hin : (64 : UInt8) ∈ u ++ 64 :: r := by simp
  unfold authParts
  simp only [if_pos hin, until_take hu, until_drop hu, List.drop_succ_cons, List.drop_zero]
  cases r.dropWhile (fun x => decide (x ≠ 58)) <;> rfl

theorem authParts_bare {r : Bytes} (hr : 64 ∉ r) : authParts r =
    match r.dropWhile (· ≠ 58) with
      | [] => some ([], r.takeWhile (· ≠ 58), [])
      | _ :: d => if d ≠ [] ∧ d.all isDigit then some ([], r.takeWhile (· ≠ 58), d) else none := by
  unfold authParts
  simp only [if_neg hr, List.not_mem_nil, false_or]
  rw [if_neg (fun hm => hr ((List.takeWhile_prefix _).subset hm))]
  cases r.dropWhile (fun x => decide (x ≠ 58)) <;> rfl

theorem portOf_decimal {p : Nat} (h : p ≤ 2147483647) : portOf (decimal p) = p := by
  unfold portOf
  rw [decValue_decimal, if_neg (by simp only [not_or]; exact ⟨decimal_ne_nil p, by omega⟩)]

theorem commaParts_ne (l : Bytes) : commaParts l ≠ [] := by
  cases l with
  | nil => simp [commaParts]
  | cons c l => unfold commaParts; split; · simp
                split <;> simp

theorem commaParts_plain {l : Bytes} (h : 44 ∉ l) : commaParts l = [l] := by
  induction l with
  | nil => rfl
  | cons c l ih =>
    have hc : c ≠ 44 := fun e => h (e ▸ List.mem_cons_self)
    simp only [commaParts, if_neg hc, ih (fun hm => h (List.mem_cons_of_mem _ hm))]

theorem commaParts_cons {l r : Bytes} (h : 44 ∉ l) : commaParts (l ++ 44 :: r) = l :: commaParts r := by
  induction l with
  | nil => simp [commaParts]
  | cons c l ih =>
    have hc : c ≠ 44 := fun e => h (e ▸ List.mem_cons_self)
    simp only [List.cons_append, commaParts, if_neg hc, ih (fun hm => h (List.mem_cons_of_mem _ hm))]

theorem commaParts_length (l : Bytes) : (commaParts l).length = l.count 44 + 1 := by
  induction l with
  | nil => rfl
  | cons c l ih =>
    unfold commaParts
    split
    · rename_i h; subst h; simp [ih]
    · rename_i h
      split
      · rename_i h2; exact absurd h2 (commaParts_ne l)
      · rename_i h2; rw [h2] at ih; simp only [List.length_cons] at ih ⊢; rw [List.count_cons_of_ne h]; exact ih

/-- One server of a list, as written. -/
def serverText (h : Bytes × Nat) : Bytes := h.1 ++ 58 :: decimal h.2

theorem serverText_no {h : Bytes × Nat} (hp : PlainHost h.1) : (44 : UInt8) ∉ serverText h ∧ (47 : UInt8) ∉ serverText h := by
  constructor <;>
  · simp only [serverText, List.mem_append, List.mem_cons, not_or]
    refine ⟨fun hm => ?_, by decide, fun hm => ?_⟩
    · have := hp _ hm; simp at this
    · have := decimal_digits _ _ hm; revert this; decide

theorem zkHost_text {h : Bytes × Nat} (hp : PlainHost h.1) (hr : h.2 ≤ 2147483647) : zkHost (serverText h) = h := by
  unfold zkHost serverText
  rw [authParts_port (fun hm => (hp _ hm).1 rfl) (fun hm => (hp _ hm).2.1 rfl) (decimal_ne_nil _) (decimal_digits _)]
  simp only [portOf_decimal hr]

theorem serverList_cons (h : Bytes × Nat) (l : List (Bytes × Nat)) (hl : l ≠ []) :
    serverList (h :: l) = serverText h ++ 44 :: serverList l := by
  cases l with
  | nil => exact absurd rfl hl
  | cons g l => 
    have e1 : ascii ":" = [58] := by decide
    have e2 : ascii "," = [44] := by decide
    simp [serverList, serverText, e1, e2]

theorem serverList_one (h : Bytes × Nat) : serverList [h] = serverText h := by
  have e1 : ascii ":" = [58] := by decide
  simp [serverList, serverText, e1]

theorem zkHosts_list (l : List (Bytes × Nat)) : zkHosts l = serverList l := by
  induction l with
  | nil => rfl
  | cons h l ih =>
    cases l with
    | nil => rw [serverList_one]; rfl
    | cons g l => rw [serverList_cons _ _ (by simp), ← ih]; simp [zkHosts, serverText]

theorem serverList_parts {l : List (Bytes × Nat)} (hl : l ≠ []) (hp : ∀ h ∈ l, PlainHost h.1) :
    commaParts (serverList l) = l.map serverText ∧ (47 : UInt8) ∉ serverList l := by
  induction l with
  | nil => exact absurd rfl hl
  | cons h l ih =>
    have h1 := serverText_no (hp h (by simp))
    cases l with
    | nil => rw [serverList_one]; exact ⟨commaParts_plain h1.1, h1.2⟩
    | cons g l =>
      have := ih (by simp) (fun x hx => hp x (by simp [hx]))
      rw [serverList_cons _ _ (by simp)]
      refine ⟨by rw [commaParts_cons h1.1, this.1]; rfl, ?_⟩
      simp only [List.mem_append, List.mem_cons, not_or]
      exact ⟨h1.2, by decide, this.2⟩

theorem zkUri_some {a b : Bytes} (ha : 47 ∉ a) :
    zkUri (ascii "zookeeper" ++ 58 :: 47 :: 47 :: (a ++ 47 :: b)) =
      if (commaParts a).length ≤ 5 then ((commaParts a).map zkHost, 47 :: b.takeWhile (· ≠ 63)) else ([([], 0)], []) := by
  unfold zkUri
  rw [uriParts_cut (by decide) zk_colon ha]

end Flare
