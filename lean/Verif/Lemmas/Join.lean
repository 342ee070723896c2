import Verif.Model.Join
import Verif.Lemmas.Dump
import Verif.Props.IndexSession

namespace Flare

/-! ### Numbers of roles and states -/

theorem Role.ofNumber_number (r : Role) : Role.ofNumber r.number = some r := by
  cases r <;> decide

theorem NState.ofNumber_number (s : NState) : NState.ofNumber s.number = some s := by
  cases s <;> decide

/-! ### Reading less of an answer -/

theorem readLine_shorter {s l rest : Bytes} (h : readLine s = some (l, rest)) : rest.length < s.length := by
  obtain ⟨x, e, -⟩ := readLine_rest h
  rw [e]
  simp only [List.length_append, List.length_cons]
  omega

theorem readNodes_fuel (q : Bytes) : ∀ n n' s, s.length < n → s.length < n' → readNodes q n s = readNodes q n' s := by
  intro n
  induction n with
  | zero => intro n' s h; omega
  | succ n ih =>
    intro n' s h h'
    cases n' with
    | zero => omega
    | succ n' =>
      cases hr : readLine s with
      | none => simp only [readNodes, hr]
      | some x =>
        obtain ⟨l, s'⟩ := x
        have := readLine_shorter hr
        simp only [readNodes, hr, ih n' s' (by omega) (by omega)]

theorem readMeta_fuel (q : Bytes) : ∀ n n' s v, s.length < n → s.length < n' →
    readMeta q n s v = readMeta q n' s v := by
  intro n
  induction n with
  | zero => intro n' s v h; omega
  | succ n ih =>
    intro n' s v h h'
    cases n' with
    | zero => omega
    | succ n' =>
      cases hr : readLine s with
      | none => simp only [readMeta, hr]
      | some x =>
        obtain ⟨l, s'⟩ := x
        have := readLine_shorter hr
        simp only [readMeta, hr]
        split
        · rfl
        · cases metaLine l q v with
          | error f => rfl
          | ok v => exact ih n' s' v (by omega) (by omega)

/-- A part of an answer is read like the whole, as far as it goes. -/
theorem readNodes_part (q : Bytes) : ∀ n a b xs s, readNodes q n (a ++ b) = .ok (xs, s) →
    readNodes q n a = .error .err ∨ ∃ s', readNodes q n a = .ok (xs, s') ∧ s = s' ++ b := by
  intro n
  induction n with
  | zero => intro a b xs s h; cases h
  | succ n ih =>
    intro a b xs s h
    cases hr : readLine a with
    | none => left; simp only [readNodes, hr]
    | some x =>
      obtain ⟨l, a'⟩ := x
      simp only [readNodes, readLine_more hr b] at h
      simp only [readNodes, hr]
      split at h
      · rename_i he
        rw [if_pos he]
        cases h
        exact .inr ⟨a', rfl, rfl⟩
      · rename_i he
        rw [if_neg he]
        cases hp : parseNodeLine l q with
        | error f => rw [hp] at h; cases h
        | ok y =>
          rw [hp] at h
          simp only at h ⊢
          cases hn : readNodes q n (a' ++ b) with
          | error f => rw [hn] at h; cases h
          | ok z =>
            obtain ⟨ys, s1⟩ := z
            rw [hn] at h
            cases h
            rcases ih a' b ys s hn with e | ⟨s', e, e'⟩
            · left; rw [e]
            · right; refine ⟨s', ?_, e'⟩; rw [e]

theorem readMeta_part (q : Bytes) : ∀ n a b v w s, readMeta q n (a ++ b) v = .ok (w, s) →
    readMeta q n a v = .error .err ∨ ∃ s', readMeta q n a v = .ok (w, s') ∧ s = s' ++ b := by
  intro n
  induction n with
  | zero => intro a b v w s h; cases h
  | succ n ih =>
    intro a b v w s h
    cases hr : readLine a with
    | none => left; simp only [readMeta, hr]
    | some x =>
      obtain ⟨l, a'⟩ := x
      simp only [readMeta, readLine_more hr b] at h
      simp only [readMeta, hr]
      split at h
      · rename_i he
        rw [if_pos he]
        cases h
        exact .inr ⟨a', rfl, rfl⟩
      · rename_i he
        rw [if_neg he]
        cases hp : metaLine l q v with
        | error f => rw [hp] at h; cases h
        | ok y =>
          rw [hp] at h
          exact ih a' b y w s h

/-- A node without a map takes all entries as new ones. -/
theorem takeEntry_new (l : List (NodeKey × Node)) : ∀ (nm : NodeMap) (sh : List Shift),
    l.foldl takeEntry ([], nm, sh) = ([], l.foldl (fun m e => mset m e.1 e.2) nm, sh) := by
  induction l with
  | nil => intros; rfl
  | cons e l ih => intro nm sh; exact ih _ _

/-! ### The session of a node that joins -/

def addLine (n : Bytes) (p : Int32) : CmdLine :=
  { cmd := ascii "node", args := [(0, ascii "add"), (0, n), (0, printInt p)] }

def metaCmd : CmdLine := { cmd := ascii "meta", args := [] }

theorem addLine_ok {n : Bytes} {p : Int32} (hn : PlainKey n 900) :
    (addLine n p).Ok ∧ (addLine n p).bytes = addRequest n p ∧
      ixMeaning (addLine n p).words = some (.add n p) := by
  have p1 := printInt_length p
  have hl := hn.2.2
  have ht : (addLine n p).text = ascii "node add " ++ n ++ [chSpace] ++ printInt p := by
    have e : ascii "node add " = ascii "node" ++ [chSpace] ++ ascii "add" ++ [chSpace] := by decide
    simp [addLine, CmdLine.text, spaced, e]
  have h10 : (ascii "node add ").length = 9 := by decide
  have hlen : (addLine n p).text.length < 1024 := by
    rw [ht]
    simp only [List.length_append, h10, List.length_singleton]
    omega
  have hh : (addLine n p).text.head? = some 110 := by rw [ht]; rfl
  refine ⟨⟨?_, hlen, by rw [hh]; decide, by rw [hh]; decide, fun h => by simp [addLine] at h⟩, ?_, ?_⟩
  · intro x hx
    simp only [CmdLine.words, addLine, List.map_cons, List.map_nil, List.mem_cons, List.not_mem_nil, or_false] at hx
    rcases hx with rfl | rfl | rfl | rfl
    · exact .of_word (by decide) (by decide) (by decide)
    · exact .of_word (by decide) (by decide) (by decide)
    · exact ⟨hn.1, hn.2.1, by omega⟩
    · exact .of_word (printInt_word _) (printInt_ne_nil _) (by omega)
  · have hc := cstr_plain hn.word
    simp only [CmdLine.bytes, addRequest, hc]
    rw [ht] at hlen
    rw [snprintfBuf_short (by omega), ht]
    rfl
  · show ixMeaning (ascii "node" :: [ascii "add", n, printInt p]) = _
    have h1 : ¬ ascii "node" = ascii "ping" := by decide
    have h2 : ¬ ascii "node" = ascii "stats" := by decide
    simp only [ixMeaning, if_neg h1, if_neg h2, if_true, nodeMeaning, intWord_print, Option.map_some]

theorem metaCmd_ok : metaCmd.Ok ∧ metaCmd.bytes = metaRequest ∧ ixMeaning metaCmd.words = some .metaInfo := by
  refine ⟨⟨?_, by decide, by decide, by decide, by decide⟩, by decide, by decide⟩
  intro x hx
  simp only [CmdLine.words, metaCmd, List.map_nil, List.mem_cons, List.not_mem_nil, or_false] at hx
  subst hx
  exact .of_word (by decide) (by decide) (by decide)

end Flare
