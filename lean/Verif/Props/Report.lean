import Verif.Spec.Report
import Verif.Lemmas.Control
import Verif.Lemmas.BinSession
import Verif.Props.BinSession

/-! C92: `stats nodes` and `stats threads` show what there is, in both protocols. -/
namespace Flare

/-- A name as it is shown: one word. -/
def StatName (x : Bytes) : Prop := (∀ c ∈ x, wordChar c = true) ∧ x ≠ []

theorem takeWhile_word {x v : Bytes} (h : ∀ c ∈ x, wordChar c = true) :
    (x ++ chSpace :: v).takeWhile (· ≠ chSpace) = x := by
  rw [List.takeWhile_append_of_pos]
  · simp
  · intro c hc
    have := h c hc
    simp only [wordChar, decide_eq_true_eq] at this
    simpa using this.2.1

/-- What is sent as text is what is read. -/
theorem readStats_text (l : List (Bytes × Bytes)) (h : ∀ x ∈ l, StatName x.1 ∧ ∀ c ∈ x.2, c ≠ chNl) (more : Bytes) :
    readStats (l.length + 1) (statsText l ++ more) = some (l, more) := by
  induction l with
  | nil =>
    have e : statsText [] ++ more = ascii "END" ++ crlf ++ more := by simp [statsText]
    rw [e, List.length_nil, readStats, readLine_crlf (by decide)]
    rfl
  | cons x l ih =>
    obtain ⟨⟨hw, hn⟩, hv⟩ := h x List.mem_cons_self
    have ih := ih (fun y hy => h y (List.mem_cons_of_mem _ hy))
    have hc : cstr x.1 = x.1 := cstr_plain hw
    have e : statsText (x :: l) ++ more = (ascii "STAT " ++ (x.1 ++ chSpace :: x.2)) ++ crlf ++ (statsText l ++ more) := by
      simp [statsText, hc]
    have hnl : ∀ c ∈ ascii "STAT " ++ (x.1 ++ chSpace :: x.2), c ≠ chNl :=
      mem_app (by decide) (mem_app (fun c hc => wordChar_ne_nl (hw c hc)) (mem_space hv))
    rw [e, List.length_cons, readStats, readLine_crlf hnl]
    have h1 : ¬ ascii "STAT " ++ (x.1 ++ chSpace :: x.2) ++ [chNl] = ascii "END\n" := by
      intro e
      have h0 : (ascii "STAT " ++ (x.1 ++ chSpace :: x.2) ++ [chNl]).head? = some 83 := rfl
      rw [e] at h0
      exact absurd h0 (by decide)
    have h2 : (ascii "STAT " ++ (x.1 ++ chSpace :: x.2) ++ [chNl]).take 5 = ascii "STAT " := rfl
    have h3 : ((ascii "STAT " ++ (x.1 ++ chSpace :: x.2) ++ [chNl]).drop 5).dropLast = x.1 ++ chSpace :: x.2 := by
      have : (ascii "STAT " ++ (x.1 ++ chSpace :: x.2) ++ [chNl]).drop 5 = (x.1 ++ chSpace :: x.2) ++ [chNl] := rfl
      rw [this, List.dropLast_concat]
    simp only [h2, h3, takeWhile_word hw, if_neg h1, if_true]
    rw [if_pos (by simp), ih]
    simp

theorem snprintfBuf_nodeStats (n : NodeInfo) (h : n.Plain) : nodeStats n = n.shown := by
  have hp := printInt_length n.port
  have hl := h.2
  have key : ∀ x : Bytes, x.length ≤ 12 →
      snprintfBuf (toNodeKey n.name n.port ++ x) = n.name ++ [chColon] ++ printInt n.port ++ x := by
    intro x hx
    rw [snprintfBuf_short (by simp only [toNodeKey, List.length_append, List.length_singleton]; omega)]
    rfl
  simp only [nodeStats, NodeInfo.shown]
  rw [key _ (by decide), key _ (by decide), key _ (by decide), key _ (by decide), key _ (by decide)]

theorem word_append {a b : Bytes} (ha : ∀ c ∈ a, wordChar c = true) (hb : ∀ c ∈ b, wordChar c = true) :
    ∀ c ∈ a ++ b, wordChar c = true := by
  intro c hc
  rcases List.mem_append.1 hc with h | h
  · exact ha c h
  · exact hb c h

theorem node_shown_ok (n : NodeInfo) (h : n.Plain) : ∀ x ∈ n.shown, StatName x.1 ∧ ∀ c ∈ x.2, c ≠ chNl := by
  have hk : ∀ c ∈ n.name ++ [chColon] ++ printInt n.port, wordChar c = true :=
    word_append (word_append h.1 (by decide)) (printInt_word n.port)
  have hne : ∀ y : Bytes, n.name ++ [chColon] ++ printInt n.port ++ y ≠ [] := by
    intro y e
    have := congrArg List.length e
    simp at this
  have hi : ∀ i : Int32, ∀ c ∈ printInt i, c ≠ chNl := fun i => word_no_nl (printInt_word i)
  intro x hx
  simp only [NodeInfo.shown, List.mem_cons, List.not_mem_nil, or_false] at hx
  rcases hx with rfl | rfl | rfl | rfl | rfl
  · exact ⟨⟨word_append hk (by decide), hne _⟩, word_no_nl (Role.name_facts _).1⟩
  · exact ⟨⟨word_append hk (by decide), hne _⟩, word_no_nl (NState.name_facts _).1⟩
  · exact ⟨⟨word_append hk (by decide), hne _⟩, hi _⟩
  · exact ⟨⟨word_append hk (by decide), hne _⟩, hi _⟩
  · exact ⟨⟨word_append hk (by decide), hne _⟩, hi _⟩

theorem nodes_shown {ns : List NodeInfo} (h : ∀ n ∈ ns, n.Plain) : ns.flatMap nodeStats = ns.flatMap NodeInfo.shown := by
  induction ns with
  | nil => rfl
  | cons n ns ih =>
    rw [List.flatMap_cons, List.flatMap_cons, snprintfBuf_nodeStats n (h n List.mem_cons_self),
      ih (fun m hm => h m (List.mem_cons_of_mem _ hm))]

theorem nodes_shown_ok {ns : List NodeInfo} (h : ∀ n ∈ ns, n.Plain) :
    ∀ x ∈ ns.flatMap NodeInfo.shown, StatName x.1 ∧ ∀ c ∈ x.2, c ≠ chNl := by
  intro x hx
  obtain ⟨n, hn, hx⟩ := List.mem_flatMap.1 hx
  exact node_shown_ok n (h n hn) x hx

/-- **C92**: a client that reads the answer to `stats nodes` gets five values for each node, in order, and nothing else. -/
theorem C92_nodes_text (ns : List NodeInfo) (h : ∀ n ∈ ns, n.Plain) (more : Bytes) :
    readStats ((ns.flatMap NodeInfo.shown).length + 1) (statsText (ns.flatMap nodeStats) ++ more) =
      some (ns.flatMap NodeInfo.shown, more) := by
  rw [nodes_shown h]
  exact readStats_text _ (nodes_shown_ok h) more

/-! ### The binary protocol -/

/-- The message about one value. -/
def statMsg (x : Bytes × Bytes) : BinMsg := { opcode := 0x10, extras := [], key := x.1, value := x.2 }

theorem binStat_eq (x : Bytes × Bytes) (h : StatName x.1) (h1 : x.1.length < 65536)
    (h2 : x.1.length + x.2.length < 2147483648) :
    binStat x = .ok ((statMsg x).bytes 0x81) ∧ (statMsg x).Fits := by
  have hf : (statMsg x).Fits := ⟨(by show (0 : Nat) < 256; decide), h1, by simpa [statMsg] using h2⟩
  have hp := plainHeader 0x10 0 x.1 x.2 h1 h2
  have ht := third_zero 0x10
  have hz : (0 : UInt16).toNat = 0 := rfl
  have ho : (0x10 : UInt8).toNat = 0x10 := rfl
  rw [hz, ht, ho] at hp
  refine ⟨?_, hf⟩
  simp only [binStat, cstr_plain h.1, List.length_append]
  rw [hp]
  have := sendBin_header (statMsg x) hf
  simpa [statMsg] using this

theorem statsBin_eq (l : List (Bytes × Bytes)) (h : ∀ x ∈ l, StatName x.1 ∧ x.1.length < 65536 ∧
    x.1.length + x.2.length < 2147483648) :
    statsBin l = .ok ((l.map statMsg ++ [statMsg ([], [])]).flatMap (BinMsg.bytes 0x81)) ∧
      ∀ m ∈ l.map statMsg ++ [statMsg ([], [])], m.Fits := by
  induction l with
  | nil =>
    refine ⟨by decide +kernel, ?_⟩
    intro m hm
    simp only [List.map_nil, List.nil_append, List.mem_singleton] at hm
    subst hm
    exact ⟨by decide, by decide, by decide⟩
  | cons x l ih =>
    obtain ⟨h1, h2, h3⟩ := h x List.mem_cons_self
    obtain ⟨e1, f1⟩ := binStat_eq x h1 h2 h3
    obtain ⟨e2, f2⟩ := ih (fun y hy => h y (List.mem_cons_of_mem _ hy))
    refine ⟨?_, ?_⟩
    · simp only [statsBin, e1, e2, List.map_cons, List.cons_append, List.flatMap_cons]
    · intro m hm
      simp only [List.map_cons, List.cons_append, List.mem_cons] at hm
      rcases hm with rfl | hm
      · exact f1
      · exact f2 m hm

theorem names_short (n : NodeInfo) (h : n.Plain) : ∀ x ∈ n.shown, x.1.length ≤ 8191 ∧ x.2.length ≤ 100 := by
  have hp := printInt_length n.port
  have hl := h.2
  have hi := fun i => printInt_length i
  have hr : n.role.name.length ≤ 100 := by cases n.role <;> decide
  have hs : n.state.name.length ≤ 100 := by cases n.state <;> decide
  have key : ∀ y : Bytes, y.length ≤ 12 → (n.name ++ [chColon] ++ printInt n.port ++ y).length ≤ 8191 := by
    intro y hy
    simp only [List.length_append, List.length_singleton]
    omega
  intro x hx
  simp only [NodeInfo.shown, List.mem_cons, List.not_mem_nil, or_false] at hx
  rcases hx with rfl | rfl | rfl | rfl | rfl
  · exact ⟨key _ (by decide), hr⟩
  · exact ⟨key _ (by decide), hs⟩
  · exact ⟨key _ (by decide), by have := hi n.partition; simp only; omega⟩
  · exact ⟨key _ (by decide), by have := hi n.balance; simp only; omega⟩
  · exact ⟨key _ (by decide), by have := hi n.threadType; simp only; omega⟩

/-- **C92**: a client of the binary protocol gets the same values under the same names, each in a message of its own, and a
message without name and value at the end. -/
theorem C92_nodes_binary (ns : List NodeInfo) (h : ∀ n ∈ ns, n.Plain) (more : Bytes) :
    ∃ b ms, statsBin (ns.flatMap nodeStats) = .ok b ∧
      readBins ((ns.flatMap NodeInfo.shown).length + 1) (b ++ more) = some (ms, more) ∧
      ms.map (fun m => (m.key, m.value)) = ns.flatMap NodeInfo.shown ++ [([], [])] ∧
      ∀ m ∈ ms, m.opcode = 0x10 ∧ m.extras = [] ∧ m.vbucket = 0 := by
  rw [nodes_shown h]
  obtain ⟨e, f⟩ := statsBin_eq (ns.flatMap NodeInfo.shown) (by
    intro x hx
    refine ⟨(nodes_shown_ok h x hx).1, ?_⟩
    obtain ⟨n, hn, hx⟩ := List.mem_flatMap.1 hx
    obtain ⟨h1, h2⟩ := names_short n (h n hn) x hx
    omega)
  refine ⟨_, (ns.flatMap NodeInfo.shown).map statMsg ++ [statMsg ([], [])], e, ?_, ?_, ?_⟩
  · have := readBins_flat _ f more
    simpa using this
  · have hid : (fun m : BinMsg => (m.key, m.value)) ∘ statMsg = id := rfl
    rw [List.map_append, List.map_map, hid, List.map_id]
    rfl
  · intro m hm
    simp only [List.mem_append, List.mem_map, List.mem_singleton] at hm
    rcases hm with ⟨x, -, rfl⟩ | rfl <;> exact ⟨rfl, rfl, rfl⟩

/-! ### Finding a value by its name -/

theorem lookup_only {l : List (Bytes × Bytes)} {k v : Bytes} (h : (k, v) ∈ l) (hu : ∀ v', (k, v') ∈ l → v' = v) :
    l.lookup k = some v := by
  induction l with
  | nil => cases h
  | cons x l ih =>
    obtain ⟨k', v'⟩ := x
    by_cases hk : k = k'
    · subst hk
      rw [List.lookup_cons, beq_self_eq_true]
      simp only
      rw [hu v' List.mem_cons_self]
    · rw [List.lookup_cons, beq_false_of_ne hk]
      rcases List.mem_cons.1 h with e | e
      · cases e; exact absurd rfl hk
      · exact ih e (fun w hw => hu w (List.mem_cons_of_mem _ hw))

/-- The five fields. -/
def NodeInfo.fields (n : NodeInfo) : List (Bytes × Bytes) :=
  [(ascii "role", n.role.name), (ascii "state", n.state.name), (ascii "partition", printInt n.partition),
    (ascii "balance", printInt n.balance), (ascii "thread_type", printInt n.threadType)]

theorem shown_eq (n : NodeInfo) :
    n.shown = n.fields.map fun x => ((n.name ++ chColon :: printInt n.port) ++ chColon :: x.1, x.2) := by
  have key : ∀ y z : Bytes, y = chColon :: z →
      n.name ++ [chColon] ++ printInt n.port ++ y = (n.name ++ chColon :: printInt n.port) ++ chColon :: z := by
    rintro y z rfl
    simp
  simp only [NodeInfo.shown, NodeInfo.fields, List.map_cons, List.map_nil]
  rw [key _ _ (show ascii ":role" = chColon :: ascii "role" by decide),
    key _ _ (show ascii ":state" = chColon :: ascii "state" by decide),
    key _ _ (show ascii ":partition" = chColon :: ascii "partition" by decide),
    key _ _ (show ascii ":balance" = chColon :: ascii "balance" by decide),
    key _ _ (show ascii ":thread_type" = chColon :: ascii "thread_type" by decide)]

theorem fields_names (n : NodeInfo) : n.fields.map Prod.fst =
    [ascii "role", ascii "state", ascii "partition", ascii "balance", ascii "thread_type"] := rfl

theorem fields_no_colon (n : NodeInfo) : ∀ x ∈ n.fields, ∀ c ∈ x.1, c ≠ chColon := by
  intro x hx
  have hx' := List.mem_map_of_mem (f := Prod.fst) hx
  rw [fields_names] at hx'
  have : ∀ y ∈ [ascii "role", ascii "state", ascii "partition", ascii "balance", ascii "thread_type"],
      ∀ c ∈ y, c ≠ chColon := by decide
  exact this x.1 hx'

theorem fields_inj (n : NodeInfo) {f v v' : Bytes} (h : (f, v) ∈ n.fields) (h' : (f, v') ∈ n.fields) : v = v' := by
  simp only [NodeInfo.fields, List.mem_cons, Prod.mk.injEq, List.not_mem_nil, or_false] at h h'
  have n1 : ascii "role" ≠ ascii "state" := by decide
  have n2 : ascii "role" ≠ ascii "partition" := by decide
  have n3 : ascii "role" ≠ ascii "balance" := by decide
  have n4 : ascii "role" ≠ ascii "thread_type" := by decide
  have n5 : ascii "state" ≠ ascii "partition" := by decide
  have n6 : ascii "state" ≠ ascii "balance" := by decide
  have n7 : ascii "state" ≠ ascii "thread_type" := by decide
  have n8 : ascii "partition" ≠ ascii "balance" := by decide
  have n9 : ascii "partition" ≠ ascii "thread_type" := by decide
  have n10 : ascii "balance" ≠ ascii "thread_type" := by decide
  rcases h with ⟨rfl, rfl⟩ | ⟨rfl, rfl⟩ | ⟨rfl, rfl⟩ | ⟨rfl, rfl⟩ | ⟨rfl, rfl⟩ <;>
    rcases h' with ⟨e, rfl⟩ | ⟨e, rfl⟩ | ⟨e, rfl⟩ | ⟨e, rfl⟩ | ⟨e, rfl⟩ <;>
    first | rfl | exact absurd e ‹_› | exact absurd e.symm ‹_›

/-- **C92**: what is shown under the name of a node and a field is the field of that node, whatever other nodes there are. -/
theorem C92_nodes_found (ns : List NodeInfo)
    (hd : ∀ n ∈ ns, ∀ m ∈ ns, n.name = m.name → n.port = m.port → n = m) (n : NodeInfo) (hn : n ∈ ns) (f v : Bytes)
    (hf : (f, v) ∈ n.fields) :
    (ns.flatMap NodeInfo.shown).lookup (n.name ++ ascii ":" ++ printInt n.port ++ ascii ":" ++ f) = some v := by
  have he : n.name ++ ascii ":" ++ printInt n.port ++ ascii ":" ++ f =
      (n.name ++ chColon :: printInt n.port) ++ chColon :: f := by
    have : ascii ":" = [chColon] := by decide
    simp [this]
  rw [he]
  apply lookup_only
  · refine List.mem_flatMap.2 ⟨n, hn, ?_⟩
    rw [shown_eq]
    exact List.mem_map.2 ⟨(f, v), hf, rfl⟩
  · intro v' h
    obtain ⟨m, hm, h⟩ := List.mem_flatMap.1 h
    rw [shown_eq] at h
    obtain ⟨⟨g, w⟩, hg, e⟩ := List.mem_map.1 h
    simp only [Prod.mk.injEq] at e
    obtain ⟨e, rfl⟩ := e
    obtain ⟨e1, e2⟩ := split_colon (fields_no_colon m _ hg) (fields_no_colon n _ hf) e
    obtain ⟨e3, e4⟩ := split_colon (printInt_noColon _) (printInt_noColon _) e1
    have e5 : m.port = n.port := by
      have := congrArg lexInt e4
      rw [lexInt_print, lexInt_print] at this
      exact Option.some.inj this
    have := hd m hm n hn e3 e5
    subst this
    cases e2
    exact fields_inj m hg hf

example : (([⟨ascii "a:1", 2, .master, .active, 0, 3, 16⟩, ⟨ascii "a", 1, .slave, .prepare, -1, 0, 17⟩] : List NodeInfo).flatMap
    NodeInfo.shown).lookup (ascii "a:1:state") = some (ascii "prepare") := by decide +kernel

theorem role_name_inj {a b : Role} (h : a.name = b.name) : a = b := by
  revert h
  cases a <;> cases b <;> decide

theorem state_name_inj {a b : NState} (h : a.name = b.name) : a = b := by
  revert h
  cases a <;> cases b <;> decide

theorem printInt_inj {a b : Int32} (h : printInt a = printInt b) : a = b := by
  have := congrArg lexInt h
  rw [lexInt_print, lexInt_print] at this
  exact Option.some.inj this

theorem shown_inj {a b : NodeInfo} (h : a.shown = b.shown) : a = b := by
  simp only [NodeInfo.shown, List.cons.injEq, Prod.mk.injEq, and_true] at h
  obtain ⟨⟨e1, e2⟩, ⟨-, e3⟩, ⟨-, e4⟩, ⟨-, e5⟩, -, e6⟩ := h
  have e1 := List.append_cancel_right e1
  simp only [List.append_assoc, List.singleton_append] at e1
  obtain ⟨n1, n2⟩ := split_colon (printInt_noColon _) (printInt_noColon _) e1
  have p1 := printInt_inj n2
  have p2 := role_name_inj e2
  have p3 := state_name_inj e3
  have p4 := printInt_inj e4
  have p5 := printInt_inj e5
  have p6 := printInt_inj e6
  cases a; cases b
  simp only at n1 p1 p2 p3 p4 p5 p6
  subst n1 p1 p2 p3 p4 p5 p6
  rfl

/-- **C92**: servers that answer `stats nodes` alike have the same nodes, in the same order. -/
theorem C92_nodes_known (a b : List NodeInfo) (ha : ∀ n ∈ a, n.Plain) (hb : ∀ n ∈ b, n.Plain)
    (h : statsText (a.flatMap nodeStats) = statsText (b.flatMap nodeStats)) : a = b := by
  have r1 := readStats_text _ (nodes_shown_ok ha) []
  have r2 := readStats_text _ (nodes_shown_ok hb) []
  rw [nodes_shown ha, nodes_shown hb] at h
  -- more lines than there are do not matter
  have mono : ∀ (n m : Nat) (s : Bytes) (x : List (Bytes × Bytes) × Bytes), n ≤ m → readStats n s = some x →
      readStats m s = some x := by
    intro n
    induction n with
    | zero => intro m s x _ h; cases h
    | succ n ih =>
      intro m s x hm h
      obtain ⟨m, rfl⟩ : ∃ m', m = m' + 1 := ⟨m - 1, by omega⟩
      rw [readStats] at h ⊢
      cases hl : readLine s with
      | none => rw [hl] at h; cases h
      | some y =>
        rw [hl] at h
        simp only at h ⊢
        split at h
        · rw [if_pos ‹_›]; exact h
        · rw [if_neg ‹_›]
          split at h
          · rw [if_pos ‹_›]
            split at h
            · rw [if_pos ‹_›]
              cases hr : readStats n y.2 with
              | none => rw [hr] at h; cases h
              | some z => rw [hr] at h; rw [ih m _ _ (by omega) hr]; exact h
            · cases h
          · cases h
  have r1' := mono _ ((a.flatMap NodeInfo.shown).length + 1 + ((b.flatMap NodeInfo.shown).length + 1)) _ _ (by omega) r1
  have r2' := mono _ ((a.flatMap NodeInfo.shown).length + 1 + ((b.flatMap NodeInfo.shown).length + 1)) _ _ (by omega) r2
  rw [h, r2'] at r1'
  simp only [Option.some.injEq, Prod.mk.injEq, and_true] at r1'
  have cut : ∀ (a b : List NodeInfo), b.flatMap NodeInfo.shown = a.flatMap NodeInfo.shown → a = b := by
    intro a
    induction a with
    | nil =>
      intro b h
      cases b with
      | nil => rfl
      | cons y b => exact absurd (congrArg List.length h) (by simp [NodeInfo.shown])
    | cons x a ih =>
      intro b h
      cases b with
      | nil => exact absurd (congrArg List.length h) (by simp [NodeInfo.shown])
      | cons y b =>
        rw [List.flatMap_cons, List.flatMap_cons] at h
        obtain ⟨h1, h2⟩ := List.append_inj h (by simp [NodeInfo.shown])
        rw [shown_inj h1, ih b h2]
  exact cut a b r1'

example : statsText (([⟨ascii "n1", 12121, .master, .active, 0, 1, 16⟩] : List NodeInfo).flatMap nodeStats) =
    ascii "STAT n1:12121:role master\r\nSTAT n1:12121:state active\r\nSTAT n1:12121:partition 0\r\nSTAT n1:12121:balance 1\r\nSTAT n1:12121:thread_type 16\r\nEND\r\n" := by
  decide +kernel

/-- **C92, defect**: the name of a node that fills the buffer leaves no room for the names of the fields, and all five values
are shown under the same name. -/
theorem C92_long_name (n : NodeInfo) (h : 8191 ≤ n.name.length) :
    ∀ x ∈ nodeStats n, x.1 = n.name.take 8191 := by
  have key : ∀ y : Bytes, snprintfBuf (toNodeKey n.name n.port ++ y) = n.name.take 8191 := by
    intro y
    simp only [snprintfBuf, toNodeKey, List.append_assoc]
    exact List.take_append_of_le_length h
  intro x hx
  simp only [nodeStats, List.mem_cons, List.not_mem_nil, or_false] at hx
  rcases hx with rfl | rfl | rfl | rfl | rfl <;> exact key _

example : ∀ x ∈ nodeStats ⟨List.replicate 9000 97, 1, .master, .active, 0, 1, 16⟩, x.1 = (List.replicate 9000 (97 : UInt8)).take 8191 :=
  C92_long_name _ (by rw [List.length_replicate]; decide)

/-! ### Threads -/

theorem decimal_word (n : Nat) : ∀ c ∈ decimal n, wordChar c = true := by
  intro c hc
  have h1 := isDigit_iff.1 (decimal_digits n c hc)
  have h0 : c ≠ 0 := by rintro rfl; revert h1; decide
  have h2 : c ≠ chSpace := by rintro rfl; revert h1; decide
  have h3 : c ≠ chNl := by rintro rfl; revert h1; decide
  simp [wordChar, h0, h2, h3]

theorem thread_shown (now : Int64) (t : ThreadInfo) (h : t.Plain) : threadStats now t = t.shown now := by
  obtain ⟨hp, hl, -⟩ := h
  have hd : (decimal t.id.toNat).length ≤ 20 := decimal_length_64 (by have := t.id.toNat_lt; omega)
  have hi := printInt_length t.port
  have hc : cstr t.peer = t.peer := by
    apply takeWhile_all
    intro a ha
    simpa using (hp a ha).1
  have key : ∀ x : Bytes, x.length ≤ 12 → snprintfBuf (decimal t.id.toNat ++ x) = decimal t.id.toNat ++ x := by
    intro x hx
    exact snprintfBuf_short (by simp only [List.length_append]; omega)
  simp only [threadStats, ThreadInfo.shown, hc]
  rw [key _ (by decide), key _ (by decide), key _ (by decide), key _ (by decide), key _ (by decide), key _ (by decide),
    key _ (by decide), key _ (by decide), snprintfBuf_short (by simp only [List.length_append, List.length_singleton]; omega)]

theorem thread_shown_ok (now : Int64) (t : ThreadInfo) (h : t.Plain) :
    ∀ x ∈ t.shown now, StatName x.1 ∧ ∀ c ∈ x.2, c ≠ chNl := by
  obtain ⟨hp, -, ho, hs, hi⟩ := h
  have hk := decimal_word t.id.toNat
  have hne : ∀ y : Bytes, decimal t.id.toNat ++ y ≠ [] := by
    intro y e
    exact decimal_ne_nil _ (List.append_eq_nil_iff.1 e).1
  have hn : ∀ i : Int32, ∀ c ∈ printInt i, c ≠ chNl := fun i => word_no_nl (printInt_word i)
  intro x hx
  simp only [ThreadInfo.shown, List.mem_cons, List.not_mem_nil, or_false] at hx
  rcases hx with rfl | rfl | rfl | rfl | rfl | rfl | rfl | rfl
  · exact ⟨⟨word_append hk (by decide), hne _⟩, hn _⟩
  · exact ⟨⟨word_append hk (by decide), hne _⟩, mem_app (mem_app (fun c hc => (hp c hc).2) (by decide)) (hn _)⟩
  · exact ⟨⟨word_append hk (by decide), hne _⟩, ho⟩
  · exact ⟨⟨word_append hk (by decide), hne _⟩, decimalInt_ne_nl _⟩
  · exact ⟨⟨word_append hk (by decide), hne _⟩, hs⟩
  · exact ⟨⟨word_append hk (by decide), hne _⟩, hi⟩
  · exact ⟨⟨word_append hk (by decide), hne _⟩, decimal_ne_nl _⟩
  · exact ⟨⟨word_append hk (by decide), hne _⟩, hn _⟩

/-- **C92**: a client that reads the answer to `stats threads` gets eight values for each thread, in order, and nothing else. -/
theorem C92_threads_text (now : Int64) (ts : List ThreadInfo) (h : ∀ t ∈ ts, t.Plain) (more : Bytes) :
    readStats ((ts.flatMap (ThreadInfo.shown now)).length + 1) (statsText (ts.flatMap (threadStats now)) ++ more) =
      some (ts.flatMap (ThreadInfo.shown now), more) := by
  have e : ts.flatMap (threadStats now) = ts.flatMap (ThreadInfo.shown now) := by
    induction ts with
    | nil => rfl
    | cons t ts ih =>
      rw [List.flatMap_cons, List.flatMap_cons, thread_shown now t (h t List.mem_cons_self),
        ih (fun m hm => h m (List.mem_cons_of_mem _ hm))]
  rw [e]
  apply readStats_text
  intro x hx
  obtain ⟨t, ht, hx⟩ := List.mem_flatMap.1 hx
  exact thread_shown_ok now t (h t ht) x hx

theorem threads_shown (now : Int64) {ts : List ThreadInfo} (h : ∀ t ∈ ts, t.Plain) :
    ts.flatMap (threadStats now) = ts.flatMap (ThreadInfo.shown now) := by
  induction ts with
  | nil => rfl
  | cons t ts ih =>
    rw [List.flatMap_cons, List.flatMap_cons, thread_shown now t (h t List.mem_cons_self),
      ih (fun m hm => h m (List.mem_cons_of_mem _ hm))]

/-- **C92**: the same in the binary protocol: a packet for each value, and an empty one at the end. -/
theorem C92_threads_binary (now : Int64) (ts : List ThreadInfo)
    (h : ∀ t ∈ ts, t.Plain ∧ t.op.length < 2 ^ 30 ∧ t.state.length < 2 ^ 30 ∧ t.info.length < 2 ^ 30) (more : Bytes) :
    ∃ b ms, statsBin (ts.flatMap (threadStats now)) = .ok b ∧
      readBins ((ts.flatMap (ThreadInfo.shown now)).length + 1) (b ++ more) = some (ms, more) ∧
      ms.map (fun m => (m.key, m.value)) = ts.flatMap (ThreadInfo.shown now) ++ [([], [])] ∧
      ∀ m ∈ ms, m.opcode = 0x10 ∧ m.extras = [] ∧ m.vbucket = 0 := by
  rw [threads_shown now (fun t ht => (h t ht).1)]
  obtain ⟨e, f⟩ := statsBin_eq (ts.flatMap (ThreadInfo.shown now)) (by
    intro x hx
    obtain ⟨t, ht, hx⟩ := List.mem_flatMap.1 hx
    obtain ⟨hp, ho, hs, hi⟩ := h t ht
    refine ⟨(thread_shown_ok now t hp x hx).1, ?_⟩
    have hd : (decimal t.id.toNat).length ≤ 20 := decimal_length_64 (by have := t.id.toNat_lt; omega)
    have hq : (decimal t.queue.toNat).length ≤ 20 := decimal_length_64 (by have := t.queue.toNat_lt; omega)
    have hu : (decimalInt (now - t.since).toInt).length ≤ 21 := by
      have h1 := (now - t.since).toInt_lt
      have h2 := (now - t.since).le_toInt
      generalize (now - t.since).toInt = i at h1 h2
      have := decimal_length_64 (n := i.natAbs) (by omega)
      unfold decimalInt
      split
      · rw [List.length_cons]; omega
      · omega
    have i1 := printInt_length t.type
    have i2 := printInt_length t.port
    have i3 := printInt_length t.behind
    have hl := hp.2.1
    have kl : ∀ y : Bytes, y.length ≤ 12 → (decimal t.id.toNat ++ y).length ≤ 32 := by
      intro y hy
      simp only [List.length_append]
      omega
    simp only [ThreadInfo.shown, List.mem_cons, List.not_mem_nil, or_false] at hx
    rcases hx with rfl | rfl | rfl | rfl | rfl | rfl | rfl | rfl
    · have := kl (ascii ":type") (by decide); simp only; omega
    · have := kl (ascii ":peer") (by decide); simp only [List.length_append (bs := printInt _), List.length_append (bs := [chColon]), List.length_singleton]; omega
    · have := kl (ascii ":op") (by decide); simp only; omega
    · have := kl (ascii ":uptime") (by decide); simp only; omega
    · have := kl (ascii ":state") (by decide); simp only; omega
    · have := kl (ascii ":info") (by decide); simp only; omega
    · have := kl (ascii ":queue") (by decide); simp only; omega
    · have := kl (ascii ":behind") (by decide); simp only; omega)
  refine ⟨_, (ts.flatMap (ThreadInfo.shown now)).map statMsg ++ [statMsg ([], [])], e, ?_, ?_, ?_⟩
  · have := readBins_flat _ f more
    simpa using this
  · have hid : (fun m : BinMsg => (m.key, m.value)) ∘ statMsg = id := rfl
    rw [List.map_append, List.map_map, hid, List.map_id]
    rfl
  · intro m hm
    simp only [List.mem_append, List.mem_map, List.mem_singleton] at hm
    rcases hm with ⟨x, -, rfl⟩ | rfl <;> exact ⟨rfl, rfl, rfl⟩

/-- A thread that waits: no operation, and nothing more to say about it; the peer is named with blanks. -/
example : readStats 9 (statsText ((threadStats 1000) ⟨7, 1, ascii "a b", 33, [], 990, ascii "wait", [], 0, 0⟩)) =
    some ([(ascii "7:type", ascii "1"), (ascii "7:peer", ascii "a b:33"), (ascii "7:op", []), (ascii "7:uptime", ascii "10"),
      (ascii "7:state", ascii "wait"), (ascii "7:info", []), (ascii "7:queue", ascii "0"), (ascii "7:behind", ascii "0")], []) := by
  decide +kernel

/-- The same thread in the binary protocol: nine packets. -/
example : (match statsBin (threadStats 1000 ⟨7, 1, ascii "a b", 33, [], 990, ascii "wait", [], 0, 0⟩) with
    | .ok b => (readBins 9 b).map fun x => (x.1.length, (x.1.map (·.value))[1]?, x.2)
    | .error _ => none) = some (9, some (ascii "a b:33"), []) := by
  decide +kernel

/-! ### The list of the threads of a type -/

theorem TypeMap.at_known {m : TypeMap} {ty : Int32} (h : ty ∈ m.map Prod.fst) : (m.at ty).2 = m := by
  obtain ⟨x, hx, rfl⟩ := List.mem_map.1 h
  have hf : (m.find? (·.1 = x.1)).isSome := List.find?_isSome.2 ⟨x, hx, by simp⟩
  simp only [TypeMap.at]
  cases hc : m.find? (·.1 = x.1) with
  | none => rw [hc] at hf; cases hf
  | some y => rfl

/-- As long as every type that is asked for has had a thread before, the requests do not disturb each other, in whatever order
they take turns. -/
theorem C92_readers_partial (m : TypeMap) (tys : List Int32) (h : ∀ ty ∈ tys, ty ∈ m.map Prod.fst) (is : List Nat) :
    let s := Asking.run { map := m, asks := tys.map fun ty => (ty, .before) } is
    s.race = false ∧ s.map = m := by
  have key : ∀ (is : List Nat) (s : Asking), s.race = false → s.map = m → (∀ a ∈ s.asks, a.1 ∈ m.map Prod.fst) →
      (Asking.run s is).race = false ∧ (Asking.run s is).map = m := by
    intro is
    induction is with
    | nil => intro s h1 h2 _; exact ⟨h1, h2⟩
    | cons i is ih =>
      intro s h1 h2 h3
      show (Asking.run (s.step i) is).race = false ∧ _
      cases hg : s.asks[i]? with
      | none =>
        have : s.step i = s := by simp only [Asking.step, hg]
        show (Asking.run (s.step i) is).race = false ∧ (Asking.run (s.step i) is).map = m
        rw [this]
        exact ih s h1 h2 h3
      | some a =>
        obtain ⟨ty, loc⟩ := a
        have hmem : (ty, loc) ∈ s.asks := List.mem_of_getElem? hg
        have hty : ty ∈ m.map Prod.fst := h3 _ hmem
        have hset : ∀ l, ∀ a ∈ s.asks.set i (ty, l), a.1 ∈ m.map Prod.fst := by
          intro l a ha
          rcases List.mem_or_eq_of_mem_set ha with h | rfl
          · exact h3 a h
          · exact hty
        show (Asking.run (s.step i) is).race = false ∧ (Asking.run (s.step i) is).map = m
        cases loc with
        | before =>
          have e : s.step i = { s with asks := s.asks.set i (ty, .inside) } := by simp only [Asking.step, hg]
          rw [e]
          exact ih _ h1 h2 (hset _)
        | inside =>
          have e : s.step i = { map := m, asks := s.asks.set i (ty, .done), race := false } := by
            simp only [Asking.step, hg, h2, TypeMap.at_known hty, h1, bne_self_eq_false, Bool.false_and, Bool.or_self]
          rw [e]
          exact ih _ rfl rfl (hset _)
        | done =>
          have e : s.step i = s := by simp only [Asking.step, hg]
          rw [e]
          exact ih s h1 h2 h3
  refine key is _ rfl rfl ?_
  intro a ha
  obtain ⟨ty, hty, rfl⟩ := List.mem_map.1 ha
  exact h ty hty

/-- **C92, defect**: the list of the threads of a type that has had none is made while the lock is held for reading only
(`stats threads slave` at a master that has not sent anything to its slave yet): if two clients ask at the same time, one
changes the map that the other reads. -/
theorem C92_readers_race (m : TypeMap) (ty ty' : Int32) (h : ty ∉ m.map Prod.fst) :
    (Asking.run { map := m, asks := [(ty, .before), (ty', .before)] } [0, 1, 0]).race = true := by
  have hf : m.find? (·.1 = ty) = none := by
    rw [List.find?_eq_none]
    intro x hx e
    exact h (List.mem_map.2 ⟨x, hx, by simpa using e⟩)
  simp [Asking.run, Asking.step, TypeMap.at, hf]

example : (Asking.run { map := [(1, [])], asks := [(16, .before), (1, .before)] } [1, 0, 1, 0]).race = false ∧
    (Asking.run { map := [(1, [])], asks := [(16, .before), (1, .before)] } [1, 0, 0, 1]).race = true := by decide

end Flare
