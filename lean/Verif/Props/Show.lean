import Verif.Spec.Show
import Verif.Props.Config
import Verif.Props.IndexStart
import Verif.Props.Report

/-! C105: what `show variables` says. -/
set_option maxRecDepth 4000
namespace Flare

/-! ### Values -/

theorem decimal_inj {a b : Nat} (h : decimal a = decimal b) : a = b := by
  have := congrArg decValue h
  rwa [decValue_decimal, decValue_decimal] at this

theorem decimalInt_inj {a b : Int} (h : decimalInt a = decimalInt b) : a = b := by
  have minus : ∀ n m : Nat, chMinus :: decimal n ≠ decimal m := by
    intro n m e
    have := decimal_digits m chMinus (by rw [← e]; exact List.mem_cons_self)
    exact absurd this (by decide)
  unfold decimalInt at h
  split at h <;> split at h
  · have := decimal_inj (List.cons.inj h).2; omega
  · exact absurd h (minus _ _)
  · exact absurd h.symm (minus _ _)
  · have := decimal_inj h; omega

theorem boolText_inj {a b : Bool} (h : boolText a = boolText b) : a = b := by
  revert h; cases a <;> cases b <;> decide

theorem boolDigit_inj {a b : Bool} (h : boolDigit a = boolDigit b) : a = b := by
  revert h; cases a <;> cases b <;> decide

theorem showVal_of {v : Bytes} (h : ∀ c ∈ v, c ≠ 10 ∧ c ≠ 0 ∧ c ≠ 32) : ShowVal v := by
  refine ⟨fun c hc => ⟨(h c hc).1, (h c hc).2.1⟩, ?_⟩
  cases v with
  | nil => exact fun h => nomatch h
  | cons c v =>
    intro e
    exact (h c List.mem_cons_self).2.2 (by simpa using e)

theorem decimalInt_plain (n : Int) : ∀ c ∈ decimalInt n, c ≠ 10 ∧ c ≠ 0 ∧ c ≠ 32 := by
  intro c hc
  unfold decimalInt at hc
  have dig : ∀ m, c ∈ decimal m → c ≠ 10 ∧ c ≠ 0 ∧ c ≠ 32 := by
    intro m hm
    have := decimal_digits m c hm
    refine ⟨?_, ?_, ?_⟩ <;> (rintro rfl; exact absurd this (by decide))
  split at hc
  · rcases List.mem_cons.1 hc with rfl | hc
    · decide
    · exact dig _ hc
  · exact dig _ hc

theorem decimal_plain (n : Nat) : ∀ c ∈ decimal n, c ≠ 10 ∧ c ≠ 0 ∧ c ≠ 32 := by
  intro c hc
  have := decimal_digits n c hc
  refine ⟨?_, ?_, ?_⟩ <;> (rintro rfl; exact absurd this (by decide))

theorem showVal_int (n : Int) : ShowVal (decimalInt n) := showVal_of (decimalInt_plain n)
theorem showVal_nat (n : Nat) : ShowVal (decimal n) := showVal_of (decimal_plain n)
theorem showVal_bool (b : Bool) : ShowVal (boolText b) := by
  cases b <;> exact showVal_of (by decide)
theorem showVal_digit (b : Bool) : ShowVal (boolDigit b) := by
  cases b <;> exact showVal_of (by decide)

theorem cstr_no_nul {v : Bytes} (h : ∀ c ∈ v, c ≠ 0) : cstr v = v := by
  induction v with
  | nil => rfl
  | cons c v ih =>
    have h0 := h c List.mem_cons_self
    have := ih fun d hd => h d (List.mem_cons_of_mem _ hd)
    unfold cstr at this ⊢
    rw [List.takeWhile_cons, if_pos (by simpa using h0), this]

theorem showVal_cstr {v : Bytes} (h : ShowVal v) : cstr v = v := cstr_no_nul fun c hc => (h.1 c hc).2

theorem addr_chars {a : IndexAddr} (h : a.Plain) : ∀ c ∈ addrText a, c ≠ 10 ∧ c ≠ 0 ∧ c ≠ 32 := by
  intro c hc
  simp only [addrText, List.mem_append, List.mem_cons] at hc
  rcases hc with hc | rfl | hc
  · have := h.2.1 c hc
    simp only [List.mem_cons, List.not_mem_nil, or_false, not_or] at this
    exact ⟨this.2.2.1, this.1, this.2.2.2.2.2.2.1⟩
  · decide
  · exact decimalInt_plain _ c hc

theorem moreServers_chars {l : List IndexAddr} (h : ∀ a ∈ l, a.Plain) : ∀ c ∈ moreServers l, c ≠ 10 ∧ c ≠ 0 := by
  induction l with
  | nil => exact fun c hc => nomatch hc
  | cons a l ih =>
    intro c hc
    simp only [moreServers, List.cons_append, List.mem_cons, List.mem_append] at hc
    rcases hc with rfl | rfl | hc | hc
    · decide
    · decide
    · have := addr_chars (h a List.mem_cons_self) c hc
      exact ⟨this.1, this.2.1⟩
    · exact ih (fun b hb => h b (List.mem_cons_of_mem _ hb)) c hc

theorem showVal_servers {l : List IndexAddr} (h : ∀ a ∈ l, a.Plain) : ShowVal (serversText l) := by
  cases l with
  | nil => exact showVal_of (fun c hc => nomatch hc)
  | cons a l =>
    have ha := addr_chars (h a List.mem_cons_self)
    refine ⟨?_, ?_⟩
    · intro c hc
      simp only [serversText, List.mem_append] at hc
      rcases hc with hc | hc
      · exact ⟨(ha c hc).1, (ha c hc).2.1⟩
      · exact moreServers_chars (fun b hb => h b (List.mem_cons_of_mem _ hb)) c hc
    · cases e : addrText a with
      | nil => simp [addrText] at e
      | cons c t =>
        have := ha c (by rw [e]; exact List.mem_cons_self)
        intro e'
        simp only [serversText, e, List.cons_append, List.head?_cons, Option.some.injEq] at e'
        exact this.2.2 e'

/-! ### Lines -/

/-- What stands in front of a value: a name, a colon and blanks. -/
def labelOf (label name : String) : Bool :=
  ascii label == ascii name ++ 58 :: List.replicate ((ascii label).length - (ascii name).length - 1) 32 &&
    (ascii name).all (fun c => c != 58 && c != 10 && c != 0)

theorem optionLine_label {label name : String} {v : Bytes} (h : labelOf label name = true) (hv : ShowVal v) :
    optionLine (ascii label ++ v) = (ascii name, v) := by
  simp only [labelOf, Bool.and_eq_true, beq_iff_eq, List.all_eq_true, bne_iff_ne] at h
  obtain ⟨e, hn⟩ := h
  obtain ⟨k, ek⟩ : ∃ k, k = (ascii label).length - (ascii name).length - 1 := ⟨_, rfl⟩
  rw [← ek] at e
  have e1 : (ascii label ++ v).takeWhile (fun c => decide (c ≠ 58)) = ascii name := by
    rw [e, List.append_assoc, List.takeWhile_append_of_pos]
    · simp
    · intro c hc; simpa using (hn c hc).1.1
  have e2 : (ascii label ++ v).drop ((ascii name).length + 1) = List.replicate k 32 ++ v := by
    rw [e, show ascii name ++ 58 :: List.replicate k 32 ++ v = (ascii name ++ [58]) ++ (List.replicate k 32 ++ v) by simp,
      List.drop_left' (by simp)]
  have e3 : (List.replicate k 32 ++ v).dropWhile (fun c => decide (c = (32 : UInt8))) = v := by
    rw [List.dropWhile_append_of_pos]
    · cases v with
      | nil => rfl
      | cons c t =>
        have : c ≠ 32 := fun e => hv.2 (by simp [e])
        simp [this]
    · intro c hc
      simp [(List.mem_replicate.1 hc).2]
  simp only [optionLine, e1, e2, e3]

theorem label_chars {label name : String} (h : labelOf label name = true) :
    (∀ c ∈ ascii label, c ≠ 10 ∧ c ≠ 0) ∧ 58 ∈ ascii label := by
  simp only [labelOf, Bool.and_eq_true, beq_iff_eq, List.all_eq_true, bne_iff_ne] at h
  obtain ⟨e, hn⟩ := h
  obtain ⟨k, ek⟩ : ∃ k, k = (ascii label).length - (ascii name).length - 1 := ⟨_, rfl⟩
  rw [← ek] at e
  constructor
  · rw [e]
    intro c hc
    simp only [List.mem_append, List.mem_cons, List.mem_replicate] at hc
    rcases hc with hc | rfl | ⟨-, rfl⟩
    · exact ⟨(hn c hc).1.2, (hn c hc).2⟩
    · decide
    · decide
  · rw [e]; simp

/-- The lines, with the name of each. -/
def Labelled (l : List (String × Bytes)) (names : List String) : Prop :=
  List.Forall₂ (fun x n => labelOf x.1 n = true ∧ ShowVal x.2) l names

theorem joinLines_no_nul {l : List (String × Bytes)} {names : List String} (h : Labelled l names) :
    cstr (joinLines l) = joinLines l := by
  refine cstr_no_nul ?_
  induction h with
  | nil => exact fun c hc => nomatch hc
  | @cons x n l ns hx hl ih =>
    have one : ∀ c ∈ ascii x.1 ++ x.2, c ≠ 0 := by
      intro c hc
      rcases List.mem_append.1 hc with hc | hc
      · exact ((label_chars hx.1).1 c hc).2
      · exact (hx.2.1 c hc).2
    cases l with
    | nil => exact one
    | cons y l =>
      intro c hc
      simp only [joinLines] at hc
      rw [List.append_assoc _ crlf] at hc
      rcases List.mem_append.1 hc with hc | hc
      · exact one c hc
      · rcases List.mem_append.1 hc with hc | hc
        · have : ∀ d ∈ crlf, d ≠ 0 := by decide
          exact this c hc
        · exact ih c hc

theorem readShow_lines {l : List (String × Bytes)} {names : List String} (h : Labelled l names) (hl : l ≠ []) (more : Bytes) :
    ∃ ls, (∀ n, l.length < n → readShow n (joinLines l ++ crlf ++ ascii "END" ++ crlf ++ more) = some (ls, more)) ∧
      ls = l.map fun x => ascii x.1 ++ x.2 := by
  refine ⟨_, ?_, rfl⟩
  induction h with
  | nil => exact absurd rfl hl
  | @cons x nm l ns hx ht ih =>
    intro n hn
    have hnl : ∀ c ∈ ascii x.1 ++ x.2, c ≠ chNl := by
      intro c hc
      rcases List.mem_append.1 hc with hc | hc
      · exact ((label_chars hx.1).1 c hc).1
      · exact (hx.2.1 c hc).1
    have hend : ¬ ascii x.1 ++ x.2 ++ [chNl] = ascii "END\n" := by
      intro e
      have : (58 : UInt8) ∈ ascii x.1 ++ x.2 ++ [chNl] := by
        simp [(label_chars hx.1).2]
      rw [e] at this
      exact absurd this (by decide)
    cases n with
    | zero => omega
    | succ n =>
      cases l with
      | nil =>
        have e : joinLines [x] ++ crlf ++ ascii "END" ++ crlf ++ more =
            (ascii x.1 ++ x.2) ++ crlf ++ (ascii "END" ++ crlf ++ more) := by simp [joinLines]
        rw [e, readShow, readLine_crlf hnl]
        simp only [if_neg hend, List.dropLast_concat]
        cases n with
        | zero => simp at hn
        | succ n =>
          rw [readShow, readLine_crlf (by decide)]
          simp only [show ascii "END" ++ [chNl] = ascii "END\n" from by decide, if_true]
          rfl
      | cons y l =>
        have e : joinLines (x :: y :: l) ++ crlf ++ ascii "END" ++ crlf ++ more =
            (ascii x.1 ++ x.2) ++ crlf ++ (joinLines (y :: l) ++ crlf ++ ascii "END" ++ crlf ++ more) := by
          simp [joinLines]
        rw [e, readShow, readLine_crlf hnl]
        simp only [if_neg hend, List.dropLast_concat]
        rw [ih (by simp) n (by simp at hn ⊢; omega)]
        rfl

theorem labelled_options {l : List (String × Bytes)} {names : List String} (h : Labelled l names) :
    (l.map fun x => ascii x.1 ++ x.2).map optionLine = (names.map ascii).zip (l.map (·.2)) := by
  induction h with
  | nil => rfl
  | @cons x n l ns hx ht ih =>
    simp only [List.map_cons, List.zip_cons_cons, ih, optionLine_label hx.1 hx.2]

/-- The names under which a node shows its options. -/
def nodeNames : List String :=
  ["back_log", "config_path", "pid_path", "daemonize", "data_dir", "index_server(s)", "max_connection", "mutex_slot",
    "noreply_window_limit", "net_read_timeout", "proxy_concurrency", "reconstruction_interval", "reconstruction_bwlimit",
    "replication_type", "server_name", "server_port", "server_socket", "stack_size", "storage_ap", "storage_bucket_size",
    "storage_cache_size", "storage_compress", "storage_large", "storage_lmemb", "storage_nmemb", "storage_dfunit",
    "storage_type", "thread_pool_size", "proxy_prior_netmask", "max_total_thread_queue", "time_watcher_enabled",
    "time_watcher_polling_interval_msec", "storage_access_watch_threshold_warn_msec",
    "storage_access_watch_threshold_ping_ng_msec", "cluster_replication", "cluster_replication_server_name",
    "cluster_replication_server_port", "cluster_replication_concurrency", "cluster_replication_mode"]

def indexNames : List String :=
  ["config_path", "pid_path", "daemonize", "data_dir", "max_connection", "monitor_threshold", "monitor_interval",
    "monitor_read_timeout", "net_read_timeout", "partition_modular_hint", "partition_modular_virtual", "partition_size",
    "partition_type", "key_hash_algorithm", "server_name", "server_port", "server_socket", "stack_size", "thread_pool_size"]

theorem node_labelled {f : NodeFixed} {i : IniOption} (hf : f.Plain) (hi : i.Plain) :
    Labelled (showNodeLines f i) nodeNames := by
  obtain ⟨f1, f2, f3, f4, f5, f6, f7⟩ := hf
  obtain ⟨i1, i2, i3, i4⟩ := hi
  unfold Labelled showNodeLines nodeNames
  repeat' first
    | exact List.Forall₂.nil
    | refine List.Forall₂.cons ⟨by dsimp only; decide +kernel, by
        first | exact showVal_int _ | exact showVal_nat _ | exact showVal_bool _ | exact showVal_digit _ |
          exact showVal_servers i1 | assumption⟩ ?_

theorem index_labelled {f : IndexFixed} {i : IndexIni} (hf : f.Plain) : Labelled (showIndexLines f i) indexNames := by
  obtain ⟨f1, f2, f3, f4, f5, f6, f7⟩ := hf
  have c : ∀ {v}, ShowVal v → ShowVal (cstr v) := fun h => by rw [showVal_cstr h]; exact h
  unfold Labelled showIndexLines indexNames
  repeat' first
    | exact List.Forall₂.nil
    | refine List.Forall₂.cons ⟨by dsimp only; decide +kernel, by
        first | exact showVal_int _ | exact showVal_nat _ | exact showVal_bool _ | exact showVal_digit _ |
          exact c (by assumption)⟩ ?_

theorem labelled_read {l : List (String × Bytes)} {names : List String} (h : Labelled l names) (hl : l ≠ [])
    (hn : l.length < 64) (more : Bytes) :
    readShow 64 (showBytes l ++ more) = some (l.map fun x => ascii x.1 ++ x.2, more) := by
  obtain ⟨ls, e, rfl⟩ := readShow_lines h hl more
  rw [← e 64 hn, showBytes, joinLines_no_nul h]

/-! ### The request -/

/-- **C105**: a request is taken exactly if its first word is `variables`, whatever follows. -/
theorem C105_asked (k : Nat) {w : Bytes} {c : UInt8} {rest : Bytes} (hw : ∀ x ∈ w, wordChar x = true) (hl : w.length < 8192)
    (hc : c = 10 ∨ w ≠ [] ∧ c = 32) :
    showAsked (List.replicate k chSpace ++ w ++ c :: rest) = .ok (decide (w = ascii "variables")) := by
  obtain ⟨q', h1, h2, -⟩ := scanWord_tok (c := c) (rest := rest) (q := List.replicate 8192 0) k hw
    (by rcases hc with rfl | ⟨-, rfl⟩ <;> decide) (by rw [List.length_replicate]; exact hl)
    (by rcases hc with rfl | ⟨h, -⟩
        · exact fun _ => by decide
        · exact fun e => absurd e h)
  unfold scanWord at h1
  unfold showAsked
  cases e : nextWord (List.replicate k chSpace ++ w ++ c :: rest) (List.replicate 8192 0) with
  | none => rw [e] at h1; cases h1
  | some r =>
    obtain ⟨n, q⟩ := r
    rw [e] at h1
    simp only [Except.ok.injEq, Prod.mk.injEq] at h1
    obtain ⟨hd, rfl⟩ := h1
    simp only [h2, Except.ok.injEq]
    by_cases ew : w = ascii "variables"
    · have hn : 0 < n := by
        rcases Nat.eq_zero_or_pos n with rfl | h
        · have := congrArg List.length hd
          have hw9 : w.length = 9 := by rw [ew]; decide
          simp only [List.drop_zero, List.length_append, List.length_cons, List.length_replicate] at this
          omega
        · exact h
      simp [ew, hn]
    · have : (w == ascii "variables") = false := by simpa using ew
      simp [ew, this]

example : showAsked (ascii "  variables now\n") = .ok true := by decide +kernel
example : showAsked (ascii " variable\n") = .ok false := by decide +kernel
example : showAsked (ascii " \n") = .ok false := by decide +kernel

/-- Only such a request is answered. -/
theorem C105_answered (k : Nat) {w : Bytes} {c : UInt8} {rest : Bytes} (hw : ∀ x ∈ w, wordChar x = true) (hl : w.length < 8192)
    (hc : c = 10 ∨ w ≠ [] ∧ c = 32) (n : NodeRun) (f : NodeFixed) (n' : IndexRun) (f' : IndexFixed) :
    (showNode n f (List.replicate k chSpace ++ w ++ c :: rest) =
      if w = ascii "variables" then .ok (some (showBytes (showNodeLines f n.ini))) else .ok none) ∧
    (showIndex n' f' (List.replicate k chSpace ++ w ++ c :: rest) =
      if w = ascii "variables" then .ok (some (showBytes (showIndexLines f' n'.ini))) else .ok none) := by
  simp only [showNode, showIndex, C105_asked k hw hl hc]
  by_cases e : w = ascii "variables" <;> simp [e]

theorem showNode_asked (n : NodeRun) (f : NodeFixed) :
    showNode n f (ascii " variables\n") = .ok (some (showBytes (showNodeLines f n.ini))) := by
  have ha : showAsked (ascii " variables\n") = .ok true := by decide +kernel
  simp only [showNode, ha]

theorem showIndex_asked (n : IndexRun) (f : IndexFixed) :
    showIndex n f (ascii " variables\n") = .ok (some (showBytes (showIndexLines f n.ini))) := by
  have ha : showAsked (ascii " variables\n") = .ok true := by decide +kernel
  simp only [showIndex, ha]

/-! ### What a node says -/

theorem servers_more (l : List IndexAddr) (h : ∀ a ∈ l, a.Plain) :
    moreServers l = if l = [] then [] else 44 :: indexText (l.map fun a => ⟨[32], a.name, a.port.toNat⟩) := by
  induction l with
  | nil => rfl
  | cons a l ih =>
    obtain ⟨h1, h2, h3, h4⟩ := h a List.mem_cons_self
    have ep : decimalInt a.port = decimal a.port.toNat := by
      unfold decimalInt
      rw [if_neg (by omega), show a.port.natAbs = a.port.toNat by omega]
    rw [moreServers, ih fun b hb => h b (List.mem_cons_of_mem _ hb), if_neg (List.cons_ne_nil a l)]
    cases l with
    | nil => simp [addrText, indexText, IndexText.text, ep]
    | cons b l => simp [addrText, indexText, IndexText.text, ep]

/-- The index servers that are shown can be put into a file as they stand there, and are the same index servers. -/
theorem C105_index_servers {l : List IndexAddr} (h : ∀ a ∈ l, a.Plain) (hl : l ≠ []) :
    indexServersOf { indexServers := some (serversText l) } = some l := by
  cases l with
  | nil => exact absurd rfl hl
  | cons a l =>
    obtain ⟨h1, h2, h3, h4⟩ := h a List.mem_cons_self
    have ep : decimalInt a.port = decimal a.port.toNat := by
      unfold decimalInt
      rw [if_neg (by omega), show a.port.natAbs = a.port.toNat by omega]
    have hl' : ∀ b ∈ l, b.Plain := fun b hb => h b (List.mem_cons_of_mem _ hb)
    have e : serversText (a :: l) =
        indexText (⟨[], a.name, a.port.toNat⟩ :: l.map fun b => ⟨[32], b.name, b.port.toNat⟩) := by
      rw [serversText, servers_more l hl']
      cases l with
      | nil => simp [addrText, indexText, IndexText.text, ep]
      | cons b l => simp [addrText, indexText, IndexText.text, ep]
    have ok : ∀ (b : IndexAddr) (bl : Bytes), b.Plain → (∀ c ∈ bl, c ∈ ([9, 10, 11, 12, 13, 32] : Bytes)) →
        IndexText.Ok ⟨bl, b.name, b.port.toNat⟩ := by
      intro b bl hb hbl
      refine ⟨hbl, hb.1, ?_, ?_⟩
      · intro c hc
        have := hb.2.1 c hc
        simp only [List.mem_cons, List.not_mem_nil, or_false, not_or] at this ⊢
        exact this.2
      · have := hb.2.2; show b.port.toNat < 2147483648; omega
    have := C73_index_list (g := { indexServers := some (serversText (a :: l)) })
      (ts := ⟨[], a.name, a.port.toNat⟩ :: l.map fun b => ⟨[32], b.name, b.port.toNat⟩) ?_ (by simp) (by rw [e]) rfl rfl
    · rw [this]
      have back : ∀ b : IndexAddr, b.Plain → (⟨b.name, ((b.port.toNat : Nat) : Int)⟩ : IndexAddr) = b := by
        intro b hb
        have hb3 := hb.2.2.1
        have : ((b.port.toNat : Nat) : Int) = b.port := by omega
        rw [this]
      simp only [List.map_cons, List.map_map, Option.some.injEq]
      rw [back a (h a List.mem_cons_self)]
      congr 1
      conv_rhs => rw [← List.map_id l]
      exact List.map_congr_left fun b hb => back b (hl' b hb)
    · intro t ht
      rcases List.mem_cons.1 ht with rfl | ht
      · exact ok a [] (h a List.mem_cons_self) (fun c hc => nomatch hc)
      · obtain ⟨b, hb, rfl⟩ := List.mem_map.1 ht
        exact ok b [32] (hl' b hb) (by decide)

/-- **C105**: a client that asks a node for its variables reads each option under its name, and nothing else, up to `END`.
Partial: the texts must fit into lines (`C105_line_break`). -/
theorem C105_told_partial (n : NodeRun) (f : NodeFixed) (hf : f.Plain) (hi : n.ini.Plain) (more : Bytes) :
    ∃ b ls, showNode n f (ascii " variables\n") = .ok (some b) ∧ readShow 64 (b ++ more) = some (ls, more) ∧
      ls.map optionLine = nodeOptions f n.ini := by
  refine ⟨_, _, showNode_asked n f, labelled_read (node_labelled hf hi) (by simp [showNodeLines]) (by simp [showNodeLines]) more,
    ?_⟩
  · rw [labelled_options (node_labelled hf hi)]
    rfl

/-- What is shown tells all options but the place of the log, and the text is the same only if they are. -/
theorem C105_known (f f' : NodeFixed) (i i' : IniOption) (hf : f.Plain) (hf' : f'.Plain) (hi : i.Plain) (hi' : i'.Plain)
    (hs : i.indexServers ≠ []) (hs' : i'.indexServers ≠ []) :
    showBytes (showNodeLines f i) = showBytes (showNodeLines f' i') ↔ f = f' ∧ { i with logFacility := i'.logFacility } = i' := by
  constructor
  · intro h
    have r := labelled_read (node_labelled hf hi) (by simp [showNodeLines]) (by simp [showNodeLines]) []
    have r' := labelled_read (node_labelled hf' hi') (by simp [showNodeLines]) (by simp [showNodeLines]) []
    rw [h, r'] at r
    have e := congrArg (List.map optionLine) (Prod.mk.inj (Option.some.inj r)).1
    rw [labelled_options (node_labelled hf hi), labelled_options (node_labelled hf' hi')] at e
    have e := congrArg (List.map Prod.snd) e
    rw [List.map_snd_zip (by simp [showNodeLines, nodeNames]), List.map_snd_zip (by simp [showNodeLines, nodeNames])] at e
    simp only [showNodeLines, List.map_cons, List.map_nil, List.cons.injEq, and_true] at e
    obtain ⟨e1, e2, e3, e4, e5, e6, e7, e8, e9, e10, e11, e12, e13, e14, e15, e16, e17, e18, e19, e20, e21, e22, e23, e24, e25,
      e26, e27, e28, e29, e30, e31, e32, e33, e34, e35, e36, e37, e38, e39⟩ := e
    have e6 : i'.indexServers = i.indexServers := by
      have a := C105_index_servers hi.1 hs
      have b := C105_index_servers hi'.1 hs'
      rw [e6, a] at b
      exact (Option.some.inj b).symm
    cases f; cases f'; cases i; cases i'
    simp only [NodeFixed.mk.injEq, IniOption.mk.injEq] at *
    refine ⟨⟨(decimalInt_inj e1).symm, e2.symm, e3.symm, (boolText_inj e4).symm, e5.symm, (decimalInt_inj e8).symm, e15.symm,
      (decimalInt_inj e16).symm, e17.symm, (decimalInt_inj e18).symm, (decimal_inj e19).symm, (decimal_inj e20).symm,
      (decimalInt_inj e21).symm, e22.symm, (boolText_inj e23).symm, (decimalInt_inj e24).symm, (decimalInt_inj e25).symm,
      (decimalInt_inj e26).symm, e27.symm, (decimal_inj e29).symm⟩, e6.symm, trivial, (decimal_inj e7).symm,
      (decimalInt_inj e9).symm, (decimalInt_inj e10).symm, (decimalInt_inj e11).symm, (decimalInt_inj e12).symm,
      (decimalInt_inj e13).symm, e14.symm, (decimalInt_inj e28).symm, (decimal_inj e30).symm, (boolText_inj e31).symm,
      (decimal_inj e32).symm, (decimal_inj e33).symm, (decimal_inj e34).symm, (boolDigit_inj e35).symm, e36.symm,
      (decimalInt_inj e37).symm, (decimalInt_inj e38).symm, e39.symm⟩
  · rintro ⟨rfl, e⟩
    rw [← e]
    rfl

/-- **C105**: after a file that was accepted, whatever files came before, what is shown is what the parts of the node act on. -/
theorem C105_in_force_partial {cli f0 g : Given} {n0 : NodeRun} (h0 : startNode cli f0 = some n0) (fs : List (Option Given))
    (hg : g.Valid) (f : NodeFixed) (hf : f.Plain) :
    let r := (reloadNode (some g) (reloadAll fs n0)).2
    r.ini.Plain → ∃ b ls, showNode r f (ascii " variables\n") = .ok (some b) ∧ readShow 64 b = some (ls, []) ∧
      (∃ t, optionOf ls "net_read_timeout" = some (decimalInt t) ∧ r.set.readTimeout = millis t) ∧
      optionOf ls "index_server(s)" = some (serversText r.set.indexServers) ∧
      optionOf ls "max_connection" = some (decimal r.connLimit) ∧
      optionOf ls "reconstruction_interval" = some (decimalInt r.set.reconInterval) ∧
      optionOf ls "reconstruction_bwlimit" = some (decimalInt r.set.reconBwlimit) ∧
      (optionOf ls "replication_type" = some (ascii "sync") ↔ r.set.replication = true) ∧
      optionOf ls "thread_pool_size" = some (decimalInt r.set.poolSize) ∧
      optionOf ls "max_total_thread_queue" = some (decimal r.set.maxTotalThreadQueue) ∧
      optionOf ls "noreply_window_limit" = some (decimalInt r.set.noreplyWindowLimit) ∧
      optionOf ls "time_watcher_enabled" = some (boolText r.set.watch.isSome) ∧
      (∀ w, r.set.watch = some w → optionOf ls "time_watcher_polling_interval_msec" = some (decimal w)) ∧
      optionOf ls "storage_access_watch_threshold_warn_msec" = some (decimal r.set.watchWarn) ∧
      optionOf ls "storage_access_watch_threshold_ping_ng_msec" = some (decimal r.set.watchPingNg) ∧
      (optionOf ls "cluster_replication_mode" = some (ascii "forward") ↔ r.set.crMode = true) ∧
      (∀ t, r.set.cr = some t → optionOf ls "cluster_replication" = some [49] ∧
        optionOf ls "cluster_replication_server_name" = some t.name ∧
        optionOf ls "cluster_replication_server_port" = some (decimalInt t.port) ∧
        optionOf ls "cluster_replication_concurrency" = some (decimalInt t.concurrency)) := by
  intro r hi
  obtain ⟨a1, a2, a3, a4, a5, a6, a7, a8, a9, a10, a11, a12, a13⟩ := C73_applied h0 fs hg
  obtain ⟨b, ls, e1, e2, e3⟩ := C105_told_partial r f hf hi []
  rw [List.append_nil] at e2
  have at_ : ∀ name, optionOf ls name = (nodeOptions f r.ini).lookup (ascii name) := fun name => by rw [optionOf, e3]
  refine ⟨b, ls, e1, e2, ⟨r.ini.netReadTimeout, by rw [at_]; rfl, a1⟩, ?_, by rw [at_]; rfl, ?_, ?_, ?_, ?_, ?_, ?_, ?_, ?_, ?_, ?_, ?_,
    ?_⟩
  · rw [at_, a2]; rfl
  · rw [at_, a3]; rfl
  · rw [at_, a4]; rfl
  · rw [at_, a5, show (nodeOptions f r.ini).lookup (ascii "replication_type") = some r.ini.replicationType from rfl,
      Option.some.injEq]
  · rw [at_, a6]; rfl
  · rw [at_, a7]; rfl
  · rw [at_, a8]; rfl
  · rw [at_, a9, show (nodeOptions f r.ini).lookup (ascii "time_watcher_enabled") = some (boolText r.ini.watchEnabled) from rfl]
    cases e : r.ini.watchEnabled <;> simp
  · intro w hw
    rw [a9] at hw
    rw [at_, show (nodeOptions f r.ini).lookup (ascii "time_watcher_polling_interval_msec") =
      some (decimal r.ini.watchInterval) from rfl]
    split at hw
    · rw [Option.some.inj hw]
    · cases hw
  · rw [at_, a10]; rfl
  · rw [at_, a11]; rfl
  · rw [at_, a12, show (nodeOptions f r.ini).lookup (ascii "cluster_replication_mode") = some r.ini.crMode from rfl,
      Option.some.injEq]
  · intro t ht
    rw [a13] at ht
    split at ht
    · rename_i hp
      obtain rfl := Option.some.inj ht
      refine ⟨?_, ?_, ?_, ?_⟩
      · rw [at_, show (nodeOptions f r.ini).lookup (ascii "cluster_replication") = some (boolDigit r.ini.crEnabled) from rfl,
          hp.1]
        rfl
      all_goals rw [at_]; rfl
    · cases ht

/-- A file that is refused is shown as if it were in force: the node goes on with the old timeout. -/
theorem C105_refused_shown {g : Given} {t : Int} (hg : ¬ g.Valid) (ht : g.netReadTimeout = some t) (n : NodeRun) (f : NodeFixed)
    (hf : f.Plain) (hi : (reloadNode (some g) n).2.ini.Plain) :
    (reloadNode (some g) n).1 = false ∧ (reloadNode (some g) n).2.set.readTimeout = n.set.readTimeout ∧
    ∃ b ls, showNode (reloadNode (some g) n).2 f (ascii " variables\n") = .ok (some b) ∧ readShow 64 b = some (ls, []) ∧
      optionOf ls "net_read_timeout" = some (decimalInt t) := by
  obtain ⟨b, ls, e1, e2, e3⟩ := C105_told_partial _ f hf hi []
  rw [List.append_nil] at e2
  refine ⟨by rw [reloadNode_refused hg], by rw [reloadNode_refused hg], b, ls, e1, e2, ?_⟩
  rw [optionOf, e3, show ((nodeOptions f (reloadNode (some g) n).2.ini).lookup (ascii "net_read_timeout")) =
    some (decimalInt (reloadNode (some g) n).2.ini.netReadTimeout) from rfl, reloadNode_refused hg]
  have := (reloadIni_fields g n.ini).1.2.2.1
  rw [this, ht]
  rfl

/-- What the parts of a node act on, in the examples. -/
def showSettings : Settings :=
  { readTimeout := some 600000, indexServers := [⟨ascii "i", 12120⟩], reconInterval := 0, reconBwlimit := 0, replication := false
    poolSize := 5, maxTotalThreadQueue := 0, noreplyWindowLimit := 0, watch := none, watchWarn := 0, watchPingNg := 0
    crMode := false, cr := none, proxyConcurrency := 2 }

example :
    let n : NodeRun := ⟨{ indexServers := [⟨ascii "i", 12120⟩, ⟨ascii "j", 12120⟩], replicationType := ascii "async" }, showSettings⟩
    ∃ b, showNode n { dataDir := ascii "/tmp/a b" } (ascii " variables\n") = .ok (some b) ∧
      (readShow 64 b).map (fun x => (x.1.length, optionOf x.1 "data_dir", optionOf x.1 "index_server(s)")) =
        some (39, some (ascii "/tmp/a b"), some (ascii "i:12120, j:12120")) :=
  ⟨_, showNode_asked _ _, by decide +kernel⟩

/-- A refused file. -/
example :
    let g : Given := { netReadTimeout := some 5, replicationType := some (ascii "asink") }
    let n : NodeRun := ⟨{ indexServers := [⟨ascii "i", 12120⟩] }, showSettings⟩
    (reloadNode (some g) n).1 = false ∧ (reloadNode (some g) n).2.set.readTimeout = some 600000 ∧
      ∃ b, showNode (reloadNode (some g) n).2 {} (ascii " variables\n") = .ok (some b) ∧
        (readShow 64 b).bind (fun x => optionOf x.1 "net_read_timeout") = some (ascii "5") :=
  ⟨by decide +kernel, by decide +kernel, _, showNode_asked _ _, by decide +kernel⟩

/-- A text with a line end adds a line of its own: the first value for the limit of connections is not the limit. -/
theorem C105_line_break :
    let n : NodeRun := ⟨{ indexServers := [⟨ascii "i", 12120⟩] }, showSettings⟩
    let f : NodeFixed := { configPath := ascii "x\nmax_connection: 7" }
    ∃ b ls, showNode n f (ascii " variables\n") = .ok (some b) ∧ readShow 64 b = some (ls, []) ∧
      optionOf ls "max_connection" = some (ascii "7") ∧ n.connLimit = 128 := by
  intro n f
  have e : readShow 64 (showBytes (showNodeLines f n.ini)) =
      some (((readShow 64 (showBytes (showNodeLines f n.ini))).getD ([], [])).1, []) := by decide +kernel
  exact ⟨_, _, showNode_asked _ _, e, by decide +kernel, rfl⟩

/-- One index server whose name is given in an option of its own can look like two. -/
theorem C105_servers_alike :
    indexServersOf { indexServerName := some (ascii "a:1, b"), indexServerPort := some 2 } = some [⟨ascii "a:1, b", 2⟩] ∧
    serversText [⟨ascii "a:1, b", 2⟩] = serversText [⟨ascii "a", 1⟩, ⟨ascii "b", 2⟩] := by
  decide +kernel

/-! ### What an index server says -/

/-- **C105**: the same for an index server. -/
theorem C105_index_told_partial (n : IndexRun) (f : IndexFixed) (hf : f.Plain) (more : Bytes) :
    ∃ b ls, showIndex n f (ascii " variables\n") = .ok (some b) ∧ readShow 64 (b ++ more) = some (ls, more) ∧
      ls.map optionLine = indexOptions f n.ini := by
  refine ⟨_, _, showIndex_asked n f, labelled_read (index_labelled hf) (by simp [showIndexLines]) (by simp [showIndexLines]) more,
    ?_⟩
  · rw [labelled_options (index_labelled hf)]
    obtain ⟨f1, f2, f3, f4, f5, f6, f7⟩ := hf
    simp only [showIndexLines, showVal_cstr f1, showVal_cstr f2, showVal_cstr f3, showVal_cstr f4, showVal_cstr f5,
      showVal_cstr f6, showVal_cstr f7]
    rfl

/-- What is shown tells all these options of an index server but the place of the log. -/
theorem C105_index_known (f f' : IndexFixed) (i i' : IndexIni) (hf : f.Plain) (hf' : f'.Plain) :
    showBytes (showIndexLines f i) = showBytes (showIndexLines f' i') ↔
      f = f' ∧ { i with logFacility := i'.logFacility } = i' := by
  constructor
  · intro h
    have r := labelled_read (index_labelled (i := i) hf) (by simp [showIndexLines]) (by simp [showIndexLines]) []
    have r' := labelled_read (index_labelled (i := i') hf') (by simp [showIndexLines]) (by simp [showIndexLines]) []
    rw [h, r'] at r
    have e := congrArg (List.map optionLine) (Prod.mk.inj (Option.some.inj r)).1
    rw [labelled_options (index_labelled hf), labelled_options (index_labelled hf')] at e
    have e := congrArg (List.map Prod.snd) e
    rw [List.map_snd_zip (by simp [showIndexLines, indexNames]), List.map_snd_zip (by simp [showIndexLines, indexNames])] at e
    obtain ⟨f1, f2, f3, f4, f5, f6, f7⟩ := hf
    obtain ⟨g1, g2, g3, g4, g5, g6, g7⟩ := hf'
    simp only [showIndexLines, List.map_cons, List.map_nil, List.cons.injEq, and_true, showVal_cstr f1, showVal_cstr f2,
      showVal_cstr f3, showVal_cstr f4, showVal_cstr f5, showVal_cstr f6, showVal_cstr f7, showVal_cstr g1, showVal_cstr g2,
      showVal_cstr g3, showVal_cstr g4, showVal_cstr g5, showVal_cstr g6, showVal_cstr g7] at e
    clear f1 f2 f3 f4 f5 f6 f7 g1 g2 g3 g4 g5 g6 g7 h r r'
    obtain ⟨e1, e2, e3, e4, e5, e6, e7, e8, e9, e10, e11, e12, e13, e14, e15, e16, e17, e18, e19⟩ := e
    obtain ⟨c, p, d, dd, ⟨h1, h2, h3, h4, h5⟩, sn, sp, ss, st⟩ := f
    obtain ⟨c', p', d', dd', ⟨h1', h2', h3', h4', h5'⟩, sn', sp', ss', st'⟩ := f'
    cases i; cases i'
    simp only [IndexFixed.mk.injEq, Parting.mk.injEq, IndexIni.mk.injEq] at *
    exact ⟨⟨e1.symm, e2.symm, (boolText_inj e3).symm, e4.symm,
      ⟨(printInt_inj e10).symm, (printInt_inj e11).symm, (printInt_inj e12).symm, e13.symm, e14.symm⟩, e15.symm,
      (decimalInt_inj e16).symm, e17.symm, (decimalInt_inj e18).symm⟩, trivial, (decimal_inj e5).symm, (decimalInt_inj e6).symm,
      (decimalInt_inj e7).symm, (decimalInt_inj e8).symm, (decimalInt_inj e9).symm, (decimalInt_inj e19).symm⟩
  · rintro ⟨rfl, e⟩
    rw [← e]
    rfl

/-- **C105**: after a file that could be read, what is shown about the monitoring, the timeout and the threads for requests is
what the index server acts on. -/
theorem C105_index_in_force_partial (g : IndexGiven) (n : IndexRun) (f : IndexFixed) (hf : f.Plain) :
    let r := (reloadIndex (some g) n).2
    ∃ b ls, showIndex r f (ascii " variables\n") = .ok (some b) ∧ readShow 64 b = some (ls, []) ∧
      optionOf ls "monitor_threshold" = some (decimalInt r.set.monitorThreshold) ∧
      optionOf ls "monitor_interval" = some (decimalInt r.set.monitorInterval) ∧
      optionOf ls "monitor_read_timeout" = some (decimalInt r.set.monitorReadTimeout) ∧
      (∃ t, optionOf ls "net_read_timeout" = some (decimalInt t) ∧ r.set.readTimeout = millis t) ∧
      optionOf ls "thread_pool_size" = some (decimalInt r.set.reqPool) := by
  intro r
  obtain ⟨b, ls, e1, e2, e3⟩ := C105_index_told_partial r f hf []
  rw [List.append_nil] at e2
  have at_ : ∀ name, optionOf ls name = (indexOptions f r.ini).lookup (ascii name) := fun name => by rw [optionOf, e3]
  refine ⟨b, ls, e1, e2, ?_, ?_, ?_, ⟨r.ini.netReadTimeout, ?_, rfl⟩, ?_⟩
  all_goals rw [at_]; rfl

/-- The partitioning that an index server shows is that of its own file: with another one in the directory it acts on that. -/
theorem C105_index_apart (own shared : Int32) (h1 : 1 ≤ shared.toInt) (n : IndexRun) (f : IndexFixed) (hf : f.Plain)
    (hp : f.parting = { usualParting with hint := own }) :
    indexStart f.parting (some [(ascii "partition-modular-hint", .data (printInt shared))]) =
      .ok (⟨1024, shared.toInt.toNat, 4096⟩, .simple) ∧
    ∃ b ls, showIndex n f (ascii " variables\n") = .ok (some b) ∧ readShow 64 b = some (ls, []) ∧
      optionOf ls "partition_modular_hint" = some (printInt own) := by
  constructor
  · have e : (printInt shared).take 512 = printInt shared :=
      List.take_of_length_le (Nat.le_trans (printInt_length shared) (by decide))
    have hm : mixParting { usualParting with hint := own } [(ascii "partition-modular-hint", printInt shared)] =
        some { usualParting with hint := shared } := by
      have a : varInt [(ascii "partition-modular-hint", printInt shared)] "partition-modular-hint" own = some shared := by
        rw [varInt, show List.lookup (ascii "partition-modular-hint") [(ascii "partition-modular-hint", printInt shared)] =
          some (printInt shared) from rfl]
        exact lexInt_print shared
      unfold mixParting
      simp only [a]
      rfl
    rw [hp]
    simp only [indexStart, getMeta, readVars, e, hm]
    have hh : hashAllowed (ascii "simple") = some .simple := by decide +kernel
    have ht : resolverTypeCast (ascii "modular") = some .modular := by decide +kernel
    have hr : resolverStart { usualParting with hint := shared } = none := by
      have a : ¬ shared.toInt < 1 := by omega
      simp [resolverStart, usualParting, a]
    simp only [show ({ usualParting with hint := shared } : Parting).hash = ascii "simple" from rfl,
      show ({ usualParting with hint := shared } : Parting).type = ascii "modular" from rfl, hh, ht, hr]
    rfl
  · obtain ⟨b, ls, e1, e2, e3⟩ := C105_index_told_partial n f hf []
    rw [List.append_nil] at e2
    refine ⟨b, ls, e1, e2, ?_⟩
    rw [optionOf, e3, show (indexOptions f n.ini).lookup (ascii "partition_modular_hint") = some (printInt f.parting.hint) from rfl,
      hp]

example :
    let f : IndexFixed := { parting := usualParting, dataDir := ascii "/var/lib/flare", serverName := ascii "i1" }
    let n : IndexRun := ⟨⟨[], 500, 3, 5, 1000, 600, 5⟩, ⟨3, 5, 1000, some 600000, 5, 5⟩⟩
    ∃ b, showIndex n f (ascii " variables\n") = .ok (some b) ∧
      (readShow 64 b).map (fun x => (optionOf x.1 "data_dir", optionOf x.1 "monitor_interval")) =
        some (some (ascii "/var/lib/flare"), some (ascii "5")) :=
  ⟨_, showIndex_asked _ _, by decide +kernel⟩

/-- **C105**: switches are shown as `true` exactly if they are on, and as `false` exactly if they are off, by nodes and by
index servers; only cluster replication is shown as 1 and 0. -/
theorem C105_switches (n : NodeRun) (f : NodeFixed) (hf : f.Plain) (hi : n.ini.Plain) (m : IndexRun) (h : IndexFixed)
    (hh : h.Plain) :
    (∃ b ls, showNode n f (ascii " variables\n") = .ok (some b) ∧ readShow 64 b = some (ls, []) ∧
      optionOf ls "daemonize" = some (match f.daemonize with | true => ascii "true" | false => ascii "false") ∧
      optionOf ls "storage_large" = some (match f.large with | true => ascii "true" | false => ascii "false") ∧
      optionOf ls "time_watcher_enabled" =
        some (match n.ini.watchEnabled with | true => ascii "true" | false => ascii "false") ∧
      optionOf ls "cluster_replication" = some (match n.ini.crEnabled with | true => ascii "1" | false => ascii "0")) ∧
    ∃ b ls, showIndex m h (ascii " variables\n") = .ok (some b) ∧ readShow 64 b = some (ls, []) ∧
      optionOf ls "daemonize" = some (match h.daemonize with | true => ascii "true" | false => ascii "false") := by
  constructor
  · obtain ⟨b, ls, e1, e2, e3⟩ := C105_told_partial n f hf hi []
    rw [List.append_nil] at e2
    have at_ : ∀ name, optionOf ls name = (nodeOptions f n.ini).lookup (ascii name) := fun name => by rw [optionOf, e3]
    refine ⟨b, ls, e1, e2, ?_, ?_, ?_, ?_⟩
    · rw [at_, show (nodeOptions f n.ini).lookup (ascii "daemonize") = some (boolText f.daemonize) from rfl]
      cases f.daemonize <;> rfl
    · rw [at_, show (nodeOptions f n.ini).lookup (ascii "storage_large") = some (boolText f.large) from rfl]
      cases f.large <;> rfl
    · rw [at_, show (nodeOptions f n.ini).lookup (ascii "time_watcher_enabled") = some (boolText n.ini.watchEnabled) from rfl]
      cases n.ini.watchEnabled <;> rfl
    · rw [at_, show (nodeOptions f n.ini).lookup (ascii "cluster_replication") = some (boolDigit n.ini.crEnabled) from rfl]
      cases n.ini.crEnabled <;> rfl
  · obtain ⟨b, ls, e1, e2, e3⟩ := C105_index_told_partial m h hh []
    rw [List.append_nil] at e2
    refine ⟨b, ls, e1, e2, ?_⟩
    rw [optionOf, e3, show (indexOptions h m.ini).lookup (ascii "daemonize") = some (boolText h.daemonize) from rfl]
    cases h.daemonize <;> rfl

example : boolText true = ascii "true" ∧ boolText false = ascii "false" := by decide

end Flare
