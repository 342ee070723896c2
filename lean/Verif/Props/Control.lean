import Verif.Lemmas.Control
import Verif.Props.Text

/-! Names and numbers (C42), node keys (C52), answer lines (C59), node maps and node commands on the
wire (C60), and the numbers of the key resolver on the wire (C61). -/
namespace Flare

/-! ### C42 -/

/-- Every kind of value has names that are cast back to it, and no other string is accepted; in
particular two values never share a name. -/
theorem C42_casts :
    Casts resultCast Result.name ∧ Casts storageTypeCast StorageType.name ∧
    Casts compressCast Compress.name ∧ Casts hashAlgorithmCast HashAlgorithm.name ∧
    Casts replTypeCast ReplType.name ∧ Casts roleCast Role.name ∧ Casts stateCast NState.name ∧
    Casts resolverTypeCast ResolverType.name ∧ Casts replModeCast ReplMode.name ∧
    Casts opResultCast OpResult.name := by
  refine ⟨⟨fun v => by cases v <;> decide, fun s v h => ?_⟩,
    ⟨fun v => by cases v <;> decide, fun s v h => ?_⟩,
    ⟨fun v => by cases v <;> decide, fun s v h => ?_⟩,
    ⟨fun v => by cases v <;> decide, fun s v h => ?_⟩,
    ⟨fun v => by cases v <;> decide, fun s v h => ?_⟩,
    ⟨fun v => by cases v <;> decide, fun s v h => ?_⟩,
    ⟨fun v => by cases v <;> decide, fun s v h => ?_⟩,
    ⟨fun v => by cases v <;> decide, fun s v h => ?_⟩,
    ⟨fun v => by cases v <;> decide, fun s v h => ?_⟩,
    ⟨fun v => by cases v <;> decide, fun s v h => ?_⟩⟩
  · unfold resultCast at h; repeat' (obtain ⟨e, rfl⟩ | h := cast_step h; · exact e)
    cases h
  · unfold storageTypeCast at h; repeat' (obtain ⟨e, rfl⟩ | h := cast_step h; · exact e)
    cases h
  · unfold compressCast at h; repeat' (obtain ⟨e, rfl⟩ | h := cast_step h; · exact e)
    cases h
  · unfold hashAlgorithmCast at h; repeat' (obtain ⟨e, rfl⟩ | h := cast_step h; · exact e)
    cases h
  · unfold replTypeCast at h; repeat' (obtain ⟨e, rfl⟩ | h := cast_step h; · exact e)
    cases h
  · unfold roleCast at h; repeat' (obtain ⟨e, rfl⟩ | h := cast_step h; · exact e)
    cases h
  · unfold stateCast at h; repeat' (obtain ⟨e, rfl⟩ | h := cast_step h; · exact e)
    cases h
  · unfold resolverTypeCast at h; repeat' (obtain ⟨e, rfl⟩ | h := cast_step h; · exact e)
    cases h
  · unfold replModeCast at h; repeat' (obtain ⟨e, rfl⟩ | h := cast_step h; · exact e)
    cases h
  · unfold opResultCast at h; repeat' (obtain ⟨e, rfl⟩ | h := cast_step h; · exact e)
    cases h

example : Role.name .proxy = ascii "proxy" ∧ roleCast (ascii "proxy") = some .proxy ∧
    roleCast (ascii "Proxy") = none := by decide

/-- The same for the options.  Only single options have a name. -/
theorem C42_options :
    (∀ o ∈ [0, optNoreply, optSync, optAsync], optionCast (optionName o) = some o) ∧
    ∀ s o, optionCast s = some o → s = optionName o ∧ o ∈ [0, optNoreply, optSync, optAsync] := by
  refine ⟨by decide, fun s o h => ?_⟩
  unfold optionCast at h
  repeat' (obtain ⟨e, rfl⟩ | h := cast_step h; · exact ⟨e.trans (by decide), by decide⟩)
  cases h

example : optionCast (ascii "async") = some optAsync ∧ optionCast (ascii "asynch") = none := by
  decide

/-- A result of the storage can be taken for a result of an operation with the same number
(`static_cast<result>(r_storage)`): it keeps its name, and the number belongs to no other
result. -/
theorem C42_compatible (r : Result) :
    ∃ o : OpResult, o.number = r.number ∧ o.name = r.name ∧
      ∀ o' : OpResult, o'.number = r.number → o' = o := by
  cases r
  · exact ⟨.none_, rfl, rfl, fun o' h => by cases o' <;> first | rfl | exact absurd h (by decide)⟩
  · exact ⟨.stored, rfl, rfl, fun o' h => by cases o' <;> first | rfl | exact absurd h (by decide)⟩
  · exact ⟨.notStored, rfl, rfl,
      fun o' h => by cases o' <;> first | rfl | exact absurd h (by decide)⟩
  · exact ⟨.exists_, rfl, rfl,
      fun o' h => by cases o' <;> first | rfl | exact absurd h (by decide)⟩
  · exact ⟨.notFound, rfl, rfl,
      fun o' h => by cases o' <;> first | rfl | exact absurd h (by decide)⟩
  · exact ⟨.deleted, rfl, rfl,
      fun o' h => by cases o' <;> first | rfl | exact absurd h (by decide)⟩
  · exact ⟨.found, rfl, rfl, fun o' h => by cases o' <;> first | rfl | exact absurd h (by decide)⟩
  · exact ⟨.touched, rfl, rfl,
      fun o' h => by cases o' <;> first | rfl | exact absurd h (by decide)⟩

example : OpResult.touched.number = Result.touched.number ∧
    OpResult.touched.name = ascii "TOUCHED" := by decide

/-! ### C52 -/

/-- Different nodes have different node keys, whatever their names. -/
theorem C52_node_key_injective {a b : Bytes} {p q : Int32} (h : toNodeKey a p = toNodeKey b q) :
    a = b ∧ p = q := by
  simp only [toNodeKey, List.append_assoc, List.singleton_append] at h
  obtain ⟨h1, h2⟩ := split_colon (printInt_noColon p) (printInt_noColon q) h
  refine ⟨h1, ?_⟩
  have h3 := congrArg lexInt h2
  rw [lexInt_print, lexInt_print] at h3
  exact Option.some.inj h3

/-- Name and port come back from the node key of a node whose name has no colon. -/
theorem C52_node_key_back_partial {a : Bytes} {p : Int32} (h : chColon ∉ a) :
    fromNodeKey (toNodeKey a p) = (a, p, true) := by
  have ht : (toNodeKey a p).takeWhile (· ≠ chColon) = a := by
    simp only [toNodeKey, List.append_assoc, List.singleton_append]
    rw [List.takeWhile_append_of_pos (fun c hc => by
      simpa using (show c ≠ chColon from fun e => h (e ▸ hc)))]
    simp
  have hd : (toNodeKey a p).drop a.length = chColon :: printInt p := by
    simp [toNodeKey]
  unfold fromNodeKey
  rw [ht]
  dsimp only
  rw [hd]
  dsimp only
  rw [lexInt_print]

example : fromNodeKey (toNodeKey (ascii "db1.example.org") 12121) =
    (ascii "db1.example.org", 12121, true) := by decide +kernel

/-- With a colon in the name they never come back: name and port that are used to connect to the
node are wrong. -/
theorem C52_colon {a : Bytes} {p : Int32} (h : chColon ∈ a) :
    (fromNodeKey (toNodeKey a p)).1 ≠ a := by
  have ht : (toNodeKey a p).takeWhile (· ≠ chColon) = a.takeWhile (· ≠ chColon) := by
    obtain ⟨x, y, rfl⟩ := List.append_of_mem h
    simp only [toNodeKey, List.append_assoc, List.cons_append]
    have : ∀ (x y z : Bytes), (x ++ chColon :: y).takeWhile (fun c => decide (c ≠ chColon)) =
        (x ++ chColon :: z).takeWhile (fun c => decide (c ≠ chColon)) := by
      intro x y z
      induction x with
      | nil => simp
      | cons c x ih =>
        simp only [List.cons_append, List.takeWhile_cons]
        split <;> simp_all
    exact this x _ y
  have hne : a.takeWhile (· ≠ chColon) ≠ a := by
    intro e
    have := List.all_eq_true.1 (List.all_takeWhile (p := fun c => decide (c ≠ chColon)) (l := a))
      chColon (by rw [e]; exact h)
    simp at this
  unfold fromNodeKey
  rw [ht]
  dsimp only
  split
  · intro e; exact absurd h (by rw [← e]; simp)
  · split
    · exact hne
    · exact hne

/-- A name and a port are reported only if they are there: the name up to the first colon, and a
number behind it. -/
theorem C52_node_key_sound {k a : Bytes} {p : Int32} (h : fromNodeKey k = (a, p, true)) :
    chColon ∉ a ∧ ∃ n, k = a ++ [chColon] ++ n ∧ lexInt n = some p := by
  unfold fromNodeKey at h
  dsimp only at h
  have hk := List.takeWhile_append_dropWhile (p := fun c => decide (c ≠ chColon)) (l := k)
  have hd : k.drop (k.takeWhile (fun c => decide (c ≠ chColon))).length =
      k.dropWhile (fun c => decide (c ≠ chColon)) := by
    conv => lhs; arg 2; rw [← hk]
    exact List.drop_left
  rw [hd] at h
  have hno : chColon ∉ k.takeWhile (fun c => decide (c ≠ chColon)) := by
    intro e
    have := List.all_eq_true.1 (List.all_takeWhile (p := fun c => decide (c ≠ chColon)) (l := k))
      chColon e
    simp at this
  cases hc : k.dropWhile (fun c => decide (c ≠ chColon)) with
  | nil => rw [hc] at h; simp at h
  | cons c rest =>
    rw [hc] at h hk
    have hcc : c = chColon := by
      have := List.head?_dropWhile_not (fun c => decide (c ≠ chColon)) k
      rw [hc] at this
      simpa using this
    dsimp only at h
    cases hl : lexInt rest with
    | none => rw [hl] at h; simp at h
    | some i =>
      rw [hl] at h
      injection h with h1 h2
      injection h2 with h2 _
      subst h1 h2 hcc
      refine ⟨hno, rest, ?_, hl⟩
      rw [List.append_assoc]
      exact hk.symm

example : (fromNodeKey (ascii "db1:")).2.2 = false ∧ (fromNodeKey (ascii "db1")).2.2 = false ∧
    (fromNodeKey (ascii "db1:12121x")).2.2 = false := by decide +kernel

example : fromNodeKey (toNodeKey (ascii "fe80::1") 12121) = (ascii "fe80", 0, false) := by
  decide +kernel

/-! ### C59 -/

/-- A result and its message arrive as they were sent, and what follows stays on the stream. -/
theorem C59_answer {r : OpResult} {m q rest : Bytes} (hr : r ≠ .none_ ∨ m = [])
    (hm : PlainMessage m) (hq : 32 ≤ q.length) :
    readResponse q (resultLine r m ++ rest) = .ok ((r, m), rest) := by
  have hname : (∀ x ∈ r.name, wordChar x = true) ∧ r.name.length ≤ 12 ∧
      opResultCast r.name = some r ∧ (r.name = [] → r = .none_) := by
    cases r <;> decide
  obtain ⟨h1, h2, h3, h4⟩ := hname
  have hc : cstr m = m := by
    have := List.takeWhile_append_of_pos (p := fun c : UInt8 => decide (c ≠ 0)) (l₁ := m)
      (l₂ := []) (fun c hc => by simpa using (hm.1 c hc).1)
    simpa [cstr] using this
  by_cases he : m = []
  · subst he
    have hl : resultLine r [] ++ rest = r.name ++ crlf ++ rest := by simp [resultLine, cstr]
    obtain ⟨q', a, b, _⟩ := scanWord_tok (w := r.name) (c := chNl) (rest := []) (q := q) 0 h1
      (by decide) (by omega) (fun _ => by decide)
    simp only [List.replicate_zero, List.nil_append] at a
    rw [hl]
    simp only [readResponse, readLine_crlf (word_no_nl h1), parseResponse, a, b, h3]
    rfl
  · have hr' : r ≠ .none_ := by
      rcases hr with h | h
      · exact h
      · exact absurd h he
    have hl : resultLine r m ++ rest = (r.name ++ (chSpace :: m)) ++ crlf ++ rest := by
      simp [resultLine, hc, he]
    have hnl : ∀ c ∈ r.name ++ (chSpace :: m), c ≠ chNl := by
      refine noNl_append (word_no_nl h1) ?_
      intro c hc
      rcases List.mem_cons.1 hc with rfl | hc
      · decide
      · exact (hm.1 c hc).2
    obtain ⟨q', a, b, _⟩ := scanWord_first (w := r.name) (t := chSpace :: (m ++ [chNl])) (q := q)
      h1 (fun h => hr' (h4 h)) (ends_space _) (by omega)
    have e : r.name ++ (chSpace :: m) ++ [chNl] = r.name ++ (chSpace :: (m ++ [chNl])) := by
      simp
    have hb : blanks (chSpace :: (m ++ [chNl])) = 1 := by
      have : blanks (m ++ [chNl]) = 0 := by
        cases m with
        | nil => exact absurd rfl he
        | cons x m =>
          have hx : x ≠ chSpace := by simpa using hm.2
          simp [blanks, hx]
      simp [blanks, this]
    have hcs : cstr (m ++ [chNl]) = m ++ [chNl] := by
      have := List.takeWhile_append_of_pos (p := fun c : UInt8 => decide (c ≠ 0))
        (l₁ := m ++ [chNl]) (l₂ := []) (fun c hc => by
          rcases List.mem_append.1 hc with h | h
          · simpa using (hm.1 c h).1
          · rw [List.mem_singleton.1 h]; decide)
      simpa [cstr] using this
    rw [hl]
    simp only [readResponse, readLine_crlf hnl, parseResponse, e, a, b, h3, hb,
      List.drop_succ_cons, List.drop_zero, hcs, List.dropLast_concat]

example : readResponse (List.replicate 1024 0)
    (ascii "SERVER_ERROR too large\r\nEND\r\n") =
    .ok ((.serverError, ascii "too large"), ascii "END\r\n") := by decide +kernel

/-- A message with a newline is cut there, and its end is taken for the next answer. -/
theorem C59_newline :
    readResponse (List.replicate 1024 0)
      (resultLine .clientError (ascii "bad\nSTORED") ++ resultLine .ok []) =
      .ok ((.clientError, ascii "bad"), ascii "STORED\r\nOK\r\n") := by decide +kernel

/-! ### C60 -/

/-- A node map arrives at a node as the index server sent it, with its version, and nothing behind
it is consumed. -/
theorem C60_sync {version : UInt64} {ns : List NodeLine} {first second q q' rest : Bytes}
    (h : ∀ n ∈ ns, n.Ok) (hf : 32 ≤ first.length) (hs : 32 ≤ second.length) (hq : 32 ≤ q.length)
    (hq' : q'.length = 8192) :
    readSync first second q q' (syncRequest version ns ++ rest) = .ok ((version, ns), rest) := by
  have hd : ∀ c ∈ decimal version.toNat, digitChar c = true :=
    fun c hc => digitChar_of_isDigit (decimal_digits _ c hc)
  have hw : ∀ c ∈ decimal version.toNat, wordChar c = true := by
    intro c hc
    have := hd c hc
    simp only [digitChar, decide_eq_true_eq] at this
    simp only [wordChar, decide_eq_true_eq]
    refine ⟨this.1, ?_, this.2.2⟩
    rintro rfl
    exact absurd this.2.1 (by decide)
  have hlen := decimal_length_64 version.toNat_lt
  have hn := decimal_ne_nil version.toNat
  have e0 : ascii "node sync " ++ decimal version.toNat ++ [chNl] =
      ascii "node" ++ (chSpace :: ascii "sync" ++ (chSpace :: decimal version.toNat ++ [chNl])) := by
    have : ascii "node sync " = ascii "node" ++ (chSpace :: ascii "sync" ++ [chSpace]) := by decide
    rw [this]
    simp only [List.append_assoc, List.cons_append, List.nil_append]
  have hnl : ∀ c ∈ ascii "node sync " ++ decimal version.toNat, c ≠ chNl :=
    noNl_append (by decide) (word_no_nl hw)
  have hc := readNodeCommand_ok (s := nodeLines ns ++ rest) (first := first) (second := second)
    (t := chSpace :: decimal version.toNat ++ [chNl])
    hnl (ascii_word_ok (by decide)) (by decide) (ends_space _) e0 (by omega)
    (by have : (ascii "sync").length = 4 := by decide
        omega)
  obtain ⟨q1, a1, b1, c1⟩ := scanDigit_field (q := q) (t := [chNl]) hd hn (ends_nl []) (by omega)
  obtain ⟨q2, a2, b2, c2⟩ := scanWord_nl q1 (by omega)
  have hnodes := readNodes_ok hq' rest ns ((nodeLines ns ++ rest).length + 1)
    (by have := nodeLines_length ns
        simp only [List.length_append]; omega) h
  have hsr : syncRequest version ns ++ rest =
      ascii "node sync " ++ decimal version.toNat ++ crlf ++ (nodeLines ns ++ rest) := by
    simp only [syncRequest, List.append_assoc]
  rw [hsr]
  simp only [readSync, hc, a1, b1, if_neg hn, lexUnsigned_decimal version.toNat_lt,
    Option.map_some, UInt64.ofNat_toNat, a2, b2, hnodes, ne_eq, not_true_eq_false, if_false]

example : readSync (List.replicate 1024 0) (List.replicate 1024 0) (List.replicate 1024 0)
    (List.replicate 8192 0) (ascii "node sync 7\r\nNODE db1 12121 0 0 0 1 16\r\nEND\r\nmeta\r\n") =
    .ok ((7, [⟨ascii "db1", 12121, 0, 0, 0, 1, 16⟩]), ascii "meta\r\n") := by decide +kernel

/-- A node map without a version counts as version 0, which is older than every other one. -/
theorem C60_sync_no_version {ns : List NodeLine} {first second q q' rest : Bytes}
    (h : ∀ n ∈ ns, n.Ok) (hf : 32 ≤ first.length) (hs : 32 ≤ second.length) (hq : 32 ≤ q.length)
    (hq' : q'.length = 8192) :
    readSync first second q q' (ascii "node sync" ++ crlf ++ (nodeLines ns ++ rest)) =
      .ok ((0, ns), rest) := by
  have hc := readNodeCommand_ok (l := ascii "node sync") (w := ascii "sync")
    (s := nodeLines ns ++ rest) (first := first) (second := second) (t := [chNl])
    (by decide) (ascii_word_ok (by decide)) (by decide) (ends_nl []) (by decide) (by omega)
    (by have : (ascii "sync").length = 4 := by decide
        omega)
  obtain ⟨q1, a1, b1, c1⟩ := scanDigit_empty (t := [chNl]) (q := q) (c := chNl) (r := []) 0 rfl
    (by decide) (by decide) (by omega)
  obtain ⟨q2, a2, b2, c2⟩ := scanWord_nl q1 (by omega)
  have hnodes := readNodes_ok hq' rest ns ((nodeLines ns ++ rest).length + 1)
    (by have := nodeLines_length ns
        simp only [List.length_append]; omega) h
  simp only [readSync, hc, a1, b1, if_true, a2, b2, hnodes, ne_eq, not_true_eq_false, if_false]

example : readSync (List.replicate 1024 0) (List.replicate 1024 0) (List.replicate 1024 0)
    (List.replicate 8192 0) (ascii "node sync\r\nNODE db1 12121 0 0 0 1 16\r\nEND\r\n") =
    .ok ((0, [⟨ascii "db1", 12121, 0, 0, 0, 1, 16⟩]), []) := by decide +kernel

/-- The answer to `node add` is the node map of the index server. -/
theorem C60_add {ns : List NodeLine} {q rest : Bytes} (h : ∀ n ∈ ns, n.Ok)
    (hq : q.length = 8192) {n : Nat} (hn : ns.length < n) :
    readNodes q n (nodeLines ns ++ rest) = .ok (ns, rest) :=
  readNodes_ok hq rest ns n hn h

example : readNodes (List.replicate 8192 0) 3
    (nodeLines [⟨ascii "a", 1, 2, 0, -1, 0, 17⟩, ⟨ascii "b", 2, 0, 2, 0, 3, 18⟩] ++ ascii "X") =
    .ok ([⟨ascii "a", 1, 2, 0, -1, 0, 17⟩, ⟨ascii "b", 2, 0, 2, 0, 3, 18⟩], ascii "X") := by
  decide +kernel

/-- A request to change a role arrives as it was sent. -/
theorem C60_role {r : RoleReq} {first second q rest : Bytes} (h : PlainKey r.name 1024)
    (hf : 32 ≤ first.length) (hs : 32 ≤ second.length) (hq : q.length = 1024) :
    readRole first second q (roleRequest r ++ rest) = .ok (r, rest) := by
  obtain ⟨f1, f2, f3, f4⟩ := r.role.name_facts
  obtain ⟨t5, e5⟩ : ∃ t, t = chSpace :: printInt r.partition ++ [chNl] := ⟨_, rfl⟩
  obtain ⟨t4, e4⟩ : ∃ t, t = chSpace :: printInt r.balance ++ t5 := ⟨_, rfl⟩
  obtain ⟨t3, e3⟩ : ∃ t, t = chSpace :: r.role.name ++ t4 := ⟨_, rfl⟩
  obtain ⟨t1, e1⟩ : ∃ t, t = chSpace :: r.name ++ (chSpace :: printInt r.port ++ t3) := ⟨_, rfl⟩
  obtain ⟨l, hl⟩ : ∃ l, l = ascii "node role " ++ r.name ++ [chSpace] ++ printInt r.port ++
    [chSpace] ++ r.role.name ++ [chSpace] ++ printInt r.balance ++ [chSpace] ++
    printInt r.partition := ⟨_, rfl⟩
  have e0 : l ++ [chNl] = ascii "node" ++ (chSpace :: ascii "role" ++ t1) := by
    have : ascii "node role " = ascii "node" ++ (chSpace :: ascii "role" ++ [chSpace]) := by decide
    rw [hl, e1, e3, e4, e5, this]
    simp only [List.append_assoc, List.cons_append, List.nil_append]
  have hreq : roleRequest r ++ rest = l ++ crlf ++ rest := by
    rw [roleRequest, cstr_plain h.word, ← hl, snprintfBuf_short]
    have h1 := printInt_length r.port
    have h2 := printInt_length r.balance
    have h3 := printInt_length r.partition
    have h4 := h.2.2
    have h0 : (ascii "node role ").length = 10 := by decide
    rw [hl]
    simp only [List.length_append, List.length_singleton, h0]
    omega
  have hsp : ∀ c ∈ [chSpace], c ≠ chNl := by decide
  have hnl : ∀ c ∈ l, c ≠ chNl := by
    rw [hl]
    exact noNl_append (noNl_append (noNl_append (noNl_append (noNl_append (noNl_append
      (noNl_append (noNl_append (noNl_append (by decide) (word_no_nl h.word)) hsp)
      (word_no_nl (printInt_word _))) hsp) (word_no_nl f1)) hsp) (word_no_nl (printInt_word _)))
      hsp) (word_no_nl (printInt_word _))
  have hc := readNodeCommand_ok (s := rest) (first := first) (second := second)
    hnl (ascii_word_ok (by decide)) (by decide) (ends_of e1) e0 (by omega)
    (by have : (ascii "role").length = 4 := by decide
        omega)
  obtain ⟨q1, a1, c1⟩ := scanNode_ok (q := q) (port := r.port) (hq ▸ h) (ends_of e3) (by omega)
  obtain ⟨q2, a2, b2, c2⟩ := scanWord_field (q := q1) f1 f2 (ends_of e4) (by omega)
  obtain ⟨q3, a3, c3⟩ := scanIntOr_field (q := q2) (i := r.balance) (old := -1) (ends_of e5)
    (by omega)
  obtain ⟨q4, a4, c4⟩ := scanIntOr_field (q := q3) (i := r.partition) (old := -1) (ends_nl [])
    (by omega)
  rw [← e1] at a1
  rw [← e3] at a2
  rw [← e4] at a3
  rw [← e5] at a4
  rw [hreq]
  simp only [readRole, hc, a1, a2, b2, a3, a4, f4, ne_eq, not_true_eq_false, if_false]

example : readRole (List.replicate 1024 0) (List.replicate 1024 0) (List.replicate 1024 0)
    (ascii "node role db1 12121 slave 1 0\r\n") =
    .ok (⟨ascii "db1", 12121, .slave, 1, 0⟩, []) := by decide +kernel

/-- A request to change a state arrives as it was sent. -/
theorem C60_state {r : StateReq} {first second q rest : Bytes} (h : PlainKey r.name 1024)
    (hf : 32 ≤ first.length) (hs : 32 ≤ second.length) (hq : q.length = 1024) :
    readState first second q (stateRequest r ++ rest) = .ok (r, rest) := by
  obtain ⟨f1, f2, f3, f4⟩ := r.state.name_facts
  obtain ⟨t3, e3⟩ : ∃ t, t = chSpace :: r.state.name ++ [chNl] := ⟨_, rfl⟩
  obtain ⟨t1, e1⟩ : ∃ t, t = chSpace :: r.name ++ (chSpace :: printInt r.port ++ t3) := ⟨_, rfl⟩
  obtain ⟨l, hl⟩ : ∃ l, l = ascii "node state " ++ r.name ++ [chSpace] ++ printInt r.port ++
    [chSpace] ++ r.state.name := ⟨_, rfl⟩
  have e0 : l ++ [chNl] = ascii "node" ++ (chSpace :: ascii "state" ++ t1) := by
    have : ascii "node state " = ascii "node" ++ (chSpace :: ascii "state" ++ [chSpace]) := by
      decide
    rw [hl, e1, e3, this]
    simp only [List.append_assoc, List.cons_append, List.nil_append]
  have hreq : stateRequest r ++ rest = l ++ crlf ++ rest := by
    rw [stateRequest, cstr_plain h.word, ← hl, snprintfBuf_short]
    have h1 := printInt_length r.port
    have h4 := h.2.2
    have h0 : (ascii "node state ").length = 11 := by decide
    rw [hl]
    simp only [List.length_append, List.length_singleton, h0]
    omega
  have hsp : ∀ c ∈ [chSpace], c ≠ chNl := by decide
  have hnl : ∀ c ∈ l, c ≠ chNl := by
    rw [hl]
    exact noNl_append (noNl_append (noNl_append (noNl_append (noNl_append (by decide)
      (word_no_nl h.word)) hsp) (word_no_nl (printInt_word _))) hsp) (word_no_nl f1)
  have hc := readNodeCommand_ok (s := rest) (first := first) (second := second)
    hnl (ascii_word_ok (by decide)) (by decide) (ends_of e1) e0 (by omega)
    (by have : (ascii "state").length = 5 := by decide
        omega)
  obtain ⟨q1, a1, c1⟩ := scanNode_ok (q := q) (port := r.port) (hq ▸ h) (ends_of e3) (by omega)
  obtain ⟨q2, a2, b2, c2⟩ := scanWord_field (q := q1) (t := [chNl]) f1 f2 (ends_nl []) (by omega)
  obtain ⟨q3, a3, b3, c3⟩ := scanWord_nl q2 (by omega)
  rw [← e1] at a1
  rw [← e3] at a2
  rw [hreq]
  simp only [readState, hc, a1, a2, b2, a3, b3, f4, ne_eq, not_true_eq_false, if_false]

example : readState (List.replicate 1024 0) (List.replicate 1024 0) (List.replicate 1024 0)
    (ascii "node state db1 12121 down\r\n") = .ok (⟨ascii "db1", 12121, .down⟩, []) := by
  decide +kernel

/-- Only the numbers of the roles and states that exist stand for one: the numbers in a node line
are not checked, so that a node map can hold a node that is neither master, slave nor proxy. -/
theorem C60_unknown_role :
    readSync (List.replicate 1024 0) (List.replicate 1024 0) (List.replicate 1024 0)
      (List.replicate 8192 0) (ascii "node sync 1\r\nNODE db1 12121 7 9 0 1 16\r\nEND\r\n") =
      .ok ((1, [⟨ascii "db1", 12121, 7, 9, 0, 1, 16⟩]), []) ∧
    (∀ r : Role, r.number ≠ 7) ∧ ∀ s : NState, s.number ≠ 9 := by
  refine ⟨by decide +kernel, fun r => by cases r <;> decide, fun s => by cases s <;> decide⟩

/-- A command whose first word is not `node` is none of these. -/
theorem C60_other_word {w t first second q q' rest : Bytes} (hw : PlainKey w first.length) (hn : w ≠ ascii "node")
    (hlt : w.head? ≠ some chLt) (ht : ∀ c ∈ t, c ≠ chNl) :
    readRole first second q (w ++ (chSpace :: t) ++ crlf ++ rest) = .error .err ∧
    readState first second q (w ++ (chSpace :: t) ++ crlf ++ rest) = .error .err ∧
    readSync first second q q' (w ++ (chSpace :: t) ++ crlf ++ rest) = .error .err := by
  have hl : ∀ c ∈ w ++ (chSpace :: t), c ≠ chNl := noNl_append (word_no_nl hw.word) (by
    intro c hc
    rcases List.mem_cons.1 hc with rfl | h
    · decide
    · exact ht c h)
  have hc : readNodeCommand first second (w ++ (chSpace :: t) ++ crlf ++ rest) = .error .err := by
    have hp := parseServer_word (w := w) (t := chSpace :: t ++ [chNl]) (first := first) hw.word hw.1 hlt (ends_space _) hw.2.2
    have e : w ++ (chSpace :: t) ++ [chNl] = w ++ (chSpace :: t ++ [chNl]) := by simp
    simp only [readNodeCommand, readLine_crlf hl, e, hp, ne_eq, hn, not_false_eq_true, if_true]
  exact ⟨by simp only [readRole, hc], by simp only [readState, hc], by simp only [readSync, hc]⟩

/-- `node state` without the port, and with a word too many, is refused. -/
theorem C60_state_refused {r : StateReq} {w first second q rest : Bytes} (h : PlainKey r.name 1024) (hf : 32 ≤ first.length)
    (hs : 32 ≤ second.length) (hq : q.length = 1024) (hw : PlainKey w 1024) :
    readState first second q (ascii "node state " ++ r.name ++ [chSpace] ++ r.state.name ++ crlf ++ rest) = .error .err ∧
    readState first second q (ascii "node state " ++ r.name ++ [chSpace] ++ printInt r.port ++ [chSpace] ++ r.state.name ++
      [chSpace] ++ w ++ crlf ++ rest) = .error .err := by
  obtain ⟨f1, f2, f3, f4⟩ := r.state.name_facts
  have hsp : ∀ c ∈ [chSpace], c ≠ chNl := by decide
  have hst : ascii "node state " = ascii "node" ++ (chSpace :: ascii "state" ++ [chSpace]) := by decide
  have hws : (ascii "state").length = 5 := by decide
  constructor
  · have hnl : ∀ c ∈ ascii "node state " ++ r.name ++ [chSpace] ++ r.state.name, c ≠ chNl :=
      noNl_append (noNl_append (noNl_append (by decide) (word_no_nl h.word)) hsp) (word_no_nl f1)
    obtain ⟨t3, e3⟩ : ∃ t, t = chSpace :: r.state.name ++ [chNl] := ⟨_, rfl⟩
    have hc := readNodeCommand_ok (w := ascii "state") (s := rest) (first := first) (second := second)
      (t := chSpace :: r.name ++ t3) hnl (ascii_word_ok (by decide)) (by decide) (ends_space _)
      (by rw [hst, e3]; simp) (by omega) (by omega)
    obtain ⟨q1, a1, b1, c1⟩ := scanWord_field (q := q) (w := r.name) (t := t3) h.word h.1 (by rw [e3]; exact ends_space _)
      (by have := h.2.2; omega)
    obtain ⟨c, v, hv, hd, hb⟩ : ∃ c v, r.state.name = c :: v ∧ digitChar c = false ∧ c ≠ chSpace := by
      cases r.state <;> exact ⟨_, _, rfl, by decide, by decide⟩
    obtain ⟨q2, a2, b2, -⟩ := scanDigit_empty (t := t3) (q := q1) (c := c) (r := v ++ [chNl]) 1
      (by rw [e3, hv]; rfl) hd hb (by omega)
    simp only [readState, hc, scanNode, a1, b1, if_neg h.1, scanInt, a2, b2, if_true, ne_eq, not_true_eq_false, if_false]
  · obtain ⟨t5, e5⟩ : ∃ t, t = chSpace :: w ++ [chNl] := ⟨_, rfl⟩
    obtain ⟨t3, e3⟩ : ∃ t, t = chSpace :: r.state.name ++ t5 := ⟨_, rfl⟩
    have hnl : ∀ c ∈ ascii "node state " ++ r.name ++ [chSpace] ++ printInt r.port ++ [chSpace] ++ r.state.name ++
        [chSpace] ++ w, c ≠ chNl :=
      noNl_append (noNl_append (noNl_append (noNl_append (noNl_append (noNl_append (noNl_append (by decide)
        (word_no_nl h.word)) hsp) (word_no_nl (printInt_word _))) hsp) (word_no_nl f1)) hsp) (word_no_nl hw.word)
    have hc := readNodeCommand_ok (w := ascii "state") (s := rest) (first := first) (second := second)
      (t := chSpace :: r.name ++ (chSpace :: printInt r.port ++ t3)) hnl (ascii_word_ok (by decide)) (by decide)
      (ends_space _) (by rw [hst, e3, e5]; simp) (by omega) (by omega)
    obtain ⟨q1, a1, b1⟩ := scanNode_ok (name := r.name) (port := r.port) (t := t3) (q := q) (hq ▸ h)
      (by rw [e3]; exact ends_space _) (by omega)
    obtain ⟨q2, a2, b2, c2⟩ := scanWord_field (q := q1) (w := r.state.name) (t := t5) f1 f2 (by rw [e5]; exact ends_space _)
      (by omega)
    obtain ⟨q3, a3, b3, c3⟩ := scanWord_field (q := q2) (w := w) (t := [chNl]) hw.word hw.1 (ends_nl _)
      (by have := hw.2.2; omega)
    rw [← e3] at a2
    rw [← e5] at a3
    simp only [readState, hc, a1, a2, b2, f4, a3, b3, ne_eq, not_true_eq_false, if_false, hw.1, not_false_eq_true, if_true]

/-- `node role` without balance and partition asks for neither: both are -1. -/
theorem C60_role_short {r : RoleReq} {first second q rest : Bytes} (h : PlainKey r.name 1024) (hf : 32 ≤ first.length)
    (hs : 32 ≤ second.length) (hq : q.length = 1024) :
    readRole first second q (ascii "node role " ++ r.name ++ [chSpace] ++ printInt r.port ++ [chSpace] ++ r.role.name ++
      crlf ++ rest) = .ok (⟨r.name, r.port, r.role, -1, -1⟩, rest) := by
  obtain ⟨f1, f2, f3, f4⟩ := r.role.name_facts
  have hsp : ∀ c ∈ [chSpace], c ≠ chNl := by decide
  have hst : ascii "node role " = ascii "node" ++ (chSpace :: ascii "role" ++ [chSpace]) := by decide
  have hws : (ascii "role").length = 4 := by decide
  obtain ⟨t3, e3⟩ : ∃ t, t = chSpace :: r.role.name ++ [chNl] := ⟨_, rfl⟩
  have hnl : ∀ c ∈ ascii "node role " ++ r.name ++ [chSpace] ++ printInt r.port ++ [chSpace] ++ r.role.name, c ≠ chNl :=
    noNl_append (noNl_append (noNl_append (noNl_append (noNl_append (by decide)
      (word_no_nl h.word)) hsp) (word_no_nl (printInt_word _))) hsp) (word_no_nl f1)
  have hc := readNodeCommand_ok (w := ascii "role") (s := rest) (first := first) (second := second)
    (t := chSpace :: r.name ++ (chSpace :: printInt r.port ++ t3)) hnl (ascii_word_ok (by decide)) (by decide)
    (ends_space _) (by rw [hst, e3]; simp) (by omega) (by omega)
  obtain ⟨q1, a1, b1⟩ := scanNode_ok (name := r.name) (port := r.port) (t := t3) (q := q) (hq ▸ h)
    (by rw [e3]; exact ends_space _) (by omega)
  obtain ⟨q2, a2, b2, c2⟩ := scanWord_field (q := q1) (w := r.role.name) (t := [chNl]) f1 f2 (ends_nl _) (by omega)
  rw [← e3] at a2
  obtain ⟨q3, a3, b3, c3⟩ := scanDigit_empty (t := [chNl]) (q := q2) (c := chNl) (r := []) 0 rfl (by decide) (by decide)
    (by omega)
  obtain ⟨q4, a4, b4, -⟩ := scanDigit_empty (t := [chNl]) (q := q3) (c := chNl) (r := []) 0 rfl (by decide) (by decide)
    (by omega)
  simp only [readRole, hc, a1, a2, b2, f4, scanIntOr, a3, b3, a4, b4, if_true, ne_eq, not_true_eq_false, if_false]

example : readRole (List.replicate 1024 0) (List.replicate 1024 0) (List.replicate 1024 0)
      (ascii "node role db1 12121 slave\r\n") = .ok (⟨ascii "db1", 12121, .slave, -1, -1⟩, []) ∧
    readState (List.replicate 1024 0) (List.replicate 1024 0) (List.replicate 1024 0)
      (ascii "node state db1 active\r\n") = .error .err ∧
    readState (List.replicate 1024 0) (List.replicate 1024 0) (List.replicate 1024 0)
      (ascii "nodes state db1 12121 active\r\n") = .error .err := by decide +kernel

/-! ### C61 -/

/-- The numbers of the key resolver arrive at a node as the index server sent them, whatever the
node started with. -/
theorem C61_meta {m : Meta} {q rest : Bytes} {n : Nat} {v : MetaVars} (hq : 32 ≤ q.length) :
    readMeta q (n + 6) (metaAnswer m ++ rest) v =
      .ok (⟨m.partitionSize, m.hash, some m.type, m.hint, m.virtual_⟩, rest) := by
  obtain ⟨h1, h2, h3, h4⟩ := m.hash.name_facts
  obtain ⟨t1, t2, t3, t4⟩ := m.type.name_facts
  have p1 := printInt_length m.partitionSize
  have p2 := printInt_length m.hint
  have p3 := printInt_length m.virtual_
  have w1 : ascii "META partition-size " =
    ascii "META" ++ (chSpace :: ascii "partition-size" ++ [chSpace]) := by decide
  have w2 : ascii "META key-hash-algorithm " =
    ascii "META" ++ (chSpace :: ascii "key-hash-algorithm" ++ [chSpace]) := by decide
  have w3 : ascii "META partition-type " =
    ascii "META" ++ (chSpace :: ascii "partition-type" ++ [chSpace]) := by decide
  have w4 : ascii "META partition-modular-hint " =
    ascii "META" ++ (chSpace :: ascii "partition-modular-hint" ++ [chSpace]) := by decide
  have w5 : ascii "META partition-modular-virtual " =
    ascii "META" ++ (chSpace :: ascii "partition-modular-virtual" ++ [chSpace]) := by decide
  have l1 : (ascii "META partition-size ").length = 20 := by decide
  have l2 : (ascii "META key-hash-algorithm ").length = 24 := by decide
  have l3 : (ascii "META partition-type ").length = 20 := by decide
  have l4 : (ascii "META partition-modular-hint ").length = 28 := by decide
  have l5 : (ascii "META partition-modular-virtual ").length = 31 := by decide
  have hs : metaAnswer m ++ rest =
      (ascii "META partition-size " ++ printInt m.partitionSize) ++ crlf ++
      ((ascii "META key-hash-algorithm " ++ m.hash.name) ++ crlf ++
      ((ascii "META partition-type " ++ m.type.name) ++ crlf ++
      ((ascii "META partition-modular-hint " ++ printInt m.hint) ++ crlf ++
      ((ascii "META partition-modular-virtual " ++ printInt m.virtual_) ++ crlf ++
      (strEnd ++ crlf ++ rest))))) := by
    rw [metaAnswer, snprintfBuf_short, snprintfBuf_short, snprintfBuf_short, snprintfBuf_short,
      snprintfBuf_short]
    · simp only [List.append_assoc]; rfl
    all_goals simp only [List.length_append]; omega
  rw [hs]
  rw [readMeta_step (meta_noNl w1 (ascii_word_ok (by decide)) (printInt_word _)) (meta_head w1)
    (by rw [meta_split w1]; exact metaLine_size hq)]
  rw [readMeta_step (meta_noNl w2 (ascii_word_ok (by decide)) h1) (meta_head w2)
    (by rw [meta_split w2]; exact metaLine_hash hq)]
  rw [readMeta_step (meta_noNl w3 (ascii_word_ok (by decide)) t1) (meta_head w3)
    (by rw [meta_split w3]; exact metaLine_type hq)]
  rw [readMeta_step (meta_noNl w4 (ascii_word_ok (by decide)) (printInt_word _)) (meta_head w4)
    (by rw [meta_split w4]; exact metaLine_hint hq)]
  rw [readMeta_step (meta_noNl w5 (ascii_word_ok (by decide)) (printInt_word _)) (meta_head w5)
    (by rw [meta_split w5]; exact metaLine_virtual hq)]
  have hl : readLine (strEnd ++ crlf ++ rest) = some (strEnd ++ [chNl], rest) :=
    readLine_crlf (by decide)
  simp only [readMeta, hl]
  rw [if_pos (by decide)]

/-- So node and index server look up every key in the same table. -/
theorem C61_same_partition {m m' : Meta} {q rest : Bytes} {n : Nat}
    (hq : 32 ≤ q.length)
    (h : readMeta q (n + 6) (metaAnswer m ++ rest) .init =
      .ok (⟨m'.partitionSize, m'.hash, some m'.type, m'.hint, m'.virtual_⟩, rest)) :
    m'.resolver = m.resolver ∧ m'.hash = m.hash := by
  rw [C61_meta hq] at h
  have h' := (Prod.mk.inj (Except.ok.inj h)).1
  obtain ⟨e1, e2, e3, e4, e5⟩ := MetaVars.mk.inj h'
  simp [Meta.resolver, e1, e2, e4, e5]

example : readMeta (List.replicate 1024 0) 6 (metaAnswer ⟨1024, .crc32, .modular, 1, 4096⟩) .init =
    .ok (⟨1024, .crc32, some .modular, 1, 4096⟩, []) := by decide +kernel

/-- A line with a name that the node does not know, say of a newer index server, is passed over. -/
theorem C61_unknown {w v q rest : Bytes} {n : Nat} {vars : MetaVars} (hw : PlainKey w q.length)
    (hv : ∀ x ∈ v, wordChar x = true) (hq : 32 ≤ q.length)
    (hu : w ∉ [ascii "partition-size", ascii "key-hash-algorithm", ascii "partition-type",
      ascii "partition-modular-hint", ascii "partition-modular-virtual"]) :
    readMeta q (n + 1) (ascii "META" ++ (chSpace :: w ++ [chSpace]) ++ v ++ crlf ++ rest) vars =
      readMeta q n rest vars := by
  refine readMeta_step (meta_noNl rfl hw.word hv) (meta_head rfl) ?_
  rw [meta_split rfl]
  obtain ⟨q1, q2, a1, b1, a2, b2, c2⟩ := meta_words (w := w)
    (t := chSpace :: v ++ [chNl]) (q := q) hw.word hw.1 (ends_space _) hw.2.2 hq
  simp only [List.mem_cons, List.not_mem_nil, or_false, not_or] at hu
  simp only [metaLine, a1, b1, a2, b2]
  rw [if_neg (fun h => h rfl), if_neg hw.1, if_neg hu.1, if_neg hu.2.1, if_neg hu.2.2.1,
    if_neg hu.2.2.2.1, if_neg hu.2.2.2.2]

example : readMeta (List.replicate 1024 0) 3 (ascii "META partition-copies 2\r\nEND\r\n") .init =
    .ok (.init, []) := by decide +kernel

/-- A number that is missing, or a word in its place, makes the whole answer unusable: the node does not go on with a part of
it. -/
theorem C61_no_number {w v q rest : Bytes} {n : Nat} {vars : MetaVars} (hq : 32 ≤ q.length)
    (hw : w ∈ [ascii "partition-size", ascii "partition-modular-hint", ascii "partition-modular-virtual"])
    (hv : ∀ x ∈ v, x ≠ chNl) (hd : ∀ x, v.head? = some x → digitChar x = false ∧ x ≠ chSpace) :
    readMeta q (n + 1) (ascii "META" ++ (chSpace :: w ++ [chSpace]) ++ v ++ crlf ++ rest) vars = .error .err := by
  have hww : (∀ x ∈ w, wordChar x = true) ∧ w ≠ [] ∧ w.length < 32 := by
    simp only [List.mem_cons, List.not_mem_nil, or_false] at hw
    rcases hw with rfl | rfl | rfl <;> exact ⟨ascii_word_ok (by decide), by decide, by decide⟩
  have hnl : ∀ c ∈ ascii "META" ++ (chSpace :: w ++ [chSpace]) ++ v, c ≠ chNl :=
    noNl_append (noNl_append (by decide) (noNl_append (noNl_field hww.1) (by decide))) hv
  obtain ⟨q1, q2, a1, b1, a2, b2, c2⟩ := meta_words (w := w) (t := chSpace :: v ++ [chNl]) (q := q) hww.1 hww.2.1
    (ends_space _) (by omega) hq
  have hmi : metaInt (chSpace :: v ++ [chNl]) q2 = .error .err := by
    obtain ⟨c, r, hcr, h1, h2⟩ : ∃ c r, v ++ [chNl] = c :: r ∧ digitChar c = false ∧ c ≠ chSpace := by
      cases v with
      | nil => exact ⟨chNl, [], rfl, by decide, by decide⟩
      | cons c v => exact ⟨c, v ++ [chNl], rfl, hd c rfl⟩
    obtain ⟨q3, e1, e2, -⟩ := scanDigit_empty (t := chSpace :: v ++ [chNl]) (q := q2) (c := c) (r := r) 1
      (by rw [List.cons_append, hcr]; rfl) h1 h2 (by omega)
    simp only [metaInt, e1, e2, if_true]
  have hline : metaLine (ascii "META" ++ (chSpace :: w ++ [chSpace]) ++ v ++ [chNl]) q vars = .error .err := by
    rw [meta_split rfl]
    simp only [metaLine, a1, b1, a2, b2, hmi]
    rw [if_neg (fun h => h rfl), if_neg hww.2.1]
    simp only [List.mem_cons, List.not_mem_nil, or_false] at hw
    rcases hw with rfl | rfl | rfl
    · rw [if_pos rfl]; rfl
    · rw [if_neg (by decide), if_neg (by decide), if_neg (by decide), if_pos rfl]; rfl
    · rw [if_neg (by decide), if_neg (by decide), if_neg (by decide), if_neg (by decide), if_pos rfl]; rfl
  simp only [readMeta, readLine_crlf hnl, hline]
  rw [if_neg]
  intro h
  have h' : ∀ t, (cstr (ascii "META" ++ t)).head? = some 77 := fun t => rfl
  have := congrArg List.head? h
  rw [List.append_assoc, List.append_assoc, h'] at this
  exact absurd this (by decide)

example : readMeta (List.replicate 1024 0) 6 (ascii "META partition-size \r\nMETA partition-type modular\r\nEND\r\n") .init =
    .error .err := by decide +kernel

/-- A number that does not fit is passed over without an error: the node keeps its default and
looks up keys in another table than the index server. -/
theorem C61_too_large :
    readMeta (List.replicate 1024 0) 6 (ascii "META partition-size 4294967296\r\nEND\r\n") .init =
      .ok (.init, []) := by decide +kernel

/-- An answer without the type leaves the variable uninitialised that the node then decides on. -/
theorem C61_type_missing :
    readMeta (List.replicate 1024 0) 6 (ascii "META partition-size 64\r\nEND\r\n") .init =
      .ok (⟨64, .simple, none, 0, 4096⟩, []) := by decide +kernel

end Flare
