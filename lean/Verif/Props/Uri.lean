import Verif.Lemmas.Uri

/-! # C106: where the index server keeps its state -/

namespace Flare

/-- The index server starts with exactly those values of index-db that say `file://` or `zookeeper://` and
something behind it. -/
theorem C106_accepted (db dir : Bytes) (hdb : db ≠ []) :
    startKeeper db dir ≠ .refused ↔
      ∃ x, x ≠ [] ∧ (db = ascii "file://" ++ x ∨ db = ascii "zookeeper://" ++ x) := by
  unfold startKeeper
  rw [if_neg hdb]
  constructor
  · intro h
    by_cases h1 : factoryScheme db = ascii "file"
    · obtain ⟨x, hx, e⟩ := factoryScheme_form (u := db) (by rw [h1]; decide)
      refine ⟨x, hx, .inl ?_⟩
      rw [h1] at e
      rw [e, ascii_file_sep]; simp
    · by_cases h2 : factoryScheme db = ascii "zookeeper"
      · obtain ⟨x, hx, e⟩ := factoryScheme_form (u := db) (by rw [h2]; decide)
        refine ⟨x, hx, .inr ?_⟩
        rw [h2] at e
        rw [e, ascii_zk_sep]; simp
      · exact absurd (by rw [createKeeper, if_neg h1, if_neg h2]) h
  · rintro ⟨x, hx, rfl | rfl⟩
    · rw [fileKeeper hx]; simp
    · rw [zkKeeper hx]; simp

/-- Without index-db the state is kept in the data directory exactly if the path of the directory begins with a slash
and has no question mark. -/
theorem C106_where (dir : Bytes) (hd : dir ≠ []) :
    startKeeper [] dir = .file (stateIn dir) ↔ dir.head? = some 47 ∧ 63 ∉ dir := by
  unfold startKeeper stateIn
  rw [if_pos rfl, fileKeeper hd]
  rcases until_split 47 dir with h | ⟨a, b, rfl, ha⟩
  · rw [uriPath_file_none dir h]
    constructor
    · intro e
      have : dir = [] := by simpa using e
      exact absurd this hd
    · rintro ⟨e, -⟩
      cases dir with
      | nil => cases e
      | cons c l => simp only [List.head?_cons, Option.some.injEq] at e; exact absurd (e ▸ List.mem_cons_self) h
  · rw [uriPath_file a b ha]
    constructor
    · intro e
      have e2 : (if (authParts a).isSome then 47 :: b.takeWhile (· ≠ 63) else []) = a ++ 47 :: b :=
        List.append_cancel_right (by injection e)
      split at e2
      · have hl := congrArg List.length e2
        have hle := (List.takeWhile_prefix (· ≠ (63 : UInt8)) (l := b)).length_le
        simp only [List.length_cons, List.length_append] at hl
        obtain rfl : a = [] := List.eq_nil_of_length_eq_zero (by omega)
        refine ⟨rfl, fun hm => ?_⟩
        have e3 : b.takeWhile (· ≠ 63) = b := by simpa using e2
        have hb : (63 : UInt8) ∈ b := by simpa using hm
        rw [← e3] at hb
        have := List.all_eq_true.1 (List.all_takeWhile (p := (· ≠ (63 : UInt8))) (l := b)) _ hb
        simp at this
      · simp at e2
    · rintro ⟨e, hq⟩
      cases a with
      | cons c a => simp only [List.cons_append, List.head?_cons, Option.some.injEq] at e; exact absurd (e ▸ List.mem_cons_self) ha
      | nil =>
        have hb : (63 : UInt8) ∉ b := by simpa using hq
        rw [authParts_plain (by simp) (by simp), (until_none hb).1]
        rfl

example : startKeeper [] (ascii "/var/lib/flare") = .file (ascii "/var/lib/flare/flare.xml") := by decide +kernel

/-- Index servers that are given different directories keep different states.  Partial: only for absolute paths without
question marks; see `C106_root` and `C106_cut`. -/
theorem C106_apart_partial {d e : Bytes} (hd : d.head? = some 47) (he : e.head? = some 47) (qd : 63 ∉ d) (qe : 63 ∉ e)
    (h : startKeeper [] d = startKeeper [] e) : d = e := by
  have nd : d ≠ [] := by rintro rfl; cases hd
  have ne : e ≠ [] := by rintro rfl; cases he
  rw [(C106_where d nd).2 ⟨hd, qd⟩, (C106_where e ne).2 ⟨he, qe⟩] at h
  simpa [stateIn] using h

/-- A directory that is named without a slash is not used: the state goes to the root of the file system, for all such
names to the same file. -/
theorem C106_root (dir : Bytes) (hd : dir ≠ []) (h : 47 ∉ dir) :
    startKeeper [] dir = .file (ascii "/flare.xml") := by
  unfold startKeeper
  rw [if_pos rfl, fileKeeper hd, uriPath_file_none dir h, List.nil_append]

example : startKeeper [] (ascii "data") = startKeeper [] (ascii "other") ∧
    startKeeper [] (ascii "data") = .file (ascii "/flare.xml") := by decide +kernel

/-- The first directory of a relative path is taken for the name of a host, and left out. -/
theorem C106_relative (a b : Bytes) (ha : PlainHost a) (hq : 63 ∉ b) :
    startKeeper [] (a ++ 47 :: b) = .file (stateIn (47 :: b)) := by
  unfold startKeeper stateIn
  rw [if_pos rfl, fileKeeper (by simp), uriPath_file a b (fun hm => (ha _ hm).2.2.1 rfl),
    authParts_plain (fun hm => (ha _ hm).1 rfl) (fun hm => (ha _ hm).2.1 rfl), (until_none hq).1]
  rfl

example : startKeeper [] (ascii "./data") = .file (ascii "/data/flare.xml") := by decide +kernel

/-- What stands behind a question mark is left out: directories that differ only there share one state. -/
theorem C106_cut (a b : Bytes) (ha : 63 ∉ a) :
    startKeeper [] (47 :: a ++ 63 :: b) = .file (stateIn (47 :: a)) := by
  unfold startKeeper stateIn
  rw [if_pos rfl, fileKeeper (by simp)]
  have := uriPath_file [] (a ++ 63 :: b) (by simp)
  rw [List.nil_append] at this
  rw [List.cons_append, this, authParts_plain (by simp) (by simp), until_take ha]
  rfl

example : startKeeper [] (ascii "/srv/a?1") = startKeeper [] (ascii "/srv/a?2") := by decide +kernel

/-- Two index servers with different directories can share one state. -/
theorem C106_shared : ∃ d e, d ≠ e ∧ d.head? = some 47 ∧ e.head? = some 47 ∧ startKeeper [] d = startKeeper [] e :=
  ⟨ascii "/srv/a?1", ascii "/srv/a?2", by decide, by decide, by decide, by decide +kernel⟩

/-- Up to five ZooKeeper servers, each with its port, and a path are asked for as they are written, whatever query stands
behind. Partial: see `C106_many` and `C106_no_port`. -/
theorem C106_servers_partial (l : List (Bytes × Nat)) (b q dir : Bytes) (hl : l ≠ []) (h5 : l.length ≤ 5)
    (hp : ∀ h ∈ l, PlainHost h.1 ∧ h.2 ≤ 2147483647) (hb : 63 ∉ b) (hq : q = [] ∨ ∃ r, q = 63 :: r) :
    startKeeper (ascii "zookeeper://" ++ (serverList l ++ 47 :: (b ++ q))) dir = .zookeeper (serverList l ++ 47 :: b) := by
  obtain ⟨h1, h2⟩ := serverList_parts hl (fun h hm => (hp h hm).1)
  have e : ((b ++ q).takeWhile (· ≠ 63)) = b := by
    rcases hq with rfl | ⟨r, rfl⟩
    · rw [List.append_nil, (until_none hb).1]
    · rw [until_take hb]
  unfold startKeeper
  rw [if_neg (by rw [ascii_zk_sep, ascii_zk]; simp), zkKeeper (by simp), zkConn, zkUri_some h2, h1,
    if_pos (by simpa using h5), e]
  simp only [List.map_map]
  have hm : l.map (zkHost ∘ serverText) = l := by
    conv => rhs; rw [← List.map_id l]
    exact List.map_congr_left (fun h hm => zkHost_text (hp h hm).1 (hp h hm).2)
  rw [hm, zkHosts_list]

example : startKeeper (ascii "zookeeper://zk1:2181,zk2:2182/flare?x") [] = .zookeeper (ascii "zk1:2181,zk2:2182/flare") := by
  decide +kernel

/-- With more than five servers none of them is asked, and the path is lost too. -/
theorem C106_many (a b dir : Bytes) (ha : 47 ∉ a) (h : 5 ≤ a.count 44) :
    startKeeper (ascii "zookeeper://" ++ (a ++ 47 :: b)) dir = .zookeeper (ascii ":0") := by
  unfold startKeeper
  rw [if_neg (by rw [ascii_zk_sep, ascii_zk]; simp), zkKeeper (by simp), zkConn, zkUri_some ha,
    if_neg (by rw [commaParts_length]; omega)]
  decide +kernel

example : startKeeper (ascii "zookeeper://a:1,b:1,c:1,d:1,e:1,f:1/flare") [] = .zookeeper (ascii ":0") := by decide +kernel

/-- Without a path no server is asked either. -/
theorem C106_no_path (a dir : Bytes) (hne : a ≠ []) (ha : 47 ∉ a) :
    startKeeper (ascii "zookeeper://" ++ a) dir = .zookeeper (ascii ":0") := by
  unfold startKeeper
  rw [if_neg (by rw [ascii_zk_sep, ascii_zk]; simp), zkKeeper hne, zkConn, zkUri,
    uriParts_none (by decide) zk_colon ha]
  decide +kernel

example : startKeeper (ascii "zookeeper://zk1:2181") [] = .zookeeper (ascii ":0") := by decide +kernel

/-- A server without a port is asked at port 0, not at that of ZooKeeper. -/
theorem C106_no_port (a b dir : Bytes) (ha : PlainHost a) (hb : 63 ∉ b) :
    startKeeper (ascii "zookeeper://" ++ (a ++ 47 :: b)) dir = .zookeeper (a ++ ascii ":0" ++ 47 :: b) := by
  unfold startKeeper
  rw [if_neg (by rw [ascii_zk_sep, ascii_zk]; simp), zkKeeper (by simp), zkConn,
    zkUri_some (fun hm => (ha _ hm).2.2.1 rfl), commaParts_plain (fun hm => (ha _ hm).2.2.2 rfl), (until_none hb).1]
  have e : ascii ":0" = 58 :: decimal 0 := by decide
  simp only [List.length_singleton, show (1 : Nat) ≤ 5 by omega, if_true, List.map_cons, List.map_nil, zkHost,
    authParts_plain (fun hm => (ha _ hm).1 rfl) (fun hm => (ha _ hm).2.1 rfl), portOf, true_or, zkHosts, e]

example : startKeeper (ascii "zookeeper://zk1/flare") [] = .zookeeper (ascii "zk1:0/flare") := by decide +kernel

/-- A user in front of the host is not handed on. -/
theorem C106_user (u a b dir : Bytes) (p : Nat) (hu : PlainHost u) (ha : PlainHost a) (hp : p ≤ 2147483647) (hb : 63 ∉ b) :
    startKeeper (ascii "zookeeper://" ++ ((u ++ 64 :: serverList [(a, p)]) ++ 47 :: b)) dir =
      .zookeeper (serverList [(a, p)] ++ 47 :: b) := by
  rw [serverList_one]
  obtain ⟨t1, t2⟩ := serverText_no (h := (a, p)) ha
  have s47 : (47 : UInt8) ∉ u ++ 64 :: serverText (a, p) := by
    simp only [List.mem_append, List.mem_cons, not_or]
    exact ⟨fun hm => (hu _ hm).2.2.1 rfl, by decide, t2⟩
  have s44 : (44 : UInt8) ∉ u ++ 64 :: serverText (a, p) := by
    simp only [List.mem_append, List.mem_cons, not_or]
    exact ⟨fun hm => (hu _ hm).2.2.2 rfl, by decide, t1⟩
  have hz : zkHost (u ++ 64 :: serverText (a, p)) = (a, p) := by
    have hu64 : (64 : UInt8) ∉ u := fun hm => (hu _ hm).2.1 rfl
    have hu58 : (58 : UInt8) ∉ u := fun hm => (hu _ hm).1 rfl
    have ha64 : (64 : UInt8) ∉ a := fun hm => (ha _ hm).2.1 rfl
    have ha58 : (58 : UInt8) ∉ a := fun hm => (ha _ hm).1 rfl
    have hin : (64 : UInt8) ∈ u ++ 64 :: serverText (a, p) := by simp
    have e : authParts (u ++ 64 :: serverText (a, p)) = some (u, a, decimal p) := by
      unfold authParts
      simp only [if_pos hin, until_take hu64, until_drop hu64, List.drop_succ_cons, List.drop_zero]
      unfold serverText
      simp only [until_take ha58, until_drop ha58]
      rw [if_neg (by simp [hu58, ha64]), if_pos ⟨decimal_ne_nil p, by simpa using decimal_digits p⟩]
    unfold zkHost
    rw [e]
    simp only [portOf_decimal hp]
  unfold startKeeper
  rw [if_neg (by rw [ascii_zk_sep, ascii_zk]; simp), zkKeeper (by simp), zkConn, zkUri_some s47, commaParts_plain s44,
    (until_none hb).1]
  simp only [List.length_singleton, show (1 : Nat) ≤ 5 by omega, if_true, List.map_cons, List.map_nil, hz, zkHosts]
  rfl

example : startKeeper (ascii "zookeeper://me@zk1:2181/flare") [] = .zookeeper (ascii "zk1:2181/flare") := by decide +kernel

/-- A user with a password in front of the directory of a file is no match, and the state goes to the root of the file
system; a port that is no number does the same. -/
theorem C106_no_match (a b dir : Bytes) (ha : 47 ∉ a) (h : authParts a = none) :
    startKeeper (ascii "file://" ++ (a ++ 47 :: b)) dir = .file (ascii "/flare.xml") := by
  unfold startKeeper
  rw [if_neg (by rw [ascii_file_sep, ascii_file]; simp), fileKeeper (by simp), uriPath_file a b ha, h]
  rfl

example : startKeeper (ascii "file://u:p@h/flare") [] = .file (ascii "/flare.xml") ∧
    startKeeper (ascii "file://h:x/flare") [] = .file (ascii "/flare.xml") := by decide +kernel

/-- An authority is read as user, host and port exactly if it is written so: the user and the host have neither colon nor
at sign, and the port has digits only, at least one. -/
theorem C106_authority (a u h d : Bytes) : authParts a = some (u, h, d) ↔
    ∃ user port, a = authorityText user h port ∧ u = user.getD [] ∧ d = port.getD [] ∧
      (∀ c ∈ u ++ h, c ≠ 58 ∧ c ≠ 64) ∧ ∀ x, port = some x → x ≠ [] ∧ ∀ c ∈ x, isDigit c = true := by
  have e1 : ascii ":" = [58] := by decide
  have e2 : ascii "@" = [64] := by decide
  constructor
  · intro hs
    rcases until_split 64 a with ha | ⟨u', r, rfl, hu⟩
    · rw [authParts_bare ha] at hs
      rcases until_split 58 a with h58 | ⟨h', d', rfl, hh⟩
      · rw [(until_none h58).1, (until_none h58).2] at hs
        simp only [Option.some.injEq, Prod.mk.injEq] at hs
        obtain ⟨rfl, rfl, rfl⟩ := hs
        refine ⟨none, none, by simp [authorityText], rfl, rfl, fun c hc => ?_, by simp⟩
        exact ⟨fun e => h58 (by simpa [e] using hc), fun e => ha (by simpa [e] using hc)⟩
      · rw [until_take hh, until_drop hh] at hs
        dsimp only at hs
        split at hs
        · rename_i hd
          simp only [Option.some.injEq, Prod.mk.injEq] at hs
          obtain ⟨rfl, rfl, rfl⟩ := hs
          refine ⟨none, some d', by simp [authorityText, e1], rfl, rfl, fun c hc => ?_, ?_⟩
          · exact ⟨fun e => hh (by simpa [e] using hc), fun e => ha (by
              have : (64 : UInt8) ∈ h' := by simpa [e] using hc
              simp [this])⟩
          · rintro x ⟨⟩; exact ⟨hd.1, by simpa using hd.2⟩
        · cases hs
    · rw [authParts_user hu] at hs
      split at hs
      · cases hs
      · rename_i hn
        simp only [not_or] at hn
        obtain ⟨hu58, h64⟩ := hn
        rcases until_split 58 r with h58 | ⟨h', d', rfl, hh⟩
        · rw [(until_none h58).1] at h64
          rw [(until_none h58).1, (until_none h58).2] at hs
          simp only [Option.some.injEq, Prod.mk.injEq] at hs
          obtain ⟨rfl, rfl, rfl⟩ := hs
          refine ⟨some u', none, by simp [authorityText, e2], rfl, rfl, fun c hc => ?_, by simp⟩
          rcases List.mem_append.1 hc with hc | hc
          · exact ⟨fun e => hu58 (e ▸ hc), fun e => hu (e ▸ hc)⟩
          · exact ⟨fun e => h58 (e ▸ hc), fun e => h64 (e ▸ hc)⟩
        · rw [until_take hh] at h64
          rw [until_take hh, until_drop hh] at hs
          dsimp only at hs
          split at hs
          · rename_i hd
            simp only [Option.some.injEq, Prod.mk.injEq] at hs
            obtain ⟨rfl, rfl, rfl⟩ := hs
            refine ⟨some u', some d', by simp [authorityText, e1, e2], rfl, rfl, fun c hc => ?_, ?_⟩
            · rcases List.mem_append.1 hc with hc | hc
              · exact ⟨fun e => hu58 (e ▸ hc), fun e => hu (e ▸ hc)⟩
              · exact ⟨fun e => hh (e ▸ hc), fun e => h64 (e ▸ hc)⟩
            · rintro x ⟨⟩; exact ⟨hd.1, by simpa using hd.2⟩
          · cases hs
  · rintro ⟨user, port, rfl, rfl, rfl, hc, hd⟩
    have hh58 : (58 : UInt8) ∉ h := fun hm => (hc _ (List.mem_append_right _ hm)).1 rfl
    have hh64 : (64 : UInt8) ∉ h := fun hm => (hc _ (List.mem_append_right _ hm)).2 rfl
    cases user with
    | none =>
      cases port with
      | none => simpa [authorityText] using authParts_plain hh58 hh64
      | some x => simpa [authorityText, e1] using authParts_port hh58 hh64 (hd x rfl).1 (hd x rfl).2
    | some v =>
      have hv58 : (58 : UInt8) ∉ v := fun hm => (hc _ (List.mem_append_left _ hm)).1 rfl
      have hv64 : (64 : UInt8) ∉ v := fun hm => (hc _ (List.mem_append_left _ hm)).2 rfl
      cases port with
      | none =>
        have := authParts_user (r := h) hv64
        rw [(until_none hh58).1, (until_none hh58).2, if_neg (by simp [hv58, hh64])] at this
        simpa [authorityText, e2] using this
      | some x =>
        have := authParts_user (r := h ++ 58 :: x) hv64
        rw [until_take hh58, until_drop hh58, if_neg (by simp [hv58, hh64])] at this
        dsimp only at this
        rw [if_pos ⟨(hd x rfl).1, by simpa using (hd x rfl).2⟩] at this
        simpa [authorityText, e1, e2] using this

example : authParts (ascii "u@h:1") = some (ascii "u", ascii "h", ascii "1") ∧ authParts (ascii "u:p@h") = none ∧
    authParts (ascii "h:") = none ∧ authParts (ascii "u@v@h") = none := by decide +kernel

/-- A server that is not written so is left out of the connection string: its place is that of a server without a name at
port 0, and the others are asked. -/
theorem C106_odd_server (a b dir : Bytes) (l : List (Bytes × Nat)) (h1 : 44 ∉ a) (h2 : 47 ∉ a)
    (hodd : authParts a = none) (hl : l ≠ []) (h4 : l.length ≤ 4) (hp : ∀ h ∈ l, PlainHost h.1 ∧ h.2 ≤ 2147483647)
    (hb : 63 ∉ b) :
    startKeeper (ascii "zookeeper://" ++ ((a ++ 44 :: serverList l) ++ 47 :: b)) dir =
      .zookeeper (serverList (([], 0) :: l) ++ 47 :: b) := by
  obtain ⟨p1, p2⟩ := serverList_parts hl (fun h hm => (hp h hm).1)
  have s47 : (47 : UInt8) ∉ a ++ 44 :: serverList l := by
    simp only [List.mem_append, List.mem_cons, not_or]
    exact ⟨h2, by decide, p2⟩
  have hm : l.map (zkHost ∘ serverText) = l := by
    conv => rhs; rw [← List.map_id l]
    exact List.map_congr_left (fun h hm => zkHost_text (hp h hm).1 (hp h hm).2)
  have hz : zkHost a = ([], 0) := by unfold zkHost; rw [hodd]
  unfold startKeeper
  rw [if_neg (by rw [ascii_zk_sep, ascii_zk]; simp), zkKeeper (by simp), zkConn, zkUri_some s47, commaParts_cons h1, p1,
    if_pos (by simp only [List.length_cons, List.length_map]; omega), (until_none hb).1]
  simp only [List.map_cons, List.map_map, hm, hz, zkHosts_list]

example : startKeeper (ascii "zookeeper://zk1:,zk2:2181/flare") [] = .zookeeper (ascii ":0,zk2:2181/flare") := by decide +kernel

/-- A port that is no `int` is asked for as port 0. -/
theorem C106_big_port (a b dir : Bytes) (p : Nat) (ha : PlainHost a) (hp : 2147483647 < p) (hb : 63 ∉ b) :
    startKeeper (ascii "zookeeper://" ++ (serverList [(a, p)] ++ 47 :: b)) dir =
      .zookeeper (serverList [(a, 0)] ++ 47 :: b) := by
  obtain ⟨t1, t2⟩ := serverText_no (h := (a, p)) ha
  have hz : zkHost (serverText (a, p)) = (a, 0) := by
    unfold zkHost serverText
    rw [authParts_port (fun hm => (ha _ hm).1 rfl) (fun hm => (ha _ hm).2.1 rfl) (decimal_ne_nil _) (decimal_digits _)]
    simp only [portOf, decValue_decimal, hp, or_true, if_true]
  unfold startKeeper
  rw [serverList_one, if_neg (by rw [ascii_zk_sep, ascii_zk]; simp), zkKeeper (by simp), zkConn, zkUri_some t2,
    commaParts_plain t1, (until_none hb).1]
  simp only [List.length_singleton, show (1 : Nat) ≤ 5 by omega, if_true, List.map_cons, List.map_nil, hz, zkHosts_list]

example : startKeeper (ascii "zookeeper://zk1:21812181218/flare") [] = .zookeeper (ascii "zk1:0/flare") := by decide +kernel

end Flare
