import Verif.Lemmas.Control
import Verif.Lemmas.Get
import Verif.Model.Keys
import Verif.Props.Engines
import Verif.Props.Get

/-! C66: the search for keys by prefix. -/
namespace Flare

/-! ### The request -/

theorem getKeysLoop_words (ks : List Bytes) (q : Bytes) (hq : 0 < q.length)
    (hk : ∀ k ∈ ks, PlainKey k q.length) :
    getKeysLoop ((ks.flatMap (fun k => chSpace :: k) ++ [chNl]).length + 1)
      (ks.flatMap (fun k => chSpace :: k) ++ [chNl]) q = .ok ks := by
  refine getKeysLoop_ok ks _ q ?_ hq hk
  have : ks.length ≤ (ks.flatMap (fun k => chSpace :: k)).length := by
    clear hk
    induction ks with
    | nil => simp
    | cons k ks ih => simp only [List.flatMap_cons, List.length_append, List.length_cons]; omega
  rw [List.length_append]
  omega

theorem printInt_plain (n : Int32) : PlainKey (printInt n) 8192 := by
  refine ⟨printInt_ne_nil n, fun c hc => ?_, Nat.lt_of_le_of_lt (printInt_length n) (by decide)⟩
  have := printInt_word n c hc
  simpa [wordChar, and_assoc] using this

/-- **C66.**  The prefixes and the limit of a request are read as they were written, and a request
that another node has composed is one. -/
theorem C66_request (ps : List Bytes) (hne : ps ≠ []) (n : Int32) (hn : 0 < n) (q : Bytes)
    (hq : q.length = 8192) (hp : ∀ p ∈ ps, PlainKey p 8192) :
    ∃ rest, keysRequest ps n = ascii "keys" ++ rest ++ crlf ∧ keysParams (rest ++ [chNl]) q = .ok (ps, n) := by
  refine ⟨(ps ++ [printInt n]).flatMap (fun k => chSpace :: k), ?_, ?_⟩
  · simp [keysRequest]
  · have h := getKeysLoop_words (ps ++ [printInt n]) q (by omega) (by
      intro k hk
      rw [hq]
      rcases List.mem_append.1 hk with hk | hk
      · exact hp k hk
      · rw [List.mem_singleton.1 hk]; exact printInt_plain n)
    have hl : ¬ (ps ++ [printInt n]).length < 2 := by
      cases ps with
      | nil => exact absurd rfl hne
      | cons a ps => simp
    have hle : ¬ n ≤ 0 := by
      rw [Int32.le_iff_toInt_le]
      rw [Int32.lt_iff_toInt_lt] at hn
      omega
    simp only [keysParams, h, if_neg hl, List.getLast?_concat, Option.getD_some, lexInt_print, if_neg hle,
      List.dropLast_concat]

/-- **C66.**  A limit below 1 is refused. -/
theorem C66_bad_limit (ps : List Bytes) (n : Int32) (hn : n ≤ 0) (q : Bytes)
    (hq : q.length = 8192) (hp : ∀ p ∈ ps, PlainKey p 8192) :
    keysParams ((ps ++ [printInt n]).flatMap (fun k => chSpace :: k) ++ [chNl]) q = .error .err := by
  have h := getKeysLoop_words (ps ++ [printInt n]) q (by omega) (by
    intro k hk
    rw [hq]
    rcases List.mem_append.1 hk with hk | hk
    · exact hp k hk
    · rw [List.mem_singleton.1 hk]; exact printInt_plain n)
  simp only [keysParams, h, List.getLast?_concat, Option.getD_some, lexInt_print, if_pos hn]
  split <;> rfl

/-! ### The answer -/

/-- **C66.**  What the storage finds: only keys that are there and begin with the prefix, not more than
the limit, and all of them if they are fewer than the limit (for keys without NUL). -/
theorem C66_search (keys : List Bytes) (hz : ∀ k ∈ keys, (0 : UInt8) ∉ k) (p : Bytes) (limit : Nat) :
    (∀ k ∈ prefixKeys keys p limit, k ∈ keys ∧ p <+: k) ∧ (prefixKeys keys p limit).length ≤ limit ∧
      ((prefixKeys keys p limit).length < limit → ∀ k ∈ keys, p <+: k → k ∈ prefixKeys keys p limit) ∧
      (prefixKeys keys p limit).Sublist keys := by
  have hc : ∀ k ∈ keys, cstr k = k := by
    intro k hk
    have := hz k hk
    have h1 := List.takeWhile_append_of_pos (p := fun c : UInt8 => decide (c ≠ 0)) (l₁ := k) (l₂ := [])
      (fun c hc => by
        simp only [ne_eq, decide_not, Bool.not_eq_eq_eq_not, Bool.not_true, decide_eq_false_iff_not]
        rintro rfl; exact this hc)
    simpa [cstr] using h1
  have he : prefixKeys keys p limit = (keys.filter fun k => p.isPrefixOf k).take limit := by
    unfold prefixKeys
    conv_rhs => rw [← List.map_id ((keys.filter fun k => p.isPrefixOf k).take limit)]
    apply List.map_congr_left
    intro k hk
    exact hc k (List.mem_of_mem_filter (List.mem_of_mem_take hk))
  rw [he]
  refine ⟨fun k hk => ?_, by simp [List.length_take]; omega, fun hl k hk hp => ?_, ?_⟩
  · have := List.mem_of_mem_take hk
    rw [List.mem_filter] at this
    exact ⟨this.1, by simpa using this.2⟩
  · rw [List.length_take] at hl
    rw [List.take_of_length_le (by omega), List.mem_filter]
    exact ⟨hk, by simpa using hp⟩
  · exact (List.take_sublist _ _).trans List.filter_sublist

theorem keysClient_lines {w : Bytes} (hw : w.length = 8192) (l : List Bytes)
    (hl : ∀ k ∈ l, PlainKey k 8192) (n : Nat) (s : Bytes) (acc : List Bytes) :
    keysClient w (l.length + n) (keyLines l ++ s) acc = keysClient w n s (acc ++ l) := by
  induction l generalizing acc with
  | nil => simp [keyLines]
  | cons k l ih =>
    have hk := hl k List.mem_cons_self
    have hcl : (k :: l).length + n = (l.length + n) + 1 := by simp; omega
    rw [hcl, keysClient]
    have hline : readLine (keyLines (k :: l) ++ s) = some (ascii "KEY " ++ k ++ [chNl], keyLines l ++ s) := by
      have : keyLines (k :: l) ++ s = (ascii "KEY " ++ k) ++ crlf ++ (keyLines l ++ s) := by
        simp [keyLines]
      rw [this]
      refine readLine_crlf ?_
      intro c hc
      rcases List.mem_append.1 hc with hc | hc
      · exact (show ∀ c ∈ ascii "KEY ", c ≠ chNl by decide) c hc
      · have := hk.word c hc
        rintro rfl
        exact absurd this (by decide)
    simp only [hline]
    have hne : ¬ ascii "KEY " ++ k ++ [chNl] = strEnd ++ [chNl] := by
      intro h
      have := congrArg List.head? h
      revert this
      simp [ascii, strEnd]
    simp only [if_neg hne]
    obtain ⟨q1, h1, h2, h3⟩ := scanWord_tok (w := ascii "KEY") (c := chSpace) (rest := k ++ [chNl]) (q := w) 0
      (by decide) (by decide) (by rw [hw]; decide) (fun h => absurd h (by decide))
    have h1' : scanWord (ascii "KEY " ++ k ++ [chNl]) w = .ok (chSpace :: (k ++ [chNl]), q1) := h1
    obtain ⟨q2, h4, h5, -⟩ := scanWord_tok (w := k) (c := chNl) (rest := []) (q := q1) 1 hk.word (by decide)
      (by rw [h3, hw]; exact hk.2.2) (fun h => absurd h hk.1)
    have h4' : scanWord (chSpace :: (k ++ [chNl])) q1 = .ok ([chNl], q2) := h4
    simp only [h1', h2, ne_eq, not_true_eq_false, if_false, h4', h5, if_neg hk.1]
    rw [ih (fun x hx => hl x (List.mem_cons_of_mem _ hx))]
    simp

theorem keysClient_end {w more : Bytes} {n : Nat} {l : List Bytes} :
    keysClient w (n + 1) (strEnd ++ crlf ++ more) l = (.done, l, more) := by
  rw [keysClient, readLine_crlf (by decide)]
  simp

theorem keysClient_cut {w s : Bytes} {n : Nat} {l : List Bytes} (h : ∀ c ∈ s, c ≠ chNl) :
    keysClient w (n + 1) s l = (.failed, l, []) := by
  rw [keysClient, readLine_noNl h]

theorem keyLines_length (l : List Bytes) : l.length ≤ (keyLines l).length := by
  induction l with
  | nil => simp
  | cons k l ih =>
    have : keyLines (k :: l) = ascii "KEY " ++ k ++ crlf ++ keyLines l := by simp [keyLines]
    rw [this]
    have h4 : (ascii "KEY ").length = 4 := by decide
    simp only [List.length_append, List.length_cons, h4]
    omega

/-- The list that is answered for one prefix. -/
def KeysAt.list : KeysAt → List Bytes
  | .here l => l
  | .asked l => l
  | .unable => []
  | .refused => []

theorem keysAsked_none {rs : List (Bytes × KeysAt)} {p : Bytes} (h : p ∉ rs.map (·.1)) :
    keysAsked rs p = none ∧ keysOwn rs p = none := by
  induction rs with
  | nil => exact ⟨rfl, rfl⟩
  | cons x rs ih =>
    obtain ⟨k, r⟩ := x
    simp only [List.map_cons, List.mem_cons, not_or] at h
    obtain ⟨h1, h2⟩ := ih h.2
    have hne : ¬ k = p := fun e => h.1 e.symm
    cases r <;> simp [keysAsked, keysOwn, h1, h2, hne]

theorem keys_found {rs : List (Bytes × KeysAt)} (hnd : (rs.map (·.1)).Nodup) {x : Bytes × KeysAt}
    (hx : x ∈ rs) : ((keysAsked rs x.1).or (keysOwn rs x.1)).getD [] = x.2.list := by
  induction rs with
  | nil => exact nomatch hx
  | cons y rs ih =>
    rw [List.map_cons, List.nodup_cons] at hnd
    rcases List.mem_cons.1 hx with rfl | hx
    · obtain ⟨p, r⟩ := x
      obtain ⟨h1, h2⟩ := keysAsked_none hnd.1
      cases r <;> simp [keysAsked, keysOwn, h1, h2, KeysAt.list]
    · have hne : ¬ y.1 = x.1 := fun h => hnd.1 (h ▸ List.mem_map.2 ⟨x, hx, rfl⟩)
      have := ih hnd.2 hx
      obtain ⟨k, r⟩ := y
      simp only at hne
      cases r <;> simpa [keysAsked, keysOwn, hne] using this

/-- **C66.**  A request for different prefixes is answered with the lists of the prefixes in the order of
the request, and the reader on the other side gets exactly that, and nothing of what follows. -/
theorem C66_answers (rs : List (Bytes × KeysAt)) (hnd : (rs.map (·.1)).Nodup)
    (hu : ∀ x ∈ rs, x.2 ≠ .unable) (hk : ∀ x ∈ rs, ∀ k ∈ x.2.list, PlainKey k 8192) (w : Bytes)
    (hw : w.length = 8192) (more : Bytes) :
    keysClient w ((keysServe rs ++ more).length + 1) (keysServe rs ++ more) [] =
      (.done, rs.flatMap fun x => x.2.list, more) := by
  have h1 : keysServe rs = keyLines (rs.flatMap fun x => x.2.list) ++ strEnd ++ crlf := by
    unfold keysServe
    rw [if_neg (by simp; exact fun a h => hu _ h rfl)]
    congr 2
    unfold keyLines
    rw [List.flatMap_assoc]
    refine List.flatMap_congr fun x hx => ?_
    rw [keys_found hnd hx]
  obtain ⟨l, hl⟩ : ∃ l, l = rs.flatMap fun x => x.2.list := ⟨_, rfl⟩
  have hpl : ∀ k ∈ l, PlainKey k 8192 := by
    intro k hkl
    rw [hl] at hkl
    obtain ⟨x, hx, hkx⟩ := List.mem_flatMap.1 hkl
    exact hk x hx k hkx
  rw [h1, ← hl]
  have h2 := keyLines_length l
  obtain ⟨m, hm⟩ : ∃ m, (keyLines l ++ strEnd ++ crlf ++ more).length + 1 = l.length + (m + 1) := by
    refine ⟨(keyLines l ++ strEnd ++ crlf ++ more).length - l.length, ?_⟩
    simp only [List.length_append]
    omega
  rw [hm]
  have := keysClient_lines hw l hpl (m + 1) (strEnd ++ crlf ++ more) []
  rw [keysClient_end] at this
  simpa using this

/-! ### Handed to another node -/

/-- Tries whose request could not be sent, on a connection that is closed then. -/
def unsentTry : KeysTry :=
  { sent := false }

theorem keysTries_unsent (w : Bytes) (n m : Nat) (ts : List KeysTry) (l : List Bytes) (hl : l ≠ []) :
    keysTries w (m + n) (List.replicate m unsentTry ++ ts) [] l = keysTries w n ts [] l := by
  induction m with
  | zero => simp
  | succ m ih =>
    rw [Nat.succ_add, List.replicate_succ, List.cons_append, keysTries, if_neg hl]
    simpa [unsentTry] using ih

/-- **C66.**  A search handed to another node brings that node's keys if the first request that is sent
is answered in full; before it, requests may have failed to be sent. -/
theorem C66_forwarded (p : Bytes) (l : List Bytes) (hk : ∀ k ∈ l, PlainKey k 8192) (w : Bytes)
    (hw : w.length = 8192) (m : Nat) (hm : m < maxRetry) (more : Bytes) (ts : List KeysTry) (t : KeysTry)
    (ht : t.sent = true) (hs : t.stream = keysServe [(p, .here l)] ++ more) :
    askKeys w p (List.replicate m unsentTry ++ t :: ts) = (.done, l, more, [[p]]) := by
  obtain ⟨n, hn⟩ : ∃ n, maxRetry = m + (n + 1) := ⟨maxRetry - m - 1, by omega⟩
  rw [askKeys, hn, keysTries_unsent _ _ _ _ _ (by simp), keysTries]
  have := C66_answers [(p, .here l)] (by simp) (by simp) (by simpa [KeysAt.list] using hk) w hw more
  simp only [ht, hs, List.nil_append, this, KeysAt.list, List.flatMap_cons, List.flatMap_nil, List.append_nil]
  simp

theorem keysTries_empty (w : Bytes) (n : Nat) (ts : List KeysTry) (left : Bytes) :
    keysTries w n ts left [] = (.failed, [], left, []) := by
  induction n generalizing ts with
  | zero => rfl
  | succ n ih =>
    cases ts with
    | nil => rfl
    | cons t ts => rw [keysTries, if_pos rfl, ih]

/-- **C66, defect.**  If the connection fails before the first line of the answer has arrived, nothing
is asked any more, whatever the other node could say: the list is empty, and the client is told that
there are no keys. -/
theorem C66_lost (p w s : Bytes) (hs : ∀ c ∈ s, c ≠ chNl) (ts : List KeysTry) :
    askKeys w p ({ stream := s } :: ts) = (.failed, [], [], [[p]]) ∧
      keysServe [(p, .asked (askKeys w p ({ stream := s } :: ts)).2.1)] = strEnd ++ crlf := by
  have h : askKeys w p ({ stream := s } :: ts) = (.failed, [], [], [[p]]) := by
    rw [askKeys, show maxRetry = 3 + 1 from rfl, keysTries, if_neg (by simp)]
    simp only [List.nil_append, keysClient_cut hs]
    simp [keysTries_empty]
  refine ⟨h, ?_⟩
  rw [h]
  simp [keysServe, keysAsked, keyLines]

/-- **C66, defect.**  If it fails after some keys, the next request asks for these keys as prefixes
instead of the prefix, and the answer to that is taken for the answer. -/
theorem C66_wrong_prefixes (p w : Bytes) (hw : w.length = 8192) (l1 : List Bytes) (h1 : l1 ≠ [])
    (hk1 : ∀ k ∈ l1, PlainKey k 8192) (s : Bytes) (hs : ∀ c ∈ s, c ≠ chNl) (rs : List (Bytes × KeysAt))
    (hr : rs.map (·.1) = l1) (hnd : l1.Nodup) (hu : ∀ x ∈ rs, x.2 ≠ .unable)
    (hk : ∀ x ∈ rs, ∀ k ∈ x.2.list, PlainKey k 8192) (ts : List KeysTry) :
    askKeys w p ({ stream := keyLines l1 ++ s } :: { stream := keysServe rs } :: ts) =
      (.done, rs.flatMap fun x => x.2.list, [], [[p], l1]) := by
  have ha := C66_answers rs (by rw [hr]; exact hnd) hu hk w hw []
  rw [List.append_nil] at ha
  have h2 := keyLines_length l1
  obtain ⟨m, hm⟩ : ∃ m, (keyLines l1 ++ s).length + 1 = l1.length + (m + 1) := by
    refine ⟨(keyLines l1 ++ s).length - l1.length, ?_⟩
    simp only [List.length_append]
    omega
  have hc : keysClient w ((keyLines l1 ++ s).length + 1) (keyLines l1 ++ s) [] = (.failed, l1, []) := by
    rw [hm, keysClient_lines hw l1 hk1, keysClient_cut hs]
    simp
  rw [askKeys, show maxRetry = 3 + 1 from rfl, keysTries, if_neg (by simp)]
  simp only [List.nil_append, hc, if_true]
  have h3 : keysTries w (2 + 1) ({ stream := keysServe rs } :: ts) [] l1 =
      (.done, rs.flatMap fun x => x.2.list, [], [l1]) := by
    rw [keysTries, if_neg h1]
    simp only [List.nil_append, ha]
    simp
  rw [show (3 : Nat) = 2 + 1 from rfl, h3]
  simp

/-- So a client that asks for the keys with prefix "a" is told there is one, although there are three and
the second request was answered in full. -/
theorem C66_truncated : ∃ (p w : Bytes) (keys : List Bytes) (t1 t2 : KeysTry),
    w.length = 8192 ∧ t2.stream = keysServe [([97, 49], .here (prefixKeys keys [97, 49] 10))] ∧
    prefixKeys keys p 10 = [[97, 49], [97, 50], [97, 51]] ∧
    askKeys w p [t1, t2] = (.done, [[97, 49]], [], [[p], [[97, 49]]]) := by
  have hp : ∀ k ∈ [([97, 49] : Bytes)], PlainKey k 8192 := by
    intro k hk
    rw [List.mem_singleton.1 hk]
    exact ⟨by decide, by decide, Nat.lt_of_le_of_lt (show ([97, 49] : Bytes).length ≤ 2 by decide) (by decide)⟩
  have hw : (List.replicate 8192 (0 : UInt8)).length = 8192 := List.length_replicate
  generalize List.replicate 8192 (0 : UInt8) = w at hw
  refine ⟨[97], w, [[97, 49], [97, 50], [97, 51]],
    { stream := keyLines [[97, 49]] ++ [] }, { stream := keysServe [([97, 49], .here [[97, 49]])] }, hw,
    by decide, by decide, ?_⟩
  have := C66_wrong_prefixes [97] w hw [[97, 49]] (by simp) hp [] (fun c hc => nomatch hc)
    [([97, 49], .here [[97, 49]])] rfl (by simp) (by simp) ?_ []
  · exact this
  · intro x hx
    rw [List.mem_singleton.1 hx]
    exact hp

/-- **C66, defect.**  If no request can be sent, the client is answered with the prefix itself as a key,
whether or not there is such a key. -/
theorem C66_phantom (p w : Bytes) :
    askKeys w p (List.replicate maxRetry unsentTry) = (.failed, [p], [], []) ∧
      keysServe [(p, .asked (askKeys w p (List.replicate maxRetry unsentTry)).2.1)] =
        keyLines [p] ++ strEnd ++ crlf := by
  have h : askKeys w p (List.replicate maxRetry unsentTry) = (.failed, [p], [], []) := by
    have := keysTries_unsent w 0 maxRetry [] [p] (by simp)
    simpa [askKeys, keysTries] using this
  refine ⟨h, ?_⟩
  rw [h]
  simp [keysServe, keysAsked]

/-- **C66, defect.**  A node whose storage has no search answers SERVER_ERROR; forwarded, this becomes an
answer without keys. -/
theorem C66_unable_lost (p w : Bytes) (hw : w.length = 8192) (ts : List KeysTry) :
    keysServe [(p, .unable)] = ascii "SERVER_ERROR not available on current storage type" ++ crlf ∧
      (askKeys w p ({ stream := keysServe [(p, .unable)] } :: ts)).2.1 = [] := by
  have h1 : keysServe [(p, .unable)] = ascii "SERVER_ERROR not available on current storage type" ++ crlf := by
    simp [keysServe]
  refine ⟨h1, ?_⟩
  have hc : ∀ n, keysClient w (n + 1) (keysServe [(p, .unable)]) [] = (.failed, [], []) := by
    intro n
    rw [keysClient, h1, ← List.append_nil (_ ++ crlf), readLine_crlf (by decide)]
    obtain ⟨q1, h2, h3, -⟩ := scanWord_tok (w := ascii "SERVER_ERROR") (c := chSpace)
      (rest := ascii "not available on current storage type" ++ [chNl]) (q := w) 0
      (by decide) (by decide) (by rw [hw]; decide) (fun h => absurd h (by decide))
    have h2' : scanWord (ascii "SERVER_ERROR not available on current storage type" ++ [chNl]) w =
      .ok (chSpace :: (ascii "not available on current storage type" ++ [chNl]), q1) := h2
    have hne : ¬ ascii "SERVER_ERROR not available on current storage type" ++ [chNl] = strEnd ++ [chNl] := by
      decide
    have hk : ascii "SERVER_ERROR" ≠ ascii "KEY" := by decide
    simp only [if_neg hne, h2', h3, hk, ne_eq, not_false_eq_true, if_true]
  rw [askKeys, show maxRetry = 3 + 1 from rfl, keysTries, if_neg (by simp)]
  simp only [List.nil_append, hc]
  simp [keysTries_empty]

theorem keysClient_no_key {w : Bytes} (hw : w.length = 8192) (n : Nat) (l : List Bytes) (more : Bytes) :
    keysClient w (n + 1) (ascii "KEY" ++ crlf ++ more) l = (.failed, l, more) := by
  rw [keysClient, readLine_crlf (by decide)]
  obtain ⟨q1, h2, h3, h4⟩ := scanWord_tok (w := ascii "KEY") (c := chNl) (rest := []) (q := w) 0
    (by decide) (by decide) (by rw [hw]; decide) (fun h => absurd h (by decide))
  have h2' : scanWord (ascii "KEY" ++ [chNl]) w = .ok ([chNl], q1) := h2
  have hne : ¬ ascii "KEY" ++ [chNl] = strEnd ++ [chNl] := by decide
  obtain ⟨q2, h5, h6, -⟩ := scanWord_tok (w := []) (c := chNl) (rest := []) (q := q1) 0
    (fun c hc => nomatch hc) (by decide) (by rw [h4, hw]; decide) (fun _ => by decide)
  have h5' : scanWord [chNl] q1 = .ok ([chNl], q2) := h5
  simp only [if_neg hne, h2', h3, ne_eq, not_true_eq_false, if_false, h5', h6, if_true]

/-- **C66, defect.**  A line `KEY` without a key ends a try, but not the connection: the next request, which
asks for the keys received so far, takes what was still unread for its answer. -/
theorem C66_left_over (p w : Bytes) (hw : w.length = 8192) (l1 : List Bytes) (h1 : l1 ≠ [])
    (hk1 : ∀ k ∈ l1, PlainKey k 8192) (k0 : Bytes) (l : List Bytes) (hk : ∀ k ∈ l, PlainKey k 8192)
    (s : Bytes) (ts : List KeysTry) :
    askKeys w p ({ stream := keyLines l1 ++ (ascii "KEY" ++ crlf ++ keysServe [(k0, .here l)]), closed := false } ::
      { stream := s } :: ts) = (.done, l, s, [[p], l1]) := by
  have ha := C66_answers [(k0, .here l)] (by simp) (by simp) (by simpa [KeysAt.list] using hk) w hw s
  have h2 := keyLines_length l1
  obtain ⟨r, hr⟩ : ∃ r, r = ascii "KEY" ++ crlf ++ keysServe [(k0, .here l)] := ⟨_, rfl⟩
  obtain ⟨m, hm⟩ : ∃ m, (keyLines l1 ++ r).length + 1 = l1.length + (m + 1) := by
    refine ⟨(keyLines l1 ++ r).length - l1.length, ?_⟩
    simp only [List.length_append]
    omega
  have hc : keysClient w ((keyLines l1 ++ r).length + 1) (keyLines l1 ++ r) [] =
      (.failed, l1, keysServe [(k0, .here l)]) := by
    rw [hm, keysClient_lines hw l1 hk1, hr, keysClient_no_key hw]
    simp
  rw [← hr, askKeys, show maxRetry = 3 + 1 from rfl, keysTries, if_neg (by simp)]
  simp only [List.nil_append, hc, if_true, Bool.false_eq_true, if_false]
  have h3 : keysTries w (2 + 1) ({ stream := s } :: ts) (keysServe [(k0, .here l)]) l1 =
      (.done, l, s, [l1]) := by
    rw [keysTries, if_neg h1]
    simp only [ha]
    simp [KeysAt.list]
  rw [show (3 : Nat) = 2 + 1 from rfl, h3]
  simp

/-- **C66.**  A prefix named twice is answered twice with the list found last. -/
theorem C66_twice (p : Bytes) (l m : List Bytes) :
    keysServe [(p, .asked l), (p, .asked m)] = keyLines m ++ keyLines m ++ strEnd ++ crlf ∧
    keysServe [(p, .here l), (p, .here m)] = keyLines m ++ keyLines m ++ strEnd ++ crlf ∧
    keysServe [(p, .here l), (p, .refused)] = strEnd ++ crlf := by
  refine ⟨?_, ?_, ?_⟩ <;> simp [keysServe, keysAsked, keysOwn, keyLines]

/-- **C66, defect.**  Keys nobody can read any more are listed as well: the search does not look at
the expiry. -/
theorem C66_expired (s : Store) (now : Int64) (k p : Bytes) (hz : (0 : UInt8) ∉ k) (hp : p <+: k)
    (h : Stale s now k) : k ∈ prefixKeys (s.db.map (·.1)) p s.db.length := by
  have hm : k ∈ s.db.map (·.1) := by
    have h := h.1
    generalize s.db = db at h
    induction db with
    | nil => exact absurd rfl h
    | cons x db ih =>
      rw [List.map_cons, List.mem_cons]
      by_cases hx : x.1 = k
      · exact .inl hx.symm
      · refine .inr (ih ?_)
        simpa [dbGet, hx] using h
  have hc : cstr k = k := by
    have h1 := List.takeWhile_append_of_pos (p := fun c : UInt8 => decide (c ≠ 0)) (l₁ := k) (l₂ := [])
      (fun c hc => by
        simp only [ne_eq, decide_not, Bool.not_eq_eq_eq_not, Bool.not_true, decide_eq_false_iff_not]
        rintro rfl; exact hz hc)
    simpa [cstr] using h1
  rw [prefixKeys, List.take_of_length_le (by
    exact Nat.le_trans (List.length_filter_le _ _) (by simp))]
  exact List.mem_map.2 ⟨k, List.mem_filter.2 ⟨hm, by simpa using hp⟩, hc⟩

/-- **C66, defect.**  A prefix is looked up in the partition its own hash value points to; keys with
this prefix may be in another one, which is not asked: for "b" and "ba" with two partitions. -/
theorem C66_partition : ∃ (p k : Bytes) (ext : HashAlgorithm → Bytes → UInt32), p <+: k ∧
    resolve ⟨1024, 16, 4096⟩ (keyHash ext .simple p).toInt 2 ≠
      resolve ⟨1024, 16, 4096⟩ (keyHash ext .simple k).toInt 2 := by
  refine ⟨[98], [98, 97], fun _ _ => 0, by decide, by decide +kernel⟩

/-! ### Examples -/

/-- The record of "n" has expired, and "n" is listed. -/
example : Stale exEngStore 9 [110] ∧ prefixKeys (exEngStore.db.map (·.1)) [110] 10 = [[110]] := by
  decide +kernel

/-- Three keys, two of which begin with "a". -/
example : prefixKeys [[97], [97, 49], [98]] [97] 10 = [[97], [97, 49]] ∧
    prefixKeys [[97], [97, 49], [98]] [97] 1 = [[97]] := by decide

example : keysServe [([97], .here [[97], [97, 49]]), ([98], .refused)] =
    ascii "KEY a\r\nKEY a1\r\nEND\r\n" := by decide +kernel

example : keysParams (ascii " a b 10\n") (List.replicate 8192 0) = .ok ([[97], [98]], 10) ∧
    keysParams (ascii " a\n") (List.replicate 8192 0) = .error .err ∧
    keysParams (ascii " a 0\n") (List.replicate 8192 0) = .error .err := by decide +kernel

example : keysRequest [[97]] 10 = ascii "keys a 10\r\n" := by decide +kernel

/-- A search handed to another node: the first request is not sent, the second is answered. -/
example : askKeys (List.replicate 8192 0) [97]
    [unsentTry, { stream := ascii "KEY a1\r\nKEY a2\r\nEND\r\n" }] =
      (.done, [[97, 49], [97, 50]], [], [[[97]]]) := by decide +kernel

end Flare
