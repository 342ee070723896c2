import Verif.Lemmas.Session
import Verif.Model.Replication

namespace Flare

/-! ### C71: every request gets its answer -/

theorem encodeReq_ne_nil {r : SReq} (hp : r.Proper) : encodeReq r ≠ some [] := by
  intro h
  have := takeReq_encode (now := 0) (first := List.replicate 1024 0) (q := List.replicate 8192 0) (more := [])
    List.length_replicate List.length_replicate hp h
  cases this

/-- A client sends any requests of the protocol one after the other, without waiting for answers.  The node
carries out exactly these, in this order, and the client that reads one answer after the other learns for
each request what was done for it; nothing is left over.  Whatever the rest of the node does, with other
clients and failures in between.  Missing: requests for no answer must not fail (`C71_noreply_answered`), and
`quit` (`C71_quit`). -/
theorem C71_in_step_partial {σ : Type} (B : Back σ) (now : Int64) (first q w v : Bytes)
    (hf : first.length = 1024) (hq : q.length = 8192) (hw : w.length = 8192) (hv : v.length = 8192)
    (rs : List SReq) (bs : List Bytes) (hp : ∀ r ∈ rs, r.Proper) (hx : ∀ r ∈ rs, r ≠ .quit)
    (hb : rs.map encodeReq = bs.map some) (st : σ)
    (hd : ∀ x ∈ (performAll B st (rs.map (SReq.seen now))).2, Did.Sound x.1 x.2)
    (hl : ∀ x ∈ (performAll B st (rs.map (SReq.seen now))).2, Did.loud x.1 x.2 = false) :
    let t := serveAll B now first q st bs.flatten
    t.stop = .closed ∧ (t.st, t.did) = performAll B st (rs.map (SReq.seen now)) ∧
      readReplies now w v rs t.out = .ok (List.zipWith (fun r d => r.reply now d.2) rs t.did, []) := by
  have hlen : rs.length ≤ bs.flatten.length := by
    clear hd hl hx
    induction rs generalizing bs with
    | nil => simp
    | cons r rs ih =>
      cases bs with
      | nil => simp at hb
      | cons b bs =>
        simp only [List.map_cons, List.cons.injEq] at hb
        have h1 := ih bs (fun x h => hp x (List.mem_cons_of_mem _ h)) hb.2
        have h2 : b ≠ [] := fun h => encodeReq_ne_nil (hp r List.mem_cons_self) (by rw [hb.1, h])
        have h3 := List.length_pos_iff.2 h2
        simp only [List.length_cons, List.flatten_cons, List.length_append]
        omega
  obtain ⟨out, h1, h2⟩ := session_proper B (now := now) hf hq hw hv rs bs hp hx hb st
    (fun x h => ⟨hd x h, hl x h⟩) [] (bs.flatten.length - rs.length + 1)
  rw [List.append_nil, show rs.length + (bs.flatten.length - rs.length + 1) = bs.flatten.length + 1 by omega] at h1
  have h3 : session B now first q (bs.flatten.length - rs.length + 1)
      (performAll B st (rs.map (SReq.seen now))).1 [] =
      { st := (performAll B st (rs.map (SReq.seen now))).1, stop := .closed } := rfl
  rw [h3] at h1
  have h4 := h2 []
  simp only [List.append_nil] at h4
  simp only [serveAll, h1, Talk.after, List.append_nil]
  exact ⟨trivial, trivial, h4⟩

/-- A node that keeps everything itself, for examples. -/
def ownNode (now : Int64) : Back Store where
  write s r := ((step s { now := now } r.call).1, .own (step s { now := now } r.call).2)
  read s k := ((step s { now := now } (.get { key := k } {})).1,
    .here (step s { now := now } (.get { key := k } {})).2)
  status s := (s, none)
  flush s := ((step s { now := now } .flush).1, (step s { now := now } .flush).2.rc = .ok)

/-- A node that can hand no write to another node and has nothing itself. -/
def cutOff : Back Unit where
  write s _ := (s, .noQueue)
  read s _ := (s, .refused)
  status s := (s, none)
  flush s := (s, true)

/-- Five requests sent at once, one of them for no answer. -/
def fiveReqs : List SReq :=
  [.write { cmd := .set, entry := { key := ascii "n", flag := 7, size := 2, data := ascii "41" } },
   .write { cmd := .incr, entry := { key := ascii "n", option := optNoreply }, value := 1 },
   .get .get [ascii "n", ascii "m"],
   .write { cmd := .delete, entry := { key := ascii "m" } },
   .version]

example : (fiveReqs.map encodeReq).map (·.getD []) =
    [ascii "set n 7 0 2\r\n41\r\n", ascii "incr n 1 noreply\r\n", ascii "get n m\r\n", ascii "delete m 0\r\n",
     ascii "version\r\n"] := by decide +kernel

example : (serveAll (ownNode 1000) 1000 (List.replicate 64 0) (List.replicate 64 0) { cacheSize := 0 }
    ((fiveReqs.map encodeReq).map (·.getD [])).flatten).out =
    ascii "STORED\r\nVALUE n 7 2\r\n42\r\nEND\r\nNOT_FOUND\r\nVERSION flare-1.3.4\r\n" := by decide +kernel

example : ((readReplies 1000 (List.replicate 64 0) (List.replicate 64 0) fiveReqs
    (ascii "STORED\r\nVALUE n 7 2\r\n42\r\nEND\r\nNOT_FOUND\r\nVERSION flare-1.3.4\r\n")).toOption.map (·.1)) =
    some [.result .stored [], .nothing, .values [{ key := ascii "n", flag := 7, size := 2, data := ascii "42" }],
      .result .notFound [], .version] := by decide +kernel

/-- What was done by the own storage makes sense, whatever the request and the state of the storage. -/
theorem C71_own_outcome (s : Store) (env : Env) (r : WriteReq) (hub : (step s env r.call).2.rc ≠ .ub)
    (hk : r.cmd = .gat → PlainKey r.entry.key 8192 ∧ (step s env r.call).2.e.size.toNat + 16384 ≤ intMax) :
    Done.Sound r.cmd (.own (step s env r.call).2) := by
  refine ⟨hub, fun hok => ?_⟩
  by_cases hc : r.cmd.kind = .count
  · have hcall : ∃ i, r.call = .incr r.entry r.value i {} := by
      generalize hx : r.cmd = c at hc
      cases c <;> first | (cases hc; done) | exact ⟨_, by simp only [WriteReq.call, hx]; rfl⟩
    obtain ⟨i, hi⟩ := hcall
    have hg : r.cmd ≠ .gat := by intro h; rw [h] at hc; exact absurd hc (by decide)
    rw [hi] at hok ⊢
    simp only [step, incr] at hok ⊢
    have key : ∀ x, x = incrLocked s env r.entry r.value i {} → x.2.1.rc = .ok → ∃ y, x.2.1.r = some y ∧
        (y = .stored → isUnsignedString (x.2.1.e.data.take x.2.1.e.size.toNat) = true ∧
          x.2.1.e.size.toNat + 2 < 8192) := by
      intro x hx hrc
      simp only [incrLocked] at hx
      split at hx
      · subst hx; exact ⟨_, rfl, fun h => by cases h⟩
      · split at hx
        · subst hx; cases hrc
        · split at hx
          · subst hx; cases hrc
          · split at hx
            · subst hx; exact ⟨_, rfl, fun h => by cases h⟩
            · split at hx
              · subst hx; cases hrc
              · split at hx
                · subst hx; cases hrc
                · subst hx
                  refine ⟨_, rfl, fun _ => ?_⟩
                  simp only
                  generalize hm : (incrValue _ _ _).toNat = m
                  have hlt : m < 2 ^ 64 := by rw [← hm]; exact UInt64.toNat_lt _
                  have hl : (decimal m).length ≤ 20 := decimal_length_64 hlt
                  have hsz : (UInt64.ofNat (decimal m).length).toNat = (decimal m).length := by
                    rw [UInt64.toNat_ofNat']
                    exact Nat.mod_eq_of_lt (by omega)
                  rw [hsz, List.take_length]
                  exact ⟨isUnsigned_decimal m, by omega⟩
    obtain ⟨x, hx⟩ : ∃ x, x = incrLocked s env r.entry r.value i {} := ⟨_, rfl⟩
    rw [← hx] at hok ⊢
    have h := key x hx
    obtain ⟨a, o, c⟩ := x
    cases c with
    | none =>
      obtain ⟨y, h1, h2⟩ := h hok
      exact ⟨y, h1, fun _ => h2, fun h => absurd h hg⟩
    | some cur =>
      obtain ⟨y, h1, h2⟩ := h hok
      exact ⟨y, h1, fun _ => h2, fun h => absurd h hg⟩
  · by_cases hd : r.cmd = .delete
    · have hcall : r.call = .remove r.entry {} := by simp only [WriteReq.call, hd]
      have : ∃ y, (step s env r.call).2.r = some y := by
        rw [hcall] at hok ⊢
        simp only [step, remove] at hok ⊢
        split at hok
        · rename_i h; rw [if_pos h]; exact ⟨_, rfl⟩
        · rename_i h
          rw [if_neg h]
          split at hok
          · rename_i h; rw [if_pos h]; exact ⟨_, rfl⟩
          · rename_i h
            rw [if_neg h]
            split at hok
            · cases hok
            · rename_i h; rw [if_neg h]; exact ⟨_, rfl⟩
      obtain ⟨y, hy⟩ := this
      exact ⟨y, hy, fun h => absurd h hc, fun h => by rw [hd] at h; cases h⟩
    · have hcall : ∃ b, r.call = .set r.entry b ∧ (r.cmd = .gat → b = .ofTouch) := by
        generalize hx : r.cmd = c at hc hd
        cases c <;> first | exact absurd rfl hd | exact absurd rfl hc |
          exact ⟨_, by simp only [WriteReq.call, hx]; rfl, fun h => by first | rfl | cases h⟩
      obtain ⟨b, hb, hbt⟩ := hcall
      rw [hb] at hok hk ⊢
      simp only [step, set] at hok hk ⊢
      generalize setCurrent s env r.entry b = cu at hok hk ⊢
      obtain ⟨s', cur, ex⟩ := cu
      simp only at hok hk ⊢
      cases hch : setCheck (setState env.now b cur ex) b r.entry.version cur.version with
      | error x =>
        rw [hch] at hok hk
        refine ⟨x, rfl, fun h => absurd h hc, fun hg hx => ?_⟩
        subst hx
        exfalso
        simp only [setCheck] at hch
        repeat' split at hch
        all_goals cases hch
      | ok v =>
        rw [hch] at hok hk
        simp only at hok hk ⊢
        cases hp : setPrepare (setState env.now b cur ex) b { r.entry with version := v } cur with
        | error u => rw [hp] at hok; cases hok
        | ok oe =>
          rw [hp] at hok hk
          cases oe with
          | none => cases hok
          | some e =>
            simp only at hok hk ⊢
            cases hput : putRecord s' e with
            | none => rw [hput] at hok; cases hok
            | some s'' =>
              rw [hput] at hok hk
              simp only at hok hk ⊢
              by_cases hpo : (!env.putOk) = true
              · rw [if_pos hpo] at hok; cases hok
              · rw [if_neg hpo] at hk ⊢
                refine ⟨_, rfl, fun h => absurd h hc, fun hg _ => ?_⟩
                obtain ⟨h1, h2⟩ := hk hg
                simp only at h2 ⊢
                rw [hbt hg] at hp
                simp only [setPrepare, Beh.ofTouch, Bool.or_self, Bool.false_eq_true, if_false, if_true,
                  Except.ok.injEq, Option.map_eq_some_iff, copyOut] at hp
                obtain ⟨c, h3, h4⟩ := hp
                split at h3
                · rename_i hle
                  cases h3
                  subst h4
                  refine ⟨h1, ?_⟩
                  have h5 : r.entry.key.length < 8192 := h1.2.2
                  simp only [response] at h2 ⊢
                  rw [if_pos (by constructor
                                 · omega
                                 · simp; omega)]
                  rfl
                · cases h3

/-- `quit` is answered, and nothing behind it is looked at. -/
theorem C71_quit {σ : Type} (B : Back σ) (now : Int64) (first q : Bytes) (hf : first.length = 1024)
    (hq : q.length = 8192) (st : σ) (more : Bytes) :
    serveAll B now first q st (ascii "quit\r\n" ++ more) =
      { st := st, did := [(.quit, .nothing)], out := ascii "END\r\n", stop := .quit } := by
  have h := takeReq_encode (now := now) (first := first) (q := q) (more := more) (r := .quit) hf hq trivial rfl
  simp only [serveAll, session, h]
  rfl

/-- Defect: a request for no answer that fails is answered all the same, if there is no node or no queue to
hand it to, or the storage fails.  The client takes this line for the answer to its next request, whatever
became of that one. -/
theorem C71_noreply_answered {σ : Type} (B : Back σ) (now : Int64) (w q : Bytes) (hw : w.length = 8192)
    (hq : q.length = 8192) (st : σ) (r : SReq)
    (hl : Did.loud (r.seen now) (perform B st (r.seen now)).2 = true) :
    ∃ m ∈ [ascii "proxy failure", ascii "no partition available", ascii "i/o error"],
      answer (r.seen now) (perform B st (r.seen now)).2 = some (resultLine .serverError m) ∧
      ∀ (next : SReq) (rest : Bytes), next.silent = false → (∀ t ks, next ≠ .get t ks) → next ≠ .version →
        readReplies now w q [r, next] (resultLine .serverError m ++ rest) =
          .ok ([.nothing, .result .serverError m], rest) := by
  cases r with
  | write r =>
    have hs : (SReq.write r).silent = true := by
      rw [← arrives_silent now]
      simp only [Did.loud, SReq.seen, perform, Bool.and_eq_true] at hl
      exact hl.1
    have read : ∀ m, PlainMessage m → ∀ (next : SReq) (rest : Bytes), next.silent = false →
        (∀ t ks, next ≠ .get t ks) → next ≠ .version →
        readReplies now w q [.write r, next] (resultLine .serverError m ++ rest) =
          .ok ([.nothing, .result .serverError m], rest) := by
      intro m hm next rest h1 h2 h3
      have h4 : readReply now w q (.write r) (resultLine .serverError m ++ rest) =
          .ok (.nothing, resultLine .serverError m ++ rest) := by
        simp only [readReply, hs, if_true]
      have h5 := line_reads (now := now) (more := rest) hw hq h1 h2 h3 (x := .serverError) (.inl (by decide)) hm
      simp only [readReplies, h4, h5, Except.map]
    simp only [SReq.seen, perform, answer] at hl ⊢
    cases hd : (B.write st (arrives now r)).2 with
    | noQueue => exact ⟨_, by simp, rfl, read _ ⟨by decide, by decide⟩⟩
    | noPartition => exact ⟨_, by simp, rfl, read _ ⟨by decide, by decide⟩⟩
    | sent ok x m e => rw [hd] at hl; simp [Did.loud] at hl
    | own o =>
      rw [hd] at hl
      have : o.rc = .err := by
        simp only [Did.loud, Bool.and_eq_true, decide_eq_true_eq] at hl
        exact hl.2
      refine ⟨ascii "i/o error", by simp, ?_, read _ ⟨by decide, by decide⟩⟩
      simp only [writeAnswer, this]
  | _ => simp [Did.loud, SReq.seen] at hl

/-- A node that has no queue for one of the keys; the others it has itself. -/
def halfCut (now : Int64) : Back Store :=
  { ownNode now with
    write := fun s r => if r.entry.key = ascii "a" then (s, .noQueue) else (ownNode now).write s r }

/-- The second store is kept, but the client learns that it failed; the `get` behind it fails on the answer
STORED. -/
theorem C71_out_of_step :
    let rs := [SReq.write { cmd := .set, entry := { key := ascii "a", option := optNoreply, size := 1, data := ascii "x" } },
      .write { cmd := .set, entry := { key := ascii "b", size := 1, data := ascii "y" } }, .get .get [ascii "b"]]
    let t := serveAll (halfCut 1000) 1000 (List.replicate 64 0) (List.replicate 64 0) { cacheSize := 0 }
      (ascii "set a 0 0 1 noreply\r\nx\r\nset b 0 0 1\r\ny\r\nget b\r\n")
    rs.map encodeReq = [some (ascii "set a 0 0 1 noreply\r\nx\r\n"), some (ascii "set b 0 0 1\r\ny\r\n"),
      some (ascii "get b\r\n")] ∧
    t.out = ascii "SERVER_ERROR proxy failure\r\nSTORED\r\nVALUE b 0 1\r\ny\r\nEND\r\n" ∧
    ((readReplies 1000 (List.replicate 64 0) (List.replicate 64 0) (rs.take 2) t.out).toOption.map (·.1)) =
      some [.nothing, .result .serverError (ascii "proxy failure")] ∧
    (readReplies 1000 (List.replicate 64 0) (List.replicate 64 0) rs t.out).isOk = false := by
  refine ⟨by decide +kernel, by decide +kernel, by decide +kernel, by decide +kernel⟩

/-- Defect: a line of a store is refused, the value behind it is left on the connection and taken for
requests.  So it is for every key with a blank in it, unless a number follows the blank. -/
theorem C71_key_with_blank (now : Int64) (first q : Bytes) (hf : first.length = 1024) (hq : q.length = 8192)
    (cmd : WriteCmd) (hc : cmd.kind = .store) (a : Bytes) (c : UInt8) (t : Bytes) (ha : PlainKey a 8192)
    (h1 : digitChar c = false) (h2 : c ≠ chSpace ∧ c ≠ chNl) (ht : ∀ x ∈ t, x ≠ chNl) (more : Bytes) :
    takeReq now first q (cmd.ident ++ (chSpace :: a ++ chSpace :: c :: t) ++ crlf ++ more) = .bad more := by
  have hnl : ∀ x ∈ chSpace :: a ++ chSpace :: c :: t, x ≠ chNl := by
    refine mem_app (mem_space (plainKey_nl ha)) (mem_space ?_)
    intro x hx
    rcases List.mem_cons.1 hx with rfl | hx
    · exact h2.2
    · exact ht x hx
  have h := takeReq_line (now := now) (first := first) (q := q) (path := []) (cmd := cmd) (more := more)
    (by intro n hn; cases hn) (by omega) hnl (ends_space _)
  simp only [proxyIdent, if_true, List.nil_append] at h
  rw [h]
  obtain ⟨q1, e1, e2, e3⟩ := scanWord_field (w := a) (t := chSpace :: (c :: t ++ [chNl])) (q := q)
    ha.word ha.1 (ends_space _) (by have := ha.2.2; omega)
  obtain ⟨q2, e4, e5, e6⟩ := scanDigit_empty (t := chSpace :: (c :: t ++ [chNl])) (q := q1) (c := c)
    (r := t ++ [chNl]) 1 (by simp [List.replicate]) h1 h2.1 (by omega)
  have hline : chSpace :: a ++ chSpace :: c :: t ++ [chNl] = chSpace :: a ++ (chSpace :: (c :: t ++ [chNl])) := by
    simp
  have hpe : ∀ ty : ParseType, ty = .set ∨ ty = .cas →
      entryParse now ty (chSpace :: a ++ (chSpace :: (c :: t ++ [chNl]))) q { key := [] } = .error .err := by
    intro ty hty
    have hk : parseKey (chSpace :: a ++ (chSpace :: (c :: t ++ [chNl])), q, { key := [] }) =
        .ok (chSpace :: (c :: t ++ [chNl]), q1, { key := a }) := by
      simp only [parseKey, e1, e2, if_neg ha.1]
    have hfl : parseFlag ty (chSpace :: (c :: t ++ [chNl]), q1, { key := a }) = .error .err := by
      rcases hty with rfl | rfl <;> simp only [parseFlag, e4, e5, if_true] <;>
        rw [if_pos (by decide)]
    simp only [entryParse, hk, hfl, bind, Except.bind]
  have hty : (if cmd = .cas then ParseType.cas else .set) = .set ∨
      (if cmd = .cas then ParseType.cas else .set) = .cas := by
    split <;> simp
  rw [hline]
  simp only [takeWrite, parseParams, hc, hpe _ hty, true_and, Except.isOk, Except.toBool, Bool.false_eq_true,
    if_false]

/-- The value of such a store empties the node, and the client gets two answers for one request. -/
theorem C71_value_as_requests :
    let s := ascii "set a b 0 0 9\r\nflush_all\r\n"
    let t := serveAll (ownNode 1000) 1000 (List.replicate 64 0) (List.replicate 64 0)
      (step { cacheSize := 0 } { now := 1000 } (.set { key := [120], size := 1, data := [121] } {})).1 s
    t.did = [(.flush false, .flushed true)] ∧ t.out = ascii "ERROR\r\nOK\r\n" ∧ t.st.db = [] := by
  refine ⟨by decide +kernel, by decide +kernel, by decide +kernel⟩

/-- Defect: the two bytes behind a value are dropped, whatever they are; the value may be longer than the
client has said, and its end is taken for requests. -/
theorem C71_end_not_checked (now : Int64) (first q : Bytes) (hf : first.length = 1024) (hq : q.length = 8192)
    (r : WriteReq) (hc : r.cmd.kind = .store) (hr : Sendable r 8192) (b : Bytes) (hb : encodeWrite r = some b)
    (x y : UInt8) (more : Bytes) :
    takeReq now first q (storeLine r ++ r.entry.data.take r.entry.size.toNat ++ [x, y] ++ more) =
      .req (.write (arrives now r)) more := by
  have hbytes : b = storeLine r ++ r.entry.data.take r.entry.size.toNat ++ crlf := by
    simp only [encodeWrite, hc] at hb
    split at hb
    · exact (Option.some.inj hb).symm
    · cases hb
  have h0 := takeReq_encode (now := now) (first := first) (q := q) (more := more) (r := .write r) hf hq hr hb
  rw [hbytes] at h0
  obtain ⟨tail, h1, h2⟩ : ∃ t, storeLine r = proxyIdent r.path ++ r.cmd.ident ++ (chSpace :: t) ++ crlf ∧
      ∀ c ∈ chSpace :: t, c ≠ chNl := by
    refine ⟨cstr r.entry.key ++ chSpace :: decimal r.entry.flag.toNat ++ chSpace :: decimalInt r.entry.expire.toInt ++
      chSpace :: decimal r.entry.size.toNat ++ (if r.entry.version > 0 ∨ r.cmd = .cas
        then chSpace :: decimal r.entry.version.toNat else []) ++ optionWords r.entry.option, ?_, ?_⟩
    · simp only [storeLine, List.append_assoc, List.cons_append]
    · have hk : ∀ c ∈ cstr r.entry.key, c ≠ chNl := fun c h =>
        plainKey_nl hr.1 c ((List.takeWhile_prefix _).subset h)
      have ho : ∀ c ∈ optionWords r.entry.option, c ≠ chNl := by
        intro c h
        simp only [optionWords, List.mem_append] at h
        rcases h with (h | h) | h
        all_goals
          split at h
          · revert c; decide
          · cases h
      have hd : ∀ n, ∀ c ∈ chSpace :: decimal n, c ≠ chNl := fun n => mem_space (decimal_ne_nl n)
      rw [show chSpace :: (cstr r.entry.key ++ chSpace :: decimal r.entry.flag.toNat ++
          chSpace :: decimalInt r.entry.expire.toInt ++ chSpace :: decimal r.entry.size.toNat ++
          (if r.entry.version > 0 ∨ r.cmd = .cas then chSpace :: decimal r.entry.version.toNat else []) ++
          optionWords r.entry.option) = (chSpace :: cstr r.entry.key) ++ chSpace :: decimal r.entry.flag.toNat ++
          chSpace :: decimalInt r.entry.expire.toInt ++ chSpace :: decimal r.entry.size.toNat ++
          (if r.entry.version > 0 ∨ r.cmd = .cas then chSpace :: decimal r.entry.version.toNat else []) ++
          optionWords r.entry.option from rfl]
      refine mem_app (mem_app (mem_app (mem_app (mem_app (mem_space hk) (hd _)) (mem_space (decimalInt_ne_nl _)))
        (hd _)) ?_) ho
      split
      · exact hd _
      · simp
  have line := fun rest => takeReq_line (now := now) (first := first) (q := q) (path := r.path) (cmd := r.cmd)
    (more := rest) hr.2.1 (by omega) h2 (ends_space _)
  rw [h1] at h0 ⊢
  have e1 : ∀ z : Bytes, proxyIdent r.path ++ r.cmd.ident ++ chSpace :: tail ++ crlf ++
      r.entry.data.take r.entry.size.toNat ++ z ++ more = proxyIdent r.path ++ r.cmd.ident ++ chSpace :: tail ++ crlf ++
      (r.entry.data.take r.entry.size.toNat ++ z ++ more) := fun z => by simp only [List.append_assoc]
  rw [e1, line] at h0 ⊢
  simp only [takeWrite] at h0 ⊢
  obtain ⟨d, ed⟩ : ∃ d, d = r.entry.data.take r.entry.size.toNat := ⟨_, rfl⟩
  rw [← ed] at h0 ⊢
  cases hp : parseParams now r.cmd r.path (chSpace :: tail ++ [chNl]) q (d ++ crlf ++ more) with
  | error f =>
    rw [hp] at h0
    cases f with
    | ub => cases h0
    | err =>
      rcases ite_eq_iff.1 h0 with ⟨_, h⟩ | ⟨_, h⟩ <;> cases h
  | ok z =>
    rw [hp] at h0
    obtain ⟨z, z'⟩ := z
    simp only [Took.req.injEq, SReq.write.injEq, SReq.seen] at h0
    obtain ⟨rfl, rfl⟩ := h0
    rw [parseParams_swap (u := chCr) (v := chNl) hc hp x y]

/-- The client says three bytes and sends nine more. -/
example :
    let t := serveAll (ownNode 1000) 1000 (List.replicate 64 0) (List.replicate 64 0) { cacheSize := 0 }
      (ascii "set a 0 0 3\r\nabcdedelete a\r\nping\r\n")
    t.out = ascii "STORED\r\nDELETED\r\nOK\r\n" := by decide +kernel

/-- Defect: in the text protocol the value of a `gat` comes without the line END that ends the answer to a
`get`; a client that waits for the end waits for ever. -/
theorem C71_gat_no_end (now : Int64) (w q : Bytes) (hw : w.length = 8192) (hq : q.length = 8192) (n : Nat)
    (e : Entry) (he : PlainKey e.key 8192) (b : Bytes) (hb : response .get e = some b) :
    readAnswers now w q n b = .error .err := by
  have h := C34_answer now w q hw hq .get e he b [] hb
  rw [List.append_nil] at h
  cases n with
  | zero => rfl
  | succ n =>
    simp only [readAnswers, h]
    cases n with
    | zero => rfl
    | succ n => rfl

/-- The node that has forwarded a `gat` reads the value from the answer, as long as the key is the same; the
number for `cas` is lost on the way. -/
theorem C71_gat_forwarded (now : Int64) (w q : Bytes) (hw : w.length = 8192) (hq : q.length = 8192)
    (asked e : Entry) (he : PlainKey e.key 8192) (hk : asked.key = e.key) (b more : Bytes)
    (hb : response .get e = some b) :
    gatClient now w q (b ++ more) asked = .ok (.touched,
      { asked with flag := e.flag, size := e.size, version := 0, data := e.data.take e.size.toNat }, more) := by
  have h := C34_answer now w q hw hq .get e he b more hb
  simp only [readAnswer] at h
  simp only [gatClient]
  cases h1 : readLine (b ++ more) with
  | none => rw [h1] at h; cases h
  | some x =>
    obtain ⟨line, s⟩ := x
    simp only [h1] at h ⊢
    by_cases h2 : line = strEnd ++ [chNl]
    · rw [if_pos h2] at h; cases h
    · rw [if_neg h2] at h
      cases h3 : scanWord line w with
      | error f => rw [h3] at h; cases h
      | ok x =>
        obtain ⟨p, w'⟩ := x
        simp only [h3] at h ⊢
        by_cases h4 : cstr w' ≠ strValue
        · rw [if_pos h4] at h; cases h
        · have h5 : line ≠ ascii "NOT_FOUND\n" := by
            rintro rfl
            obtain ⟨w2, h8, h9, -⟩ := scanWord_tok (w := ascii "NOT_FOUND") (c := chNl) (rest := []) (q := w) 0
              (by decide) (by decide) (by rw [hw]; decide) (fun _ => by decide)
            have h10 : List.replicate 0 chSpace ++ ascii "NOT_FOUND" ++ chNl :: [] = ascii "NOT_FOUND\n" := by decide
            rw [h10, h3] at h8
            obtain ⟨-, rfl⟩ := Prod.mk.inj (Except.ok.inj h8)
            rw [h9] at h4
            exact h4 (by decide)
          rw [if_neg h4] at h
          rw [if_neg h5, if_neg h4]
          cases h6 : entryParse now .get p q { key := [] } with
          | error f => rw [h6] at h; cases h
          | ok x =>
            simp only [h6] at h ⊢
            cases h7 : readSize (x.size.toNat + 2) s with
            | error f => rw [h7] at h; cases h
            | ok y =>
              obtain ⟨d, s'⟩ := y
              simp only [h7, Except.ok.injEq, Answer.value.injEq, Entry.mk.injEq] at h
              obtain ⟨⟨e1, e2, -, e4, e5, -, e7⟩, rfl⟩ := h
              have e8 : ¬ asked.key ≠ x.key := fun h => h (hk.trans e1.symm)
              rw [e4] at e7
              simp only [if_neg e8, e2, e4, e5, e7, if_true]

/-- Defect: a `gat` with `noreply` is answered with nothing, but the node that has forwarded it waits for
the answer; it takes the answer to the next request for it. -/
theorem C71_gat_noreply (now : Int64) (w q : Bytes) (asked e : Entry) (r : WriteReq) (o : Out)
    (hr : r.entry.option &&& optNoreply ≠ 0) (hok : o.rc = .ok) (hor : o.r.isSome) :
    writeAnswer r (.own o) = some [] ∧ gatClient now w q [] asked = .error .err ∧
      gatClient now w q (resultLine .notFound []) e = .ok (.notFound, e, []) := by
  have h1 : readLine (resultLine .notFound []) = some (ascii "NOT_FOUND\n", []) := by decide
  refine ⟨?_, rfl, by simp only [gatClient, h1, if_true]⟩
  obtain ⟨x, hx⟩ := Option.isSome_iff_exists.1 hor
  simp only [writeAnswer, hok, hx, if_pos hr]

example : gatClient 1000 (List.replicate 64 0) (List.replicate 64 0) (ascii "VALUE k 3 1\r\nv\r\nrest")
    { key := ascii "k", version := 9 } =
    .ok (.touched, { key := ascii "k", flag := 3, size := 1, data := ascii "v" }, ascii "rest") := by decide +kernel

end Flare
