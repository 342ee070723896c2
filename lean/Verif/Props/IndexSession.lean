import Verif.Lemmas.IndexSession
import Verif.Props.Control
import Verif.Props.Cluster

namespace Flare

/-! ### C78: an index server does what the words of its lines say -/

/-- A line, whatever its blanks and whatever the buffers hold, is taken as its words are meant, and nothing of
what follows is taken with it; refused is what means nothing, except for the commands that look at a part of
their line only (`lenient`) and ports that run into the state (`gluedPort`). -/
theorem C78_line_partial (first q w : Bytes) (hf : first.length = 1024) (hq : q.length = 1024) (hw : w.length = 8192)
    (l : CmdLine) (h : l.Ok) (more : Bytes)
    (hm : ixMeaning l.words = none → lenient l.words = false ∧ gluedPort l.words = false) :
    takeIx first q w (l.bytes ++ more) =
      match ixMeaning l.words with
      | some r => .req r more
      | none => .bad more := by
  have hcmd : PlainKey l.cmd 1024 := h.words l.cmd (by simp [CmdLine.words])
  have hargs : ∀ x ∈ l.args.map (·.2), PlainKey x 1024 := fun x hx =>
    h.words x (by simp only [CmdLine.words, List.mem_cons]; exact .inr hx)
  have hhead : (l.bytes ++ more).head? ≠ some 0x80 := by
    have := h.binary
    obtain ⟨c, t, e⟩ := List.exists_cons_of_ne_nil h.ne
    simp only [CmdLine.bytes, e, List.cons_append, List.head?_cons] at this ⊢
    exact this
  obtain ⟨q1, a1, b1, c1⟩ := scanWord_at (x := l.cmd) (q := first) (n := l.indent) (ws := l.args) (k := l.trail)
    hcmd.word hcmd.1 (by have := hcmd.2.2; omega)
  have hp : parseServer (l.text ++ [chNl]) first = .ok (none, l.cmd, spaced l.args l.trail ++ [chNl]) := by
    have ht : l.text ++ [chNl] = List.replicate l.indent chSpace ++ l.cmd ++ (spaced l.args l.trail ++ [chNl]) := by
      simp only [CmdLine.text, List.append_assoc]
    obtain ⟨c, t, e⟩ := List.exists_cons_of_ne_nil h.ne
    have hlt : c ≠ chLt := by
      have := h.text
      rw [e] at this
      simpa using this
    rw [← ht, e] at a1
    rw [e]
    simp only [List.cons_append] at a1 ⊢
    simp only [parseServer, hlt, false_and, if_false, a1, b1]
  have hlen : (spaced l.args l.trail).length < 1024 := by
    have := h.short
    simp only [CmdLine.text, List.length_append] at this
    omega
  have hx := ixParams_eq (c := l.cmd) hargs hq hw hlen hm
  simp only [takeIx, if_neg hhead, readLine_cmd h more, hp, hx]
  show _ = match ixMeaning (l.cmd :: l.args.map (·.2)) with
      | some r => IxTook.req r more
      | none => .bad more
  cases ixMeaning (l.cmd :: l.args.map (·.2)) with
  | none => rfl
  | some r => rfl

example : (⟨1, ascii "node", [(0, ascii "add"), (2, ascii "db1"), (0, ascii "12121")], 1, false⟩ : CmdLine).bytes =
      ascii " node add   db1 12121 \n" ∧
    takeIx (List.replicate 1024 7) (List.replicate 1024 9) (List.replicate 8192 1)
      (ascii " node add   db1 12121 \nquit") = .req (.add (ascii "db1") 12121) (ascii "quit") := by decide +kernel

/-- Every line of less than 1024 bytes with a word in it, without NUL, is such a line. -/
theorem C78_every_line (t : Bytes) (h : ∀ c ∈ t, c ≠ 0 ∧ c ≠ chNl) (hw : ∃ c ∈ t, c ≠ chSpace) (hl : t.length < 1024) :
    ∃ l : CmdLine, l.text = t ∧ ∀ x ∈ l.words, PlainKey x 1024 := by
  -- a blank in front makes the first word one of the others
  obtain ⟨ws, k, e, hws⟩ := spaced_every (t.length + 1) (chSpace :: t) (by simp) (by
    intro c hc
    rcases List.mem_cons.1 hc with rfl | hc
    · decide
    · exact h c hc) (by simp only [List.length_cons]; omega) (.inr rfl)
  cases ws with
  | nil =>
    obtain ⟨c, hc, hne⟩ := hw
    have : c ∈ spaced [] k := by rw [e]; exact List.mem_cons_of_mem _ hc
    exact absurd (List.mem_replicate.1 this).2 hne
  | cons x ws =>
    obtain ⟨n, x⟩ := x
    refine ⟨⟨n, x, ws, k, true⟩, ?_, hws⟩
    simp only [spaced, List.replicate_succ, List.cons_append, List.cons.injEq, true_and] at e
    exact e

example : (⟨0, ascii "kill", [(0, ascii "7")], 2, true⟩ : CmdLine).text = ascii "kill 7  " := by decide

/-! ### Sessions -/

/-- The lines of the theorems: refused ones are not of the commands that look at a part of their line only. -/
def CmdLine.Told (l : CmdLine) : Prop :=
  ixMeaning l.words = none → lenient l.words = false ∧ gluedPort l.words = false

theorem CmdLine.bytes_pos (l : CmdLine) : 0 < l.bytes.length := by
  simp only [CmdLine.bytes, List.length_append]
  cases l.cr <;> simp [crlf]

/-- A session over lines, whatever the buffers hold and whatever unfinished line is behind them, is what the
words of the lines mean, one after the other, until `quit`. -/
theorem C78_session_partial {σ : Type} (B : IxBack σ) (first q w : Bytes) (hf : first.length = 1024)
    (hq : q.length = 1024) (hw : w.length = 8192) (ls : List CmdLine) (hls : ∀ l ∈ ls, l.Ok ∧ l.Told)
    (tail : Bytes) (ht : ∀ c ∈ tail, c ≠ chNl) (st : σ) :
    serveIx B first q w st (ls.flatMap (·.bytes) ++ tail) = ixMeant B st (ls.map (·.words)) := by
  have key : ∀ n, ∀ ls : List CmdLine, (∀ l ∈ ls, l.Ok ∧ l.Told) → ∀ st,
      (ls.flatMap (·.bytes) ++ tail).length < n →
      ixSession B first q w n st (ls.flatMap (·.bytes) ++ tail) = ixMeant B st (ls.map (·.words)) := by
    intro n
    induction n with
    | zero => intro ls _ st hn; omega
    | succ n ih =>
      intro ls hls st hn
      cases ls with
      | nil =>
        have hr : readLine tail = none := readLine_none fun hm => ht _ hm rfl
        have : takeIx first q w tail = .over := by
          simp only [takeIx, hr]
          split <;> rfl
        simp only [List.flatMap_nil, List.nil_append, ixSession, this]
        rfl
      | cons l ls =>
        obtain ⟨ho, hm⟩ := hls l (by simp)
        obtain ⟨more, em⟩ : ∃ m, m = ls.flatMap (·.bytes) ++ tail := ⟨_, rfl⟩
        have e : (l :: ls).flatMap (·.bytes) ++ tail = l.bytes ++ more := by
          simp only [List.flatMap_cons, List.append_assoc, em]
        have hlen : more.length < n := by
          have := l.bytes_pos
          rw [e, List.length_append] at hn
          omega
        have hi := fun st => ih ls (fun l hl => hls l (by simp [hl])) st (by rw [← em]; exact hlen)
        rw [← em] at hi
        rw [e]
        simp only [ixSession, C78_line_partial first q w hf hq hw l ho more hm, List.map_cons, ixMeant]
        cases ixMeaning l.words with
        | none => simp only [hi]
        | some r => simp only [hi]
  exact key _ ls hls st (by omega)

/-! ### The cluster behind a session -/

section host
variable (key : Bytes → Int32 → NodeKey) (name : NodeKey → Bytes × Int32) (m : Meta)
  (report : StatsKind → List (Bytes × Bytes)) (vars : List Bytes)

/-- One command. -/
theorem ixPerform_host (h : IxHost) (r : IxReq) :
    (ixPerform (IxHost.back key name m report vars) h r).1 =
      (match r.asks key with | none => h | some c => (h.run c).1) ∧
    ∀ c, r.asks key = some c →
      ((ixPerform (IxHost.back key name m report vars) h r).2 = .ended false ↔ (ixStep (h.env.headD {}) h.ix c).2 < 0) ∧
      ∀ ns, (ixPerform (IxHost.back key name m report vars) h r).2 = .listed ns →
        ns = (ixStep (h.env.headD {}) h.ix c).1.nodes.map (listed name) := by
  cases r with
  | add n p =>
    refine ⟨?_, fun c hc => ?_⟩
    · simp only [ixPerform, IxHost.back, IxReq.asks]
      cases hr : h.run (.add (key n p)) with
      | mk h' ok => cases ok <;> rfl
    · simp only [IxReq.asks, Option.some.injEq] at hc
      subst hc
      simp only [ixPerform, IxHost.back, IxHost.run]
      cases hs : ixStep (h.env.headD {}) h.ix (.add (key n p)) with
      | mk i rc =>
        by_cases h0 : 0 ≤ rc
        · simp only [h0, decide_true]
          refine ⟨⟨by simp, fun h => by omega⟩, fun ns hn => ?_⟩
          injection hn with hn
          exact hn.symm
        · simp only [h0, decide_false]
          exact ⟨⟨fun _ => by omega, fun _ => trivial⟩, by simp⟩
  | remove n p | role r | state r | shutdown n p =>
    refine ⟨rfl, fun c hc => ?_⟩
    simp only [IxReq.asks, Option.some.injEq] at hc
    subst hc
    refine ⟨?_, fun ns hn => by simp [ixPerform] at hn⟩
    simp only [ixPerform, IxHost.back, IxHost.run, IxDid.ended.injEq, decide_eq_false_iff_not]
    omega
  | _ => exact ⟨rfl, fun c hc => by simp [IxReq.asks] at hc⟩

/-- The index server after a session with any bytes at all: the commands that were carried out, and nothing else,
were done to it, in order.  Of each of them the client was told the truth. -/
theorem C78_history (first q w : Bytes) (h : IxHost) (s : Bytes) :
    (serveIx (IxHost.back key name m report vars) first q w h s).st.ix =
      ixRun h.ix (withEnv h.env (askedOf key (serveIx (IxHost.back key name m report vars) first q w h s).did)) ∧
    ∀ a r d b c, (serveIx (IxHost.back key name m report vars) first q w h s).did = a ++ (r, d) :: b →
      r.asks key = some c → ∀ i e, i = ixRun h.ix (withEnv h.env (askedOf key a)) →
      e = (h.env.drop (askedOf key a).length).headD {} →
      (d = .ended false ↔ (ixStep e i c).2 < 0) ∧ ∀ ns, d = .listed ns → ns = (ixStep e i c).1.nodes.map fun n =>
        ⟨(name n.1).1, (name n.1).2, n.2.role.number, n.2.state.number, Int32.ofInt n.2.partition,
          Int32.ofInt n.2.balance, Int32.ofInt n.2.threadType⟩ := by
  have gen : ∀ n (h : IxHost) (s : Bytes),
    (ixSession (IxHost.back key name m report vars) first q w n h s).st.ix =
      ixRun h.ix (withEnv h.env (askedOf key (ixSession (IxHost.back key name m report vars) first q w n h s).did)) ∧
    ∀ a r d b c, (ixSession (IxHost.back key name m report vars) first q w n h s).did = a ++ (r, d) :: b →
      r.asks key = some c → ∀ i e, i = ixRun h.ix (withEnv h.env (askedOf key a)) →
      e = (h.env.drop (askedOf key a).length).headD {} →
      (d = .ended false ↔ (ixStep e i c).2 < 0) ∧ ∀ ns, d = .listed ns → ns = (ixStep e i c).1.nodes.map (listed name) := by
    intro n
    induction n with
    | zero =>
      intro h s
      exact ⟨rfl, fun a r d b c hd => by simp [ixSession] at hd⟩
    | succ n ih =>
      intro h s
      have none_ : ∀ out stop, (⟨h, [], out, stop⟩ : IxTalk IxHost).st.ix =
            ixRun h.ix (withEnv h.env (askedOf key (⟨h, [], out, stop⟩ : IxTalk IxHost).did)) ∧
          ∀ a r d b c, (⟨h, [], out, stop⟩ : IxTalk IxHost).did = a ++ (r, d) :: b →
            r.asks key = some c → ∀ i e, i = ixRun h.ix (withEnv h.env (askedOf key a)) →
            e = (h.env.drop (askedOf key a).length).headD {} →
            (d = .ended false ↔ (ixStep e i c).2 < 0) ∧
              ∀ ns, d = .listed ns → ns = (ixStep e i c).1.nodes.map (listed name) :=
        fun out stop => ⟨rfl, fun a r d b c hd => by simp at hd⟩
      cases ht : takeIx first q w s with
      | over => simp only [ixSession, ht]; exact none_ [] .closed
      | ub => simp only [ixSession, ht]; exact none_ [] .ub
      | bad rest =>
        simp only [ixSession, ht]
        split
        · exact none_ (resultLine .error []) .quit
        · exact ih h rest
      | req r rest =>
        obtain ⟨p1, p2⟩ := ixPerform_host key name m report vars h r
        obtain ⟨h', eh⟩ : ∃ h', h' = (ixPerform (IxHost.back key name m report vars) h r).1 := ⟨_, rfl⟩
        obtain ⟨d, ed⟩ : ∃ d, d = (ixPerform (IxHost.back key name m report vars) h r).2 := ⟨_, rfl⟩
        simp only [ixSession, ht]
        rw [← eh, ← ed]
        rw [← eh] at p1
        rw [← ed] at p2
        -- what follows, if anything does
        have step : ∀ (l : List (IxReq × IxDid)) (st : IxHost),
            (st.ix = ixRun h'.ix (withEnv h'.env (askedOf key l)) ∧
              ∀ a r d b c, l = a ++ (r, d) :: b → r.asks key = some c →
                ∀ i e, i = ixRun h'.ix (withEnv h'.env (askedOf key a)) →
                e = (h'.env.drop (askedOf key a).length).headD {} →
                (d = .ended false ↔ (ixStep e i c).2 < 0) ∧
                  ∀ ns, d = .listed ns → ns = (ixStep e i c).1.nodes.map (listed name)) →
            st.ix = ixRun h.ix (withEnv h.env (askedOf key ((r, d) :: l))) ∧
              ∀ a r' d' b c, (r, d) :: l = a ++ (r', d') :: b → r'.asks key = some c →
                ∀ i e, i = ixRun h.ix (withEnv h.env (askedOf key a)) →
                e = (h.env.drop (askedOf key a).length).headD {} →
                (d' = .ended false ↔ (ixStep e i c).2 < 0) ∧
                  ∀ ns, d' = .listed ns → ns = (ixStep e i c).1.nodes.map (listed name) := by
          intro l st ⟨hst, hl⟩
          -- the command in front of any others
          have front : ∀ l', ixRun h.ix (withEnv h.env (askedOf key ((r, d) :: l'))) =
              ixRun h'.ix (withEnv h'.env (askedOf key l')) ∧
              h.env.drop (askedOf key ((r, d) :: l')).length = h'.env.drop (askedOf key l').length := by
            intro l'
            cases ha : r.asks key with
            | none =>
              rw [ha] at p1
              simp only at p1
              rw [p1]
              simp [askedOf, ha]
            | some c =>
              rw [ha] at p1
              simp only at p1
              rw [p1]
              simp only [askedOf, List.filterMap_cons, ha, withEnv, ixRun, List.foldl_cons, ixAct, IxHost.run,
                List.length_cons, List.drop_drop, true_and]
              rw [Nat.add_comm]
          refine ⟨by rw [hst, (front l).1], ?_⟩
          intro a r' d' b c he hc i e hi hee
          cases a with
          | nil =>
            simp only [List.nil_append, List.cons.injEq, Prod.mk.injEq] at he
            obtain ⟨⟨rfl, rfl⟩, -⟩ := he
            have e1 : i = h.ix := hi
            have e2 : e = h.env.headD {} := by simpa [askedOf] using hee
            rw [e1, e2]
            exact p2 c hc
          | cons x a =>
            simp only [List.cons_append, List.cons.injEq] at he
            obtain ⟨rfl, he⟩ := he
            obtain ⟨f1, f2⟩ := front a
            exact hl a r' d' b c he hc i e (by rw [hi, f1]) (by rw [hee, f2])
        split
        · exact step [] h' ⟨rfl, fun a r d b c hd => by simp at hd⟩
        · exact step _ _ (ih h' rest)
  exact gen _ h s

/-- Whatever bytes a client of a new index server sends: if what was carried out of them is orderly, no partition
has two active masters. -/
theorem C78_one_master (first q w : Bytes) (es : List IEnv) (s : Bytes)
    (ho : Orderly true .init (withEnv es
      (askedOf key (serveIx (IxHost.back key name m report vars) first q w ⟨.init, es⟩ s).did))) (p : Int) :
    (activeMasters (serveIx (IxHost.back key name m report vars) first q w ⟨.init, es⟩ s).st.ix.nodes p).length ≤ 1 := by
  rw [(C78_history key name m report vars first q w ⟨.init, es⟩ s).1]
  exact (C20_one_master_partial _ ho _ (.inl rfl)).2 p

end host

/-! ### What a node asks -/

theorem intWord_print (i : Int32) : intWord (printInt i) = some i := by
  have h : (printInt i).all numChar = true := by
    rw [numChar_eq, List.all_eq_true]
    exact printInt_chars i
  rw [intWord, if_pos h, lexInt_print]

theorem PlainKey.of_word {x : Bytes} {n : Nat} (hw : ∀ c ∈ x, wordChar c = true) (hne : x ≠ []) (hl : x.length < n) :
    PlainKey x n := by
  refine ⟨hne, fun c hc => ?_, hl⟩
  have := hw c hc
  simp only [wordChar, decide_eq_true_eq] at this
  exact this

/-- The line of a request to change a role. -/
def roleLine (r : RoleReq) : CmdLine :=
  { cmd := ascii "node"
    args := [(0, ascii "role"), (0, r.name), (0, printInt r.port), (0, r.role.name), (0, printInt r.balance),
      (0, printInt r.partition)] }

def stateLine (r : StateReq) : CmdLine :=
  { cmd := ascii "node", args := [(0, ascii "state"), (0, r.name), (0, printInt r.port), (0, r.state.name)] }

theorem roleLine_ok {r : RoleReq} (hn : PlainKey r.name 900) :
    (roleLine r).Ok ∧ (roleLine r).bytes = roleRequest r ∧ ixMeaning (roleLine r).words = some (.role r) := by
  obtain ⟨f1, f2, f3, f4⟩ := r.role.name_facts
  have p1 := printInt_length r.port
  have p2 := printInt_length r.balance
  have p3 := printInt_length r.partition
  have hl := hn.2.2
  have ht : (roleLine r).text = ascii "node role " ++ r.name ++ [chSpace] ++ printInt r.port ++ [chSpace] ++
      r.role.name ++ [chSpace] ++ printInt r.balance ++ [chSpace] ++ printInt r.partition := by
    have e : ascii "node role " = ascii "node" ++ [chSpace] ++ ascii "role" ++ [chSpace] := by decide
    simp [roleLine, CmdLine.text, spaced, e]
  have h10 : (ascii "node role ").length = 10 := by decide
  have hlen : (roleLine r).text.length < 1024 := by
    rw [ht]
    simp only [List.length_append, h10, List.length_singleton]
    omega
  have hh : (roleLine r).text.head? = some 110 := by rw [ht]; rfl
  refine ⟨⟨?_, hlen, by rw [hh]; decide, by rw [hh]; decide, fun h => by simp [roleLine] at h⟩, ?_, ?_⟩
  · intro x hx
    have hi : ∀ i, PlainKey (printInt i) 1024 := fun i =>
      .of_word (printInt_word i) (printInt_ne_nil i) (by have := printInt_length i; omega)
    simp only [CmdLine.words, roleLine, List.map_cons, List.map_nil, List.mem_cons, List.not_mem_nil, or_false] at hx
    rcases hx with rfl | rfl | rfl | rfl | rfl | rfl | rfl
    · exact .of_word (by decide) (by decide) (by decide)
    · exact .of_word (by decide) (by decide) (by decide)
    · exact ⟨hn.1, hn.2.1, by omega⟩
    · exact hi _
    · exact .of_word f1 f2 (by omega)
    · exact hi _
    · exact hi _
  · have hc := cstr_plain hn.word
    simp only [CmdLine.bytes, roleRequest, hc]
    rw [ht] at hlen
    rw [snprintfBuf_short (by omega), ht]
    rfl
  · show ixMeaning (ascii "node" :: [ascii "role", r.name, printInt r.port, r.role.name, printInt r.balance,
      printInt r.partition]) = _
    have h1 : ¬ ascii "node" = ascii "ping" := by decide
    have h2 : ¬ ascii "node" = ascii "stats" := by decide
    have h3 : ¬ ascii "role" = ascii "add" := by decide
    have h4 : ¬ ascii "role" = ascii "remove" := by decide
    simp only [ixMeaning, if_neg h1, if_neg h2, if_true, if_neg h3, if_neg h4, roleMeaning, intWord_print, f4]

theorem stateLine_ok {r : StateReq} (hn : PlainKey r.name 900) :
    (stateLine r).Ok ∧ (stateLine r).bytes = stateRequest r ∧ ixMeaning (stateLine r).words = some (.state r) := by
  obtain ⟨f1, f2, f3, f4⟩ := r.state.name_facts
  have p1 := printInt_length r.port
  have hl := hn.2.2
  have ht : (stateLine r).text = ascii "node state " ++ r.name ++ [chSpace] ++ printInt r.port ++ [chSpace] ++
      r.state.name := by
    have e : ascii "node state " = ascii "node" ++ [chSpace] ++ ascii "state" ++ [chSpace] := by decide
    simp [stateLine, CmdLine.text, spaced, e]
  have h10 : (ascii "node state ").length = 11 := by decide
  have hlen : (stateLine r).text.length < 1024 := by
    rw [ht]
    simp only [List.length_append, h10, List.length_singleton]
    omega
  have hh : (stateLine r).text.head? = some 110 := by rw [ht]; rfl
  refine ⟨⟨?_, hlen, by rw [hh]; decide, by rw [hh]; decide, fun h => by simp [stateLine] at h⟩, ?_, ?_⟩
  · intro x hx
    simp only [CmdLine.words, stateLine, List.map_cons, List.map_nil, List.mem_cons, List.not_mem_nil, or_false] at hx
    rcases hx with rfl | rfl | rfl | rfl | rfl
    · exact .of_word (by decide) (by decide) (by decide)
    · exact .of_word (by decide) (by decide) (by decide)
    · exact ⟨hn.1, hn.2.1, by omega⟩
    · exact .of_word (printInt_word _) (printInt_ne_nil _) (by omega)
    · exact .of_word f1 f2 (by omega)
  · have hc := cstr_plain hn.word
    simp only [CmdLine.bytes, stateRequest, hc]
    rw [ht] at hlen
    rw [snprintfBuf_short (by omega), ht]
    rfl
  · show ixMeaning (ascii "node" :: [ascii "state", r.name, printInt r.port, r.state.name]) = _
    have h1 : ¬ ascii "node" = ascii "ping" := by decide
    have h2 : ¬ ascii "node" = ascii "stats" := by decide
    have h3 : ¬ ascii "state" = ascii "add" := by decide
    have h4 : ¬ ascii "state" = ascii "remove" := by decide
    have h5 : ¬ ascii "state" = ascii "role" := by decide
    simp only [ixMeaning, if_neg h1, if_neg h2, if_true, if_neg h3, if_neg h4, if_neg h5, stateMeaning,
      intWord_print, f4]

/-- Requests of nodes to change roles and states, as many as there are on a connection, are carried out as they
are sent, in order; nothing else is.  Each is answered with one line. -/
theorem C78_asked {σ : Type} (B : IxBack σ) (st : σ) (first q w : Bytes) (hf : first.length = 1024)
    (hq : q.length = 1024) (hw : w.length = 8192) (rs : List (RoleReq ⊕ StateReq))
    (hn : ∀ r ∈ rs, PlainKey (r.elim (·.name) (·.name)) 900) (ha : ∀ st, B.asked st = false) :
    let t := serveIx B first q w st (rs.flatMap fun r => r.elim roleRequest stateRequest)
    t.st = rs.foldl (fun st r => r.elim (fun r => (B.role st r).1) (fun r => (B.state st r).1)) st ∧
    t.did.map (·.1) = rs.map (fun r => r.elim .role .state) ∧
    (∀ x ∈ t.did, ∃ ok, x.2 = .ended ok) ∧
    t.out = t.did.flatMap (fun x => ixAnswer x.1 x.2) ∧ t.stop = .closed := by
  obtain ⟨line, hline⟩ : ∃ f : RoleReq ⊕ StateReq → CmdLine, f = fun r => r.elim roleLine stateLine := ⟨_, rfl⟩
  have ok : ∀ r ∈ rs, (line r).Ok ∧ (line r).bytes = r.elim roleRequest stateRequest ∧
      ixMeaning (line r).words = some (r.elim .role .state) := by
    intro r hr
    have := hn r hr
    rw [hline]
    cases r with
    | inl r => exact roleLine_ok this
    | inr r => exact stateLine_ok this
  have e : (rs.flatMap fun r => r.elim roleRequest stateRequest) = (rs.map line).flatMap (·.bytes) ++ [] := by
    rw [List.append_nil, List.flatMap_map]
    clear hn
    induction rs with
    | nil => rfl
    | cons r rs ih =>
      rw [List.flatMap_cons, List.flatMap_cons, (ok r (by simp)).2.1, ih fun r hr => ok r (by simp [hr])]
  have hs := C78_session_partial B first q w hf hq hw (rs.map line) (by
    intro l hl
    obtain ⟨r, hr, rfl⟩ := List.mem_map.1 hl
    refine ⟨(ok r hr).1, fun h => ?_⟩
    rw [(ok r hr).2.2] at h
    cases h) [] (by simp) st
  rw [← e] at hs
  simp only [hs, List.map_map]
  have ok' := fun r hr => (ok r hr).2.2
  clear hs e ok hn
  induction rs generalizing st with
  | nil => exact ⟨rfl, rfl, by simp [ixMeant], rfl, rfl⟩
  | cons r rs ih =>
    have hm := ok' r (by simp)
    cases r with
    | inl r =>
      obtain ⟨i1, i2, i3, i4, i5⟩ := ih (B.role st r).1 fun r hr => ok' r (by simp [hr])
      simp only [Sum.elim_inl] at hm
      simp only [List.map_cons, Function.comp, ixMeant, hm, ixPerform, ha]
      simp only [reduceCtorEq, Bool.false_eq_true, or_self, if_false, IxTalk.after]
      refine ⟨i1, by simp [i2], ?_, by simp [i4], i5⟩
      intro x hx
      rcases List.mem_append.1 hx with hx | hx
      · rw [List.mem_singleton.1 hx]; exact ⟨_, rfl⟩
      · exact i3 x hx
    | inr r =>
      obtain ⟨i1, i2, i3, i4, i5⟩ := ih (B.state st r).1 fun r hr => ok' r (by simp [hr])
      simp only [Sum.elim_inr] at hm
      simp only [List.map_cons, Function.comp, ixMeant, hm, ixPerform, ha]
      simp only [reduceCtorEq, Bool.false_eq_true, or_self, if_false, IxTalk.after]
      refine ⟨i1, by simp [i2], ?_, by simp [i4], i5⟩
      intro x hx
      rcases List.mem_append.1 hx with hx | hx
      · rw [List.mem_singleton.1 hx]; exact ⟨_, rfl⟩
      · exact i3 x hx

example : serveIx (IxHost.back (fun _ p => p.toInt.toNat) (fun _ => ([], 0)) ⟨1024, .simple, .modular, 1, 4096⟩
      (fun _ => []) []) (List.replicate 1024 0) (List.replicate 1024 0) (List.replicate 8192 0) ⟨.init, []⟩
      (stateRequest ⟨ascii "db1", 12121, .down⟩) =
    ⟨⟨.init, []⟩, [(.state ⟨ascii "db1", 12121, .down⟩, .ended false)],
      ascii "SERVER_ERROR failed to set state\r\n", .closed⟩ := by decide +kernel

/-- The answer to a command that is carried out or not tells which: a client reads OK if and only if it was. -/
theorem C78_told (r : IxReq) (ok : Bool) (q rest : Bytes) (hq : 32 ≤ q.length) :
    ∃ m, readResponse q (ixAnswer r (.ended ok) ++ rest) =
      .ok ((if ok then .ok else match r with | .kill _ => .clientError | _ => .serverError, m), rest) ∧
      (ok = false → m = r.failure) := by
  cases ok with
  | true => refine ⟨[], ?_, fun h => by cases h⟩; exact C59_answer (.inl (by decide)) ⟨by simp, by simp⟩ hq
  | false =>
    have hp : PlainMessage r.failure := by
      cases r <;> simp only [IxReq.failure] <;> exact ⟨by decide, by decide⟩
    refine ⟨r.failure, ?_, fun _ => rfl⟩
    simp only [ixAnswer, Bool.false_eq_true, if_false]
    refine C59_answer (.inl ?_) hp hq
    cases r <;> simp

/-- The commands that may fail. -/
def IxReq.kind : IxReq → Nat
  | .add _ _ => 1
  | .remove _ _ => 2
  | .role _ => 3
  | .state _ => 4
  | .shutdown _ _ => 5
  | .kill _ => 6
  | _ => 0

/-- The words of a failure say which command has failed. -/
theorem C78_failure_told (r r' : IxReq) (h : r.failure = r'.failure) : r.kind = r'.kind := by
  cases r <;> cases r' <;> first
    | rfl
    | (simp only [IxReq.failure] at h; exact absurd h (by decide))

/-- Every command is answered, but a `verbosity` for which no answer is wanted. -/
theorem C78_answered {σ : Type} (B : IxBack σ) (st : σ) (r : IxReq) :
    ixAnswer r (ixPerform B st r).2 = [] ↔ ∃ l, r = .verbosity l true := by
  have line : ∀ (t : OpResult) (m : Bytes), resultLine t m ≠ [] := fun t m h => by
    unfold resultLine at h
    split at h <;> simp [crlf] at h
  have tail : ∀ (a : Bytes) (t : OpResult) (m : Bytes), a ++ resultLine t m ≠ [] := fun a t m h =>
    line t m (List.append_eq_nil_iff.1 h).2
  constructor
  · intro h
    cases r with
    | add n p =>
      simp only [ixPerform] at h
      cases e : B.add st n p with
      | mk t b =>
        rw [e] at h
        cases b
        · exact absurd h (line _ _)
        · exact absurd h (tail _ _ _)
    | remove n p => simp only [ixPerform] at h; cases hb : (B.remove st n p).2 <;> rw [hb] at h <;> exact absurd h (line _ _)
    | role n => simp only [ixPerform] at h; cases hb : (B.role st n).2 <;> rw [hb] at h <;> exact absurd h (line _ _)
    | state n => simp only [ixPerform] at h; cases hb : (B.state st n).2 <;> rw [hb] at h <;> exact absurd h (line _ _)
    | shutdown n p => simp only [ixPerform] at h; cases hb : (B.shutdown st n p).2 <;> rw [hb] at h <;> exact absurd h (line _ _)
    | kill n => simp only [ixPerform] at h; cases hb : (B.kill st n).2 <;> rw [hb] at h <;> exact absurd h (line _ _)
    | metaInfo => simp [ixPerform, ixAnswer, metaAnswer, crlf] at h
    | stats k => exact absurd h (tail _ _ _)
    | «variables» => exact absurd h (tail _ _ _)
    | ping => simp only [ixPerform] at h; cases hb : (B.status st).2 <;> rw [hb] at h <;> exact absurd h (line _ _)
    | version => exact absurd h (by simp only [ixPerform, ixAnswer]; decide +kernel)
    | verbosity l n =>
      cases n with
      | true => exact ⟨l, rfl⟩
      | false => exact absurd h (line _ _)
    | quit => exact absurd h (line _ _)
  · rintro ⟨l, rfl⟩; rfl

/-! ### Examples -/

/-- Nodes by their ports, and an index server with nothing else to tell. -/
def smallHost : IxBack IxHost :=
  IxHost.back (fun _ p => p.toInt.toNat) (fun k => (ascii "h", Int32.ofNat k)) ⟨1024, .simple, .modular, 1, 4096⟩
    (fun _ => []) []

/-- A session of an operator who sets up a partition, as it is typed. -/
def setUp : Bytes :=
  ascii "node add h 1\r\nnode  add h 2 \nnode role h 1 master 1 0\r\nnode role h 2 slave 1 0\r\n" ++
  ascii "node state h 2 active\r\nnode role h 2 slave 100\r\nnod\r\nquit\r\nnode remove h 2\r\n"

def small1 : Bytes := List.replicate 1024 0
def small8 : Bytes := List.replicate 8192 0

example : let t := serveIx smallHost small1 small1 small8 ⟨.init, []⟩ setUp
    t.st.ix.nodes.map (fun e => (e.1, e.2.role, e.2.state, e.2.balance)) =
      [(1, .master, .active, 1), (2, .slave, .active, 100)] ∧
    t.out = ascii "NODE h 1 2 0 -1 0 16\r\nEND\r\nNODE h 1 2 0 -1 0 16\r\nNODE h 2 2 0 -1 0 17\r\nEND\r\n" ++
      ascii "OK\r\nOK\r\nOK\r\nOK\r\nERROR\r\nEND\r\n" ∧ t.stop = .quit := by decide +kernel

/-- A balance that is mistyped is not refused: the digits in front of the mistake are taken, the partition is not
looked at, and the operator reads OK. -/
theorem C78_typo_taken :
    let t := serveIx smallHost small1 small1 small8 ⟨.init, []⟩
      (ascii "node add h 1\r\nnode role h 1 master 100 0\r\nnode role h 1 master 1O0 0\r\n")
    ixMeaning [ascii "node", ascii "role", ascii "h", ascii "1", ascii "master", ascii "1O0", ascii "0"] = none ∧
    t.did.drop 1 = [(.role ⟨ascii "h", 1, .master, 100, 0⟩, .ended true),
      (.role ⟨ascii "h", 1, .master, 1, -1⟩, .ended true)] ∧
    (mfind t.st.ix.nodes 1).map (·.balance) = some 1 ∧
    t.out.drop 27 = ascii "OK\r\nOK\r\n" := by decide +kernel

/-- Words behind the numbers are not looked at: a request that goes on is carried out. -/
theorem C78_more_taken :
    let t := serveIx smallHost small1 small1 small8 ⟨.init, []⟩
      (ascii "node add h 1\r\nnode role h 1 master 1 0 please do not\r\n")
    ixMeaning [ascii "node", ascii "role", ascii "h", ascii "1", ascii "master", ascii "1", ascii "0", ascii "please",
      ascii "do", ascii "not"] = none ∧
    (mfind t.st.ix.nodes 1).map (·.role) = some .master := by decide +kernel

/-- A port that runs into the state is not refused: a line without a state takes a node down. -/
theorem C78_glued_taken :
    let t := serveIx smallHost small1 small1 small8 ⟨.init, []⟩
      (ascii "node add h 1\r\nnode role h 1 master 1 0\r\nnode state h 1down\r\n")
    ixMeaning [ascii "node", ascii "state", ascii "h", ascii "1down"] = none ∧
    (mfind t.st.ix.nodes 1).map (·.state) = some .down := by decide +kernel

end Flare
