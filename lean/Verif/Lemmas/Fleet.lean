import Verif.Spec.Fleet
import Verif.Props.Forward
import Verif.Props.Session
import Verif.Props.Memory
import Verif.Props.Routing
import Verif.Lemmas.MySql

namespace Flare

/-! ### A write that is handed on -/

/-- The request as the next node has it in hand. -/
def handedOn (F : FleetMap) (j : Journey) (me dst : NodeKey) (r : WriteReq) : WriteReq :=
  arrives (j.clock dst) (HeldOp.forward (F.name me) ⟨r, false⟩)

section
variable {F : FleetMap} {near : NodeKey → NodeKey → Bool} {N : Nat} {nodes : NodeMap}

theorem joinComma_singleton (n : Bytes) : joinComma [n] = n := by simp [joinComma]

theorem forward_encodes (S : Steady F near N nodes) {r : WriteReq} (h : (FleetAsk.write r).Client) (me : NodeKey) :
    ∃ b, encodeWrite (HeldOp.forward (F.name me) ⟨r, false⟩) = some b := by
  obtain ⟨h1, h2, h3, h4, h5, h6⟩ := h
  have hn := (S.names me).2
  have hid : (proxyIdent (r.path ++ [F.name me])).length ≤ 4098 := by
    rw [h2, List.nil_append, proxyIdent, if_neg (by simp), joinComma_singleton]
    simp only [List.length_append, List.length_cons, List.length_nil]
    omega
  have hk := h3.1.2.2
  rw [← Option.isSome_iff_exists]
  simp only [encodeWrite, HeldOp.forward]
  have hs : r.cmd.kind = .store → r.entry.size.toNat ≤ r.entry.data.length := fun hk => by
    have := (h1.2 hk).1
    omega
  cases hc : r.cmd.kind with
  | store => simp only; rw [if_pos ⟨by omega, hs hc⟩]; rfl
  | count => simp only; rw [if_pos (by omega)]; rfl
  | delete => simp only; rw [if_pos (by omega)]; rfl
  | touch => simp only; rw [if_pos (by omega)]; rfl

theorem forward_taken (S : Steady F near N nodes) {r : WriteReq} (h : (FleetAsk.write r).Client) (j : Journey)
    (me dst : NodeKey) : ∃ b, encodeWrite (HeldOp.forward (F.name me) ⟨r, false⟩) = some b ∧
      takeReq (j.clock dst) F.first F.q b = .req (.write (handedOn F j me dst r)) [] := by
  obtain ⟨b, hb⟩ := forward_encodes S h me
  obtain ⟨h1, h2, h3, h4, h5, h6⟩ := h
  refine ⟨b, hb, ?_⟩
  have hp : (SReq.write (HeldOp.forward (F.name me) ⟨r, false⟩)).Proper := by
    refine ⟨h3.1, ?_, h3.2.2.1, h3.2.2.2⟩
    simp only [HeldOp.forward, h2, List.nil_append]
    exact (S.names me).1
  have := takeReq_encode (now := j.clock dst) (first := F.first) (q := F.q) (more := []) S.first S.q hp hb
  rw [List.append_nil] at this
  exact this

/-- Two requests that are the same to a memory. -/
def SameAsk (a a' : MemAsk) : Prop :=
  (∀ now m, memDo now m a' = memDo now m a) ∧ (∀ o, a'.told o = a.told o) ∧ a'.Client ∧ ∀ K, a.Calm K → a'.Calm K

theorem SameAsk.refl {a : MemAsk} (h : a.Client) : SameAsk a a := ⟨fun _ _ => rfl, fun _ => rfl, h, fun _ h => h⟩

theorem handedOn_facts {r : WriteReq} (h : (FleetAsk.write r).Client) (F : FleetMap) (j : Journey) (me dst : NodeKey) :
    let r' := handedOn F j me dst r
    r'.cmd = r.cmd ∧ r'.entry.key = r.entry.key ∧ r'.path = [F.name me] ∧
      r'.entry.option &&& optNoreply = r.entry.option &&& optNoreply ∧ SameAsk (.write r) (.write r') := by
  obtain ⟨h1, h2, h3, h4, h5, h6⟩ := h
  obtain ⟨cmd, path, e, v⟩ := r
  simp only at h1 h2 h3 h4 h5 h6
  subst h2
  have hx : realtime (j.clock dst) e.expire = e.expire := realtime_absolute h4
  have hd : cmd.kind = .store → e.data.take e.size.toNat = e.data := by
    intro hk
    exact List.take_of_length_le (Nat.le_of_eq (h1.2 hk).1)
  have hcl : MemAsk.Client (.write ⟨cmd, [], e, v⟩) := h1
  refine ⟨by cases cmd <;> rfl, by cases cmd <;> rfl, by cases cmd <;> rfl, ?_, ?_, ?_, ?_, ?_⟩
  · cases cmd <;> simp [handedOn, arrives, HeldOp.forward, UInt32.and_assoc]
  · intro now m
    cases cmd <;> first
      | (have hd := hd rfl
         simp only [memDo, handedOn, arrives, HeldOp.forward, hx, hd, memWrite])
      | simp [memDo, handedOn, arrives, HeldOp.forward, hx, memWrite, WriteCmd.kind]
  · intro o
    cases cmd <;> rfl
  · obtain ⟨g1, g2⟩ := h1
    cases cmd <;> first
      | (have hd := hd rfl
         have g2 := g2 rfl
         refine ⟨g1, fun _ => ?_⟩
         simp only [handedOn, arrives, HeldOp.forward, hx, hd]
         exact g2)
      | exact ⟨fun _ => rfl, fun h => nomatch h⟩
      | exact ⟨g1, fun h => nomatch h⟩
  · rintro K ⟨k1, k2⟩
    cases cmd <;> first
      | (refine ⟨k1, fun _ => ?_⟩
         simp only [handedOn, arrives, HeldOp.forward, hx]
         exact k2 rfl)
      | exact ⟨k1, fun h => nomatch h⟩

/-! ### The answer on its way back -/

theorem parseResponse_of {r : OpResult} {m line q : Bytes} (hr : r ≠ .none_ ∨ m = []) (hm : PlainMessage m)
    (hq : q.length = 8192) (hl : readLine (resultLine r m) = some (line, [])) : parseResponse line q = .ok (r, m) := by
  have h := C59_answer (q := q) (rest := []) hr hm (by omega)
  rw [List.append_nil] at h
  simp only [readResponse, hl] at h
  cases hp : parseResponse line q with
  | error f => rw [hp] at h; cases h
  | ok x => rw [hp] at h; simp only [Except.ok.injEq, Prod.mk.injEq, and_true] at h; rw [h]

theorem incrClient_line {r : OpResult} {m q line : Bytes} (hr : r ≠ .none_ ∨ m = []) (hm : PlainMessage m)
    (hq : q.length = 8192) (hl : readLine (resultLine r m) = some (line, []))
    (ht : trimAnswer line ++ [chNl] = line) (hn : lexUnsigned 64 (trimAnswer line) = none) :
    incrClient q (resultLine r m) = .ok (.sent true r m none, []) := by
  have h := parseResponse_of (q := q) hr hm hq hl
  simp only [incrClient, hl, hn, Option.isSome_none, Bool.false_eq_true, if_false, ht, h]


theorem trimAnswer_word {d : Bytes} (hd : ∀ c ∈ d, isDigit c = true) (hne : d ≠ []) : trimAnswer (d ++ [chNl]) = d := by
  have hz : ∀ c ∈ d ++ [chNl], c ≠ 0 := by
    intro c hc
    rcases List.mem_append.1 hc with h | h
    · intro h0; rw [h0] at h; exact absurd (hd 0 h) (by decide)
    · rw [List.mem_singleton] at h; rw [h]; decide
  have hc : cstr (d ++ [chNl]) = d ++ [chNl] := cstr_safe hz
  obtain ⟨c, t, hct⟩ : ∃ c t, d.reverse = c :: t := by
    cases h : d.reverse with
    | nil => exact absurd (List.reverse_eq_nil_iff.1 h) hne
    | cons c t => exact ⟨c, t, rfl⟩
  have hcd : isDigit c = true := hd c (by rw [← List.mem_reverse, hct]; exact List.mem_cons_self)
  have h1 : ¬ (c = chNl ∨ c = chSpace) := by
    rintro (rfl | rfl) <;> exact absurd hcd (by decide)
  have : ((d ++ [chNl]).reverse.dropWhile fun c => decide (c = chNl ∨ c = chSpace)).reverse = d := by
    rw [List.reverse_append, List.reverse_singleton, List.singleton_append, List.dropWhile_cons_of_pos (by decide),
      hct, List.dropWhile_cons_of_neg (by simpa using h1), ← hct, List.reverse_reverse]
  simp only [trimAnswer, hc, this, if_neg hne]

theorem incrClient_number {n : Nat} (hn : n < 2 ^ 64) (q : Bytes) :
    incrClient q (decimal n ++ crlf) = .ok (.sent true .stored (decimal n ++ crlf) none, []) := by
  have hd := decimal_digits n
  have hl : readLine (decimal n ++ crlf) = some (decimal n ++ [chNl], []) := by
    have := readLine_crlf (l := decimal n) (rest := []) (fun c hc h => by
      have := hd c hc; rw [h] at this; exact absurd this (by decide))
    rw [List.append_nil] at this
    exact this
  have hlen := decimal_length_64 hn
  simp only [incrClient, hl, trimAnswer_word hd (decimal_ne_nil n), lexUnsigned_decimal hn, Option.isSome_some, if_true]
  rw [if_pos (by omega), List.take_of_length_le (by rw [List.length_append]; have : crlf.length = 2 := rfl; omega)]

theorem lexUnsigned_digits {d : Bytes} (hd : ∀ c ∈ d, isDigit c = true) (hne : d ≠ []) (hv : decValue d < 2 ^ 64) :
    lexUnsigned 64 d = some (decValue d) := by
  have hu : isUnsignedString d = true := by
    simp only [isUnsignedString, Bool.and_eq_true, List.all_eq_true]
    exact ⟨by cases d with | nil => exact absurd rfl hne | cons => rfl, hd⟩
  cases d with
  | nil => exact absurd rfl hne
  | cons c t =>
    have hc := hd c List.mem_cons_self
    have h1 : c ≠ chMinus := fun h => by rw [h] at hc; exact absurd hc (by decide)
    have h2 : c ≠ chPlus := fun h => by rw [h] at hc; exact absurd hc (by decide)
    simp only [lexUnsigned, lexNumber, if_neg h1, if_neg h2, if_pos hu, if_pos hv]
    rfl

theorem touch_said (s : Store) (env : Env) (e : Entry) (h : (set s env e .ofTouch).2.rc = .ok) :
    (set s env e .ofTouch).2.r = some .touched ∨ (set s env e .ofTouch).2.r = some .notFound := by
  rcases set_cases s env e .ofTouch with ⟨-, -, h1⟩ | ⟨e', ho, -⟩
  · right
    obtain ⟨s1, cur, ex, hcur⟩ : ∃ s1 cur ex, setCurrent s env e .ofTouch = (s1, cur, ex) := ⟨_, _, _, rfl⟩
    simp only [set, hcur] at h h1 ⊢
    cases hc : setCheck (setState env.now .ofTouch cur ex) .ofTouch e.version cur.version with
    | error x =>
      simp only [hc]
      simp only [setCheck, Beh.ofTouch] at hc
      grind
    | ok v =>
      exfalso
      simp only [hc] at h h1
      have ht : Beh.ofTouch.touch = true := rfl
      rw [ht] at h h1
      grind
  · left; rw [ho]; rfl

/-- The number a count has left. -/
theorem cameFrom_count {r : WriteReq} {o : Out} (h : CameFrom (.write r) o) (hk : r.cmd.kind = .count)
    (ht : o.r = some .stored) : ∃ n, n < 2 ^ 64 ∧ o.e.data.take o.e.size.toNat = decimal n ∧
      o.e.size.toNat + 2 < 8192 := by
  obtain ⟨s, env, -, rfl⟩ := h
  have hcall : ∃ i, r.call = .incr r.entry r.value i {} := by
    generalize hx : r.cmd = c at hk
    cases c <;> first | (cases hk; done) | exact ⟨_, by simp only [WriteReq.call, hx]; rfl⟩
  obtain ⟨i, hi⟩ := hcall
  rw [show (MemAsk.write r).cmd = r.call from rfl, hi] at ht ⊢
  simp only [firstSection] at ht ⊢
  rcases incrLocked_cases s env r.entry r.value i {} with ⟨-, h, -⟩ | ⟨raw, -, -, -, -, -, h⟩
  · exact absurd ht h
  · rw [h]
    simp only
    generalize hm : (incrValue _ _ _).toNat = m
    have hlt : m < 2 ^ 64 := by rw [← hm]; exact UInt64.toNat_lt _
    have hl : (decimal m).length ≤ 20 := decimal_length_64 hlt
    have hsz : (UInt64.ofNat (decimal m).length).toNat = (decimal m).length := by
      rw [UInt64.toNat_ofNat']
      exact Nat.mod_eq_of_lt (by omega)
    rw [hsz, List.take_length]
    exact ⟨m, hlt, rfl, by omega⟩

theorem incrClient_said {x : Result} (hx : x ≠ .none_) {q : Bytes} (hq : q.length = 8192) :
    incrClient q (resultLine x.toOp []) = .ok (.sent true x.toOp [] none, []) := by
  cases x <;> first
    | exact absurd rfl hx
    | exact incrClient_line (line := _) (.inr rfl) plainMessage_nil hq (by rfl) (by decide) (by decide)

theorem cameFrom_counted {r : WriteReq} {o : Out} (h : CameFrom (.write r) o) (hk : r.cmd.kind = .count) :
    o.r ≠ some .none_ := by
  obtain ⟨s, env, -, rfl⟩ := h
  have hcall : ∃ i, r.call = .incr r.entry r.value i {} := by
    generalize hx : r.cmd = c at hk
    cases c <;> first | (cases hk; done) | exact ⟨_, by simp only [WriteReq.call, hx]; rfl⟩
  obtain ⟨i, hi⟩ := hcall
  rw [show (MemAsk.write r).cmd = r.call from rfl, hi]
  simp only [firstSection, incrLocked]
  grind

theorem plainMessage_io : PlainMessage (ascii "i/o error") := by
  constructor <;> decide

theorem incrClient_failed {q : Bytes} (hq : q.length = 8192) :
    incrClient q (resultLine .serverError (ascii "i/o error")) =
      .ok (.sent true .serverError (ascii "i/o error") none, []) :=
  incrClient_line (line := _) (.inl (by decide)) plainMessage_io hq (by rfl) (by decide) (by decide)

/-- The answer of the node a write was handed to says to the node that has handed it on what it would say to a
client. -/
theorem write_relayed {w q : Bytes} (hw : w.length = 8192) (hq : q.length = 8192) {r r' : WriteReq} {o : Out} (clk : Int64) (hcmd : r'.cmd = r.cmd)
    (hkey : r'.entry.key = r.entry.key) (hno : r'.entry.option &&& optNoreply = r.entry.option &&& optNoreply)
    (hpk : PlainKey r.entry.key 8192) (hg : r.cmd = .gat → r.entry.option &&& optNoreply = 0)
    (h : CameFrom (.write r') o) (hub : o.rc ≠ .ub) (hsz : o.e.size.toNat + 16384 ≤ intMax)
    (hfail : (MemAsk.write r).told o = .failed → r.entry.option &&& optNoreply = 0 ∧ r.cmd ≠ .gat) :
    ∃ a d, writeAnswer r' (.own o) = some a ∧ writeClient clk w q r a = .ok (d, []) ∧ d.Sound r.cmd ∧
      Did.loud (.write r) (.wrote d) = false ∧
      (r.entry.option &&& optNoreply = 0 → ∀ now, d.reply now r.cmd = (Done.own o).reply now r.cmd) := by
  have hsound : Done.Sound r.cmd (.own o) := by
    obtain ⟨s, env, -, ho⟩ := h
    rw [show (MemAsk.write r').cmd = r'.call from rfl, firstSection_out] at ho
    subst ho
    rw [← hcmd]
    exact C71_own_outcome s env r' hub (fun _ => ⟨by rw [hkey]; exact hpk, hsz⟩)
  by_cases hn : r.entry.option &&& optNoreply = 0
  case neg =>
    have hok : o.rc = .ok := by
      cases hrc : o.rc with
      | ok => rfl
      | ub => exact absurd hrc hub
      | err => exact absurd (hfail (by simp only [MemAsk.told, hrc])).1 hn
    obtain ⟨x, hx, -⟩ := hsound.2 hok
    refine ⟨[], .sent true .none_ [] none, ?_, ?_, ?_, ?_, fun h => absurd h hn⟩
    · simp only [writeAnswer, hok, hx, hno]
      rw [if_pos hn]
    · rw [writeClient, if_neg (fun h => hn (hg h)), if_pos hn]
    · intro _
      rw [if_neg (by simp)]
      exact ⟨.inr rfl, plainMessage_nil, fun _ h => by cases h⟩
    · simp [Did.loud]
  case pos =>
    have hno' : r'.entry.option &&& optNoreply = 0 := by rw [hno]; exact hn
    have hloud : ∀ d, Did.loud (.write r) (.wrote d) = false := by
      intro d; simp [Did.loud, hn]
    cases hrc : o.rc with
    | ub => exact absurd hrc hub
    | err =>
      have hgat := (hfail (by simp only [MemAsk.told, hrc])).2
      refine ⟨resultLine .serverError (ascii "i/o error"), .sent true .serverError (ascii "i/o error") none, ?_, ?_, ?_,
        hloud _, ?_⟩
      · simp only [writeAnswer, hrc]
      · rw [writeClient, if_neg hgat, if_neg (by rw [hn]; simp)]
        by_cases hk : r.cmd.kind = .count
        · rw [if_pos hk, incrClient_failed hq]
        · rw [if_neg hk]
          have := C59_answer (r := .serverError) (q := q) (rest := []) (.inl (by decide)) plainMessage_io
            (by rw [hq]; omega)
          rw [List.append_nil] at this
          rw [this]
      · intro _
        rw [if_neg (by simp)]
        exact ⟨.inl (by decide), plainMessage_io, fun h => absurd h hgat⟩
      · intro _ now
        simp only [Done.reply, hrc]
        rw [if_neg (by simp), if_neg (by simp)]
    | ok =>
      obtain ⟨x, hx, -, hgv⟩ := hsound.2 hrc
      by_cases hc : r.cmd.kind = .count ∧ x = .stored
      · obtain ⟨n, h1, h2, h3⟩ := cameFrom_count h (by rw [hcmd]; exact hc.1) (by rw [hx, hc.2])
        refine ⟨decimal n ++ crlf, .sent true .stored (decimal n ++ crlf) none, ?_, ?_, ?_, hloud _, ?_⟩
        · have hcm : r'.cmd = .incr ∨ r'.cmd = .decr := by
            rw [hcmd]; generalize r.cmd = c at hc; cases c <;> first | (cases hc.1; done) | simp
          simp only [writeAnswer, hrc, hx, hno']
          rw [if_neg (by simp), hc.2]
          rcases hcm with hcm | hcm <;> simp only [sendResult, hcm, Result.toOp] <;> rw [if_pos h3, h2]
        · rw [writeClient, if_neg (by rintro hg; rw [hg] at hc; cases hc.1), if_neg (by rw [hn]; simp), if_pos hc.1,
            incrClient_number h1]
        · intro _
          rw [if_pos ⟨hc.1, rfl⟩]
          exact ⟨decimal n, isUnsigned_decimal n, rfl⟩
        · intro _ now
          simp only [Done.reply, hrc, hx]
          rw [if_pos ⟨hc.1, trivial⟩, if_pos hc, h2]
          have : (decimal n ++ crlf).takeWhile isDigit = decimal n := by
            rw [List.takeWhile_append_of_pos (decimal_digits n)]
            rw [show crlf.takeWhile isDigit = [] by decide, List.append_nil]
          rw [this]
      · by_cases hgat : r.cmd = .gat
        · have hg' : r'.cmd = .gat := by rw [hcmd]; exact hgat
          have hcases : x = .touched ∨ x = .notFound := by
            obtain ⟨s, env, -, ho⟩ := h
            rw [show (MemAsk.write r').cmd = r'.call from rfl, firstSection_out] at ho
            simp only [WriteReq.call, hg', step] at ho
            have := touch_said s env r'.entry (by rw [← ho]; exact hrc)
            rw [← ho, hx] at this
            simpa using this
          rcases hcases with rfl | rfl
          · have hk := cameFrom_gat h hg' hx
            obtain ⟨hp, hv⟩ := hgv hgat rfl
            obtain ⟨b, hb⟩ := Option.isSome_iff_exists.1 hv
            have hcl := C71_gat_forwarded clk w q hw hq r.entry o.e hp (by rw [hk, hkey]) b [] hb
            rw [List.append_nil] at hcl
            refine ⟨b, _, ?_, by rw [writeClient, if_pos hgat, hcl], ?_, hloud _, ?_⟩
            · simp only [writeAnswer, hrc, hx, hno', hg', sendResult, Result.toOp]
              rw [if_neg (by simp)]
              exact hb
            · intro _
              rw [if_neg (by simp)]
              refine ⟨.inr rfl, plainMessage_nil, ?_⟩
              intro _ _ y hy
              cases hy
              refine ⟨hpk, ?_⟩
              simp only [response] at hb ⊢
              split at hb
              case isFalse => cases hb
              case isTrue hc =>
              rw [if_pos ⟨by rw [hk, hkey] at hc; exact hc.1, by simp only [List.length_take]; omega⟩]
              rfl
            · intro _ now
              have hle : o.e.size.toNat ≤ o.e.data.length := by
                simp only [response] at hb
                split at hb
                next h => exact h.2
                · cases hb
              simp only [Done.reply, hrc, hx]
              rw [if_neg (by rw [hgat]; simp [WriteCmd.kind]), if_pos ⟨hgat, trivial⟩,
                if_neg (by simp), if_pos ⟨hgat, trivial⟩]
              simp only [shown, List.take_take, Nat.min_self, hk, hkey]
              simp
          · refine ⟨resultLine .notFound [], .sent true .notFound [] (some r.entry), ?_, ?_, ?_, hloud _, ?_⟩
            · simp only [writeAnswer, hrc, hx, hno', hg', sendResult, Result.toOp]
              rw [if_neg (by simp)]
            · rw [writeClient, if_pos hgat]
              rfl
            · intro _
              rw [if_neg (by simp)]
              exact ⟨.inr rfl, plainMessage_nil, fun _ h => by cases h⟩
            · intro _ now
              simp only [Done.reply, hrc, hx]
              rw [if_neg (by simp), if_neg (by simp), if_neg (by simp), if_neg (by simp)]
              rfl
        · refine ⟨resultLine x.toOp [], .sent true x.toOp [] none, ?_, ?_, ?_, hloud _, ?_⟩
          · simp only [writeAnswer, hrc, hx, hno']
            rw [if_neg (by simp), hcmd]
            generalize r.cmd = c at hc hgat
            cases c <;> first | exact absurd rfl hgat | (cases x <;> first | exact absurd ⟨rfl, rfl⟩ hc | rfl)
          · rw [writeClient, if_neg hgat, if_neg (by rw [hn]; simp)]
            by_cases hk : r.cmd.kind = .count
            · rw [if_pos hk, incrClient_said (fun h' => cameFrom_counted h (by rw [hcmd]; exact hk) (by rw [hx, h'])) hq]
            · rw [if_neg hk]
              have := C59_answer (r := x.toOp) (q := q) (rest := []) (.inr rfl) plainMessage_nil (by rw [hq]; omega)
              rw [List.append_nil] at this
              rw [this]
          · intro _
            rw [if_neg (fun h => hc ⟨h.1, by cases x <;> first | rfl | cases h.2⟩)]
            exact ⟨.inr rfl, plainMessage_nil, fun h => absurd h hgat⟩
          · intro _ now
            simp only [Done.reply, hrc, hx]
            rw [if_neg (fun h => hc ⟨h.1, by cases x <;> first | rfl | cases h.2⟩), if_neg (fun h => hgat h.1),
              if_neg hc, if_neg (fun h => hgat h.1)]

/-! ### A read that is handed on -/

theorem get_taken (S : Steady F near N nodes) {t : ResponseType} (ht : t = .get ∨ t = .gets) {k : Bytes}
    (hk : PlainKey k 8192) (clk : Int64) :
    takeReq clk F.first F.q (getRequest t k) = .req (.get t [k]) [] := by
  have hb : encodeReq (.get t [k]) = some (getRequest t k) := by
    rcases ht with rfl | rfl <;>
      simp [encodeReq, getRequest, cstr_plain hk.word, ascii]
  have := takeReq_encode (now := clk) (first := F.first) (q := F.q) (more := []) (r := .get t [k]) S.first S.q
    ⟨ht, by simp, by simp, by simpa using hk⟩ hb
  rw [List.append_nil] at this
  exact this

theorem read_relayed {w q : Bytes} (hw : w.length = 8192) (hq : q.length = 8192) {t : ResponseType} (ht : t = .get ∨ t = .gets) {k : Bytes}
    (hk : PlainKey k 8192) {o : Out} (h : CameFrom (.read k) o) (hsz : o.e.size.toNat + 16384 ≤ intMax) (clk : Int64) :
    ∃ b g, getServe t [(k, .here o)] = some b ∧ askOther clk w q k [⟨b, false⟩] = (.done, g, []) ∧
      (ReadAt.asked g).found = (ReadAt.here o).found.map (shown t clk) := by
  have hs : ∀ b, sendSlot t (ownSlot k (.here o)) = some b → getServe t [(k, .here o)] = some (b ++ (strEnd ++ crlf)) := by
    intro b hb
    simp [getServe, sendAll, askedFor, askedMap, hb]
  by_cases hf : o.rc = .ok ∧ o.r = some .none_
  · obtain ⟨hkey, hlen⟩ := cameFrom_read h hf.2
    have hr : (response t o.e).isSome := by
      have := hk.2.2
      simp only [response, hkey]
      rw [if_pos ⟨by omega, by omega⟩]
      rfl
    obtain ⟨b, hb⟩ := Option.isSome_iff_exists.1 hr
    refine ⟨b ++ (strEnd ++ crlf), { e := shown t clk o.e, avail := true }, hs b ?_, ?_, ?_⟩
    · rw [sendSlot, if_pos (by simp [ownSlot, hf])]; exact hb
    · have := C64_forwarded t clk w q hw hq k [] [] (by simp [maxRetry]) (by simp) o.e hkey hk b [] hb false
      rw [List.append_nil] at this
      exact this
    · simp [ReadAt.found, hf]
  · refine ⟨[] ++ (strEnd ++ crlf), { e := { key := k } }, hs [] ?_, ?_, ?_⟩
    · rw [sendSlot, if_neg (by simpa [ownSlot] using hf)]
    · have : ∃ n, maxRetry = n + 1 := ⟨_, rfl⟩
      obtain ⟨n, hn⟩ := this
      have := getClient_end (now := clk) (w := w) (q := q) (more := []) (g := { e := { key := k } })
        (n := (strEnd ++ crlf).length)
      rw [List.append_nil] at this
      simp only [askOther, hn, getTries, List.nil_append]
      rw [this]
    · simp [ReadAt.found, hf]

theorem shown_twice {t : ResponseType} (ht : t ≠ .dump) (now clk : Int64) (e : Entry) :
    shown t now (shown t clk e) = shown t now e := by
  simp only [shown, List.take_take, Nat.min_self, if_neg ht]
  split <;> simp_all

/-! ### Where requests go -/

/-- The partition of a key, and its master. -/
theorem Steady.home (S : Steady F near N nodes) (k : Bytes) : ∃ p : Nat, resolve F.kr (F.hash k) N = some p ∧ p < N ∧
    ∀ m, homeOf F N nodes k = some m ↔ Leads nodes p m := by
  obtain ⟨h1, h2, h3, h4⟩ := S.routable k
  obtain ⟨p, hp, hlt⟩ := C18_in_range h1 h2 S.some_part (by omega : N < F.kr.size) h4
  refine ⟨p, hp, hlt, fun m => ?_⟩
  have := (S.agree.good m).leads_head p m
  rw [S.agree.same] at this
  rw [← this, homeOf, hp]
  rfl

/-- Not the master of any partition. -/
def NoHome (nodes : NodeMap) (k : NodeKey) : Prop := ∀ p, ¬ Leads nodes p k

/-- A copy on its way to a node that keeps copies of its key. -/
def CopyHomeless (F : FleetMap) (N : Nat) (nodes : NodeMap) (x : NodeKey × WriteReq) : Prop :=
  x.2.path ≠ [] ∧ ∃ p : Nat, resolve F.kr (F.hash x.2.entry.key) N = some p ∧ p < N ∧
    (Follows nodes p x.1 ∨ (Moving F.kr N nodes (F.hash x.2.entry.key) ∧ (Prepares nodes x.1 ∨ Follows nodes N x.1)))

theorem CopyHomeless.noHome {x : NodeKey × WriteReq} (h : CopyHomeless F N nodes x) : NoHome nodes x.1 := by
  obtain ⟨-, p, -, -, h | ⟨-, h | h⟩⟩ := h
  · exact fun q => (follows_not_leads h).1
  · exact fun q hq => leads_not_prepares hq h
  · exact fun q => (follows_not_leads h).1

theorem out_key {r : WriteReq} {o : Out} (h : CameFrom (.write r) o) (hc : r.cmd.copies o.r = true) :
    o.e.key = r.entry.key := by
  obtain ⟨s, env, -, rfl⟩ := h
  rw [show (MemAsk.write r).cmd = r.call from rfl] at hc ⊢
  have hset : ∀ b, (set s env r.entry b).2.r = some .stored ∨ (set s env r.entry b).2.r = some .touched →
      (set s env r.entry b).2.e.key = r.entry.key := by
    intro b h
    rcases set_cases s env r.entry b with ⟨-, h1, h2⟩ | ⟨e', ho, hk, -⟩
    · rcases h with h | h
      · exact absurd h h1
      · exact absurd h h2
    · rw [ho]; exact hk
  have hincr : ∀ i, (incrLocked s env r.entry r.value i {}).2.1.r = some .stored →
      (incrLocked s env r.entry r.value i {}).2.1.e.key = r.entry.key := by
    intro i h
    rcases incrLocked_cases s env r.entry r.value i {} with ⟨-, h1, -⟩ | ⟨raw, -, -, -, -, -, ho⟩
    · exact absurd h h1
    · rw [ho]
  cases hcmd : r.cmd <;> rw [hcmd] at hc <;> simp only [WriteReq.call, hcmd] at hc ⊢ <;>
    simp only [WriteCmd.copies, firstSection, step, Bool.or_eq_true, beq_iff_eq] at hc ⊢ <;>
    first
      | exact hset _ hc
      | exact hincr _ hc
      | exact remove_key _ _ _ _

theorem copies_ok (S : Steady F near N nodes) (j : Journey) (me : NodeKey) {r : WriteReq} {o : Out}
    (h : CameFrom (.write r) o) : ∀ x ∈ fleetCopies F j me r o, CopyHomeless F N nodes x := by
  intro x hx
  simp only [fleetCopies, copyOf] at hx
  by_cases hc : r.cmd.copies o.r = true
  · simp only [hc, if_true] at hx
    obtain ⟨p, hp, hlt, -⟩ := S.home r.entry.key
    obtain ⟨l, hl, -, hm⟩ := C32_copies (S.agree.good me) (r.routed F.key F.hash) (S.routable _) hp hlt me (j.room me)
    rw [hl, Option.getD_some, List.mem_map] at hx
    obtain ⟨k, hk, rfl⟩ := hx
    have hk := (hm k).1 (List.mem_filter.1 hk).1
    rw [S.agree.same] at hk
    have hkey := out_key h hc
    refine ⟨by simp, p, by simp only [hkey]; exact hp, hlt, ?_⟩
    simp only [hkey]
    rcases hk.2 with ⟨-, h | h⟩ | ⟨-, h1, -, h2⟩
    · exact .inl h
    · exact .inr ⟨h.1, .inl h.2⟩
    · exact .inr ⟨h1, .inr h2⟩
  · simp only [hc] at hx
    cases hx

/-- Thread `c` of node `m` makes a call, and some copies set out. -/
def Fleet.ran (f : Fleet) (m : NodeKey) (c : Nat) (env : Env) (cmd : Cmd) (cps : List (NodeKey × WriteReq)) : Fleet :=
  { f.put m (Shared.setDue { f.node m with store := (firstSection (f.node m).store env cmd).1 } c
      (firstSection (f.node m).store env cmd).2.2) with copies := f.copies ++ cps }

theorem fleetCall_none {f : Fleet} {m : NodeKey} {c : Nat} {env : Env} {cmd : Cmd} (h : (f.node m).due c = none) :
    fleetCall f m c env cmd = some (f.ran m c env cmd [], (firstSection (f.node m).store env cmd).2.1) := by
  simp only [fleetCall, h, Fleet.ran, List.append_nil, Fleet.put]

theorem fleetCall_some {f : Fleet} {m : NodeKey} {c : Nat} {env : Env} {cmd : Cmd} {e : Entry}
    (h : (f.node m).due c = some e) : fleetCall f m c env cmd = none := by
  simp only [fleetCall, h]

/-- A write that is carried out where it arrives. -/
theorem fleetWrite_execute {j : Journey} {c n : Nat} {me : NodeKey} {r : WriteReq} {f : Fleet}
    (h : preWrite F.kr me (F.views me) (j.room me) (r.routed F.key F.hash) = .execute) :
    (fleetWrite F j c (n + 1) me r f = .busy ∧ (f.node me).due c ≠ none) ∨
    ((f.node me).due c = none ∧ fleetWrite F j c (n + 1) me r f =
      .went (f.ran me c j.env r.call (fleetCopies F j me r (firstSection (f.node me).store j.env r.call).2.1))
        (some (me, (firstSection (f.node me).store j.env r.call).2.1))
        (some (.own (firstSection (f.node me).store j.env r.call).2.1))) := by
  cases hd : (f.node me).due c with
  | some e =>
    left
    refine ⟨?_, by simp⟩
    rw [fleetWrite]
    simp only [h, fleetCall_some hd]
  | none =>
    right
    refine ⟨rfl, ?_⟩
    rw [fleetWrite]
    simp only [h, fleetCall_none hd]
    simp only [Fleet.ran, List.append_nil]

/-- What a write should tell the client, by the outcome at the storage. -/
theorem own_told {r r' : WriteReq} {o : Out} (hcmd : r'.cmd = r.cmd) (hkey : r'.entry.key = r.entry.key)
    (hpk : PlainKey r.entry.key 8192) (h : CameFrom (.write r') o) (hub : o.rc ≠ .ub)
    (hsz : o.e.size.toNat + 16384 ≤ intMax) (now : Int64) (hn : r.entry.option &&& optNoreply = 0) :
    Done.Sound r.cmd (.own o) ∧
    (Done.own o).reply now r.cmd = (SReq.write r).told now [(MemAsk.write r).told o] := by
  have hsound : Done.Sound r.cmd (.own o) := by
    obtain ⟨s, env, -, ho⟩ := h
    rw [show (MemAsk.write r').cmd = r'.call from rfl, firstSection_out] at ho
    subst ho
    rw [← hcmd]
    exact C71_own_outcome s env r' hub (fun _ => ⟨by rw [hkey]; exact hpk, hsz⟩)
  refine ⟨hsound, ?_⟩
  have hs : (SReq.write r).silent = false := by simp [SReq.silent, hn]
  simp only [SReq.told, hs, Bool.false_eq_true, if_false, Done.reply, MemAsk.told]
  cases hrc : o.rc with
  | ub => exact absurd hrc hub
  | err => rfl
  | ok =>
    obtain ⟨y, hy, -, hv⟩ := hsound.2 hrc
    simp only [hy]
    by_cases g1 : r.cmd.kind = .count ∧ y = .stored
    · rw [if_pos g1, if_pos g1]
    · rw [if_neg g1, if_neg g1]
      by_cases g2 : r.cmd = .gat ∧ y = .touched
      · rw [if_pos g2, if_pos g2]
        have hk := cameFrom_gat h (by rw [hcmd]; exact g2.1) (by rw [hy, g2.2])
        have hsv := (hv g2.1 g2.2).2
        have hle : o.e.size.toNat ≤ o.e.data.length := by
          simp only [response] at hsv
          split at hsv
          next h => exact h.2
          · cases hsv
        rw [shown_item (by decide) hle, hk, hkey]
      · rw [if_neg g2, if_neg g2]

/-- The end of a request at the node of the client says what the memory says. -/
def DoneFit (a : FleetAsk) (t : MemTold) : FleetDone → Prop
  | .wrote d => ∃ r, a = .write r ∧ d.Sound r.cmd ∧ Did.loud (.write r) (.wrote d) = false ∧
      (r.entry.option &&& optNoreply = 0 → ∀ now, (d.reply now r.cmd).bare = ((SReq.write r).told now [t]).bare)
  | .got x => ∃ ty k, a = .read ty k ∧ (∀ e, x.found = some e → SoundValue ty e) ∧
      ∀ now, x.found.map (shown ty now) = match t with
        | .value it => some (shown ty now (it.entry k))
        | _ => none
  | .flushed _ => False

/-- No undefined behaviour, values that can be sent, no failure where the client would not learn of it. -/
def OutFit (a : FleetAsk) (o : Out) : Prop :=
  o.rc ≠ .ub ∧ o.e.size.toNat + 16384 ≤ intMax ∧
    ∀ r, a = .write r → a.mem.told o = .failed → r.entry.option &&& optNoreply = 0 ∧ r.cmd ≠ .gat

def FleetAsk.key : FleetAsk → Bytes
  | .write r => r.entry.key
  | .read _ k => k
  | .clear => []

/-- What becomes of the request of a client. -/
def AskSpec (F : FleetMap) (N : Nat) (nodes : NodeMap) (f : Fleet) (c : Nat) (env : Env) (a : FleetAsk)
    (x : Fate FleetDone) : Prop :=
  x = .busy ∨
  (∃ d, x = .went f none (some d) ∧
    ((∃ r, a = .write r ∧ d = .wrote .noQueue) ∨ ∃ t k, a = .read t k ∧ d = .got .refused)) ∨
  ∃ m a' cps d, homeOf F N nodes a.key = some m ∧ SameAsk a.mem a' ∧ (f.node m).due c = none ∧
    (∀ x ∈ cps, CopyHomeless F N nodes x) ∧
    x = .went (f.ran m c env a'.cmd cps) (some (m, (firstSection (f.node m).store env a'.cmd).2.1)) d ∧
    (OutFit a (firstSection (f.node m).store env a'.cmd).2.1 → ∃ d', d = some d' ∧
      DoneFit a (a.mem.told (firstSection (f.node m).store env a'.cmd).2.1) d')

theorem write_spec (S : Steady F near N nodes) {f : Fleet} (hok : ∀ k, (f.node k).store.Ok) (c : Nat) (j : Journey)
    {r : WriteReq} (h : (FleetAsk.write r).Client) :
    AskSpec F N nodes f c j.env (.write r) (fleetAsk F f c j (.write r)) := by
  obtain ⟨p, hp, hlt, hhome⟩ := S.home r.entry.key
  obtain ⟨me, hme⟩ : ∃ me, me = F.conn c := ⟨_, rfl⟩
  have hcl := h
  obtain ⟨h1, h2, h3, h4, h5, h6⟩ := h
  obtain ⟨d1, d2, d3⟩ := C29_decision (S.agree.good me) (r.routed F.key F.hash) (S.routable _) hp hlt me (j.room me)
  rw [S.agree.same] at d1 d2 d3
  have hpx : (r.routed F.key F.hash).proxied = false := by simp [WriteReq.routed, h2]
  have hE : Executes F.kr N nodes p me (r.routed F.key F.hash) ↔ Leads nodes p me := by
    simp [Executes, hpx]
  rw [hE] at d1
  simp only [hE] at d2 d3
  simp only [fleetAsk, fleetHops, ← hme]
  by_cases hL : Leads nodes p me
  · rcases fleetWrite_execute (c := c) (n := 2) (f := f) (d1.2 hL) with ⟨hb, -⟩ | ⟨hdue, he⟩
    · left; rw [hb]; rfl
    · right; right
      have hcf : CameFrom (.write r) (firstSection (f.node me).store j.env r.call).2.1 := ⟨_, _, hok me, rfl⟩
      rw [he]
      refine ⟨me, .write r, _, _, (hhome me).2 hL, .refl h1, hdue, copies_ok S j me hcf, rfl, ?_⟩
      · rintro ⟨o1, o2, o3⟩
        refine ⟨_, rfl, r, rfl, ?_⟩
        have hsnd : Done.Sound r.cmd (.own (firstSection (f.node me).store j.env r.call).2.1) := by
          rw [show (MemAsk.write r).cmd = r.call from rfl, firstSection_out] at o1 o2
          rw [firstSection_out]
          exact C71_own_outcome _ _ r o1 (fun _ => ⟨h3.1, o2⟩)
        refine ⟨hsnd, ?_, fun hn now => ?_⟩
        · cases hrc : (firstSection (f.node me).store j.env r.call).2.1.rc with
          | ub => exact absurd hrc o1
          | ok => simp [Did.loud, hrc]
          | err =>
            have := (o3 r rfl (by
              simp only [FleetAsk.mem, MemAsk.told]
              rw [show (MemAsk.write r).cmd = r.call from rfl, hrc])).1
            simp [Did.loud, this]
        · rw [(own_told rfl rfl h3.1 hcf o1 o2 now hn).2]
          rfl
  · by_cases hm : ∃ m, Leads nodes p m ∧ j.room me m = true
    · obtain ⟨m, hm1, hm2⟩ := hm
      have hfw := (d2 m).2 ⟨hL, hm1, hm2⟩
      obtain ⟨b, hb1, hb2⟩ := forward_taken S hcl j me m
      obtain ⟨r', hr'⟩ : ∃ r', r' = handedOn F j me m r := ⟨_, rfl⟩
      obtain ⟨k1, k2, k3, k4, k5⟩ := handedOn_facts hcl F j me m
      simp only [← hr'] at hb2 k1 k2 k3 k4 k5
      have hex : preWrite F.kr m (F.views m) (j.room m) (r'.routed F.key F.hash) = .execute := by
        have := (C29_decision (S.agree.good m) (r'.routed F.key F.hash) (S.routable _)
          (p := p) (by simp only [WriteReq.routed, k2]; exact hp) hlt m (j.room m)).1.2
        rw [S.agree.same] at this
        exact this (.inl hm1)
      rw [fleetWrite]
      simp only [hfw, hb1, hb2]
      rcases fleetWrite_execute (c := c) (n := 1) (f := f) hex with ⟨hb, -⟩ | ⟨hdue, he⟩
      · left; rw [hb]; rfl
      · right; right
        have hcf : CameFrom (.write r') (firstSection (f.node m).store j.env r'.call).2.1 := ⟨_, _, hok m, rfl⟩
        rw [he]
        refine ⟨m, .write r', _, _, (hhome m).2 hm1, k5, hdue, copies_ok S j m hcf, rfl, ?_⟩
        rintro ⟨o1, o2, o3⟩
        obtain ⟨o, ho⟩ : ∃ o, o = (firstSection (f.node m).store j.env r'.call).2.1 := ⟨_, rfl⟩
        rw [show (MemAsk.write r').cmd = r'.call from rfl, ← ho] at o1 o2 o3 ⊢
        rw [← ho] at hcf
        obtain ⟨a, d, e1, e2, e3, e4, e5⟩ := write_relayed S.w S.q (j.clock me) k1 k2 k4 h3.1 h6 hcf o1 o2 (o3 r rfl)
        simp only [← ho, Option.bind_some, e1, e2, Option.map_some]
        refine ⟨_, rfl, r, rfl, e3, e4, fun hn now => ?_⟩
        rw [e5 hn now, (own_told k1 k2 h3.1 hcf o1 o2 now hn).2]
        rfl
    · have hno : ∀ m, Leads nodes p m → j.room me m = false := fun m hl => by
        cases hx : j.room me m with
        | false => rfl
        | true => exact absurd ⟨m, hl, hx⟩ hm
      have := d3.2 ⟨hL, hno⟩
      right; left
      refine ⟨.wrote .noQueue, ?_, .inl ⟨r, rfl, rfl⟩⟩
      rw [fleetWrite]
      simp only [this]
      rfl

/-- A value that was read, as the memory says it. -/
theorem read_told {t : ResponseType} (ht : t = .get ∨ t = .gets) {k : Bytes} (hk : PlainKey k 8192) {o : Out}
    (h : CameFrom (.read k) o) (hsz : o.e.size.toNat + 16384 ≤ intMax) :
    (∀ e, (ReadAt.here o).found = some e → SoundValue t e) ∧
    ∀ now, (ReadAt.here o).found.map (shown t now) = match (MemAsk.read k).told o with
      | .value it => some (shown t now (it.entry k))
      | _ => none := by
  have htd : t ≠ .dump := by rcases ht with h | h <;> rw [h] <;> decide
  by_cases hf : o.rc = .ok ∧ o.r = some .none_
  · obtain ⟨hkey, hlen⟩ := cameFrom_read h hf.2
    have hfo : (ReadAt.here o).found = some o.e := by simp [ReadAt.found, hf]
    rw [hfo]
    refine ⟨?_, fun now => ?_⟩
    · intro e he
      cases he
      refine ⟨by rw [hkey]; exact hk, ?_⟩
      have := hk.2.2
      simp only [response, hkey]
      rw [if_pos ⟨by omega, by omega⟩]
      rfl
    · simp only [MemAsk.told, hf.1, hf.2, Option.map_some]
      rw [shown_item htd (by omega), hkey]
  · have hfo : (ReadAt.here o).found = none := by simp [ReadAt.found, hf]
    rw [hfo]
    refine ⟨fun e he => (by cases he), fun now => ?_⟩
    cases ht : (MemAsk.read k).told o with
    | value it =>
      exfalso
      simp only [MemAsk.told] at ht
      split at ht
      next h1 h2 => exact hf ⟨h1, h2⟩
      · cases ht
      · cases ht
    | _ => rfl

theorem read_spec (S : Steady F near N nodes) {f : Fleet} (hok : ∀ k, (f.node k).store.Ok) (c : Nat) (j : Journey)
    {t : ResponseType} {k : Bytes} (h : (FleetAsk.read t k).Client) :
    AskSpec F N nodes f c j.env (.read t k) (fleetAsk F f c j (.read t k)) := by
  obtain ⟨p, hp, hlt, hhome⟩ := S.home k
  obtain ⟨me, hme⟩ : ∃ me, me = F.conn c := ⟨_, rfl⟩
  obtain ⟨ht, hk⟩ := h
  have htd : t ≠ .dump := by rcases ht with h | h <;> rw [h] <;> decide
  have serves : ∀ x, Serves nodes p x → Leads nodes p x := by
    rintro x (h | ⟨n, h1, h2, h3, h4, h5⟩)
    · exact h
    · have := S.masters_only p x n h1 h2 h3 h4; omega
  obtain ⟨d1, d2, d3, d4⟩ := C30_target (S.agree.good me) hp hlt me (j.room me)
  rw [S.agree.same] at d1 d2 d3
  have here : ∀ (x : NodeKey) (n : Nat), Leads nodes p x →
      preRead F.kr x (F.views x) (j.room x) (j.rnd x) (F.hash k) = .serve := by
    intro x n hx
    have := (C30_target (S.agree.good x) hp hlt x (j.room x)).1 (j.rnd x)
    rw [S.agree.same] at this
    exact this.2 (.inl hx)
  simp only [fleetAsk, fleetHops, ← hme]
  cases hpre : preRead F.kr me (F.views me) (j.room me) (j.rnd me) (F.hash k) with
  | ub => exact absurd hpre (d4 _)
  | errPartition =>
    right; left
    refine ⟨.got .refused, ?_, .inr ⟨t, k, rfl, rfl⟩⟩
    rw [fleetRead]; simp only [hpre]; rfl
  | errEnqueue =>
    right; left
    refine ⟨.got .refused, ?_, .inr ⟨t, k, rfl, rfl⟩⟩
    rw [fleetRead]; simp only [hpre]; rfl
  | serve =>
    have hL := serves me ((d1 _).1 hpre)
    rw [fleetRead]
    simp only [hpre]
    cases hd : (f.node me).due c with
    | some e => left; simp only [fleetCall_some hd]; rfl
    | none =>
      right; right
      simp only [fleetCall_none hd]
      have hcf : CameFrom (.read k) (firstSection (f.node me).store j.env (MemAsk.read k).cmd).2.1 :=
        ⟨_, _, hok me, rfl⟩
      refine ⟨me, .read k, [], _, (hhome me).2 hL, .refl trivial, hd, by simp, rfl, ?_⟩
      rintro ⟨-, o2, -⟩
      exact ⟨_, rfl, t, k, rfl, read_told ht hk hcf o2⟩
  | forward m =>
    obtain ⟨hS, hE, -⟩ := (d2 m).1 ⟨_, hpre⟩
    have hL := serves m (readable_serves hE.1)
    rw [fleetRead]
    simp only [hpre, get_taken S ht hk]
    rw [fleetRead]
    simp only [here m 0 hL]
    cases hd : (f.node m).due c with
    | some e => left; simp only [fleetCall_some hd]; rfl
    | none =>
      right; right
      simp only [fleetCall_none hd]
      have hcf : CameFrom (.read k) (firstSection (f.node m).store j.env (MemAsk.read k).cmd).2.1 :=
        ⟨_, _, hok m, rfl⟩
      refine ⟨m, .read k, [], _, (hhome m).2 hL, .refl trivial, hd, by simp, rfl, ?_⟩
      rintro ⟨-, o2, -⟩
      obtain ⟨b, g, e1, e2, e3⟩ := read_relayed S.w S.q ht hk hcf o2 (j.clock me)
      rw [show (MemAsk.read k).cmd = Cmd.get { key := k } {} from rfl] at e1 e3 hcf o2 ⊢
      obtain ⟨g1, g2⟩ := read_told ht hk hcf o2
      simp only [Option.bind_some, e1, e2, Option.map_some]
      refine ⟨_, rfl, t, k, rfl, ?_, fun now => ?_⟩
      · intro e he
        rw [e3] at he
        cases hf : (ReadAt.here (firstSection (f.node m).store j.env (.get { key := k } {})).2.1).found with
        | none => rw [hf] at he; cases he
        | some x =>
          rw [hf] at he
          cases he
          obtain ⟨q1, q2⟩ := g1 x hf
          refine ⟨q1, ?_⟩
          simp only [response] at q2 ⊢
          split at q2
          case isFalse => cases q2
          case isTrue hc =>
          rw [if_pos ⟨hc.1, by simp only [shown, List.length_take]; omega⟩]
          rfl
      · rw [e3, Option.map_map]
        have : (shown t now ∘ shown t (j.clock me)) = shown t now := by
          funext e; exact shown_twice htd now _ e
        rw [this]
        exact g2 now

theorem ask_spec (S : Steady F near N nodes) {f : Fleet} (hok : ∀ k, (f.node k).store.Ok) (c : Nat) (j : Journey)
    {a : FleetAsk} (h : a.Client) : AskSpec F N nodes f c j.env a (fleetAsk F f c j a) := by
  cases a with
  | write r => exact write_spec S hok c j h
  | read t k => exact read_spec S hok c j h
  | clear => exact h.elim

/-! ### The memory of the cluster -/

/-- All stores are whole, and all copies are on their way to nodes that keep them. -/
def FleetInv (F : FleetMap) (N : Nat) (nodes : NodeMap) (f : Fleet) : Prop :=
  (∀ k, (f.node k).store.Ok) ∧ ∀ x ∈ f.copies, CopyHomeless F N nodes x

theorem ran_inv {f : Fleet} (h : FleetInv F N nodes f) (m : NodeKey) (c : Nat) (env : Env) (cmd : Cmd)
    {cps : List (NodeKey × WriteReq)} (hc : ∀ x ∈ cps, CopyHomeless F N nodes x) :
    FleetInv F N nodes (f.ran m c env cmd cps) := by
  refine ⟨fun k => ?_, fun x hx => ?_⟩
  · simp only [Fleet.ran, Fleet.put]
    split
    · exact firstSection_ok (h.1 m) env cmd
    · exact h.1 k
  · rcases List.mem_append.1 hx with hx | hx
    · exact h.2 x hx
    · exact hc x hx

theorem ran_memory (f : Fleet) (m : NodeKey) (c : Nat) (env : Env) (cmd : Cmd) (cps : List (NodeKey × WriteReq))
    (k : Bytes) : fleetMemory F N nodes (f.ran m c env cmd cps) k =
      if homeOf F N nodes k = some m then memoryOf (firstSection (f.node m).store env cmd).1 k
      else fleetMemory F N nodes f k := by
  simp only [fleetMemory, Fleet.ran, Fleet.put]
  cases hh : homeOf F N nodes k with
  | none => simp
  | some x =>
    by_cases hx : x = m
    · subst hx; simp [Shared.setDue]
    · simp [hx]

theorem memory_home {f : Fleet} {k : Bytes} {m : NodeKey} (h : homeOf F N nodes k = some m) :
    fleetMemory F N nodes f k = memoryOf (f.node m).store k := by simp only [fleetMemory, h]

def MemAsk.key? : MemAsk → Option Bytes
  | .write r => some r.entry.key
  | .read k => some k
  | .clear => none

theorem memDo_local {a : MemAsk} {k : Bytes} (h : a.key? = some k) (now : Int64) (m m' : Memory) (hm : m k = m' k) :
    (memDo now m a).2 = (memDo now m' a).2 ∧
    (∀ j, m j = m' j → (memDo now m a).1 j = (memDo now m' a).1 j) ∧
    ∀ j, j ≠ k → (memDo now m a).1 j = m j := by
  cases a with
  | clear => cases h
  | read k' =>
    simp only [MemAsk.key?, Option.some.injEq] at h
    subst h
    simp only [memDo, hm]
    exact ⟨trivial, fun _ h => h, fun _ _ => trivial⟩
  | write r =>
    simp only [MemAsk.key?, Option.some.injEq] at h
    subst h
    simp only [memDo, hm]
    refine ⟨trivial, fun j hj => ?_, fun j hj => if_neg hj⟩
    by_cases h : j = r.entry.key
    · rw [if_pos h, if_pos h]
    · rw [if_neg h, if_neg h, hj]

theorem ask_key {a : FleetAsk} (h : a.Client) : a.mem.key? = some a.key := by
  cases a with
  | clear => exact h.elim
  | _ => rfl

/-- What is carried out at the master of the key is carried out on the memory. -/
theorem ran_explained {f : Fleet} (hok : ∀ k, (f.node k).store.Ok) {m : NodeKey} {c : Nat} {env : Env} {a a' : MemAsk}
    {k : Bytes} (hk : a.key? = some k) (hm : homeOf F N nodes k = some m) (hs : SameAsk a a')
    (hub : (firstSection (f.node m).store env a'.cmd).2.1.rc ≠ .ub) (cps : List (NodeKey × WriteReq)) :
    MemStep env.now (fleetMemory F N nodes f) a (a.told (firstSection (f.node m).store env a'.cmd).2.1)
      (fleetMemory F N nodes (f.ran m c env a'.cmd cps)) := by
  obtain ⟨s1, s2, s3, -⟩ := hs
  have h := section_explained (hok m) s3 hub
  rw [s2] at h
  obtain ⟨l1, l2, l3⟩ := memDo_local hk env.now (fleetMemory F N nodes f) (memoryOf (f.node m).store) (memory_home hm)
  rcases h with ⟨h1, h2⟩ | ⟨h1, h2⟩
  · refine .inl ⟨h1, fun j => ?_⟩
    rw [ran_memory]
    by_cases hj : homeOf F N nodes j = some m
    · rw [if_pos hj, memory_home hj]; exact h2 j
    · rw [if_neg hj]; exact .refl _ _
  · rw [s1] at h1 h2
    refine .inr ⟨by rw [h1, l1], fun j => ?_⟩
    rw [ran_memory]
    by_cases hj : homeOf F N nodes j = some m
    · rw [if_pos hj, l2 j (memory_home hj)]; exact h2 j
    · rw [if_neg hj, l3 j (fun h => hj (by rw [h]; exact hm))]; exact .refl _ _

theorem noHome_home (S : Steady F near N nodes) {x : NodeKey} (h : NoHome nodes x) (k : Bytes) :
    homeOf F N nodes k ≠ some x := by
  obtain ⟨p, -, -, hh⟩ := S.home k
  exact fun hx => h p ((hh x).1 hx)

theorem arrives_path (now : Int64) (r : WriteReq) : (arrives now r).path = r.path := by
  unfold arrives
  split <;> rfl

/-- The arrival of a copy changes nothing in the memory. -/
theorem arrive_quiet (S : Steady F near N nodes) {f : Fleet} (h : FleetInv F N nodes f) (i c : Nat) (j : Journey) :
    FleetInv F N nodes (fleetArrive F f i c j) ∧
      fleetMemory F N nodes (fleetArrive F f i c j) = fleetMemory F N nodes f := by
  cases hi : f.copies[i]? with
  | none => simp only [fleetArrive, hi]; exact ⟨h, trivial⟩
  | some x =>
    obtain ⟨k, r⟩ := x
    have hcp := h.2 _ (List.mem_of_getElem? hi)
    have hno := hcp.noHome
    obtain ⟨h1, p, hp, hlt, hx⟩ := hcp
    simp only at h1 hp hx hno
    obtain ⟨r', hr'⟩ : ∃ r', r' = arrives (j.clock k) r := ⟨_, rfl⟩
    have hkey : r'.entry.key = r.entry.key := by rw [hr', arrives]; split <;> rfl
    have hpath : r'.path = r.path := by rw [hr', arrives_path]
    have hp' : resolve F.kr (r'.routed F.key F.hash).hash N = some p := by
      simp only [WriteReq.routed, hkey]; exact hp
    have hex : preWrite F.kr k (F.views k) (j.room k) (r'.routed F.key F.hash) = .execute := by
      have := (C29_decision (S.agree.good k) (r'.routed F.key F.hash) (S.routable _) hp' hlt k (j.room k)).1.2
      rw [S.agree.same] at this
      refine this (.inr ⟨by simp [WriteReq.routed, hpath, h1], ?_⟩)
      simp only [WriteReq.routed, hkey]
      exact hx
    obtain ⟨f0, hf0⟩ : ∃ f0 : Fleet, f0 = { f with copies := f.copies.eraseIdx i } := ⟨_, rfl⟩
    have hinv : FleetInv F N nodes f0 := by
      rw [hf0]; exact ⟨h.1, fun x hx => h.2 x (List.mem_of_mem_eraseIdx hx)⟩
    have hmem : fleetMemory F N nodes f0 = fleetMemory F N nodes f := by rw [hf0]; rfl
    simp only [fleetArrive, hi, ← hr', ← hf0, fleetHops]
    rcases fleetWrite_execute (c := c) (n := 2) (f := f0) hex with ⟨hb, -⟩ | ⟨-, he⟩
    · rw [hb]; exact ⟨h, rfl⟩
    · rw [he]
      have hcf : CameFrom (.write r') (firstSection (f0.node k).store j.env r'.call).2.1 := ⟨_, _, hinv.1 k, rfl⟩
      refine ⟨ran_inv hinv _ _ _ _ (copies_ok S j k hcf), ?_⟩
      rw [← hmem]
      funext y
      rw [ran_memory, if_neg (noHome_home S hno y)]

theorem late_memory {f : Fleet} (hok : ∀ k, (f.node k).store.Ok) {k : NodeKey} {c : Nat} {env : Env}
    (hh : (FleetEv.late k c env).harmless F N nodes f) :
    Fades env.now (fleetMemory F N nodes f) (fleetMemory F N nodes (fleetStep F f (.late k c env))) := by
  intro x
  simp only [fleetMemory, fleetStep, Fleet.put]
  cases hx : homeOf F N nodes x with
  | none => exact .refl _ _
  | some m =>
    by_cases hm : m = k
    · subst hm
      simp only [if_true]
      cases hd : (f.node m).due c with
      | none => simp only [shStep, hd]; exact .refl _ _
      | some e =>
        simp only [shStep, hd, Shared.setDue]
        exact late_fades (hok m) (hh ⟨x, hx⟩ e hd) x
    · simp only [if_neg hm]; exact .refl _ _

theorem late_inv {f : Fleet} (h : FleetInv F N nodes f) (k : NodeKey) (c : Nat) (env : Env) :
    FleetInv F N nodes (fleetStep F f (.late k c env)) := by
  refine ⟨fun x => ?_, h.2⟩
  simp only [fleetStep, Fleet.put]
  split
  · exact shStep_ok (h.1 k) _
  · exact h.1 x

/-- What the client is told of a request. -/
def toldOf (a : FleetAsk) : Option (NodeKey × Out) → MemTold
  | some (_, o) => a.mem.told o
  | none => .failed

/-- All requests have ended, and the clients are told what the memory says. -/
def LogFit (l : List FleetSeen) : Prop :=
  ∀ c now a ran d, .did c now a ran d ∈ l → ∃ d', d = some d' ∧
    ((∀ r, a = .write r → ran = none → r.entry.option &&& optNoreply = 0) → DoneFit a (toldOf a ran) d')

theorem explains_join {m m1 m2 : Memory} {l l' : List MemEv} (h : Explains m l m1) (h' : Explains m1 l' m2) :
    Explains m (l ++ l') m2 := by
  induction l generalizing m with
  | nil => cases h; exact h'
  | cons e l ih =>
    cases e with
    | quiet now => obtain ⟨x, h1, h2⟩ := h; exact ⟨x, h1, ih h2⟩
    | did c now a t => obtain ⟨x, h1, h2⟩ := h; exact ⟨x, h1, ih h2⟩

theorem step_explained (S : Steady F near N nodes) {f : Fleet} (h : FleetInv F N nodes f) {e : FleetEv} (hc : e.client)
    (hf : FleetFit (fleetShows F f e)) (hh : e.harmless F N nodes f) :
    FleetInv F N nodes (fleetStep F f e) ∧ LogFit (fleetShows F f e) ∧
    Explains (fleetMemory F N nodes f) ((fleetShows F f e).map FleetSeen.mem)
      (fleetMemory F N nodes (fleetStep F f e)) := by
  cases e with
  | ask c j a =>
    rcases ask_spec S h.1 c j hc with hb | ⟨d, hd, hr⟩ | ⟨m, a', cps, d, hm, hs, hdue, hcps, hx, hfit⟩
    · simp only [fleetShows, fleetStep, hb, List.map_nil]
      exact ⟨h, fun _ _ _ _ _ h => (by cases h), rfl⟩
    · simp only [fleetShows, fleetStep, hd, List.map_cons, List.map_nil, FleetSeen.mem]
      refine ⟨h, ?_, _, .inl ⟨rfl, .refl _ _⟩, rfl⟩
      intro c' now a2 ran d2 hmem
      simp only [List.mem_singleton, FleetSeen.did.injEq] at hmem
      obtain ⟨rfl, rfl, rfl, rfl, rfl⟩ := hmem
      refine ⟨d, rfl, fun hq => ?_⟩
      rcases hr with ⟨r, rfl, rfl⟩ | ⟨t, k, rfl, rfl⟩
      · have hq := hq r rfl rfl
        refine ⟨r, rfl, trivial, by simp [Did.loud, hq], fun _ now => ?_⟩
        simp only [Done.reply, Reply.bare, toldOf, SReq.told, SReq.silent, hq]
        simp
      · exact ⟨t, k, rfl, fun e he => (by cases he), fun now => rfl⟩
    · simp only [fleetShows, fleetStep, hx, List.map_cons, List.map_nil, FleetSeen.mem] at hf ⊢
      have hof : OutFit a (firstSection (f.node m).store j.env a'.cmd).2.1 :=
        hf c j.env.now a m _ d (List.mem_singleton.2 rfl)
      refine ⟨ran_inv h _ _ _ _ hcps, ?_, _, ran_explained h.1 (ask_key hc) hm hs hof.1 cps, rfl⟩
      intro c' now a2 ran d2 hmem
      simp only [List.mem_singleton, FleetSeen.did.injEq] at hmem
      obtain ⟨rfl, rfl, rfl, rfl, rfl⟩ := hmem
      obtain ⟨d', hd', hdf⟩ := hfit hof
      exact ⟨d', hd', fun _ => hdf⟩
  | late k c env =>
    refine ⟨late_inv h k c env, ?_, ?_⟩
    · intro c' now a ran d hm
      simp only [fleetShows] at hm
      split at hm <;> simp at hm
    · have hl := late_memory (F := F) (N := N) (nodes := nodes) h.1 hh
      simp only [fleetShows]
      cases hd : (f.node k).due c with
      | none =>
        simp only [Option.isSome_none, Bool.false_eq_true, if_false, List.map_nil]
        funext x
        simp only [fleetMemory, fleetStep, Fleet.put, shStep, hd]
        cases homeOf F N nodes x with
        | none => rfl
        | some m =>
          by_cases hm : m = k
          · subst hm; simp
          · simp [hm]
      | some e =>
        simp only [Option.isSome_some, if_true, List.map_cons, List.map_nil, FleetSeen.mem]
        exact ⟨_, hl, rfl⟩
  | arrive i c j =>
    obtain ⟨h1, h2⟩ := arrive_quiet S h i c j
    exact ⟨h1, fun _ _ _ _ _ h => (by cases h), h2.symm⟩
  | lost i =>
    exact ⟨⟨h.1, fun x hx => h.2 x (List.mem_of_mem_eraseIdx hx)⟩, fun _ _ _ _ _ h => (by cases h), rfl⟩

theorem run_explained (S : Steady F near N nodes) (l : List FleetEv) {f : Fleet} (h : FleetInv F N nodes f)
    (hc : ∀ e ∈ l, e.client) (hf : FleetFit (fleetLog F f l)) (hh : FleetHarmless F N nodes f l) :
    LogFit (fleetLog F f l) ∧ FleetInv F N nodes (fleetRun F f l) ∧
    Explains (fleetMemory F N nodes f) ((fleetLog F f l).map FleetSeen.mem)
      (fleetMemory F N nodes (fleetRun F f l)) := by
  induction l generalizing f with
  | nil => exact ⟨fun _ _ _ _ _ h => (by cases h), h, rfl⟩
  | cons e l ih =>
    obtain ⟨h1, h2, h3⟩ := step_explained S h (hc e List.mem_cons_self)
      (fun c now a k o d hm => hf c now a k o d (List.mem_append_left _ hm)) hh.1
    obtain ⟨g1, g0, g2⟩ := ih h1 (fun e h => hc e (List.mem_cons_of_mem _ h))
      (fun c now a k o d hm => hf c now a k o d (List.mem_append_right _ hm)) hh.2
    rw [fleetLog, List.map_append]
    refine ⟨fun c now a ran d hm => ?_, g0, explains_join h3 g2⟩
    rcases List.mem_append.1 hm with hm | hm
    · exact h2 c now a ran d hm
    · exact g1 c now a ran d hm

/-! ### Removals in a cluster whose clocks do not go back -/

/-- The masters have seen calm requests only. -/
def FleetCalm (F : FleetMap) (N : Nat) (nodes : NodeMap) (K : List Bytes) (T : NodeKey → Int64) (n : Nat) (f : Fleet) :
    Prop := ∀ m, (∃ y, homeOf F N nodes y = some m) → CalmInv K (T m) n (f.node m)

theorem ran_node (f : Fleet) (m : NodeKey) (c : Nat) (env : Env) (a : MemAsk) (cps : List (NodeKey × WriteReq))
    (hd : (f.node m).due c = none) (x : NodeKey) : (f.ran m c env a.cmd cps).node x =
      if x = m then (shStep (f.node m) (AskEv.ask c env a).ev).1 else f.node x := by
  simp only [Fleet.ran, Fleet.put, AskEv.ev, shStep, hd]

theorem arrive_nodes (S : Steady F near N nodes) {f : Fleet} (h : FleetInv F N nodes f) (i c : Nat) (j : Journey)
    {m : NodeKey} (hm : ∃ y, homeOf F N nodes y = some m) : (fleetArrive F f i c j).node m = f.node m := by
  cases hi : f.copies[i]? with
  | none => simp only [fleetArrive, hi]
  | some x =>
    obtain ⟨k, r⟩ := x
    have hcp := h.2 _ (List.mem_of_getElem? hi)
    have hno := hcp.noHome
    obtain ⟨h1, p, hp, hlt, hx⟩ := hcp
    simp only at h1 hp hx hno
    obtain ⟨r', hr'⟩ : ∃ r', r' = arrives (j.clock k) r := ⟨_, rfl⟩
    have hkey : r'.entry.key = r.entry.key := by rw [hr', arrives]; split <;> rfl
    have hpath : r'.path = r.path := by rw [hr', arrives_path]
    have hp' : resolve F.kr (r'.routed F.key F.hash).hash N = some p := by
      simp only [WriteReq.routed, hkey]; exact hp
    have hex : preWrite F.kr k (F.views k) (j.room k) (r'.routed F.key F.hash) = .execute := by
      have := (C29_decision (S.agree.good k) (r'.routed F.key F.hash) (S.routable _) hp' hlt k (j.room k)).1.2
      rw [S.agree.same] at this
      refine this (.inr ⟨by simp [WriteReq.routed, hpath, h1], ?_⟩)
      simp only [WriteReq.routed, hkey]
      exact hx
    obtain ⟨f0, hf0⟩ : ∃ f0 : Fleet, f0 = { f with copies := f.copies.eraseIdx i } := ⟨_, rfl⟩
    simp only [fleetArrive, hi, ← hr', ← hf0, fleetHops]
    have hne : m ≠ k := by
      rintro rfl
      obtain ⟨y, hy⟩ := hm
      exact noHome_home S hno y hy
    rcases fleetWrite_execute (c := c) (n := 2) (f := f0) hex with ⟨hb, -⟩ | ⟨-, he⟩
    · rw [hb]
    · rw [he]
      simp only [Fleet.ran, Fleet.put, if_neg hne, hf0]

theorem place_ask {F : FleetMap} {N : Nat} {nodes : NodeMap} {a : FleetAsk} (h : a.Client) (c : Nat) (j : Journey)
    {m : NodeKey} (hm : homeOf F N nodes a.key = some m) :
    (FleetEv.ask c j a).place F N nodes = some (m, j.env.now) := by
  cases a with
  | clear => exact h.elim
  | write r =>
    simp only [FleetAsk.key] at hm
    simp only [FleetEv.place, hm, Option.map_some]
  | read t k =>
    simp only [FleetAsk.key] at hm
    simp only [FleetEv.place, hm, Option.map_some]

theorem step_calm (S : Steady F near N nodes) {K : List Bytes} {T : NodeKey → Int64} {n : Nat} {f : Fleet}
    (h : FleetInv F N nodes f) (hk : FleetCalm F N nodes K T n f) {e : FleetEv} (hc : e.client) (hca : e.calm K)
    (hn : n + 1 < 2 ^ 64) (ht : ∀ k t, e.place F N nodes = some (k, t) → T k ≤ t)
    (hf : FleetFit (fleetShows F f e)) :
    e.harmless F N nodes f ∧
    FleetCalm F N nodes K (fun k => match e.place F N nodes with
      | some (x, t) => if k = x then t else T k
      | none => T k) (n + 1) (fleetStep F f e) := by
  obtain ⟨T', hT'⟩ : ∃ T' : NodeKey → Int64, T' = fun k => match e.place F N nodes with
      | some (x, t) => if k = x then t else T k
      | none => T k := ⟨_, rfl⟩
  rw [← hT']
  have hle : ∀ k, T k ≤ T' k := by
    intro k
    rw [hT']
    cases hp : e.place F N nodes with
    | none => exact Int64.le_refl _
    | some x =>
      obtain ⟨x, t⟩ := x
      simp only
      split
      next h => rw [h]; exact ht x t hp
      · exact Int64.le_refl _
  have same : ∀ g : Fleet, (∀ m, (∃ y, homeOf F N nodes y = some m) → g.node m = f.node m) →
      FleetCalm F N nodes K T' (n + 1) g := by
    intro g hg m hm
    rw [hg m hm]
    exact (hk m hm).later (hle m) (by omega)
  cases e with
  | ask c j a =>
    refine ⟨trivial, ?_⟩
    rcases ask_spec S h.1 c j hc with hb | ⟨d, hd, hr⟩ | ⟨m, a', cps, d, hm, hs, hdue, hcps, hx, hfit⟩
    · simp only [fleetStep, hb]; exact same f fun _ _ => rfl
    · simp only [fleetStep, hd]; exact same f fun _ _ => rfl
    · simp only [fleetShows, fleetStep, hx] at hf ⊢
      have hub := (hf c j.env.now a m _ d (List.mem_singleton.2 rfl)).1
      have hpl := place_ask (F := F) (N := N) (nodes := nodes) hc c j hm
      intro x hhx
      rw [ran_node f m c j.env a' cps hdue]
      by_cases hxm : x = m
      · subst hxm
        rw [if_pos rfl]
        have hTx : T' x = j.env.now := by rw [hT']; simp only [hpl, if_true]
        rw [hTx]
        refine (shStep_calm (hk x hhx) (ev := .ask c j.env a') (ht _ _ hpl) hn hs.2.2.1 (hs.2.2.2 K hca) ?_).2
        intro c' now cmd o ho
        simp only [AskEv.ev, shStep, hdue, Option.some.injEq, ShSeen.did.injEq] at ho
        obtain ⟨-, -, -, rfl⟩ := ho
        exact hub
      · rw [if_neg hxm]
        exact (hk x hhx).later (hle x) (by omega)
  | late k c env =>
    have hpl : (FleetEv.late k c env).place F N nodes = some (k, env.now) := rfl
    have hTk : T' k = env.now := by rw [hT']; simp only [hpl, if_true]
    have hst : ∀ y, homeOf F N nodes y = some k → _ := fun y hy =>
      shStep_calm (hk k ⟨y, hy⟩) (ev := .late c env) (ht _ _ hpl) hn trivial trivial (by
        intro c' now cmd o ho
        simp only [AskEv.ev, shStep] at ho
        split at ho <;> simp at ho)
    refine ⟨?_, ?_⟩
    · rintro ⟨y, hy⟩
      exact (hst y hy).1
    · rintro x ⟨y, hy⟩
      simp only [fleetStep, Fleet.put]
      by_cases hxk : x = k
      · subst hxk
        rw [if_pos rfl, hTk]
        exact (hst y hy).2
      · rw [if_neg hxk]
        exact (hk x ⟨y, hy⟩).later (hle x) (by omega)
  | arrive i c j => exact ⟨trivial, same _ fun m hm => arrive_nodes S h i c j hm⟩
  | lost i => exact ⟨trivial, same _ fun _ _ => rfl⟩

theorem run_harmless (S : Steady F near N nodes) {K : List Bytes} (l : List FleetEv) {T : NodeKey → Int64} {n : Nat}
    {f : Fleet} (h : FleetInv F N nodes f) (hk : FleetCalm F N nodes K T n f) (hc : ∀ e ∈ l, e.client)
    (hca : ∀ e ∈ l, e.calm K) (hn : n + l.length < 2 ^ 64)
    (ht : ∀ e ∈ l, ∀ k t, e.place F N nodes = some (k, t) → T k ≤ t) (hfw : Forwards F N nodes l)
    (hf : FleetFit (fleetLog F f l)) : FleetHarmless F N nodes f l := by
  induction l generalizing f T n with
  | nil => trivial
  | cons e l ih =>
    simp only [List.length_cons] at hn
    have hfe : FleetFit (fleetShows F f e) := fun c now a k o d hm => hf c now a k o d (List.mem_append_left _ hm)
    obtain ⟨h1, h2⟩ := step_calm S h hk (hc e List.mem_cons_self) (hca e List.mem_cons_self) (by omega)
      (ht e List.mem_cons_self) hfe
    obtain ⟨h3, -⟩ := step_explained S h (hc e List.mem_cons_self) hfe h1
    unfold Forwards at hfw
    rw [List.pairwise_cons] at hfw
    refine ⟨h1, ih h3 h2 (fun e h => hc e (List.mem_cons_of_mem _ h)) (fun e h => hca e (List.mem_cons_of_mem _ h))
      (by omega) ?_ hfw.2 (fun c now a k o d hm => hf c now a k o d (List.mem_append_right _ hm))⟩
    intro e' he' k t hp
    have h0 := ht e' (List.mem_cons_of_mem _ he') k t hp
    cases hpe : e.place F N nodes with
    | none => exact h0
    | some x =>
      obtain ⟨x, u⟩ := x
      simp only
      split
      next hkx => subst hkx; exact hfw.1 e' he' k u t hpe hp
      · exact h0

/-! ### What the clients read -/

abbrev FleetCall := FleetAsk × MemTold × FleetDone

theorem fleet_keys {t : ResponseType} (ds : List FleetCall) (ks : List Bytes) (h : ds.map (·.1) = ks.map (.read t))
    (hd : ∀ x ∈ ds, DoneFit x.1 x.2.1 x.2.2) (more : List FleetDone) :
    ∃ as : List ReadAt, ds.map (·.2.2) = as.map .got ∧
      readKeys fleetBack (ds.map (·.2.2) ++ more) ks = (more, ks.zip as) ∧
      (∀ x ∈ ks.zip as, ∀ e, x.2.found = some e → SoundValue t e) ∧
      ∀ now, (ks.zip as).filterMap (fun x => x.2.found.map (shown t now)) =
        (ks.zip (ds.map (·.2.1))).filterMap fun x => match x.2 with
          | .value it => some (shown t now (it.entry x.1))
          | _ => none := by
  induction ks generalizing ds with
  | nil =>
    have : ds = [] := by simpa using h
    subst this
    exact ⟨[], rfl, rfl, fun x h => (by cases h), fun _ => rfl⟩
  | cons k ks ih =>
    cases ds with
    | nil => cases h
    | cons d ds =>
      simp only [List.map_cons, List.cons.injEq] at h
      obtain ⟨as, a1, a2, a3, a4⟩ := ih ds h.2 (fun x hx => hd x (List.mem_cons_of_mem _ hx))
      have hfit := hd d List.mem_cons_self
      obtain ⟨a, m, x⟩ := d
      simp only at h hfit
      cases x with
      | flushed b => exact hfit.elim
      | wrote d =>
        obtain ⟨r, hr, -⟩ := hfit
        rw [h.1] at hr; cases hr
      | got y =>
        obtain ⟨ty, k', hk, f1, f2⟩ := hfit
        rw [h.1] at hk
        cases hk
        refine ⟨y :: as, by simp only [List.map_cons, a1], ?_, ?_, ?_⟩
        · simp only [List.map_cons, List.cons_append, readKeys, fleetBack, List.tail_cons, List.head?_cons,
            List.zip_cons_cons] at a2 ⊢
          rw [a2]
        · intro z hz e he
          simp only [List.zip_cons_cons, List.mem_cons] at hz
          rcases hz with rfl | hz
          · exact f1 e he
          · exact a3 z hz e he
        · intro now
          simp only [List.zip_cons_cons, List.map_cons, List.filterMap_cons, a4 now, f2 now]

/-- One request of a session. -/
theorem fleet_one (now : Int64) (r : SReq) (ds : List FleetCall) (ha : ds.map (·.1) = (r.seen now).fleetAsks)
    (hd : ∀ x ∈ ds, DoneFit x.1 x.2.1 x.2.2) (more : List FleetDone) :
    (perform fleetBack (ds.map (·.2.2) ++ more) (r.seen now)).1 = more ∧
    Did.Sound (r.seen now) (perform fleetBack (ds.map (·.2.2) ++ more) (r.seen now)).2 ∧
    Did.loud (r.seen now) (perform fleetBack (ds.map (·.2.2) ++ more) (r.seen now)).2 = false ∧
    (r.reply now (perform fleetBack (ds.map (·.2.2) ++ more) (r.seen now)).2).bare =
      (r.told now (ds.map (·.2.1))).bare := by
  have nil : ∀ {r : SReq}, ds.map (·.1) = [] → ds = [] := fun h => by simpa using h
  cases r with
  | write x =>
    simp only [SReq.seen, SReq.fleetAsks] at ha
    obtain ⟨d, rfl⟩ : ∃ d, ds = [d] := by
      have := congrArg List.length ha
      rw [List.length_map] at this
      exact List.length_eq_one_iff.1 this
    have hfit := hd d List.mem_cons_self
    obtain ⟨a, m, y⟩ := d
    simp only [List.map_cons, List.map_nil, List.cons.injEq, and_true] at ha hfit
    subst ha
    have hkey : (arrives now x).entry.key = x.entry.key := by
      simp only [arrives]; split <;> rfl
    have hcmd : (arrives now x).cmd = x.cmd := arrives_cmd now x
    have hsil := arrives_silent now x
    cases y with
    | flushed b => exact hfit.elim
    | got y => obtain ⟨_, _, hr, -⟩ := hfit; cases hr
    | wrote d =>
      obtain ⟨r, hr, f1, f2, f3⟩ := hfit
      cases hr
      simp only [SReq.seen, perform, fleetBack, List.map_cons, List.map_nil, List.cons_append, List.nil_append,
        List.tail_cons, List.head?_cons]
      refine ⟨trivial, f1, f2, ?_⟩
      cases hs : (SReq.write x).silent with
      | true => simp only [SReq.reply, SReq.told, hs, if_true]
      | false =>
        rw [hs] at hsil
        have hn : (arrives now x).entry.option &&& optNoreply = 0 := by
          simpa [SReq.silent] using hsil
        have := f3 hn now
        rw [hcmd] at this
        simp only [SReq.reply, hs, Bool.false_eq_true, if_false, this]
        simp only [SReq.told, hs, hsil, Bool.false_eq_true, if_false]
        cases m <;> simp only [hkey]
  | get t ks =>
    simp only [SReq.seen, SReq.fleetAsks] at ha
    obtain ⟨as, -, a2, a3, a4⟩ := fleet_keys ds ks ha hd more
    simp only [SReq.seen, perform, a2]
    refine ⟨trivial, a3, rfl, ?_⟩
    simp only [SReq.reply, SReq.told, SReq.silent, Bool.false_eq_true, if_false, a4 now]
    rfl
  | flush b =>
    simp only [SReq.seen, SReq.fleetAsks] at ha
    obtain ⟨d, rfl⟩ : ∃ d, ds = [d] := by
      have := congrArg List.length ha
      rw [List.length_map] at this
      exact List.length_eq_one_iff.1 this
    have hfit := hd d List.mem_cons_self
    obtain ⟨a, m, y⟩ := d
    simp only [List.map_cons, List.map_nil, List.cons.injEq, and_true] at ha hfit
    subst ha
    cases y with
    | flushed b => exact hfit.elim
    | got y => obtain ⟨_, _, hr, -⟩ := hfit; cases hr
    | wrote y => obtain ⟨_, hr, -⟩ := hfit; cases hr
  | ping =>
    have : ds = [] := by simpa [SReq.seen, SReq.fleetAsks] using ha
    subst this; exact ⟨rfl, trivial, rfl, rfl⟩
  | version =>
    have : ds = [] := by simpa [SReq.seen, SReq.fleetAsks] using ha
    subst this; exact ⟨rfl, trivial, rfl, rfl⟩
  | verbosity n b =>
    have : ds = [] := by simpa [SReq.seen, SReq.fleetAsks] using ha
    subst this; exact ⟨rfl, trivial, rfl, rfl⟩
  | quit =>
    have : ds = [] := by simpa [SReq.seen, SReq.fleetAsks] using ha
    subst this; exact ⟨rfl, trivial, rfl, rfl⟩

theorem fleet_reads (now : Int64) (rs : List SReq) (ds : List FleetCall)
    (ha : ds.map (·.1) = (rs.map (SReq.seen now)).flatMap SReq.fleetAsks)
    (hd : ∀ x ∈ ds, DoneFit x.1 x.2.1 x.2.2) :
    (∀ x ∈ (performAll fleetBack (ds.map (·.2.2)) (rs.map (SReq.seen now))).2,
      Did.Sound x.1 x.2 ∧ Did.loud x.1 x.2 = false) ∧
    (List.zipWith (fun r d => r.reply now d.2) rs
        (performAll fleetBack (ds.map (·.2.2)) (rs.map (SReq.seen now))).2).map Reply.bare =
      (repliesOf now rs (ds.map (·.2.1))).map Reply.bare := by
  induction rs generalizing ds with
  | nil => exact ⟨fun x h => (by cases h), rfl⟩
  | cons r rs ih =>
    simp only [List.map_cons, List.flatMap_cons] at ha
    obtain ⟨d1, d2, rfl, h1, h2⟩ := List.map_eq_append_iff.1 ha
    have hd1 : ∀ x ∈ d1, _ := fun x h => hd x (List.mem_append_left _ h)
    obtain ⟨ih1, ih2⟩ := ih d2 h2 (fun x h => hd x (List.mem_append_right _ h))
    have hlen : d1.length = r.asks.length := by
      have := congrArg List.length h1
      rw [List.length_map] at this
      rw [this]
      cases r <;> simp [SReq.seen, SReq.asks, SReq.fleetAsks]
    obtain ⟨g1, g2, g3, g4⟩ := fleet_one now r d1 h1 hd1 (d2.map (·.2.2))
    simp only [List.map_cons, List.map_append, performAll, g1, List.zipWith_cons_cons, repliesOf]
    rw [List.take_left' (by rw [List.length_map]; exact hlen), List.drop_left' (by rw [List.length_map]; exact hlen)]
    refine ⟨?_, by rw [g4, ih2]⟩
    intro x hx
    rcases List.mem_cons.1 hx with rfl | hx
    · exact ⟨g2, g3⟩
    · exact ih1 x hx

/-- What a client has asked for, what the memory says, and how it ended. -/
theorem log_calls {l : List FleetSeen} (h : LogFit l) (hq : FleetQuiet l) (c : Nat) : ∃ ds : List FleetCall,
    fleetAskedBy c l = ds.map (·.1) ∧ toldBy c (l.map FleetSeen.mem) = ds.map (·.2.1) ∧
      fleetDoneBy c l = ds.map (·.2.2) ∧ ∀ x ∈ ds, DoneFit x.1 x.2.1 x.2.2 := by
  induction l with
  | nil => exact ⟨[], rfl, rfl, rfl, fun x h => (by cases h)⟩
  | cons e l ih =>
    obtain ⟨ds, h1, h2, h3, h4⟩ := ih (fun c now a ran d hm => h c now a ran d (List.mem_cons_of_mem _ hm))
      (fun c now r d hm => hq c now r d (List.mem_cons_of_mem _ hm))
    cases e with
    | quiet now =>
      exact ⟨ds, h1, h2, h3, h4⟩
    | did c' now a ran d =>
      by_cases hc : c' = c
      · subst hc
        obtain ⟨d', rfl, hf⟩ := h _ _ _ _ _ List.mem_cons_self
        have hf := hf (fun r hr hn => by
          subst hr hn
          exact hq _ _ _ _ List.mem_cons_self)
        refine ⟨(a, toldOf a ran, d') :: ds, ?_, ?_, ?_, ?_⟩
        · simp only [fleetAskedBy, List.filterMap_cons, if_true, List.map_cons] at h1 ⊢
          rw [h1]
        · simp only [toldBy, List.map_cons, FleetSeen.mem, List.filterMap_cons, if_true] at h2 ⊢
          rw [h2]
          cases ran <;> rfl
        · simp only [fleetDoneBy, List.filterMap_cons, if_true, List.map_cons] at h3 ⊢
          rw [h3]
        · intro x hx
          rcases List.mem_cons.1 hx with rfl | hx
          · exact hf
          · exact h4 x hx
      · refine ⟨ds, ?_, ?_, ?_, h4⟩
        · simp only [fleetAskedBy, List.filterMap_cons, if_neg hc] at h1 ⊢
          exact h1
        · simp only [toldBy, List.map_cons, FleetSeen.mem, List.filterMap_cons, if_neg hc] at h2 ⊢
          exact h2
        · simp only [fleetDoneBy, List.filterMap_cons, if_neg hc] at h3 ⊢
          exact h3

end
end Flare
