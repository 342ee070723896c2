import Verif.Model.Errand
import Verif.Lemmas.Fleet
import Verif.Lemmas.Dump
import Verif.Lemmas.Rebuild

/-! Lemmas about reads and writes handed on over one connection. -/
namespace Flare

/-! ### What is understood stays understood if more comes -/

theorem gatClient_more {now : Int64} {w q s m : Bytes} {e : Entry} :
    (∀ r x rest, gatClient now w q s e = .ok (r, x, rest) → gatClient now w q (s ++ m) e = .ok (r, x, rest ++ m)) ∧
    (gatClient now w q s e = .error .ub → gatClient now w q (s ++ m) e = .error .ub) := by
  simp only [gatClient]
  cases hl : readLine s with
  | none => exact ⟨fun _ _ _ h => (nomatch h), fun h => (nomatch h)⟩
  | some y =>
    obtain ⟨line, rest⟩ := y
    rw [readLine_more hl]
    dsimp only
    by_cases h1 : line = ascii "NOT_FOUND\n"
    · rw [if_pos h1, if_pos h1]
      refine ⟨fun r x t h => ?_, fun h => (nomatch h)⟩
      cases h
      rfl
    · rw [if_neg h1, if_neg h1]
      cases hs : scanWord line w with
      | error f => exact ⟨fun _ _ _ h => (nomatch h), id⟩
      | ok z =>
        obtain ⟨p, w'⟩ := z
        dsimp only
        by_cases h2 : cstr w' ≠ strValue
        · rw [if_pos h2, if_pos h2]; exact ⟨fun _ _ _ h => (nomatch h), id⟩
        · rw [if_neg h2, if_neg h2]
          cases hp : entryParse now .get p q { key := [] } with
          | error f => exact ⟨fun _ _ _ h => (nomatch h), id⟩
          | ok x =>
            dsimp only
            by_cases h3 : e.key ≠ x.key
            · rw [if_pos h3, if_pos h3]; exact ⟨fun _ _ _ h => (nomatch h), id⟩
            · rw [if_neg h3, if_neg h3]
              cases hr : readSize (x.size.toNat + 2) rest with
              | error f =>
                refine ⟨fun _ _ _ h => (nomatch h), fun h => ?_⟩
                cases f with
                | err => cases h
                | ub =>
                  have : readSize (x.size.toNat + 2) (rest ++ m) = .error .ub := by
                    simp only [readSize] at hr ⊢
                    split at hr
                    · next hc => rw [if_pos hc]
                    · split at hr <;> cases hr
                  rw [this]
              | ok z =>
                obtain ⟨d, t⟩ := z
                rw [readSize_more hr]
                refine ⟨fun r y t' h => ?_, fun h => (nomatch h)⟩
                cases h
                rfl

theorem incrClient_more {q s m : Bytes} :
    (∀ d rest, incrClient q s = .ok (d, rest) → incrClient q (s ++ m) = .ok (d, rest ++ m)) ∧
    (incrClient q s = .error .ub → incrClient q (s ++ m) = .error .ub) := by
  simp only [incrClient]
  cases hl : readLine s with
  | none => exact ⟨fun _ _ h => (nomatch h), fun h => (nomatch h)⟩
  | some y =>
    obtain ⟨line, rest⟩ := y
    rw [readLine_more hl]
    dsimp only
    split
    · split
      · refine ⟨fun r x h => ?_, fun h => (nomatch h)⟩
        cases h
        rfl
      · exact ⟨fun _ _ h => (nomatch h), id⟩
    · cases parseResponse (trimAnswer line ++ [chNl]) q with
      | error f => exact ⟨fun _ _ h => (nomatch h), id⟩
      | ok z =>
        refine ⟨fun r x h => ?_, fun h => (nomatch h)⟩
        cases h
        rfl

theorem writeClient_more {now : Int64} {w q s m : Bytes} {r : WriteReq} :
    (∀ d rest, writeClient now w q r s = .ok (d, rest) → writeClient now w q r (s ++ m) = .ok (d, rest ++ m)) ∧
    (writeClient now w q r s = .error .ub → writeClient now w q r (s ++ m) = .error .ub) := by
  simp only [writeClient]
  by_cases hg : r.cmd = .gat
  · rw [if_pos hg, if_pos hg]
    have := gatClient_more (now := now) (w := w) (q := q) (s := s) (m := m) (e := r.entry)
    cases h : gatClient now w q s r.entry with
    | error f =>
      rw [h] at this
      refine ⟨fun _ _ h => (nomatch h), fun h' => ?_⟩
      cases f with
      | err => cases h'
      | ub => rw [this.2 rfl]
    | ok y =>
      obtain ⟨a, b, c⟩ := y
      rw [this.1 a b c h]
      refine ⟨fun r x h => ?_, fun h => (nomatch h)⟩
      cases h
      rfl
  · rw [if_neg hg, if_neg hg]
    by_cases hn : r.entry.option &&& optNoreply ≠ 0
    · rw [if_pos hn, if_pos hn]
      refine ⟨fun r x h => ?_, fun h => (nomatch h)⟩
      cases h
      rfl
    · rw [if_neg hn, if_neg hn]
      by_cases hc : r.cmd.kind = .count
      · rw [if_pos hc, if_pos hc]; exact incrClient_more
      · rw [if_neg hc, if_neg hc]
        simp only [readResponse]
        cases hl : readLine s with
        | none => exact ⟨fun _ _ h => (by cases h), fun h => (by cases h)⟩
        | some y =>
          obtain ⟨line, rest⟩ := y
          rw [readLine_more hl]
          dsimp only
          cases parseResponse line q with
          | error f => exact ⟨fun _ _ h => (nomatch h), id⟩
          | ok z =>
            refine ⟨fun r x h => ?_, fun h => (nomatch h)⟩
            cases h
            rfl

/-! ### The other node -/

/-- A request that can be written and is read as it was meant. -/
def Errand.Proper : Errand → Prop
  | .write r => Sendable r 8192 ∧ (encodeWrite r).isSome ∧ (r.cmd = .gat → r.entry.option &&& optNoreply = 0)
  | .read t k => (t = .get ∨ t = .gets) ∧ PlainKey k 8192

/-- No answer is wanted. -/
def Errand.silent : Errand → Bool
  | .write r => r.entry.option &&& optNoreply ≠ 0
  | .read _ _ => false

theorem serve_write {P : ErrandBufs} (hf : P.first.length = 1024) (hq : P.q.length = 8192) {t : ErrandTry} {s : Store}
    {r : WriteReq} (hp : Sendable r 8192) {b : Bytes} (hb : encodeWrite r = some b) :
    errandServe P t s b = match t.refused with
      | some full => (writeAnswer (arrives t.clk r) (if full then .noQueue else .noPartition)).map fun a =>
          (s, .wrote (if full then .noQueue else .noPartition), a)
      | none => (writeAnswer (arrives t.clk r) (.own (step s t.env (arrives t.clk r).call).2)).map fun a =>
          ((step s t.env (arrives t.clk r).call).1, .wrote (.own (step s t.env (arrives t.clk r).call).2), a) := by
  have h := takeReq_encode (now := t.clk) (more := []) (r := .write r) hf hq hp hb
  rw [List.append_nil] at h
  simp only [errandServe, h, SReq.seen]
  cases t.refused <;> rfl

theorem request_get {t : ResponseType} (ht : t = .get ∨ t = .gets) {k : Bytes} (hk : PlainKey k 8192) :
    encodeReq (.get t [k]) = some (getRequest t k) := by
  rcases ht with rfl | rfl <;> simp [encodeReq, getRequest, cstr_plain hk.word, ascii]

theorem serve_read {P : ErrandBufs} (hf : P.first.length = 1024) (hq : P.q.length = 8192) {t : ErrandTry} {s : Store}
    {y : ResponseType} (hy : y = .get ∨ y = .gets) {k : Bytes} (hk : PlainKey k 8192) :
    errandServe P t s (getRequest y k) = match t.refused with
      | some _ => (getServe y [(k, .refused)]).map fun a => (s, .read .refused, a)
      | none => (getServe y [(k, .here (step s t.env (.get { key := k } {})).2)]).map fun a =>
          ((step s t.env (.get { key := k } {})).1, .read (.here (step s t.env (.get { key := k } {})).2), a) := by
  have h := takeReq_encode (now := t.clk) (more := []) (r := .get y [k]) hf hq ⟨hy, by simp, by simp, by simpa using hk⟩
    (request_get hy hk)
  rw [List.append_nil] at h
  simp only [errandServe, h, SReq.seen]
  cases t.refused <;> rfl

theorem cameFrom_get {s : Store} (hs : s.Ok) (env : Env) (k : Bytes)
    (h : (step s env (.get { key := k } {})).2.r = some .none_) :
    CameFrom (.read k) (step s env (.get { key := k } {})).2 := by
  refine ⟨s, env, hs, ?_⟩
  simp only [MemAsk.cmd, firstSection, step, get] at h ⊢
  obtain ⟨o, x, hx⟩ : ∃ o x, getRead s env.now { key := k } {} = (o, x) := ⟨_, _, rfl⟩
  rw [hx] at h ⊢
  cases x with
  | false => rfl
  | true =>
    exfalso
    simp only at h
    simp only [getRead] at hx
    split at hx
    · cases hx
    · split at hx
      · cases hx
      · split at hx
        · cases hx
        · split at hx <;> cases hx
          cases h

/-! ### Reading the own answer -/

/-- What the other node has stored or read can be sent. -/
def ErrandDid.fits : ErrandDid → Prop
  | .wrote (.own o) => o.e.size.toNat + 16384 ≤ intMax
  | .read (.here o) => o.e.size.toNat + 16384 ≤ intMax
  | _ => True

/-- How an errand should end for what the other node has done. -/
def Errand.right (e : Errand) (now : Int64) (d : ErrandDid) (x : ErrandEnd) (g : GetSlot) : Prop :=
  match e, d with
  | .write r, .wrote d => ∃ d', x = .wrote d' ∧
      (r.entry.option &&& optNoreply = 0 → ∀ now, d'.reply now r.cmd = d.reply now r.cmd)
  | .read t k, .read a => x = .got ∧ g.e.key = k ∧ (ReadAt.asked g).found = a.found.map (shown t now)
  | _, _ => False

theorem gatClient_error {now : Int64} {w q m : Bytes} {e : Entry} (hm : PlainMessage m) (hw : w.length = 8192) :
    gatClient now w q (resultLine .serverError m) e = .error .err ∧
      gatNamed now w q (resultLine .serverError m) e = false ∧ lineLeft (resultLine .serverError m) = [] := by
  have hl : ∃ y, readLine (resultLine .serverError m) = some (ascii "SERVER_ERROR" ++ y ++ [chNl], []) ∧
      (y = [] ∨ ∃ z, y = chSpace :: z) := by
    by_cases hc : m = []
    · subst hc
      exact ⟨[], by decide, .inl rfl⟩
    · refine ⟨chSpace :: m, ?_, .inr ⟨m, rfl⟩⟩
      have hcm : cstr m = m := by
        have := List.takeWhile_append_of_pos (p := fun c : UInt8 => decide (c ≠ 0)) (l₁ := m)
          (l₂ := []) (fun c hc => by simpa using (hm.1 c hc).1)
        simpa [cstr] using this
      have := readLine_crlf (l := ascii "SERVER_ERROR" ++ chSpace :: m) (rest := []) (by
        intro c hx
        rcases List.mem_append.1 hx with hx | hx
        · have : ∀ c ∈ ascii "SERVER_ERROR", c ≠ chNl := by decide
          exact this c hx
        · rcases List.mem_cons.1 hx with rfl | hx
          · decide
          · exact (hm.1 c hx).2)
      rw [List.append_nil] at this
      rw [← this]
      simp only [resultLine, hcm]
      rw [if_pos hc]
      simp [OpResult.name]
  obtain ⟨y, hl, hy⟩ := hl
  obtain ⟨w', p, h1, h2⟩ : ∃ w' p, scanWord (ascii "SERVER_ERROR" ++ y ++ [chNl]) w = .ok (p, w') ∧ cstr w' = ascii "SERVER_ERROR" := by
    rcases hy with rfl | ⟨z, rfl⟩
    · obtain ⟨w', h1, h2, -⟩ := scanWord_tok (w := ascii "SERVER_ERROR") (c := chNl) (rest := []) (q := w) 0
        (by decide) (by decide) (by rw [hw]; decide) (fun h => absurd h (by decide))
      exact ⟨w', [chNl], h1, h2⟩
    · obtain ⟨w', h1, h2, -⟩ := scanWord_tok (w := ascii "SERVER_ERROR") (c := chSpace) (rest := z ++ [chNl]) (q := w) 0
        (by decide) (by decide) (by rw [hw]; decide) (fun h => absurd h (by decide))
      exact ⟨w', _, by simpa using h1, h2⟩
  have hne : ascii "SERVER_ERROR" ++ y ++ [chNl] ≠ ascii "NOT_FOUND\n" := by
    intro h
    have := congrArg List.head? h
    revert this
    simp [ascii]
  refine ⟨?_, ?_, ?_⟩
  · simp only [gatClient, hl]
    rw [if_neg hne]
    simp only [h1]
    rw [if_pos (by rw [h2]; decide)]
  · simp only [gatNamed, hl, h1, h2]
    rfl
  · simp only [lineLeft, hl]

theorem plainMessage_queue : PlainMessage (ascii "proxy failure") := by
  refine ⟨by decide, by decide⟩

theorem plainMessage_partition : PlainMessage (ascii "no partition available") := by
  refine ⟨by decide, by decide⟩

/-- A refusal is understood, except by `gat`, which takes the line and fails. -/
theorem refusal_read {now : Int64} {w q : Bytes} (hw : w.length = 8192) (hq : q.length = 8192) {r : WriteReq}
    (hn : r.entry.option &&& optNoreply = 0) {m : Bytes}
    (hm : m = ascii "proxy failure" ∨ m = ascii "no partition available" ∨ m = ascii "i/o error") :
    writeClient now w q r (resultLine .serverError m) = .ok (.sent true .serverError m none, []) ∧ r.cmd ≠ .gat ∨
      r.cmd = .gat ∧ writeClient now w q r (resultLine .serverError m) = .error .err ∧
        writeLeft now w q r (resultLine .serverError m) = [] := by
  have hpm : PlainMessage m := by
    rcases hm with rfl | rfl | rfl
    · exact plainMessage_queue
    · exact plainMessage_partition
    · exact plainMessage_io
  by_cases hg : r.cmd = .gat
  · right
    obtain ⟨h1, h2, h3⟩ := gatClient_error (now := now) (w := w) (q := q) (e := r.entry) hpm hw
    refine ⟨hg, ?_, ?_⟩
    · rw [writeClient, if_pos hg, h1]
    · rw [writeLeft, if_neg (by rw [h2]; simp), h3]
  · left
    refine ⟨?_, hg⟩
    rw [writeClient, if_neg hg, if_neg (by rw [hn]; simp)]
    by_cases hk : r.cmd.kind = .count
    · rw [if_pos hk]
      rcases hm with rfl | rfl | rfl
      · exact incrClient_line (line := _) (.inl (by decide)) plainMessage_queue hq (by rfl) (by decide) (by decide)
      · exact incrClient_line (line := _) (.inl (by decide)) plainMessage_partition hq (by rfl) (by decide) (by decide)
      · exact incrClient_failed hq
    · rw [if_neg hk]
      have := C59_answer (r := .serverError) (q := q) (rest := []) (.inl (by decide)) hpm (by rw [hq]; omega)
      rw [List.append_nil] at this
      rw [this]

/-- The answer to a write is read as it was meant and to its end; a `gat` that fails is not understood, but taken
from the connection. -/
theorem own_write {P : ErrandBufs} (hf : P.first.length = 1024) (hq : P.q.length = 8192) (hw : P.w.length = 8192)
    {t : ErrandTry} {s s' : Store} (hs : s.Ok) {r : WriteReq} (hp : (Errand.write r).Proper) {b a : Bytes} {d : ErrandDid}
    (hb : encodeWrite r = some b) (hd : errandServe P t s b = some (s', d, a)) (hfit : d.fits)
    (hsil : (Errand.write r).silent = true → a = []) (now : Int64) :
    (∃ d', writeClient now P.w P.q r a = .ok (d', []) ∧ (Errand.write r).right now d (.wrote d') (Errand.write r).slot) ∨
      r.cmd = .gat ∧ writeClient now P.w P.q r a = .error .err ∧ writeLeft now P.w P.q r a = [] ∧
        ∀ o, d = .wrote (.own o) → o.rc ≠ .ok := by
  obtain ⟨hsend, -, hgn⟩ := hp
  rw [serve_write hf hq hsend hb] at hd
  have refusal : ∀ m d0, (m = ascii "proxy failure" ∨ m = ascii "no partition available" ∨ m = ascii "i/o error") →
      a = resultLine .serverError m → (∀ now, Done.reply now r.cmd d0 = .result .serverError m) → d = .wrote d0 →
      (∀ o, d0 = .own o → o.rc ≠ .ok) →
      (∃ d', writeClient now P.w P.q r a = .ok (d', []) ∧
        (Errand.write r).right now d (.wrote d') (Errand.write r).slot) ∨
      r.cmd = .gat ∧ writeClient now P.w P.q r a = .error .err ∧ writeLeft now P.w P.q r a = [] ∧
        ∀ o, d = .wrote (.own o) → o.rc ≠ .ok := by
    intro m d0 hm ha hr hd0 hrc
    have hn : r.entry.option &&& optNoreply = 0 := by
      cases hx : (Errand.write r).silent with
      | false => simpa [Errand.silent] using hx
      | true =>
        have := hsil hx
        rw [ha] at this
        simp [resultLine, crlf] at this
    rw [ha]
    rcases refusal_read (now := now) hw hq hn hm with ⟨h1, h2⟩ | h
    · left
      refine ⟨_, h1, ?_⟩
      rw [hd0]
      refine ⟨_, rfl, fun _ now' => ?_⟩
      rw [hr now']
      simp [Done.reply]
    · refine .inr ⟨h.1, h.2.1, h.2.2, fun o ho => hrc o ?_⟩
      rw [hd0] at ho
      injection ho
  cases ht : t.refused with
  | some full =>
    simp only [ht] at hd
    cases full with
    | true =>
      cases hd
      exact refusal _ _ (.inl rfl) rfl (fun _ => rfl) rfl (fun _ h => (nomatch h))
    | false =>
      cases hd
      exact refusal _ _ (.inr (.inl rfl)) rfl (fun _ => rfl) rfl (fun _ h => (nomatch h))
  | none =>
    simp only [ht] at hd
    obtain ⟨o, ho⟩ : ∃ o, o = (step s t.env (arrives t.clk r).call).2 := ⟨_, rfl⟩
    have hcf : CameFrom (.write (arrives t.clk r)) o := ⟨s, t.env, hs, by
      rw [show (MemAsk.write (arrives t.clk r)).cmd = (arrives t.clk r).call from rfl, firstSection_out, ho]⟩
    rw [← ho] at hd
    cases hwa : writeAnswer (arrives t.clk r) (.own o) with
    | none => rw [hwa] at hd; cases hd
    | some a' =>
      rw [hwa] at hd
      cases hd
      cases hrc : o.rc with
      | ub => rw [writeAnswer, hrc] at hwa; cases hwa
      | err =>
        refine refusal (ascii "i/o error") (.own o) (.inr (.inr rfl)) ?_ (fun now' => ?_) rfl
          (fun o' h => by injection h with h; rw [← h, hrc]; decide)
        · simp only [writeAnswer, hrc] at hwa
          exact (Option.some.inj hwa).symm
        · simp only [Done.reply, hrc]
      | ok =>
        have hfail : (MemAsk.write r).told o = .failed → r.entry.option &&& optNoreply = 0 ∧ r.cmd ≠ .gat := by
          intro hx
          exfalso
          cases hor : o.r with
          | none => simp [writeAnswer, hrc, hor] at hwa
          | some x =>
            simp only [MemAsk.told, hrc, hor] at hx
            split at hx
            · cases hx
            · split at hx <;> cases hx
        have hoption : (arrives t.clk r).entry.option &&& optNoreply = r.entry.option &&& optNoreply := by
          simp only [arrives]
          split <;> first | rfl | skip
          all_goals simp [UInt32.and_assoc]
        obtain ⟨a2, d', e1, e2, -, -, e5⟩ := write_relayed hw hq now (arrives_cmd t.clk r) (arrives_key t.clk r)
          hoption hsend.1 hgn hcf (by rw [hrc]; decide) hfit hfail
        rw [hwa] at e1
        cases e1
        exact .inl ⟨d', e2, d', rfl, e5⟩

/-- The answer to a read is read as it was meant and to its end. -/
theorem own_read {P : ErrandBufs} (hf : P.first.length = 1024) (hq : P.q.length = 8192) (hw : P.w.length = 8192)
    {t : ErrandTry} {s s' : Store} (hs : s.Ok) {y : ResponseType} {k : Bytes} (hp : (Errand.read y k).Proper) {a : Bytes}
    {d : ErrandDid} (hd : errandServe P t s (getRequest y k) = some (s', d, a)) (hfit : d.fits) (now : Int64) :
    ∃ g, getClient now P.w P.q (a.length + 1) a { e := { key := k } } = (.done, g, []) ∧
      (Errand.read y k).right now d .got g := by
  obtain ⟨hy, hk⟩ := hp
  rw [serve_read hf hq hy hk] at hd
  have hend : getClient now P.w P.q ((strEnd ++ crlf).length + 1) (strEnd ++ crlf) { e := { key := k } } =
      (.done, { e := { key := k } }, []) := by
    have := getClient_end (now := now) (w := P.w) (q := P.q) (more := []) (g := { e := { key := k } })
      (n := (strEnd ++ crlf).length)
    rw [List.append_nil] at this
    exact this
  have hmiss : ∀ x, (ownSlot k x).avail = false → (∀ g, x ≠ .asked g) → getServe y [(k, x)] = some (strEnd ++ crlf) := by
    intro x hx hg
    cases x with
    | asked g => exact absurd rfl (hg g)
    | here o => simp [getServe, sendAll, askedFor, askedMap, sendSlot, hx]
    | refused => simp [getServe, sendAll, askedFor, askedMap, sendSlot, hx]
  cases ht : t.refused with
  | some full =>
    simp only [ht] at hd
    rw [hmiss _ rfl (by simp)] at hd
    cases hd
    exact ⟨_, hend, rfl, rfl, rfl⟩
  | none =>
    simp only [ht] at hd
    obtain ⟨o, ho⟩ : ∃ o, o = (step s t.env (.get { key := k } {})).2 := ⟨_, rfl⟩
    rw [← ho] at hd
    by_cases hf : o.rc = .ok ∧ o.r = some .none_
    · have hcf : CameFrom (.read k) o := by
        rw [ho]; exact cameFrom_get hs _ _ (by rw [← ho]; exact hf.2)
      cases hga : getServe y [(k, .here o)] with
      | none => rw [hga] at hd; cases hd
      | some a' =>
        rw [hga] at hd
        cases hd
        obtain ⟨b, g, h1, h2, h3⟩ := read_relayed hw hq hy hk hcf hfit now
        rw [hga] at h1
        cases h1
        have hrun : getClient now P.w P.q (a.length + 1) a { e := { key := k } } = (.done, g, []) := by
          rw [askOther, show maxRetry = 3 + 1 from rfl, getTries] at h2
          simp only [List.nil_append] at h2
          rcases hx : getClient now P.w P.q (a.length + 1) a { e := { key := k } } with ⟨x, g', rest⟩
          rw [hx] at h2
          cases x with
          | failed => simp [getTries] at h2
          | done => simpa using h2
          | ub => simp at h2
        refine ⟨g, hrun, rfl, ?_, h3⟩
        have hfo : (ReadAt.here o).found = some o.e := by simp [ReadAt.found, hf]
        rw [hfo] at h3
        simp only [ReadAt.found, Option.map_some] at h3
        split at h3
        · injection h3 with h3
          rw [h3]
          exact (cameFrom_read hcf hf.2).1
        · cases h3
    · have hav : (ownSlot k (.here o)).avail = false := by simpa [ownSlot] using hf
      rw [hmiss _ hav (by simp)] at hd
      cases hd
      refine ⟨_, hend, rfl, rfl, ?_⟩
      simp [ReadAt.found, hf]

/-! ### What is left over from others -/

theorem getClient_more {now : Int64} {w q m : Bytes} {n n' : Nat} (hn : n ≤ n') {s : Bytes} {g g' : GetSlot} {rest : Bytes}
    (h : getClient now w q n s g = (.done, g', rest)) : getClient now w q n' (s ++ m) g = (.done, g', rest ++ m) := by
  induction n generalizing n' s g with
  | zero => simp [getClient] at h
  | succ n ih =>
    obtain ⟨n', rfl⟩ : ∃ x, n' = x + 1 := ⟨n' - 1, by omega⟩
    rw [getClient] at h ⊢
    cases hl : readLine s with
    | none => rw [hl] at h; simp at h
    | some y =>
      obtain ⟨line, s1⟩ := y
      rw [hl] at h
      rw [readLine_more hl]
      dsimp only at h ⊢
      by_cases h1 : line = strEnd ++ [chNl]
      · rw [if_pos h1] at h ⊢
        simp only [Prod.mk.injEq, true_and] at h ⊢
        exact ⟨h.1, by rw [h.2]⟩
      · rw [if_neg h1] at h ⊢
        cases hs : scanWord line w with
        | error f => rw [hs] at h; cases f <;> simp [GetEnd.ofFault] at h
        | ok z =>
          obtain ⟨p, w'⟩ := z
          rw [hs] at h
          dsimp only at h ⊢
          by_cases h2 : cstr w' ≠ strValue
          · rw [if_pos h2] at h; simp at h
          · rw [if_neg h2] at h ⊢
            cases hp : entryParse now .get p q { key := [] } with
            | error f => rw [hp] at h; cases f <;> simp [GetEnd.ofFault] at h
            | ok x =>
              rw [hp] at h
              dsimp only at h ⊢
              by_cases h3 : g.e.key ≠ x.key
              · rw [if_pos h3] at h; simp at h
              · rw [if_neg h3] at h ⊢
                cases hr : readSize (x.size.toNat + 2) s1 with
                | error f => rw [hr] at h; cases f <;> simp [GetEnd.ofFault] at h
                | ok z =>
                  obtain ⟨d, t⟩ := z
                  rw [hr] at h
                  rw [readSize_more hr]
                  exact ih (by omega) h

/-- A value of another key is not taken, but its line is. -/
theorem getClient_other {now : Int64} {t : ResponseType} {w q b s : Bytes} {e : Entry} {g : GetSlot} {n : Nat}
    (hk : PlainKey e.key q.length) (hq : 32 ≤ q.length) (hw : w.length = q.length) (hb : response t e = some b)
    (hg : g.e.key ≠ e.key) : getClient now w q (n + 1) (responseLine t e ++ s) g = (.failed, g, s) := by
  have hfull := readAnswer_value (now := now) (q := q) (q' := w) (more := []) hk hq hw hb
  simp only [response] at hb
  split at hb
  case isFalse => exact absurd hb (by simp)
  case isTrue hsz =>
  have hb := Option.some.inj hb
  obtain ⟨l, hl, hnl⟩ := responseLine_split (t := t) hk
  rw [← hb, hl] at hfull
  unfold readAnswer at hfull
  have e1 : l ++ crlf ++ e.data.take e.size.toNat ++ crlf ++ [] =
      l ++ crlf ++ (e.data.take e.size.toNat ++ crlf) := by simp
  rw [e1, readLine_crlf hnl] at hfull
  rw [hl, getClient, readLine_crlf hnl]
  dsimp only at hfull ⊢
  by_cases hend : l ++ [chNl] = strEnd ++ [chNl]
  · simp [hend] at hfull
  · simp only [if_neg hend] at hfull ⊢
    cases hs : scanWord (l ++ [chNl]) w with
    | error f => simp [hs] at hfull
    | ok y =>
      obtain ⟨p, w'⟩ := y
      simp only [hs] at hfull
      dsimp only
      by_cases hv : cstr w' ≠ strValue
      · simp [hv] at hfull
      · simp only [if_neg hv] at hfull ⊢
        cases hp : entryParse now .get p q { key := [] } with
        | error f => simp [hp] at hfull
        | ok e' =>
          simp only [hp] at hfull
          dsimp only
          cases hr : readSize (e'.size.toNat + 2) (e.data.take e.size.toNat ++ crlf) with
          | error f => simp [hr] at hfull
          | ok z =>
            obtain ⟨d', s''⟩ := z
            simp only [hr] at hfull
            injection hfull with h
            injection h with h1 h2
            have hkey : e'.key = e.key := by have := congrArg Entry.key h1; simpa using this
            rw [if_pos (by rw [hkey]; exact hg)]

/-- A line of one word, neither END nor VALUE, is not understood. -/
theorem getClient_word {now : Int64} {w q d s : Bytes} {g : GetSlot} {n : Nat} (hd : ∀ c ∈ d, wordChar c = true)
    (hlen : d.length < w.length) (hne : d ≠ strEnd) (hv : d ≠ strValue) :
    getClient now w q (n + 1) (d ++ crlf ++ s) g = (.failed, g, s) := by
  have hnl : ∀ c ∈ d, c ≠ chNl := fun c hc h => by
    have := hd c hc
    rw [h] at this
    revert this; decide
  obtain ⟨w', h1, h2, -⟩ := scanWord_tok (w := d) (c := chNl) (rest := []) (q := w) 0 hd (by decide) hlen
    (fun _ => by decide)
  have h1' : scanWord (d ++ [chNl]) w = .ok ([chNl], w') := by simpa using h1
  rw [getClient, readLine_crlf hnl]
  dsimp only
  rw [if_neg (fun h => hne (List.append_cancel_right h)), h1']
  dsimp only
  rw [if_pos (by rw [h2]; exact hv)]

/-- The line of a value begins with the word VALUE and ends with a digit. -/
theorem responseLine_ends {t : ResponseType} (ht : t = .get ∨ t = .gets) {e : Entry} {n : Nat} (hk : PlainKey e.key n) :
    ∃ x c, responseLine t e = strValue ++ chSpace :: (x ++ [c]) ++ crlf ∧ isDigit c = true ∧
      ∀ y ∈ strValue ++ chSpace :: (x ++ [c]), y ≠ chNl ∧ y ≠ 0 := by
  have hlast : ∀ v, ∃ x c, decimal v = x ++ [c] ∧ isDigit c = true := by
    intro v
    rcases List.eq_nil_or_concat (decimal v) with h | ⟨x, c, h⟩
    · exact absurd h (decimal_ne_nil v)
    · refine ⟨x, c, by simpa using h, decimal_digits v c (by rw [h]; simp)⟩
  have hdz : ∀ v, ∀ y ∈ decimal v, y ≠ chNl ∧ y ≠ 0 := by
    intro v y hy
    have := decimal_digits v y hy
    refine ⟨fun h => ?_, fun h => ?_⟩ <;> rw [h] at this <;> revert this <;> decide
  have hkz : ∀ y ∈ e.key, y ≠ chNl ∧ y ≠ 0 := fun y hy => ⟨(hk.2.1 y hy).2.2, (hk.2.1 y hy).1⟩
  have hvz : ∀ y ∈ strValue, y ≠ chNl ∧ y ≠ 0 := by decide
  have hsz : chSpace ≠ chNl ∧ chSpace ≠ 0 := by decide
  have hline : ∃ p v, responseLine t e = strValue ++ chSpace :: (p ++ decimal v) ++ crlf ∧
      ∀ y ∈ p, y ≠ chNl ∧ y ≠ 0 := by
    have hfl : ∀ y ∈ e.key ++ chSpace :: decimal e.flag.toNat ++ [chSpace], y ≠ chNl ∧ y ≠ 0 := by
      intro y hy
      simp only [List.mem_append, List.mem_cons, List.not_mem_nil, or_false] at hy
      rcases hy with (hy | hy | hy) | hy
      · exact hkz y hy
      · rw [hy]; exact hsz
      · exact hdz _ y hy
      · rw [hy]; exact hsz
    rcases ht with rfl | rfl
    · exact ⟨e.key ++ chSpace :: decimal e.flag.toNat ++ [chSpace], e.size.toNat,
        by simp [responseLine, cstr_plain hk.word], hfl⟩
    · refine ⟨e.key ++ chSpace :: decimal e.flag.toNat ++ [chSpace] ++ (decimal e.size.toNat ++ [chSpace]),
        e.version.toNat, by simp [responseLine, cstr_plain hk.word], ?_⟩
      intro y hy
      rcases List.mem_append.1 hy with hy | hy
      · exact hfl y hy
      · rcases List.mem_append.1 hy with hy | hy
        · exact hdz _ y hy
        · simp only [List.mem_cons, List.not_mem_nil, or_false] at hy
          rw [hy]; exact hsz
  obtain ⟨p, v, h1, h2⟩ := hline
  obtain ⟨x, c, h3, h4⟩ := hlast v
  refine ⟨p ++ x, c, by rw [h1, h3]; simp, h4, ?_⟩
  intro y hy
  have hx := hdz v
  rw [h3] at hx
  simp only [List.mem_append, List.mem_cons, List.not_mem_nil, or_false] at hy hx
  rcases hy with hy | hy | (hy | hy) | hy
  · exact hvz y hy
  · rw [hy]; exact hsz
  · exact h2 y hy
  · exact hx y (.inl hy)
  · exact hx y (.inr hy)

theorem trimAnswer_end {x : Bytes} {c : UInt8} (hx : ∀ y ∈ x ++ [c], y ≠ 0) (hc : isDigit c = true ∨ wordChar c = true) :
    trimAnswer (x ++ [c] ++ [chNl]) = x ++ [c] := by
  have hcs : cstr (x ++ [c] ++ [chNl]) = x ++ [c] ++ [chNl] := by
    have := List.takeWhile_append_of_pos (p := fun y : UInt8 => decide (y ≠ 0)) (l₁ := x ++ [c] ++ [chNl])
      (l₂ := []) (fun y hy => by
        rcases List.mem_append.1 hy with hy | hy
        · simpa using hx y hy
        · simp only [List.mem_cons, List.not_mem_nil, or_false] at hy
          rw [hy]; decide)
    simpa [cstr] using this
  have h1 : c ≠ chNl ∧ c ≠ chSpace := by
    refine ⟨fun h => ?_, fun h => ?_⟩ <;> rw [h] at hc <;> revert hc <;> decide
  simp only [trimAnswer, hcs]
  have : ((x ++ [c] ++ [chNl]).reverse.dropWhile fun y => decide (y = chNl ∨ y = chSpace)) = c :: x.reverse := by
    simp [h1.1, h1.2]
  rw [this]
  simp

theorem opResultCast_value : opResultCast strValue = none := by decide

/-- The line of a value is no answer to a write (other than `gat`). -/
theorem writeClient_value {now : Int64} {t : ResponseType} (ht : t = .get ∨ t = .gets) {w q s : Bytes} {e : Entry}
    {r : WriteReq} (hq : q.length = 8192) (hk : PlainKey e.key 8192) (hg : r.cmd ≠ .gat)
    (hn : r.entry.option &&& optNoreply = 0) :
    writeClient now w q r (responseLine t e ++ s) = .error .err ∧ writeLeft now w q r (responseLine t e ++ s) = s := by
  obtain ⟨x, c, h1, h2, h3⟩ := responseLine_ends ht hk
  have hl : readLine (responseLine t e ++ s) = some (strValue ++ chSpace :: (x ++ [c]) ++ [chNl], s) := by
    rw [h1]; exact readLine_crlf (fun y hy => (h3 y hy).1)
  have hpar : parseResponse (strValue ++ chSpace :: (x ++ [c]) ++ [chNl]) q = .error .err := by
    obtain ⟨w', g1, g2, -⟩ := scanWord_tok (w := strValue) (c := chSpace) (rest := x ++ [c] ++ [chNl]) (q := q) 0
      (by decide) (by decide) (by rw [hq]; decide) (fun h => absurd h (by decide))
    have g1' : scanWord (strValue ++ chSpace :: (x ++ [c]) ++ [chNl]) q = .ok (chSpace :: (x ++ [c] ++ [chNl]), w') := by
      simpa using g1
    simp only [parseResponse, g1', g2, opResultCast_value]
  constructor
  · rw [writeClient, if_neg hg, if_neg (by rw [hn]; simp)]
    split
    · rw [incrClient, hl]
      dsimp only
      have htr : trimAnswer (strValue ++ chSpace :: (x ++ [c]) ++ [chNl]) = strValue ++ chSpace :: (x ++ [c]) := by
        have := trimAnswer_end (x := strValue ++ chSpace :: x) (c := c) (fun y hy => (h3 y (by simpa using hy)).2) (.inl h2)
        simpa using this
      rw [htr]
      have hlex : lexUnsigned 64 (strValue ++ chSpace :: (x ++ [c])) = none := by
        simp [lexUnsigned, lexNumber, isUnsignedString, isDigit, strValue, chMinus, chPlus]
      rw [hlex]
      simp only [Option.isSome_none, Bool.false_eq_true, if_false]
      rw [hpar]
    · simp only [readResponse, hl, hpar]
  · rw [writeLeft, if_neg (fun h => hg h.1), lineLeft, hl]

/-- Nor is a line of one word that is no name of a result. -/
theorem writeClient_word {now : Int64} {w q d s : Bytes} {r : WriteReq} (hq : q.length = 8192)
    (hd : ∀ c ∈ d, wordChar c = true) (hlen : d.length < 8192) (hr : opResultCast d = none) (hg : r.cmd ≠ .gat)
    (hc : r.cmd.kind ≠ .count) (hn : r.entry.option &&& optNoreply = 0) :
    writeClient now w q r (d ++ crlf ++ s) = .error .err ∧ writeLeft now w q r (d ++ crlf ++ s) = s := by
  have hnl : ∀ c ∈ d, c ≠ chNl := fun c hc h => by
    have := hd c hc
    rw [h] at this
    revert this; decide
  obtain ⟨w', h1, h2, -⟩ := scanWord_tok (w := d) (c := chNl) (rest := []) (q := q) 0 hd (by decide) (by rw [hq]; exact hlen)
    (fun _ => by decide)
  have h1' : scanWord (d ++ [chNl]) q = .ok ([chNl], w') := by simpa using h1
  constructor
  · rw [writeClient, if_neg hg, if_neg (by rw [hn]; simp), if_neg hc]
    simp only [readResponse, readLine_crlf hnl, parseResponse, h1', h2, hr]
  · rw [writeLeft, if_neg (fun h => hg h.1), lineLeft, readLine_crlf hnl]

/-- END is taken for a result. -/
theorem writeClient_end {now : Int64} {w q s : Bytes} {r : WriteReq} (hq : q.length = 8192) (hg : r.cmd ≠ .gat)
    (hc : r.cmd.kind ≠ .count) (hn : r.entry.option &&& optNoreply = 0) :
    writeClient now w q r (strEnd ++ crlf ++ s) = .ok (.sent true .end_ [] none, s) := by
  obtain ⟨w', h1, h2, -⟩ := scanWord_tok (w := strEnd) (c := chNl) (rest := []) (q := q) 0 (by decide) (by decide)
    (by rw [hq]; decide) (fun _ => by decide)
  have h1' : scanWord (strEnd ++ [chNl]) q = .ok ([chNl], w') := by simpa using h1
  have hcast : opResultCast strEnd = some .end_ := by decide
  rw [writeClient, if_neg hg, if_neg (by rw [hn]; simp), if_neg hc]
  simp only [readResponse, readLine_crlf (show ∀ c ∈ strEnd, c ≠ chNl by decide), parseResponse, h1', h2, hcast]
  have : (cstr (([chNl] : Bytes).drop (blanks [chNl]))).dropLast = [] := by decide
  rw [this]

/-- A number is taken for the new value of the counter. -/
theorem writeClient_number {now : Int64} {w q s : Bytes} {r : WriteReq} {n : Nat} (hn64 : n < 2 ^ 64)
    (hc : r.cmd.kind = .count) (hn : r.entry.option &&& optNoreply = 0) :
    writeClient now w q r (decimal n ++ crlf ++ s) = .ok (.sent true .stored (decimal n ++ crlf) none, s) := by
  have hg : r.cmd ≠ .gat := by intro h; rw [h] at hc; revert hc; decide
  have hdig := decimal_digits n
  have hnl : ∀ c ∈ decimal n, c ≠ chNl ∧ c ≠ 0 := fun c hc => by
    have := hdig c hc
    refine ⟨fun h => ?_, fun h => ?_⟩ <;> rw [h] at this <;> revert this <;> decide
  have htr : trimAnswer (decimal n ++ [chNl]) = decimal n := by
    rcases List.eq_nil_or_concat (decimal n) with h | ⟨x, c, h⟩
    · exact absurd h (decimal_ne_nil n)
    · have h' : decimal n = x ++ [c] := by simpa using h
      rw [h']
      exact trimAnswer_end (fun y hy => (hnl y (by rw [h']; exact hy)).2) (.inl (hdig c (by rw [h']; simp)))
  have hlen : (decimal n).length ≤ 20 := decimal_length_64 hn64
  rw [writeClient, if_neg hg, if_neg (by rw [hn]; simp), if_pos hc, incrClient,
    readLine_crlf (fun c hc => (hnl c hc).1)]
  dsimp only
  rw [htr, lexUnsigned_decimal hn64]
  have ht : (decimal n ++ crlf).take 8191 = decimal n ++ crlf := by
    apply List.take_of_length_le
    rw [List.length_append]
    have : crlf.length = 2 := rfl
    omega
  simp only [Option.isSome_some, if_true, if_pos (show (decimal n).length < 8192 by omega), ht]

end Flare
