import Verif.Lemmas.Errand

/-! Property theorems about reads and writes that are handed on over one connection: C97. -/
namespace Flare

/-! ### As it should be -/

/-- A try that leaves nothing on the connection: it is not sent; or the other node answers (only where an answer is
wanted), and the answer is there in time, or the connection breaks - for a read before anything of the answer has
come. -/
def CalmTurn (P : ErrandBufs) (e : Errand) (t : ErrandTry) (s : Store) : Prop :=
  t.sent = true → ∃ b s' d a, e.bytes = some b ∧ errandServe P t (run s t.before) b = some (s', d, a) ∧ d.fits ∧
    (e.silent = true → a = []) ∧ ((cutAt t.inTime a).2 = [] ∨ t.breaks = true ∧ (t.inTime = some 0 ∨ ∃ r, e = .write r))

/-- All tries of an errand that take place are such. -/
def CalmErrand (P : ErrandBufs) (e : Errand) : Nat → List ErrandTry → Desk → GetSlot → Prop
  | 0, _, _, _ => True
  | _ + 1, [], _, _ => True
  | n + 1, t :: ts, k, g => CalmTurn P e t k.store ∧
    ((errandTry P e t k g).2.ends = .failed →
      CalmErrand P e n ts (errandTry P e t k g).1 (errandTry P e t k g).2.slot)

/-- And those of all errands. -/
def CalmErrands (P : ErrandBufs) : List (Errand × List ErrandTry) → Desk → Prop
  | [], _ => True
  | (e, ts) :: es, k => CalmErrand P e maxRetry ts k e.slot ∧ CalmErrands P es (errandRun P e maxRetry ts k e.slot).1

/-- How an errand should end: all tries have failed, or it ends for what the other node has done in the last try. -/
def Errand.honest (e : Errand) (x : ErrandTold) : Prop :=
  x.ends = .failed ∨ ∃ now d, x.did.getLast? = some d ∧ e.right now d x.ends x.slot

/-- The buffers have the sizes of the code. -/
structure ErrandBufs.Ok (P : ErrandBufs) : Prop where
  first : P.first.length = 1024
  q : P.q.length = 8192
  w : P.w.length = 8192

theorem cutAt_append (n : Option Nat) (s : Bytes) : (cutAt n s).1 ++ (cutAt n s).2 = s := by
  cases n with
  | none => simp [cutAt]
  | some n => exact List.take_append_drop n s

theorem serve_ok {P : ErrandBufs} {t : ErrandTry} {s s' : Store} (hs : s.Ok) {b a : Bytes} {d : ErrandDid}
    (h : errandServe P t s b = some (s', d, a)) : s'.Ok := by
  unfold errandServe at h
  split at h
  · split at h
    · simp only [Option.map_eq_some_iff, Prod.mk.injEq] at h
      obtain ⟨-, -, rfl, -⟩ := h
      exact hs
    · simp only [Option.map_eq_some_iff, Prod.mk.injEq] at h
      obtain ⟨-, -, rfl, -⟩ := h
      exact step_ok hs _ _
  · split at h
    · simp only [Option.map_eq_some_iff, Prod.mk.injEq] at h
      obtain ⟨-, -, rfl, -⟩ := h
      exact hs
    · simp only [Option.map_eq_some_iff, Prod.mk.injEq] at h
      obtain ⟨-, -, rfl, -⟩ := h
      exact step_ok hs _ _
  · cases h

/-- A calm try on a connection with nothing left on it: nothing is left, and it has failed or ends as it should. -/
theorem calm_turn {P : ErrandBufs} (hP : P.Ok) {e : Errand} (he : e.Proper) {t : ErrandTry} {k : Desk}
    (hk : k.wire = []) (hs : k.store.Ok) (hc : CalmTurn P e t k.store) :
    (errandTry P e t k e.slot).1.wire = [] ∧ (errandTry P e t k e.slot).1.store.Ok ∧
      ((errandTry P e t k e.slot).2.ends = .failed ∧ (errandTry P e t k e.slot).2.slot = e.slot ∨
        ∃ d, (errandTry P e t k e.slot).2.did = [d] ∧
          e.right t.now d (errandTry P e t k e.slot).2.ends (errandTry P e t k e.slot).2.slot) := by
  have hs' := run_ok hs t.before
  cases hse : t.sent with
  | false =>
    simp only [errandTry, hse, if_true]
    exact ⟨trivial, hs', .inl ⟨trivial, trivial⟩⟩
  | true =>
    obtain ⟨b, s', d, a, hb, hserve, hfit, hsil, hin⟩ := hc hse
    have hok := serve_ok hs' hserve
    have hrun : errandTry P e t k e.slot =
        ({ store := s',
           wire := if t.breaks then (if (errandRead P t.now (cutAt t.inTime a).1 e.slot e).1 = .failed then []
              else (errandRead P t.now (cutAt t.inTime a).1 e.slot e).2.2)
            else (errandRead P t.now (cutAt t.inTime a).1 e.slot e).2.2 ++ (cutAt t.inTime a).2 },
         { ends := (errandRead P t.now (cutAt t.inTime a).1 e.slot e).1,
           slot := (errandRead P t.now (cutAt t.inTime a).1 e.slot e).2.1, did := [d] }) := by
      simp only [errandTry, hse, hb, Option.bind_some, hserve, hk, List.nil_append]
      simp
    rw [hrun]
    dsimp only
    refine (fun h => ⟨h.1, hok, h.2⟩ : ∀ {A B : Prop}, (A ∧ B) → A ∧ s'.Ok ∧ B) ?_
    cases e with
    | write r =>
      have hread := own_write hP.first hP.q hP.w hs' he hb hserve hfit hsil t.now
      by_cases hlen : (cutAt t.inTime a).2 = []
      · have h1 : (cutAt t.inTime a).1 = a := by
          have := cutAt_append t.inTime a
          rwa [hlen, List.append_nil] at this
        rw [h1, hlen]
        rcases hread with ⟨d', h3, h4⟩ | ⟨-, h3, h4, -⟩
        · have : errandRead P t.now a (Errand.write r).slot (.write r) = (.wrote d', (Errand.write r).slot, []) := by
            simp only [errandRead, h3]
          rw [this]
          refine ⟨by simp, .inr ⟨d, rfl, ?_⟩⟩
          cases d with
          | wrote d0 => exact h4
          | read x => exact absurd h4 (by simp [Errand.right])
        · have : errandRead P t.now a (Errand.write r).slot (.write r) = (.failed, (Errand.write r).slot, []) := by
            simp only [errandRead, h3, h4]
          rw [this]
          exact ⟨by simp, .inl ⟨rfl, rfl⟩⟩
      · have hbr : t.breaks = true := by
          rcases hin with h | h
          · exact absurd h hlen
          · exact h.1
        have hsplit : a = (cutAt t.inTime a).1 ++ (cutAt t.inTime a).2 := (cutAt_append _ _).symm
        have hm := writeClient_more (now := t.now) (w := P.w) (q := P.q) (r := r) (s := (cutAt t.inTime a).1)
          (m := (cutAt t.inTime a).2)
        rw [← hsplit] at hm
        cases hcl : writeClient t.now P.w P.q r (cutAt t.inTime a).1 with
        | ok x =>
          obtain ⟨d', rest⟩ := x
          have h5 := hm.1 d' rest hcl
          exfalso
          rcases hread with ⟨d2, h3, -⟩ | ⟨-, h3, -⟩
          · rw [h3] at h5
            simp only [Except.ok.injEq, Prod.mk.injEq] at h5
            exact hlen (List.append_eq_nil_iff.1 h5.2.symm).2
          · rw [h3] at h5; cases h5
        | error f =>
          cases f with
          | ub =>
            have h5 := hm.2 hcl
            exfalso
            rcases hread with ⟨d2, h3, -⟩ | ⟨-, h3, -⟩
            · rw [h3] at h5; cases h5
            · rw [h3] at h5; cases h5
          | err =>
            simp only [errandRead, hcl, hbr, if_true]
            exact ⟨trivial, .inl ⟨trivial, trivial⟩⟩
    | read y q =>
      have hb' : b = getRequest y q := (Option.some.inj hb).symm
      subst hb'
      obtain ⟨g, hread, hright⟩ := own_read hP.first hP.q hP.w hs' he hserve hfit t.now
      by_cases hlen : (cutAt t.inTime a).2 = []
      · have h1 : (cutAt t.inTime a).1 = a := by
          have := cutAt_append t.inTime a
          rwa [hlen, List.append_nil] at this
        rw [h1, hlen]
        have : errandRead P t.now a (Errand.read y q).slot (.read y q) = (.got, g, []) := by
          simp only [errandRead, Errand.slot, hread]
        rw [this]
        exact ⟨by simp, .inr ⟨d, rfl, hright⟩⟩
      · rcases hin with h | ⟨hbr, h0 | ⟨r, hr⟩⟩
        · exact absurd h hlen
        · rw [h0]
          have : errandRead P t.now (cutAt (some 0) a).1 (Errand.read y q).slot (.read y q) =
              (.failed, (Errand.read y q).slot, []) := by
            simp only [errandRead, cutAt, List.take_zero, getClient, readLine_noNl (l := []) (by simp)]
          rw [this, hbr]
          exact ⟨by simp, .inl ⟨rfl, rfl⟩⟩
        · cases hr

theorem calm_errand {P : ErrandBufs} (hP : P.Ok) {e : Errand} (he : e.Proper) (n : Nat) (ts : List ErrandTry) {k : Desk}
    (hk : k.wire = []) (hs : k.store.Ok) (hc : CalmErrand P e n ts k e.slot) :
    (errandRun P e n ts k e.slot).1.wire = [] ∧ (errandRun P e n ts k e.slot).1.store.Ok ∧
      e.honest (errandRun P e n ts k e.slot).2 := by
  induction n generalizing ts k with
  | zero => exact ⟨hk, hs, .inl rfl⟩
  | succ n ih =>
    cases ts with
    | nil => exact ⟨hk, hs, .inl rfl⟩
    | cons t ts =>
      obtain ⟨h1, h2⟩ := hc
      obtain ⟨c1, c2, c3⟩ := calm_turn hP he hk hs h1
      simp only [errandRun]
      rcases hr : errandTry P e t k e.slot with ⟨k', r⟩
      rw [hr] at h2 c1 c2 c3
      dsimp only at h2 c1 c2 c3 ⊢
      by_cases hf : r.ends = .failed
      · rw [if_pos hf]
        rcases c3 with ⟨-, c3⟩ | ⟨d, -, c3⟩
        · rw [c3] at h2 ⊢
          obtain ⟨i1, i2, i3⟩ := ih ts c1 c2 (h2 hf)
          rcases hx : errandRun P e n ts k' e.slot with ⟨k2, r2⟩
          rw [hx] at i1 i2 i3
          refine ⟨i1, i2, ?_⟩
          rcases i3 with i3 | ⟨now, d, i3, i4⟩
          · exact .inl i3
          · refine .inr ⟨now, d, ?_, i4⟩
            simp only [List.getLast?_append, i3, Option.some_or]
        · exfalso
          rw [hf] at c3
          cases e <;> cases d <;> simp [Errand.right] at c3
      · rw [if_neg hf]
        refine ⟨c1, c2, .inr ?_⟩
        rcases c3 with ⟨c3, -⟩ | ⟨d, c3, c4⟩
        · exact absurd c3 hf
        · exact ⟨t.now, d, by rw [c3]; rfl, c4⟩

/-- Reads and writes handed on over one connection, in any order, with any answers and storages, connections that
break again and again in the middle of answers, and requests that are refused: as long as no answer comes late and no
write marked `noreply` is answered, every one of them ends for what the other node has done for it - a write with the
result, a read with the value of its key - or has failed as often as it is tried; and nothing is left on the
connection.  Missing for the full claim: answers can be late, and then see below. -/
theorem C97_own_partial (P : ErrandBufs) (hP : P.Ok) (es : List (Errand × List ErrandTry)) (k : Desk)
    (hk : k.wire = []) (hs : k.store.Ok) (he : ∀ x ∈ es, x.1.Proper) (hc : CalmErrands P es k) :
    (errands P es k).1.wire = [] ∧ (errands P es k).2.length = es.length ∧
      ∀ (i : Nat) (e : Errand) (ts : List ErrandTry) (x : ErrandTold), es[i]? = some (e, ts) → (errands P es k).2[i]? = some x → e.honest x := by
  induction es generalizing k with
  | nil => exact ⟨hk, rfl, fun i e ts x h => by simp at h⟩
  | cons y es ih =>
    obtain ⟨e, ts⟩ := y
    obtain ⟨h1, h2⟩ := hc
    obtain ⟨c1, c2, c3⟩ := calm_errand hP (he _ List.mem_cons_self) maxRetry ts hk hs h1
    obtain ⟨i1, i2, i3⟩ := ih _ c1 c2 (fun x hx => he x (List.mem_cons_of_mem _ hx)) h2
    refine ⟨i1, by simp only [errands, List.length_cons, i2], fun i e' ts' x h h' => ?_⟩
    cases i with
    | zero =>
      simp only [List.getElem?_cons_zero, Option.some.injEq, Prod.mk.injEq] at h
      simp only [errands, List.getElem?_cons_zero, Option.some.injEq] at h'
      rw [← h.1, ← h']
      exact c3
    | succ i =>
      simp only [errands, List.getElem?_cons_succ] at h h'
      exact i3 i e' ts' x h h'

/-- On a connection with nothing left on it, a request (not `gat`, whose refusals are not understood) that is sent,
answered, and whose answer is there in time, is not sent again: it does not fail. -/
theorem C97_answered (P : ErrandBufs) (hP : P.Ok) (e : Errand) (he : e.Proper) (hg : ∀ r, e = .write r → r.cmd ≠ .gat)
    (n : Nat) (t : ErrandTry) (ts : List ErrandTry) (k : Desk) (hk : k.wire = []) (hs : k.store.Ok)
    (hse : t.sent = true) (hin : t.inTime = none) (hc : CalmTurn P e t k.store) :
    (errandRun P e (n + 1) (t :: ts) k e.slot).1.wire = [] ∧
      ∃ d, (errandRun P e (n + 1) (t :: ts) k e.slot).2.did = [d] ∧
        e.right t.now d (errandRun P e (n + 1) (t :: ts) k e.slot).2.ends
          (errandRun P e (n + 1) (t :: ts) k e.slot).2.slot := by
  obtain ⟨c1, -, c3⟩ := calm_turn hP he hk hs hc
  have hnf : (errandTry P e t k e.slot).2.ends ≠ .failed := by
    obtain ⟨b, s', d, a, hb, hserve, hfit, hsil, -⟩ := hc hse
    simp only [errandTry, hse, hb, Option.bind_some, hserve, hk, List.nil_append, hin, cutAt]
    cases e with
    | write r =>
      rcases own_write hP.first hP.q hP.w (run_ok hs t.before) he hb hserve hfit hsil t.now with ⟨d', h3, -⟩ | ⟨h, -⟩
      · simp only [errandRead, h3]
        simp
      · exact absurd h (hg r rfl)
    | read y q =>
      have hb' : b = getRequest y q := (Option.some.inj hb).symm
      subst hb'
      obtain ⟨g, hread, -⟩ := own_read hP.first hP.q hP.w (run_ok hs t.before) he hserve hfit t.now
      simp only [errandRead, Errand.slot, hread]
      simp
  rcases c3 with ⟨h, -⟩ | c3
  · exact absurd h hnf
  · simp only [errandRun]
    rcases hr : errandTry P e t k e.slot with ⟨k', r⟩
    rw [hr] at c1 c3 hnf
    dsimp only at c1 c3 hnf ⊢
    rw [if_neg hnf]
    exact ⟨c1, c3⟩

/-- Whatever is left on the connection is gone if a request cannot be sent: the next try, on a new connection, gets its
own answer. -/
theorem C97_fresh (P : ErrandBufs) (hP : P.Ok) (e : Errand) (he : e.Proper) (hg : ∀ r, e = .write r → r.cmd ≠ .gat)
    (n : Nat) (t0 t : ErrandTry) (ts : List ErrandTry) (k : Desk) (hs : k.store.Ok) (h0 : t0.sent = false)
    (hse : t.sent = true) (hin : t.inTime = none) (hc : CalmTurn P e t (run k.store t0.before)) :
    (errandRun P e (n + 2) (t0 :: t :: ts) k e.slot).1.wire = [] ∧
      ∃ d, (errandRun P e (n + 2) (t0 :: t :: ts) k e.slot).2.did = [d] ∧
        e.right t.now d (errandRun P e (n + 2) (t0 :: t :: ts) k e.slot).2.ends
          (errandRun P e (n + 2) (t0 :: t :: ts) k e.slot).2.slot := by
  have h := C97_answered P hP e he hg n t ts { store := run k.store t0.before } rfl (run_ok hs _) hse hin hc
  have : errandRun P e (n + 2) (t0 :: t :: ts) k e.slot =
      errandRun P e (n + 1) (t :: ts) { store := run k.store t0.before } e.slot := by
    rw [errandRun, errandTry, h0]
    simp
  rw [this]
  exact h

/-! ### What a late answer does -/

/-- Sent, and everything is there in time: these tries do nothing wrong themselves. -/
def ErrandTry.Prompt (t : ErrandTry) : Prop := t.sent = true ∧ t.inTime = none ∧ t.breaks = false

theorem prompt_try {P : ErrandBufs} {e : Errand} {t : ErrandTry} (ht : t.Prompt) {k : Desk} {g : GetSlot} {b : Bytes}
    (hb : e.bytes = some b) {s' : Store} {d : ErrandDid} {a : Bytes}
    (hd : errandServe P t (run k.store t.before) b = some (s', d, a)) :
    errandTry P e t k g =
      ({ store := s', wire := (errandRead P t.now (k.wire ++ a) g e).2.2 },
       { ends := (errandRead P t.now (k.wire ++ a) g e).1, slot := (errandRead P t.now (k.wire ++ a) g e).2.1,
         did := [d] }) := by
  obtain ⟨h1, h2, h3⟩ := ht
  simp only [errandTry, h1, hb, Option.bind_some, hd, h2, cutAt, h3]
  simp

theorem errandRun_failed {P : ErrandBufs} {e : Errand} {t : ErrandTry} {ts : List ErrandTry} {n : Nat} {k k' : Desk}
    {g g' : GetSlot} {l : List ErrandDid} (h : errandTry P e t k g = (k', { ends := .failed, slot := g', did := l })) :
    errandRun P e (n + 1) (t :: ts) k g = ((errandRun P e n ts k' g').1,
      { (errandRun P e n ts k' g').2 with did := l ++ (errandRun P e n ts k' g').2.did }) := by
  rw [errandRun, h]
  simp

theorem errandRun_ends {P : ErrandBufs} {e : Errand} {t : ErrandTry} {ts : List ErrandTry} {n : Nat} {k k' : Desk}
    {g : GetSlot} {r : ErrandTold} (h : errandTry P e t k g = (k', r)) (hr : r.ends ≠ .failed) :
    errandRun P e (n + 1) (t :: ts) k g = (k', r) := by
  rw [errandRun, h]
  simp [hr]

theorem response_bytes {y : ResponseType} {x : Entry} {b : Bytes} (hb : response y x = some b)
    (hl : x.data.length = x.size.toNat) : b = responseLine y x ++ (x.data ++ crlf) := by
  simp only [response] at hb
  split at hb
  case isFalse => exact absurd hb (by simp)
  case isTrue hsz =>
    rw [← Option.some.inj hb, ← hl, List.take_length]
    simp

theorem stale_reads (P : ErrandBufs) (hP : P.Ok) (y : ResponseType) (q : Bytes) (he : (Errand.read y q).Proper)
    (a0 : Bytes) (d0 : ErrandDid)
    (h0 : ∀ now, ∃ g, getClient now P.w P.q (a0.length + 1) a0 { e := { key := q } } = (.done, g, []) ∧
      (Errand.read y q).right now d0 .got g)
    (ts : List ErrandTry) (k : Desk) (hk : k.wire = a0) (hs : k.store.Ok) (hts : ∀ t ∈ ts, t.Prompt)
    (hfit : ∀ (x : ErrandTold) (d : ErrandDid), x ∈ (errands P (ts.map fun t => (.read y q, [t])) k).2 → d ∈ x.did → d.fits)
    (hub : ∀ x ∈ (errands P (ts.map fun t => (.read y q, [t])) k).2, x.ends ≠ .ub) :
    (errands P (ts.map fun t => (.read y q, [t])) k).2.length = ts.length ∧
      ∀ (i : Nat) (t : ErrandTry) (x : ErrandTold), ts[i]? = some t →
        (errands P (ts.map fun t => (.read y q, [t])) k).2[i]? = some x →
        ∃ d, (d0 :: (errands P (ts.map fun t => (.read y q, [t])) k).2.flatMap ErrandTold.did)[i]? = some d ∧
          (Errand.read y q).right t.now d x.ends x.slot := by
  induction ts generalizing k a0 d0 with
  | nil => exact ⟨rfl, fun i t x h => by simp at h⟩
  | cons t ts ih =>
    have hp := hts t List.mem_cons_self
    cases hd : errandServe P t (run k.store t.before) (getRequest y q) with
    | none =>
      exfalso
      have htry : errandTry P (.read y q) t k (Errand.read y q).slot =
          ({ store := run k.store t.before }, { ends := .ub, slot := (Errand.read y q).slot }) := by
        simp only [errandTry, hp.1, Errand.bytes, Option.bind_some, hd]
        simp
      refine hub { ends := .ub, slot := (Errand.read y q).slot } ?_ rfl
      simp only [List.map_cons, errands]
      rw [show maxRetry = 3 + 1 from rfl, errandRun_ends htry (by simp)]
      exact List.mem_cons_self
    | some v =>
      obtain ⟨s', d, a⟩ := v
      obtain ⟨g, h1, h2⟩ := h0 t.now
      have hread : errandRead P t.now (a0 ++ a) (Errand.read y q).slot (.read y q) = (.got, g, a) := by
        have := getClient_more (m := a) (n' := (a0 ++ a).length + 1) (by simp) h1
        simp only [errandRead, Errand.slot, this, List.nil_append]
      have htry : errandTry P (.read y q) t k (Errand.read y q).slot =
          ({ store := s', wire := a }, { ends := .got, slot := g, did := [d] }) := by
        rw [prompt_try hp rfl hd, hk, hread]
      have hrun : errandRun P (.read y q) maxRetry [t] k (Errand.read y q).slot =
          ({ store := s', wire := a }, { ends := .got, slot := g, did := [d] }) := by
        rw [show maxRetry = 3 + 1 from rfl]
        exact errandRun_ends htry (by simp)
      have hes : errands P ((t :: ts).map fun t => (.read y q, [t])) k =
          ((errands P (ts.map fun t => (.read y q, [t])) { store := s', wire := a }).1,
            { ends := .got, slot := g, did := [d] } ::
              (errands P (ts.map fun t => (.read y q, [t])) { store := s', wire := a }).2) := by
        simp only [List.map_cons, errands, hrun]
      rw [hes] at hfit hub ⊢
      dsimp only at hfit hub ⊢
      have hdf : d.fits := hfit _ d List.mem_cons_self (by simp)
      have hso := run_ok hs t.before
      obtain ⟨i1, i2⟩ := ih a d (fun now => own_read hP.first hP.q hP.w hso he hd hdf now) { store := s', wire := a } rfl
        (serve_ok hso hd) (fun u hu => hts u (List.mem_cons_of_mem _ hu))
        (fun x d hx => hfit x d (List.mem_cons_of_mem _ hx)) (fun x hx => hub x (List.mem_cons_of_mem _ hx))
      refine ⟨by simp [i1], fun i u x hu hx => ?_⟩
      cases i with
      | zero =>
        simp only [List.getElem?_cons_zero, Option.some.injEq] at hu hx
        subst hu hx
        exact ⟨d0, rfl, h2⟩
      | succ i =>
        simp only [List.getElem?_cons_succ] at hu hx
        obtain ⟨d', h3, h4⟩ := i2 i u x hu hx
        exact ⟨d', by simpa using h3, h4⟩

/-- Reads of one key behind a complete answer for it that was late: every one of them is told what the one before
should have been told, the first one is told what was late; and so on for ever, since one answer is always left.  None
of these reads is late itself, none is repeated. -/
theorem C97_stale_reads (P : ErrandBufs) (hP : P.Ok) (y : ResponseType) (q : Bytes) (he : (Errand.read y q).Proper)
    (t0 : ErrandTry) (s0 s0' : Store) (hs0 : s0.Ok) (a0 : Bytes) (d0 : ErrandDid)
    (h0 : errandServe P t0 s0 (getRequest y q) = some (s0', d0, a0)) (hf0 : d0.fits)
    (ts : List ErrandTry) (k : Desk) (hk : k.wire = a0) (hs : k.store.Ok) (hts : ∀ t ∈ ts, t.Prompt)
    (hfit : ∀ (x : ErrandTold) (d : ErrandDid), x ∈ (errands P (ts.map fun t => (.read y q, [t])) k).2 → d ∈ x.did → d.fits)
    (hub : ∀ x ∈ (errands P (ts.map fun t => (.read y q, [t])) k).2, x.ends ≠ .ub) :
    (errands P (ts.map fun t => (.read y q, [t])) k).2.length = ts.length ∧
      ∀ (i : Nat) (t : ErrandTry) (x : ErrandTold), ts[i]? = some t →
        (errands P (ts.map fun t => (.read y q, [t])) k).2[i]? = some x →
        ∃ d, (d0 :: (errands P (ts.map fun t => (.read y q, [t])) k).2.flatMap ErrandTold.did)[i]? = some d ∧
          (Errand.read y q).right t.now d x.ends x.slot :=
  stale_reads P hP y q he a0 d0 (fun now => own_read hP.first hP.q hP.w hs0 he h0 hf0 now) ts k hk hs hts hfit hub

/-- A read of `q` behind a late answer with a value of another key, of one word: it is carried out three times and told
that nothing is stored, whatever is stored and whatever the other node has answered; its own three answers are left for
those who come after it. -/
theorem C97_missing (P : ErrandBufs) (hP : P.Ok) (y z : ResponseType) (q : Bytes) (x : Entry) (b : Bytes) (hx : PlainKey x.key 8192) (hb : response z x = some b) (hl : x.data.length = x.size.toNat)
    (hw : ∀ c ∈ x.data, wordChar c = true) (hlen : x.data.length < 8192) (hne : x.data ≠ strEnd) (hnv : x.data ≠ strValue)
    (hq : x.key ≠ q) (k : Desk) (hk : k.wire = b ++ (strEnd ++ crlf)) (t1 t2 t3 : ErrandTry) (ts : List ErrandTry)
    (h1 : t1.Prompt) (h2 : t2.Prompt) (h3 : t3.Prompt) {s1 s2 s3 : Store} {d1 d2 d3 : ErrandDid} {a1 a2 a3 : Bytes}
    (e1 : errandServe P t1 (run k.store t1.before) (getRequest y q) = some (s1, d1, a1))
    (e2 : errandServe P t2 (run s1 t2.before) (getRequest y q) = some (s2, d2, a2))
    (e3 : errandServe P t3 (run s2 t3.before) (getRequest y q) = some (s3, d3, a3)) :
    errandRun P (.read y q) maxRetry (t1 :: t2 :: t3 :: ts) k (Errand.read y q).slot =
      ({ store := s3, wire := a1 ++ a2 ++ a3 },
       { ends := .got, slot := { e := { key := q } }, did := [d1, d2, d3] }) ∧
      (ReadAt.asked { e := { key := q } }).found = none := by
  refine ⟨?_, rfl⟩
  have hb' := response_bytes hb hl
  have r1 : errandTry P (.read y q) t1 k (Errand.read y q).slot =
      ({ store := s1, wire := x.data ++ crlf ++ (strEnd ++ crlf ++ a1) },
       { ends := .failed, slot := (Errand.read y q).slot, did := [d1] }) := by
    rw [prompt_try h1 rfl e1, hk, hb']
    have : responseLine z x ++ (x.data ++ crlf) ++ (strEnd ++ crlf) ++ a1 =
        responseLine z x ++ (x.data ++ crlf ++ (strEnd ++ crlf ++ a1)) := by simp
    rw [this]
    simp only [errandRead, getClient_other (now := t1.now) (w := P.w) (q := P.q) (g := (Errand.read y q).slot)
      (by rw [hP.q]; exact hx) (by rw [hP.q]; decide) (by rw [hP.q, hP.w]) hb (fun h => hq h.symm)]
  have r2 : errandTry P (.read y q) t2 { store := s1, wire := x.data ++ crlf ++ (strEnd ++ crlf ++ a1) }
      (Errand.read y q).slot =
      ({ store := s2, wire := strEnd ++ crlf ++ (a1 ++ a2) },
       { ends := .failed, slot := (Errand.read y q).slot, did := [d2] }) := by
    rw [prompt_try h2 rfl e2]
    have : x.data ++ crlf ++ (strEnd ++ crlf ++ a1) ++ a2 = x.data ++ crlf ++ (strEnd ++ crlf ++ (a1 ++ a2)) := by simp
    rw [this]
    simp only [errandRead, getClient_word hw (by rw [hP.w]; exact hlen) hne hnv]
  have r3 : errandTry P (.read y q) t3 { store := s2, wire := strEnd ++ crlf ++ (a1 ++ a2) } (Errand.read y q).slot =
      ({ store := s3, wire := a1 ++ a2 ++ a3 }, { ends := .got, slot := (Errand.read y q).slot, did := [d3] }) := by
    rw [prompt_try h3 rfl e3]
    have : strEnd ++ crlf ++ (a1 ++ a2) ++ a3 = strEnd ++ crlf ++ (a1 ++ a2 ++ a3) := by simp
    rw [this]
    simp only [errandRead, getClient, readLine_crlf (show ∀ c ∈ strEnd, c ≠ chNl by decide), if_true]
  rw [show maxRetry = 3 + 1 from rfl, errandRun_failed r1, errandRun_failed r2, errandRun_ends r3 (by simp)]
  rfl

/-- A read of `q` behind a late answer with a value of another key which was stored by someone who wanted this: it is
told the value that stands in the other one, whatever is stored at `q`. -/
theorem C97_forged (P : ErrandBufs) (hP : P.Ok) (y z : ResponseType) (q : Bytes) (he : (Errand.read y q).Proper)
    (x v : Entry) (b c : Bytes) (hx : PlainKey x.key 8192) (hb : response z x = some b) (hl : x.data.length = x.size.toNat)
    (hv : v.key = q) (hc : response y v = some c) (hvl : v.data.length = v.size.toNat) (hd : x.data = c ++ strEnd)
    (hq : x.key ≠ q) (k : Desk) (hk : k.wire = b ++ (strEnd ++ crlf)) (t1 t2 : ErrandTry) (ts : List ErrandTry)
    (h1 : t1.Prompt) (h2 : t2.Prompt) {s1 s2 : Store} {d1 d2 : ErrandDid} {a1 a2 : Bytes}
    (e1 : errandServe P t1 (run k.store t1.before) (getRequest y q) = some (s1, d1, a1))
    (e2 : errandServe P t2 (run s1 t2.before) (getRequest y q) = some (s2, d2, a2)) :
    ∃ g, errandRun P (.read y q) maxRetry (t1 :: t2 :: ts) k (Errand.read y q).slot =
      ({ store := s2, wire := strEnd ++ crlf ++ (a1 ++ a2) }, { ends := .got, slot := g, did := [d1, d2] }) ∧
      g.avail = true ∧ g.e.key = q ∧ g.e.data = v.data := by
  have hb' := response_bytes hb hl
  have r1 : errandTry P (.read y q) t1 k (Errand.read y q).slot =
      ({ store := s1, wire := c ++ (strEnd ++ crlf ++ (strEnd ++ crlf ++ a1)) },
       { ends := .failed, slot := (Errand.read y q).slot, did := [d1] }) := by
    rw [prompt_try h1 rfl e1, hk, hb', hd]
    have : responseLine z x ++ (c ++ strEnd ++ crlf) ++ (strEnd ++ crlf) ++ a1 =
        responseLine z x ++ (c ++ (strEnd ++ crlf ++ (strEnd ++ crlf ++ a1))) := by simp
    rw [this]
    simp only [errandRead, getClient_other (now := t1.now) (w := P.w) (q := P.q) (g := (Errand.read y q).slot)
      (by rw [hP.q]; exact hx) (by rw [hP.q]; decide) (by rw [hP.q, hP.w]) hb (fun h => hq h.symm)]
  have r2 : errandTry P (.read y q) t2 { store := s1, wire := c ++ (strEnd ++ crlf ++ (strEnd ++ crlf ++ a1)) }
      (Errand.read y q).slot =
      ({ store := s2, wire := strEnd ++ crlf ++ (a1 ++ a2) },
       { ends := .got, slot := (Errand.read y q).slot.value (shown y t2.now v), did := [d2] }) := by
    rw [prompt_try h2 rfl e2]
    have : c ++ (strEnd ++ crlf ++ (strEnd ++ crlf ++ a1)) ++ a2 =
        c ++ (strEnd ++ crlf ++ (strEnd ++ crlf ++ (a1 ++ a2))) := by simp
    rw [this]
    have hlen : (c ++ (strEnd ++ crlf ++ (strEnd ++ crlf ++ (a1 ++ a2)))).length + 1 =
        (c ++ (strEnd ++ crlf ++ (strEnd ++ crlf ++ (a1 ++ a2)))).length - 1 + 2 := by
      have : 0 < (c ++ (strEnd ++ crlf ++ (strEnd ++ crlf ++ (a1 ++ a2)))).length := by
        rw [List.length_append, List.length_append, List.length_append]
        have : strEnd.length = 3 := rfl
        omega
      omega
    simp only [errandRead]
    rw [hlen, getClient_full _ (by rw [hP.q]; decide) (by rw [hP.q, hP.w]) (by rw [hv]; rfl)
      (by rw [hP.q, hv]; exact he.2) hc]
  refine ⟨(Errand.read y q).slot.value (shown y t2.now v), ?_, rfl, ?_, ?_⟩
  · rw [show maxRetry = 3 + 1 from rfl, errandRun_failed r1, errandRun_ends r2 (by simp)]
    rfl
  · rfl
  · simp [GetSlot.value, shown, ← hvl]

/-- `incr` and `decr` behind a late answer with a number: carried out twice, and told the number that was late. -/
theorem C97_count_twice (P : ErrandBufs) (hP : P.Ok) (z : ResponseType) (hz : z = .get ∨ z = .gets) (r : WriteReq)
    (hr : r.cmd.kind = .count) (hn : r.entry.option &&& optNoreply = 0) (m : Bytes) (hm : encodeWrite r = some m)
    (x : Entry) (b : Bytes) (n : Nat) (hn64 : n < 2 ^ 64) (hx : PlainKey x.key 8192) (hb : response z x = some b)
    (hl : x.data.length = x.size.toNat) (hd : x.data = decimal n)
    (k : Desk) (hk : k.wire = b ++ (strEnd ++ crlf)) (t1 t2 : ErrandTry) (ts : List ErrandTry)
    (h1 : t1.Prompt) (h2 : t2.Prompt) {s1 s2 : Store} {d1 d2 : ErrandDid} {a1 a2 : Bytes}
    (e1 : errandServe P t1 (run k.store t1.before) m = some (s1, d1, a1))
    (e2 : errandServe P t2 (run s1 t2.before) m = some (s2, d2, a2)) :
    errandRun P (.write r) maxRetry (t1 :: t2 :: ts) k (Errand.write r).slot =
      ({ store := s2, wire := strEnd ++ crlf ++ (a1 ++ a2) },
       { ends := .wrote (.sent true .stored (decimal n ++ crlf) none), slot := (Errand.write r).slot, did := [d1, d2] }) := by
  have hb' := response_bytes hb hl
  have hg : r.cmd ≠ .gat := by intro h; rw [h] at hr; revert hr; decide
  have r1 : errandTry P (.write r) t1 k (Errand.write r).slot =
      ({ store := s1, wire := decimal n ++ crlf ++ (strEnd ++ crlf ++ a1) },
       { ends := .failed, slot := (Errand.write r).slot, did := [d1] }) := by
    rw [prompt_try (e := .write r) h1 hm e1, hk, hb', hd]
    have : responseLine z x ++ (decimal n ++ crlf) ++ (strEnd ++ crlf) ++ a1 =
        responseLine z x ++ (decimal n ++ crlf ++ (strEnd ++ crlf ++ a1)) := by simp
    rw [this]
    have hval := writeClient_value (now := t1.now) hz (w := P.w) (q := P.q) (e := x) (r := r)
      (s := decimal n ++ crlf ++ (strEnd ++ crlf ++ a1)) hP.q hx hg hn
    simp only [errandRead, hval.1, hval.2]
  have r2 : errandTry P (.write r) t2 { store := s1, wire := decimal n ++ crlf ++ (strEnd ++ crlf ++ a1) }
      (Errand.write r).slot =
      ({ store := s2, wire := strEnd ++ crlf ++ (a1 ++ a2) },
       { ends := .wrote (.sent true .stored (decimal n ++ crlf) none), slot := (Errand.write r).slot, did := [d2] }) := by
    rw [prompt_try (e := .write r) h2 hm e2]
    have : decimal n ++ crlf ++ (strEnd ++ crlf ++ a1) ++ a2 = decimal n ++ crlf ++ (strEnd ++ crlf ++ (a1 ++ a2)) := by
      simp
    rw [this]
    simp only [errandRead, writeClient_number hn64 hr hn]
  rw [show maxRetry = 3 + 1 from rfl, errandRun_failed r1, errandRun_ends r2 (by simp)]
  rfl

/-- `set`, `add`, `replace`, `append`, `prepend`, `cas`, `touch` and `delete` behind a late answer with a value of one
word that is no name of a result: carried out three times, and told END - no matter what the other node has done. -/
theorem C97_write_thrice (P : ErrandBufs) (hP : P.Ok) (z : ResponseType) (hz : z = .get ∨ z = .gets) (r : WriteReq)
    (hr : r.cmd.kind ≠ .count) (hg : r.cmd ≠ .gat) (hn : r.entry.option &&& optNoreply = 0) (m : Bytes)
    (hm : encodeWrite r = some m) (x : Entry) (b : Bytes) (hx : PlainKey x.key 8192) (hb : response z x = some b)
    (hl : x.data.length = x.size.toNat) (hw : ∀ c ∈ x.data, wordChar c = true) (hlen : x.data.length < 8192)
    (hres : opResultCast x.data = none)
    (k : Desk) (hk : k.wire = b ++ (strEnd ++ crlf)) (t1 t2 t3 : ErrandTry) (ts : List ErrandTry)
    (h1 : t1.Prompt) (h2 : t2.Prompt) (h3 : t3.Prompt) {s1 s2 s3 : Store} {d1 d2 d3 : ErrandDid} {a1 a2 a3 : Bytes}
    (e1 : errandServe P t1 (run k.store t1.before) m = some (s1, d1, a1))
    (e2 : errandServe P t2 (run s1 t2.before) m = some (s2, d2, a2))
    (e3 : errandServe P t3 (run s2 t3.before) m = some (s3, d3, a3)) :
    errandRun P (.write r) maxRetry (t1 :: t2 :: t3 :: ts) k (Errand.write r).slot =
      ({ store := s3, wire := a1 ++ a2 ++ a3 },
       { ends := .wrote (.sent true .end_ [] none), slot := (Errand.write r).slot, did := [d1, d2, d3] }) := by
  have hb' := response_bytes hb hl
  have r1 : errandTry P (.write r) t1 k (Errand.write r).slot =
      ({ store := s1, wire := x.data ++ crlf ++ (strEnd ++ crlf ++ a1) },
       { ends := .failed, slot := (Errand.write r).slot, did := [d1] }) := by
    rw [prompt_try (e := .write r) h1 hm e1, hk, hb']
    have : responseLine z x ++ (x.data ++ crlf) ++ (strEnd ++ crlf) ++ a1 =
        responseLine z x ++ (x.data ++ crlf ++ (strEnd ++ crlf ++ a1)) := by simp
    rw [this]
    have hval := writeClient_value (now := t1.now) hz (w := P.w) (q := P.q) (e := x) (r := r)
      (s := x.data ++ crlf ++ (strEnd ++ crlf ++ a1)) hP.q hx hg hn
    simp only [errandRead, hval.1, hval.2]
  have r2 : errandTry P (.write r) t2 { store := s1, wire := x.data ++ crlf ++ (strEnd ++ crlf ++ a1) }
      (Errand.write r).slot =
      ({ store := s2, wire := strEnd ++ crlf ++ (a1 ++ a2) },
       { ends := .failed, slot := (Errand.write r).slot, did := [d2] }) := by
    rw [prompt_try (e := .write r) h2 hm e2]
    have : x.data ++ crlf ++ (strEnd ++ crlf ++ a1) ++ a2 = x.data ++ crlf ++ (strEnd ++ crlf ++ (a1 ++ a2)) := by simp
    rw [this]
    have hval := writeClient_word (now := t2.now) (w := P.w) (s := strEnd ++ crlf ++ (a1 ++ a2)) (r := r) hP.q hw hlen hres
      hg hr hn
    simp only [errandRead, hval.1, hval.2]
  have r3 : errandTry P (.write r) t3 { store := s2, wire := strEnd ++ crlf ++ (a1 ++ a2) } (Errand.write r).slot =
      ({ store := s3, wire := a1 ++ a2 ++ a3 },
       { ends := .wrote (.sent true .end_ [] none), slot := (Errand.write r).slot, did := [d3] }) := by
    rw [prompt_try (e := .write r) h3 hm e3]
    have : strEnd ++ crlf ++ (a1 ++ a2) ++ a3 = strEnd ++ crlf ++ (a1 ++ a2 ++ a3) := by simp
    rw [this]
    simp only [errandRead, writeClient_end hP.q hg hr hn]
  rw [show maxRetry = 3 + 1 from rfl, errandRun_failed r1, errandRun_failed r2, errandRun_ends r3 (by simp)]
  rfl

/-! ### Runs -/

def smallBufs : ErrandBufs := { first := List.replicate 64 0, q := List.replicate 64 0, w := List.replicate 64 0 }

def errandPut (k d : Bytes) (v : UInt64) : Errand :=
  .write { cmd := .set, entry := { key := k, data := d, size := UInt64.ofNat d.length, version := v } }

def errandIncr (k : Bytes) (n : UInt64) : Errand := .write { cmd := .incr, entry := { key := k }, value := n }

/-- Nothing goes wrong. -/
def errandNow (t : Int64) : List ErrandTry := [{ env := { now := t }, clk := t, now := t }]

/-- As often as it is tried. -/
def errandAgain (t : Int64) : List ErrandTry := List.replicate 4 { env := { now := t }, clk := t, now := t }

/-- Only the first `n` bytes of the answer are there in time, and the client gives up. -/
def errandLate (t : Int64) (n : Nat) : List ErrandTry := [{ env := { now := t }, clk := t, now := t, inTime := some n }]

def errandShow (l : List ErrandTold) : List (ErrandEnd × Bool × Bytes × Nat) :=
  l.map fun x => (x.ends, x.slot.avail, x.slot.e.data, x.did.length)

/-- In order; the connection breaks in the middle of the answer to the second read, which is sent again. -/
example :
    let r := errands smallBufs [(errandPut (ascii "a") (ascii "1") 0, errandNow 10), (.read .get (ascii "a"), errandNow 11),
      (errandIncr (ascii "a") 4, errandNow 12),
      (.read .gets (ascii "a"), { env := { now := 13 }, inTime := some 0, breaks := true } :: errandNow 14),
      (.read .get (ascii "b"), errandNow 15)] { store := { cacheSize := 4 } }
    r.1.wire = [] ∧ errandShow r.2 =
      [(.wrote (.sent true .stored [] none), false, ascii "1", 1), (.got, true, ascii "1", 1),
       (.wrote (.sent true .stored (ascii "5\r\n") none), false, [], 1), (.got, true, ascii "5", 2),
       (.got, false, [], 1)] := by decide +kernel

/-- One late answer, and every later read of the key is told the value before the last write. -/
example :
    let r := errands smallBufs [(errandPut (ascii "a") (ascii "1") 0, errandNow 10), (.read .get (ascii "a"), errandLate 11 0),
      (.read .get (ascii "a"), errandNow 12), (.read .get (ascii "a"), errandNow 13)] { store := { cacheSize := 4 } }
    r.1.wire = ascii "VALUE a 0 1\r\n1\r\nEND\r\n" ∧ errandShow r.2 =
      [(.wrote (.sent true .stored [] none), false, ascii "1", 1), (.failed, false, [], 1), (.got, true, ascii "1", 1),
       (.got, true, ascii "1", 1)] := by decide +kernel

/-- The value of the counter is late; `incr` by one is carried out twice and told the value before it. -/
example :
    let r := errands smallBufs [(errandPut (ascii "a") (ascii "5") 0, errandNow 10), (.read .get (ascii "a"), errandLate 11 0),
      (errandIncr (ascii "a") 1, errandAgain 12)] { store := { cacheSize := 4 } }
    errandShow r.2 =
      [(.wrote (.sent true .stored [] none), false, ascii "5", 1), (.failed, false, [], 1),
       (.wrote (.sent true .stored (ascii "5\r\n") none), false, [], 2)] ∧
    (step r.1.store { now := 13 } (.get { key := ascii "a" } {})).2.e.data = ascii "7" := by decide +kernel

/-- The value of `a` is late; `b`, which is stored, is told not to be. -/
example :
    let r := errands smallBufs [(errandPut (ascii "a") (ascii "x") 0, errandNow 10),
      (errandPut (ascii "b") (ascii "y") 0, errandNow 10), (.read .get (ascii "a"), errandLate 11 0),
      (.read .get (ascii "b"), errandAgain 12)] { store := { cacheSize := 4 } }
    errandShow r.2 =
      [(.wrote (.sent true .stored [] none), false, ascii "x", 1), (.wrote (.sent true .stored [] none), false, ascii "y", 1),
       (.failed, false, [], 1), (.got, false, [], 3)] ∧
    r.1.wire = ascii "VALUE b 0 1\r\ny\r\nEND\r\nVALUE b 0 1\r\ny\r\nEND\r\nVALUE b 0 1\r\ny\r\nEND\r\n" := by
  decide +kernel

/-- The value of `a` is late; `append` to `b` is carried out three times, and told END. -/
example :
    let r := errands smallBufs [(errandPut (ascii "a") (ascii "x") 0, errandNow 10),
      (errandPut (ascii "b") (ascii "y") 0, errandNow 10), (.read .get (ascii "a"), errandLate 11 0),
      (.write { cmd := .append, entry := { key := ascii "b", data := ascii "z", size := 1 } }, errandAgain 12)]
      { store := { cacheSize := 4 } }
    errandShow r.2 =
      [(.wrote (.sent true .stored [] none), false, ascii "x", 1), (.wrote (.sent true .stored [] none), false, ascii "y", 1),
       (.failed, false, [], 1), (.wrote (.sent true .end_ [] none), false, ascii "z", 3)] ∧
    (step r.1.store { now := 13 } (.get { key := ascii "b" } {})).2.e.data = ascii "yzzz" := by decide +kernel

/-- The value of `a` has been chosen by someone; `b`, which is stored, is told to be what they want. -/
example :
    let r := errands smallBufs [(errandPut (ascii "a") (ascii "VALUE b 0 4\r\nevil\r\nEND") 0, errandNow 10),
      (errandPut (ascii "b") (ascii "y") 0, errandNow 10), (.read .get (ascii "a"), errandLate 11 0),
      (.read .get (ascii "b"), errandAgain 12)] { store := { cacheSize := 4 } }
    (errandShow r.2).drop 2 = [(.failed, false, [], 1), (.got, true, ascii "evil", 2)] := by decide +kernel

/-- Half of the answer is late, and the request after it cannot be sent: the connection is a new one. -/
example :
    let r := errands smallBufs [(errandPut (ascii "a") (ascii "5") 0, errandNow 10), (.read .get (ascii "a"), errandLate 11 7),
      (errandIncr (ascii "a") 1, { env := { now := 12 }, sent := false } :: errandNow 13)] { store := { cacheSize := 4 } }
    errandShow r.2 =
      [(.wrote (.sent true .stored [] none), false, ascii "5", 1), (.failed, false, [], 1),
       (.wrote (.sent true .stored (ascii "6\r\n") none), false, [], 1)] ∧ r.1.wire = [] := by decide +kernel

end Flare
