import Verif.Model.ProxyLink
import Verif.Props.Retry

/-! Property theorems about the answers to writes that are handed on over one connection: C63. -/
namespace Flare

/-- Nothing happens that leaves a line unread: the answer does not come late, and a write marked
`noreply` is not answered. -/
def CalmTry (noreply : Bool) (c : Cmd) (t : LinkTry) (k : Link) : Prop :=
  t.ends ≠ .late ∧ (noreply = true → (linkServe noreply c t (run k.store t.before)).2 = [])

/-- The same for all tries of a write that take place. -/
def CalmRun (i : Nat) (noreply : Bool) (c : Cmd) : Nat → List LinkTry → Link → Prop
  | 0, _, _ => True
  | _ + 1, [], _ => True
  | n + 1, t :: ts, k => CalmTry noreply c t k ∧
    ((linkTry i noreply c t k).2 = .failed → CalmRun i noreply c n ts (linkTry i noreply c t k).1)

/-- The same for all writes of a queue. -/
def CalmJobs (i : Nat) : List LinkJob → Link → Prop
  | [], _ => True
  | j :: js, k => CalmRun i j.noreply j.cmd maxRetry j.tries k ∧
    CalmJobs (i + 1) js (linkRun i j.noreply j.cmd maxRetry j.tries k).1

theorem linkServe_false (c : Cmd) (t : LinkTry) (s : Store) :
    ∃ l, (linkServe false c t s).2 = [l] := by
  unfold linkServe
  split
  · exact ⟨none, rfl⟩
  · refine ⟨some (step s t.env c).2, ?_⟩
    rcases h : step s t.env c with ⟨s', o⟩
    simp

theorem linkTry_calm {i : Nat} {noreply : Bool} {c : Cmd} {t : LinkTry} {k : Link}
    (hk : k.unread = []) (hc : CalmTry noreply c t k) :
    (linkTry i noreply c t k).1.unread = [] ∧
      (∀ j l, (linkTry i noreply c t k).2 = .answer j l → j = i) := by
  obtain ⟨h1, h2⟩ := hc
  unfold linkTry
  simp only [hk]
  cases noreply with
  | true =>
    have h2 := h2 rfl
    cases he : t.ends with
    | late => exact absurd he h1
    | unsent => exact ⟨rfl, fun j l h => nomatch h⟩
    | broken => exact ⟨rfl, fun j l h => nomatch h⟩
    | inTime => simp [h2]
  | false =>
    obtain ⟨l, hl⟩ := linkServe_false c t (run k.store t.before)
    cases he : t.ends with
    | late => exact absurd he h1
    | unsent => exact ⟨rfl, fun j l h => nomatch h⟩
    | broken => exact ⟨rfl, fun j l h => nomatch h⟩
    | inTime =>
      simp only [hl, List.map_cons, List.map_nil, List.nil_append]
      exact ⟨trivial, fun j l h => by injection h with h; exact h.symm⟩

theorem linkRun_calm {i : Nat} {noreply : Bool} {c : Cmd} (n : Nat) (ts : List LinkTry) {k : Link}
    (hk : k.unread = []) (hc : CalmRun i noreply c n ts k) :
    (linkRun i noreply c n ts k).1.unread = [] ∧
      (∀ j l, (linkRun i noreply c n ts k).2 = .answer j l → j = i) := by
  induction n generalizing ts k with
  | zero => exact ⟨hk, fun j l h => nomatch h⟩
  | succ n ih =>
    cases ts with
    | nil => exact ⟨hk, fun j l h => nomatch h⟩
    | cons t ts =>
      obtain ⟨h1, h2⟩ := hc
      have h3 := linkTry_calm (i := i) hk h1
      simp only [linkRun]
      rcases hr : linkTry i noreply c t k with ⟨k', r⟩
      rw [hr] at h2 h3
      cases r with
      | failed => exact ih ts h3.1 (h2 rfl)
      | unasked => exact h3
      | answer j l => exact h3

/-- On a connection where no answer comes late and no write marked `noreply` is answered, every
answer is the answer to the write it is taken for, however often the connection breaks.  Missing for
the full claim: both can happen, see `C63_late` and `C63_noreply_error`. -/
theorem C63_own_answer_partial (js : List LinkJob) (i : Nat) (k : Link) (hk : k.unread = [])
    (hc : CalmJobs i js k) :
    (linkJobs i js k).1.unread = [] ∧
      ∀ p j l, (linkJobs i js k).2[p]? = some (.answer j l) → j = i + p := by
  induction js generalizing i k with
  | nil => exact ⟨hk, fun p j l h => by simp [linkJobs] at h⟩
  | cons x js ih =>
    obtain ⟨h1, h2⟩ := hc
    have h3 := linkRun_calm maxRetry x.tries hk h1
    obtain ⟨h4, h5⟩ := ih (i + 1) _ h3.1 h2
    refine ⟨h4, fun p j l h => ?_⟩
    cases p with
    | zero =>
      simp only [linkJobs, List.getElem?_cons_zero, Option.some.injEq] at h
      exact h3.2 j l h
    | succ p =>
      simp only [linkJobs, List.getElem?_cons_succ] at h
      have := h5 p j l h
      omega

/-- A try as in Model/Retry. -/
def LinkTry.toFwd (t : LinkTry) : FwdTry :=
  { before := t.before, env := t.env,
    ends := match t.ends with
      | .unsent => .unsent
      | .broken => .unanswered
      | .late => .unanswered
      | .inTime => .answered }

/-- On such a connection a write is repeated as in C58: the receiver's storage and the answer are
those of `forwardRun`. -/
theorem C63_refines_partial (i : Nat) (c : Cmd) (n : Nat) (ts : List LinkTry) (k : Link)
    (hk : k.unread = []) (hl : ∀ t ∈ ts, t.ends ≠ .late ∧ t.refused = false) :
    linkRun i false c n ts k =
      ({ store := (forwardRun c n (ts.map LinkTry.toFwd) k.store).1 },
        match (forwardRun c n (ts.map LinkTry.toFwd) k.store).2 with
        | none => .failed
        | some o => .answer i (some o)) := by
  induction n generalizing ts k with
  | zero =>
    cases k
    simp only [forwardRun, linkRun]
    simp only at hk
    rw [hk]
  | succ n ih =>
    cases ts with
    | nil =>
      cases k
      simp only [List.map_nil, forwardRun, linkRun]
      simp only at hk
      rw [hk]
    | cons t ts =>
      obtain ⟨h1, h2⟩ := hl t List.mem_cons_self
      have ht : ∀ t ∈ ts, t.ends ≠ .late ∧ t.refused = false :=
        fun u hu => hl u (List.mem_cons_of_mem _ hu)
      simp only [linkRun, List.map_cons, forwardRun, LinkTry.toFwd, linkTry, linkServe, h2, hk]
      cases he : t.ends with
      | late => exact absurd he h1
      | unsent => exact ih ts { store := run k.store t.before } rfl ht
      | broken => exact ih ts { store := (step (run k.store t.before) t.env c).1 } rfl ht
      | inTime => simp

/-- The write an answer belongs to. -/
def LinkRes.owner? : LinkRes → Option Nat
  | .answer j _ => some j
  | _ => none

/-- A write that is not marked `noreply` and whose first try is answered, in time or late. -/
def LinkJob.Asked (j : LinkJob) : Prop :=
  j.noreply = false ∧ ∃ t ts, j.tries = t :: ts ∧ (t.ends = .inTime ∨ t.ends = .late)

/-- Once a line is left unread, lines and writes stay shifted against each other: the answers taken
by the next writes are first the lines left over, then the answers to the writes themselves, in
order, and as many lines are left over as before.  The connection is not closed and nothing is
noticed. -/
theorem C63_shift (js : List LinkJob) (i : Nat) (k : Link) (hk : k.unread ≠ [])
    (hj : ∀ j ∈ js, j.Asked) :
    (linkJobs i js k).2.filterMap LinkRes.owner? ++ (linkJobs i js k).1.unread.map (·.1) =
        k.unread.map (·.1) ++ List.range' i js.length ∧
      ((linkJobs i js k).2.filterMap LinkRes.owner?).length = js.length := by
  induction js generalizing i k with
  | nil => simp [linkJobs]
  | cons x js ih =>
    obtain ⟨h1, t, ts, h2, h3⟩ := hj x List.mem_cons_self
    obtain ⟨l, hl⟩ := linkServe_false x.cmd t (run k.store t.before)
    obtain ⟨y, u, hu⟩ : ∃ y u, k.unread = y :: u := List.exists_cons_of_ne_nil hk
    obtain ⟨o, m⟩ := y
    have hrun : linkRun i x.noreply x.cmd maxRetry x.tries k =
        ({ store := (linkServe false x.cmd t (run k.store t.before)).1, unread := u ++ [(i, l)] },
          .answer o m) := by
      rw [h1, h2]
      simp only [maxRetry, linkRun, linkTry, hu, hl]
      rcases h3 with h3 | h3 <;> simp [h3]
    obtain ⟨g1, g2⟩ := ih (i + 1)
      { store := (linkServe false x.cmd t (run k.store t.before)).1, unread := u ++ [(i, l)] }
      (by simp) (fun j hj' => hj j (List.mem_cons_of_mem _ hj'))
    simp only [linkJobs, hrun]
    constructor
    · simp only [List.filterMap_cons, LinkRes.owner?, List.cons_append]
      rw [g1]
      simp [hu, List.range'_succ]
    · simp only [List.filterMap_cons, LinkRes.owner?, List.length_cons, g2]

theorem take_shifted (n i : Nat) : (i :: List.range' (i + 1) n).take n = List.range' i n := by
  induction n generalizing i with
  | zero => rfl
  | succ n ih =>
    rw [List.range'_succ, List.take_succ_cons, ih (i + 1)]
    rfl

theorem shift_one {js : List LinkJob} {i j : Nat} {l : LinkLine} {s : Store}
    (hj : ∀ x ∈ js, x.Asked) :
    (linkJobs i js { store := s, unread := [(j, l)] }).2.filterMap LinkRes.owner? =
      (j :: List.range' i js.length).take js.length := by
  obtain ⟨h1, h2⟩ := C63_shift js i { store := s, unread := [(j, l)] } (by simp) hj
  have := congrArg (List.take js.length) h1
  rw [List.take_left' h2] at this
  simpa using this

/-- One write marked `noreply` that the receiver does not execute (it has no partition for it, it
cannot hand it on, or its storage fails) is enough: from then on every write gets the answer to the
write before it. -/
theorem C63_noreply_error (i : Nat) (c : Cmd) (t : LinkTry) (ts : List LinkTry) (js : List LinkJob)
    (s : Store) (he : t.ends = .inTime)
    (ht : t.refused = true ∨ (step (run s t.before) t.env c).2.rc ≠ .ok)
    (hj : ∀ x ∈ js, x.Asked) :
    (linkJobs i ({ cmd := c, noreply := true, tries := t :: ts } :: js)
        { store := s }).2.filterMap LinkRes.owner? = List.range' i js.length := by
  obtain ⟨s', l, hs⟩ : ∃ s' l, linkRun i true c maxRetry (t :: ts) { store := s } =
      ({ store := s', unread := [(i, l)] }, .unasked) := by
    have : ∃ s' l, linkServe true c t (run s t.before) = (s', [l]) := by
      unfold linkServe
      rcases ht with ht | ht
      · rw [if_pos ht]; exact ⟨_, _, rfl⟩
      · split
        · exact ⟨_, _, rfl⟩
        · rcases h : step (run s t.before) t.env c with ⟨a, o⟩
          rw [h] at ht
          simp only [ht, false_and, if_false]
          exact ⟨_, _, rfl⟩
    obtain ⟨s', l, h⟩ := this
    refine ⟨s', l, ?_⟩
    simp [maxRetry, linkRun, linkTry, h, he]
  simp only [linkJobs, hs, List.filterMap_cons, LinkRes.owner?]
  rw [shift_one hj, take_shifted]

/-- The same if one answer comes late: the write is sent again and gets the answer to its first
sending; from then on every write gets the answer to the write before it. -/
theorem C63_late (i : Nat) (c : Cmd) (t u : LinkTry) (ts : List LinkTry) (js : List LinkJob)
    (s : Store) (ht : t.ends = .late) (hu : u.ends = .inTime) (hj : ∀ x ∈ js, x.Asked) :
    (linkJobs i ({ cmd := c, tries := t :: u :: ts } :: js) { store := s }).2.filterMap
        LinkRes.owner? = i :: List.range' i js.length := by
  obtain ⟨l, hl⟩ := linkServe_false c t (run s t.before)
  obtain ⟨m, hm⟩ := linkServe_false c u
    (run (linkServe false c t (run s t.before)).1 u.before)
  have hs : linkRun i false c maxRetry (t :: u :: ts) { store := s } =
      ({ store := (linkServe false c u
          (run (linkServe false c t (run s t.before)).1 u.before)).1, unread := [(i, m)] },
        .answer i l) := by
    simp [maxRetry, linkRun, linkTry, ht, hu, hl, hm]
  simp only [linkJobs, hs, List.filterMap_cons, LinkRes.owner?]
  rw [shift_one hj, take_shifted]

/-- What the clients of three writes see: a `noreply` set that the receiver refuses, then a delete of
a key that is there, then an add of a key that is there.  The delete is answered with the error of
the set, the add with DELETED of the delete; the answer NOT_STORED of the add waits for the next. -/
example :
    let (k, rs) := linkJobs 0
      [{ cmd := .set { exEntry with key := [98] } {}, noreply := true,
         tries := [{ env := exEnv, refused := true, ends := .inTime }] },
       { cmd := .remove { key := [97] } {}, tries := [{ env := exEnv, ends := .inTime }] },
       { cmd := .set exEntry .ofAdd,
         tries := [{ before := [(exEnv, .set exEntry {})], env := exEnv, ends := .inTime }] }]
      { store := exStore }
    rs.map (fun | .answer j l => (some j, l.map (·.r)) | _ => (none, none)) =
        [(none, none), (some 0, none), (some 1, some (some .deleted))] ∧
      k.unread.map (fun x => (x.1, x.2.map (·.r))) = [(2, some (some .notStored))] := by
  decide +kernel

/-- The hypotheses of `C63_own_answer_partial` hold where connections break. -/
example : CalmJobs 0
      [{ cmd := .remove { key := [97] } {},
         tries := [{ env := exEnv, ends := .broken }, { env := exEnv, ends := .unsent },
           { env := exEnv, ends := .inTime }] },
       { cmd := .set exEntry {}, noreply := true, tries := [{ env := exEnv, ends := .inTime }] }]
      { store := exStore } := by
  simp only [CalmJobs, CalmRun, CalmTry, maxRetry]
  decide +kernel

/-- A write marked `noreply` that is executed without error leaves no line behind: its sender reads
nothing, and the lines for other writes stay as they are. -/
theorem C63_noreply_silent (i : Nat) (c : Cmd) (t : LinkTry) (ts : List LinkTry) (k : Link)
    (he : t.ends = .inTime ∨ t.ends = .late) (ht : t.refused = false)
    (hr : (step (run k.store t.before) t.env c).2.rc = .ok) :
    linkRun i true c maxRetry (t :: ts) k =
      ({ store := (step (run k.store t.before) t.env c).1, unread := k.unread }, .unasked) := by
  rw [show maxRetry = 3 + 1 from rfl, linkRun]
  rcases he with he | he <;> simp [linkTry, linkServe, he, ht, hr]

/-- A try that cannot be sent closes the connection, and with it go all lines left over: the next try
gets its own answer, and nothing is left unread. -/
theorem C63_closed_clean (i : Nat) (c : Cmd) (t u : LinkTry) (ts : List LinkTry) (k : Link)
    (ht : t.ends = .unsent) (hu : u.ends = .inTime) :
    ∃ s l, linkRun i false c maxRetry (t :: u :: ts) k = ({ store := s }, .answer i l) := by
  obtain ⟨l, hl⟩ := linkServe_false c u (run (run k.store t.before) u.before)
  refine ⟨(linkServe false c u (run (run k.store t.before) u.before)).1, l, ?_⟩
  rw [show maxRetry = 2 + 1 + 1 from rfl, linkRun]
  have h1 : linkTry i false c t k = ({ store := run k.store t.before }, .failed) := by
    simp [linkTry, ht]
  rw [h1]
  simp only
  rw [linkRun]
  simp [linkTry, hu, hl]

example : ∃ s l, linkRun 7 false (.remove { key := [97] } {}) maxRetry
    [⟨[], { now := 5 }, false, .unsent⟩, ⟨[], { now := 6 }, false, .inTime⟩]
    { store := { cacheSize := 1 }, unread := [(3, none), (4, none)] } =
      ({ store := s }, .answer 7 l) :=
  C63_closed_clean 7 _ _ _ _ _ rfl rfl

example : linkRun 7 true (.remove { key := [97] } {}) maxRetry
    [⟨[], { now := 5 }, false, .inTime⟩] { store := { cacheSize := 1 }, unread := [(3, none)] } =
      ({ store := (step { cacheSize := 1 } { now := 5 } (.remove { key := [97] } {})).1,
         unread := [(3, none)] }, .unasked) :=
  C63_noreply_silent 7 _ _ _ _ (Or.inl rfl) rfl (by decide)

end Flare
