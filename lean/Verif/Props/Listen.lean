import Verif.Model.Listen
import Verif.Model.Dump

/-! C96: the listening sockets of a server, and what they leave behind. -/
namespace Flare

def Addr.isPath? : Addr → Option Bytes
  | .path b => some b
  | .port _ => none

def Addr.isPort? : Addr → Option Nat
  | .port p => some p
  | .path _ => none

/-- A server that has called `listen` any number of times. -/
def Listener.listens (s : Listener) (l : List (ListenEnv × Addr)) : Listener :=
  l.foldl (fun s x => (s.listen x.1 x.2).1) s

/-- What holds after any number of calls of `listen`, begun with the files `f` and the ports `p`. -/
structure LInv (f : List Bytes) (p : List Nat) (s : Listener) : Prop where
  fds : s.fds.Perm (s.socks.map (·.1) ++ s.epoll.toList)
  lt : ∀ x ∈ s.fds, x < s.next
  nodup : s.fds.Nodup
  ports : s.ports.Perm (s.socks.filterMap (·.2.isPort?) ++ p)
  paths : ∀ x ∈ s.socks, ∀ b, x.2 = .path b → b ∈ s.files
  limit : s.socks.length ≤ maxListenSocket

theorem poll_inv {f p s} (I : LInv f p s) (e : ListenEnv) (fd : Nat) : LInv f p (s.poll e fd).1 := by
  unfold Listener.poll
  cases he : s.epoll with
  | some k =>
    simp only
    split
    · exact ⟨by simpa [he] using I.fds, I.lt, I.nodup, I.ports, I.paths, I.limit⟩
    · exact I
  | none =>
    have J : LInv f p { s with epoll := some s.next, fds := s.next :: s.fds, next := s.next + 1 } := by
      refine ⟨?_, ?_, ?_, I.ports, I.paths, I.limit⟩
      · have h := I.fds
        rw [he] at h
        simp only [Option.toList] at h ⊢
        rw [List.append_nil] at h
        exact (List.Perm.cons _ h).trans (List.perm_append_comm (l₁ := [s.next]))
      · intro x hx
        rcases List.mem_cons.1 hx with hx | hx
        · simp only; omega
        · have := I.lt x hx; simp only; omega
      · exact List.nodup_cons.2 ⟨fun h => absurd (I.lt _ h) (Nat.lt_irrefl _), I.nodup⟩
    simp only
    split
    · split
      · exact ⟨J.fds, J.lt, J.nodup, J.ports, J.paths, J.limit⟩
      · exact J
    · exact I

private theorem closed_again {f p} {s : Listener} (I : LInv f p s) :
    LInv f p (Listener.closeFd { s with fds := s.next :: s.fds, next := s.next + 1 } s.next) := by
  refine ⟨?_, ?_, ?_, I.ports, I.paths, I.limit⟩
  · simpa [Listener.closeFd] using I.fds
  · intro x hx
    simp only [Listener.closeFd, List.erase_cons_head] at hx ⊢
    have := I.lt x hx; omega
  · simpa [Listener.closeFd] using I.nodup

theorem listen_inv {f p s} (I : LInv f p s) (e : ListenEnv) (a : Addr) : LInv f p (s.listen e a).1 := by
  unfold Listener.listen
  split
  · exact I
  · rename_i hl
    split
    · exact I
    · simp only
      split
      · exact closed_again I
      · split
        · exact closed_again I
        · have C := closed_again I
          -- the socket is given up after the bind
          have up : LInv f p (Listener.vacate (Listener.closeFd (Listener.occupy
              { s with fds := s.next :: s.fds, next := s.next + 1 } (bound a)) s.next) (bound a)) := by
            cases bound a with
            | port q =>
              refine ⟨C.fds, C.lt, C.nodup, ?_, C.paths, C.limit⟩
              simpa [Listener.vacate, Listener.closeFd, Listener.occupy] using I.ports
            | path b =>
              exact ⟨C.fds, C.lt, C.nodup, C.ports, fun x hx c hc => List.mem_cons_of_mem _ (C.paths x hx c hc),
                C.limit⟩
          -- the socket is kept
          have kept : LInv f p { Listener.occupy { s with fds := s.next :: s.fds, next := s.next + 1 } (bound a) with
              socks := (Listener.occupy { s with fds := s.next :: s.fds, next := s.next + 1 } (bound a)).socks ++
                [(s.next, bound a)] } := by
            have fd : (s.next :: s.fds).Perm ((s.socks ++ [(s.next, bound a)]).map (·.1) ++ s.epoll.toList) := by
              rw [List.map_append, List.map_singleton, List.append_assoc]
              exact (List.Perm.cons _ I.fds).trans (List.perm_middle.symm)
            have lt : ∀ x ∈ s.next :: s.fds, x < s.next + 1 := by
              intro x hx
              rcases List.mem_cons.1 hx with hx | hx
              · omega
              · have := I.lt x hx; omega
            have nd : (s.next :: s.fds).Nodup :=
              List.nodup_cons.2 ⟨fun h => absurd (I.lt _ h) (Nat.lt_irrefl _), I.nodup⟩
            have li : (s.socks ++ [(s.next, bound a)]).length ≤ maxListenSocket := by
              rw [List.length_append, List.length_singleton]; omega
            cases hb : bound a with
            | port q =>
              rw [hb] at fd li
              refine ⟨fd, lt, nd, ?_, ?_, li⟩
              · simp only [Listener.occupy, List.filterMap_append, List.append_assoc]
                refine (List.Perm.cons q I.ports).trans ?_
                exact List.perm_middle.symm
              · intro x hx b hb'
                simp only [Listener.occupy] at hx ⊢
                rcases List.mem_append.1 hx with hx | hx
                · exact I.paths x hx b hb'
                · rw [List.mem_singleton.1 hx] at hb'; cases hb'
            | path b =>
              rw [hb] at fd li
              refine ⟨fd, lt, nd, ?_, ?_, li⟩
              · simpa [Listener.occupy, List.filterMap_append, Addr.isPort?] using I.ports
              · intro x hx c hc
                simp only [Listener.occupy] at hx ⊢
                rcases List.mem_append.1 hx with hx | hx
                · exact List.mem_cons_of_mem _ (I.paths x hx c hc)
                · rw [List.mem_singleton.1 hx] at hc
                  cases hc
                  exact List.mem_cons_self ..
          split
          · exact up
          · cases a with
            | port q => exact poll_inv kept e _
            | path b =>
              simp only
              split
              · exact up
              · exact poll_inv kept e _

theorem listens_inv {f p s} (I : LInv f p s) (l : List (ListenEnv × Addr)) : LInv f p (s.listens l) := by
  induction l generalizing s with
  | nil => exact I
  | cons x l ih => exact ih (listen_inv I x.1 x.2)

theorem linv_init (f : List Bytes) (p : List Nat) (n : Nat) : LInv f p { files := f, ports := p, next := n } :=
  ⟨by simp, by simp, by simp, by simp, by simp, by simp⟩

/-- What is left when the sockets `l` are closed. -/
private theorem closeAll_spec (l : List (Nat × Addr)) (s t : Listener) (h : Listener.closeAll l s = some t) :
    t.fds = (l.map (·.1)).foldl List.erase s.fds ∧
    t.ports = (l.filterMap (·.2.isPort?)).foldl List.erase s.ports ∧
    t.files = (l.filterMap (·.2.isPath?)).foldl List.erase s.files ∧ t.epoll = s.epoll := by
  induction l generalizing s with
  | nil => simp only [Listener.closeAll, Option.some.injEq] at h; subst h; simp
  | cons x l ih =>
    obtain ⟨fd, a⟩ := x
    cases a with
    | port q =>
      simp only [Listener.closeAll, Listener.closeOne, Option.bind_some] at h
      have := ih _ h
      simpa [Listener.closeFd, Listener.vacate, Addr.isPort?, Addr.isPath?] using this
    | path b =>
      simp only [Listener.closeAll, Listener.closeOne] at h
      split at h
      · simp only [Option.bind_some] at h
        have := ih _ h
        simpa [Listener.closeFd, Listener.vacate, Addr.isPort?, Addr.isPath?] using this
      · simp at h

private theorem erase_all {α} [BEq α] [LawfulBEq α] (l : List α) {s r : List α} (h : s.Perm (l ++ r)) :
    (l.foldl List.erase s).Perm r := by
  induction l generalizing s with
  | nil => exact h
  | cons a l ih =>
    refine ih ?_
    have := h.erase a
    simpa using this

/-- Whatever calls fail, and in whatever order the sockets were made: when `close` is done, every
descriptor the server ever made is closed, every port it had is free again, and no port of others is
touched. -/
theorem C96_all_closed (f : List Bytes) (p : List Nat) (l : List (ListenEnv × Addr)) (t : Listener)
    (h : (Listener.listens { files := f, ports := p } l).close = some t) :
    t.fds = [] ∧ t.socks = [] ∧ t.epoll = none ∧ t.ports.Perm p := by
  have I := listens_inv (linv_init f p 0) l
  revert h I
  generalize Listener.listens { files := f, ports := p } l = s
  intro h I
  unfold Listener.close at h
  simp only [Option.map_eq_some_iff] at h
  obtain ⟨u, hu, rfl⟩ := h
  cases he : s.epoll with
  | none =>
    rw [he] at hu
    simp only at hu
    obtain ⟨h1, h2, h3, h4⟩ := closeAll_spec _ _ _ hu
    refine ⟨?_, rfl, h4.trans he, ?_⟩
    · have := erase_all (s.socks.map (·.1)) (r := []) (by simpa [he] using I.fds)
      rw [h1]; exact List.perm_nil.1 this
    · rw [h2]; exact erase_all _ I.ports
  | some k =>
    rw [he] at hu
    simp only at hu
    obtain ⟨h1, h2, h3, h4⟩ := closeAll_spec _ _ _ hu
    refine ⟨?_, rfl, h4, ?_⟩
    · rw [show u.fds = [] from ?_]
      rw [h1]
      refine List.perm_nil.1 (erase_all (s.socks.map (·.1)) ?_)
      simp only [Listener.closeFd, List.append_nil]
      have h := (I.fds.trans List.perm_append_comm).erase k
      simpa [he] using h
    · rw [h2]; exact erase_all _ I.ports

/-- A failed call of `listen` keeps no descriptor of its own, unless it is the epoll set that fails; then
`close` has it. -/
example : (Listener.listen {} { bind := false } (.port 12121)).1.fds = [] ∧
    (Listener.listen {} { epollCtl := false } (.port 12121)).1.fds = [1, 0] := by decide

example : ((Listener.listens { ports := [22] } [({}, .port 12121), ({}, .path (ascii "/tmp/f"))]).close).map
    (fun t => (t.fds, t.ports, t.files)) = some ([], [22], []) := by decide +kernel

/-- The server never has more than 256 sockets. -/
theorem C96_limit (f : List Bytes) (p : List Nat) (l : List (ListenEnv × Addr)) :
    (Listener.listens { files := f, ports := p } l).socks.length ≤ 256 :=
  (listens_inv (linv_init f p 0) l).limit

/-! ### Files -/

/-- The files after calls of `listen` in which no `listen(2)` or `chmod` fails for a path. -/
private theorem listen_files {f : List Bytes} {s : Listener} (e : ListenEnv) (a : Addr) (ok : e.listen = true ∧ e.chmod = true)
    (I : s.files.Perm (s.socks.filterMap (·.2.isPath?) ++ f)) :
    (s.listen e a).1.files.Perm ((s.listen e a).1.socks.filterMap (·.2.isPath?) ++ f) := by
  have poll : ∀ (t : Listener) fd, (t.poll e fd).1.files = t.files ∧ (t.poll e fd).1.socks = t.socks := by
    intro t fd
    unfold Listener.poll
    cases t.epoll <;> simp only <;> (try split) <;> (try split) <;> simp
  unfold Listener.listen
  simp only [ok.1, ok.2, Bool.not_true]
  split
  · exact I
  · split
    · exact I
    · split
      · exact I
      · split
        · exact I
        · cases a with
          | port q =>
            simp only [bound, if_neg Bool.false_ne_true, poll]
            simpa [Listener.occupy, Addr.isPath?, List.filterMap_append] using I
          | path b =>
            simp only [bound, if_neg Bool.false_ne_true, poll, Listener.occupy, List.filterMap_append,
              List.append_assoc]
            exact (List.Perm.cons _ I).trans List.perm_middle.symm

/-- If in addition no `listen(2)` and no `chmod` fails, and all paths are short, `close` leaves the files
as they were.  Partial: for longer paths see `C96_long_path`, for a failed `chmod` `C96_chmod_left`. -/
theorem C96_files_partial (f : List Bytes) (p : List Nat) (l : List (ListenEnv × Addr)) (t : Listener)
    (ok : ∀ x ∈ l, x.1.listen = true ∧ x.1.chmod = true)
    (h : (Listener.listens { files := f, ports := p } l).close = some t) : t.files.Perm f := by
  have I : ∀ (l : List (ListenEnv × Addr)) (s : Listener), (∀ x ∈ l, x.1.listen = true ∧ x.1.chmod = true) →
      s.files.Perm (s.socks.filterMap (·.2.isPath?) ++ f) →
      (s.listens l).files.Perm ((s.listens l).socks.filterMap (·.2.isPath?) ++ f) := by
    intro l
    induction l with
    | nil => intro s _ h; exact h
    | cons x l ih =>
      intro s ok h
      exact ih _ (fun y hy => ok y (List.mem_cons_of_mem _ hy))
        (listen_files x.1 x.2 (ok x (List.mem_cons_self ..)) h)
  have I := I l { files := f, ports := p } ok (by simp)
  revert h I
  generalize Listener.listens { files := f, ports := p } l = s
  intro h I
  unfold Listener.close at h
  simp only [Option.map_eq_some_iff] at h
  obtain ⟨u, hu, rfl⟩ := h
  cases he : s.epoll with
  | none =>
    rw [he] at hu
    obtain ⟨-, -, h3, -⟩ := closeAll_spec _ _ _ hu
    simp only [h3]; exact erase_all _ I
  | some k =>
    rw [he] at hu
    obtain ⟨-, -, h3, -⟩ := closeAll_spec _ _ _ hu
    simp only [h3]; exact erase_all _ I

/-- So a server that was stopped in order can be started again: an address that was free before the first
start is taken neither by a file nor by a port. -/
theorem C96_again_partial (f : List Bytes) (p : List Nat) (l : List (ListenEnv × Addr)) (t : Listener)
    (ok : ∀ x ∈ l, x.1.listen = true ∧ x.1.chmod = true)
    (h : (Listener.listens { files := f, ports := p } l).close = some t) (a : Addr)
    (free : Listener.taken { files := f, ports := p } (bound a) = false) : (t.listen {} a).2 = true := by
  obtain ⟨-, hs, -, hp⟩ := C96_all_closed f p l t h
  have hf := C96_files_partial f p l t ok h
  have free' : t.taken (bound a) = false := by
    cases hb : bound a with
    | port q =>
      rw [hb] at free
      simp only [Listener.taken, List.contains_eq_mem, decide_eq_false_iff_not] at free ⊢
      exact fun hm => free (hp.mem_iff.1 hm)
    | path b =>
      rw [hb] at free
      simp only [Listener.taken, List.contains_eq_mem, decide_eq_false_iff_not] at free ⊢
      exact fun hm => free (hf.mem_iff.1 hm)
  have poll : ∀ (t : Listener) fd, (t.poll {} fd).2 = true := by
    intro t fd; unfold Listener.poll; cases t.epoll <;> rfl
  unfold Listener.listen
  rw [hs, if_neg (by simp [maxListenSocket])]
  simp only [free', Bool.not_true, Bool.or_self, if_neg Bool.false_ne_true]
  cases a <;> exact poll _ _

example : (((Listener.listens {} [({}, .path (ascii "/tmp/f"))]).close).map
    fun t => (t.listen {} (.path (ascii "/tmp/f"))).2) = some true := by decide +kernel

/-- Defect: a server with a Unix domain socket of 14 bytes or more cannot be stopped in order: `close` reads
beyond the address it got. -/
theorem C96_long_path (s : Listener) (fd : Nat) (b : Bytes) (h : (fd, .path b) ∈ s.socks) (long : 14 ≤ b.length) :
    s.close = none := by
  have key : ∀ (l : List (Nat × Addr)) (s : Listener), (fd, .path b) ∈ l → Listener.closeAll l s = none := by
    intro l
    induction l with
    | nil => intro s h; simp at h
    | cons x l ih =>
      intro s h
      rcases List.mem_cons.1 h with h | h
      · subst h
        simp only [Listener.closeAll, Listener.closeOne]
        rw [if_neg (by simp only [saData]; omega)]; rfl
      · simp only [Listener.closeAll]
        cases s.closeOne x with
        | none => rfl
        | some s' => simp only [Option.bind_some]; exact ih _ h
  unfold Listener.close
  cases s.epoll <;> simp [key _ _ h, Listener.closeFd]

example : (Listener.listens {} [({}, .path (ascii "/tmp/flare.sock"))]).close = none := by decide +kernel

/-- Defect: a server that was killed leaves its Unix domain socket behind, and nothing removes it: it does
not start again. -/
theorem C96_killed (f : List Bytes) (p : List Nat) (l : List (ListenEnv × Addr)) (fd : Nat) (b : Bytes)
    (h : (fd, bound (.path b)) ∈ (Listener.listens { files := f, ports := p } l).socks) (e : ListenEnv) :
    ((Listener.listens { files := f, ports := p } l).die.listen e (.path b)).2 = false := by
  have I := listens_inv (linv_init f p 0) l
  revert h I
  generalize Listener.listens { files := f, ports := p } l = s
  intro h I
  have hm : s.die.taken (bound (.path b)) = true := by
    simp only [bound, Listener.taken, Listener.die, List.contains_eq_mem, decide_eq_true_eq]
    exact I.paths _ h _ rfl
  unfold Listener.listen
  split
  · rfl
  · split
    · rfl
    · simp only
      split
      · rfl
      · rw [if_pos (by simp [hm])]

example : (((Listener.listens {} [({}, .path (ascii "/tmp/f"))]).die.listen {} (.path (ascii "/tmp/f")))).2 = false := by
  decide +kernel

/-- Defect: if the `chmod` fails the socket is closed, but its file stays, and the next try fails. -/
theorem C96_chmod_left (b : Bytes) (e : ListenEnv) :
    let r := Listener.listen {} { chmod := false } (.path b)
    r.2 = false ∧ r.1.fds = [] ∧ (r.1.listen e (.path b)).2 = false := by
  have r : Listener.listen {} { chmod := false } (.path b) =
      ({ next := 1, files := [(b.takeWhile (· ≠ 0)).take sunPath] }, false) := by
    simp [Listener.listen, maxListenSocket, Listener.taken, bound, Listener.occupy, Listener.closeFd, Listener.vacate]
  rw [r]
  refine ⟨rfl, rfl, ?_⟩
  unfold Listener.listen
  split
  · rfl
  · split
    · rfl
    · simp only
      split
      · rfl
      · rw [if_pos (by simp [Listener.taken, bound])]

/-- Defect: a path that does not fit is cut off without a word, so two servers with different paths get in
each other's way. -/
theorem C96_cut_off (b c : Bytes) (hb : 0 ∉ b) (hc : 0 ∉ c) (h : b.take 107 = c.take 107) :
    bound (.path b) = bound (.path c) := by
  have e : ∀ d : Bytes, 0 ∉ d → d.takeWhile (· ≠ 0) = d := by
    intro d hd
    induction d with
    | nil => rfl
    | cons x d ih =>
      simp only [List.mem_cons, not_or] at hd
      rw [List.takeWhile_cons, if_pos (by simpa using fun h => hd.1 h.symm), ih hd.2]
  simp only [bound, e b hb, e c hc, sunPath, h]

example : (0 : UInt8) ∉ List.replicate 107 97 ++ [98] ∧
    bound (.path (List.replicate 107 97 ++ [98])) = bound (.path (List.replicate 107 97 ++ [99, 100])) := by
  decide +kernel

/-! ### Connections -/

/-- Every connection that `wait` accepts is handed on or closed: the descriptors made are the ones handed
on, and after them the one that was closed, if any. -/
theorem C96_accepted (l : List (Addr × AcceptAns)) (fd : Nat) (on off : List Nat)
    (h : waitAll l fd = some (on, off)) :
    on ++ off = List.range' fd (on.length + off.length) ∧ off.length ≤ 1 ∧ on.length + off.length ≤ l.length := by
  induction l generalizing fd on off with
  | nil =>
    simp only [waitAll, Option.some.injEq, Prod.mk.injEq] at h
    obtain ⟨rfl, rfl⟩ := h; simp
  | cons x l ih =>
    obtain ⟨a, r⟩ := x
    cases r with
    | none =>
      simp only [waitAll, Option.some.injEq, Prod.mk.injEq] at h
      obtain ⟨rfl, rfl⟩ := h; simp
    | bad =>
      simp only [waitAll, Option.some.injEq, Prod.mk.injEq] at h
      obtain ⟨rfl, rfl⟩ := h
      exact ⟨rfl, Nat.le_refl _, by simp⟩
    | good =>
      cases a with
      | path b => simp [waitAll] at h
      | port q =>
        simp only [waitAll, Option.map_eq_some_iff] at h
        obtain ⟨⟨x, y⟩, h, e⟩ := h
        simp only [Prod.mk.injEq] at e
        obtain ⟨rfl, rfl⟩ := e
        obtain ⟨h1, h2, h3⟩ := ih _ _ _ h
        refine ⟨?_, h2, ?_⟩
        · rw [List.cons_append, h1, List.length_cons, Nat.add_right_comm, List.range'_succ]
        · rw [List.length_cons, List.length_cons]; omega

example : waitAll [(.port 1, .good), (.port 2, .good), (.port 3, .bad), (.port 4, .good)] 7 =
    some ([7, 8], [9]) := by decide

/-- Defect: a connection on a Unix domain socket is made from an address that is too short. -/
theorem C96_unix_connection (l : List (Addr × AcceptAns)) (b : Bytes) (pre : List Nat) (fd : Nat) :
    waitAll (pre.map (fun q => (.port q, .good)) ++ (.path b, .good) :: l) fd = none := by
  induction pre generalizing fd with
  | nil => rfl
  | cons q pre ih => simp only [List.map_cons, List.cons_append, waitAll, ih, Option.map_none]

example : waitAll [(.path (ascii "/tmp/f"), .good)] 3 = none := by decide +kernel

end Flare
