import Verif.Lemmas.ThreadPool

/-! Property C44: thread ids. -/
namespace Flare

/-- The server after a history of its pools. -/
abbrev threadsAfter (max : Nat) (evs : List (Bool × PoolEv)) : Threads :=
  Threads.run max {} evs

/-- C44.  After every history, with any number of wrap-arounds of the counter, the registered
threads of one pool have ids that are not zero and pairwise different, every registered thread
knows its own id, and asking for an id finds the thread that has it.  Missing: threads of
different pools, see `C44_pools_collide`. -/
theorem C44_unique_partial (max : Nat) (evs : List (Bool × PoolEv)) (b : Bool)
    {ty : Int} {id : UInt32} {t : Nat} (h : (ty, id, t) ∈ ((threadsAfter max evs).pool b).map) :
    id ≠ 0 ∧ (threadsAfter max evs).own t = (ty, id) ∧
      ((threadsAfter max evs).pool b).getActive id = some t ∧
      ∀ ty' id' t', (ty', id', t') ∈ ((threadsAfter max evs).pool b).map →
        (id' = id ↔ t' = t) := by
  have hI : PoolInv (threadsAfter max evs) := pool_inv_run evs inv_start
  have huniq : ∀ x ∈ ((threadsAfter max evs).pool b).map, x.2.1 = id → x = (ty, id, t) := by
    intro x hx hxi
    have hd := hI.distinct b
    revert h hx hd
    generalize ((threadsAfter max evs).pool b).map = l
    intro h hx hd
    induction l with
    | nil => cases hx
    | cons a l ih =>
      rw [List.map_cons, List.nodup_cons] at hd
      rcases List.mem_cons.1 h with h | h <;> rcases List.mem_cons.1 hx with hx | hx
      · rw [hx, ← h]
      · exfalso; apply hd.1; rw [← h]; exact List.mem_map.2 ⟨x, hx, hxi⟩
      · exfalso; apply hd.1; rw [← hx, hxi]; exact List.mem_map.2 ⟨_, h, rfl⟩
      · exact ih h hx hd.2
  refine ⟨hI.nonzero b _ h, hI.own b _ h, ?_, ?_⟩
  · unfold Pool.getActive
    cases hf : ((threadsAfter max evs).pool b).map.find? (fun e => e.2.1 == id) with
    | none =>
      have := List.find?_eq_none.1 hf _ h
      simp at this
    | some x =>
      have hx := List.find?_some hf
      rw [huniq x (List.mem_of_find?_eq_some hf) (by simpa using hx)]
      rfl
  · intro ty' id' t' h'
    constructor
    · intro e
      have := huniq _ h' e
      simp only [Prod.mk.injEq] at this
      exact this.2.2
    · intro e
      have := (mapped_once hI h' h e).2
      simp only [Prod.mk.injEq] at this
      exact this.2.1

/-- Two threads, one of them cleaned up and taken again: it gets a new id. -/
example : ((threadsAfter 4 [(false, .pop), (false, .attempt 0 7), (false, .pop),
    (false, .attempt 1 7), (false, .erase 0), (false, .push 0), (false, .pop),
    (false, .attempt 0 8)]).pool false).map = [(8, 3, 0), (7, 2, 1)] := by decide +kernel

/-- C44.  A thread object is never given out while it is in use: after every history it is
registered, waiting to be reused, being given out or being cleaned up in at most one place of one
pool. -/
theorem C44_exclusive (max : Nat) (evs : List (Bool × PoolEv)) {b : Bool} {ty : Int} {id : UInt32}
    {t : Nat} (h : (ty, id, t) ∈ ((threadsAfter max evs).pool b).map) :
    ∀ b', t ∉ ((threadsAfter max evs).pool b').stack ∧ t ∉ ((threadsAfter max evs).pool b').held ∧
      t ∉ ((threadsAfter max evs).pool b').leaving ∧
      ∀ ty' id', (ty', id', t) ∈ ((threadsAfter max evs).pool b').map →
        b' = b ∧ ty' = ty ∧ id' = id := by
  have hI : PoolInv (threadsAfter max evs) := pool_inv_run evs inv_start
  intro b'
  have h1 := once_of hI b t
  have h2 : 0 < ((threadsAfter max evs).pool b).map.countP (fun e => e.2.2 == t) :=
    List.countP_pos_iff.2 ⟨_, h, by simp⟩
  have key : ((threadsAfter max evs).pool b').stack.count t = 0 ∧
      ((threadsAfter max evs).pool b').held.count t = 0 ∧
      ((threadsAfter max evs).pool b').leaving.count t = 0 := by
    by_cases hb : b' = b
    · subst hb; unfold Pool.cnt at h1; omega
    · have : b' = !b := by cases b <;> cases b' <;> first | rfl | exact absurd rfl hb
      subst this; unfold Pool.cnt at h1; omega
  refine ⟨List.count_eq_zero.1 key.1, List.count_eq_zero.1 key.2.1, List.count_eq_zero.1 key.2.2,
    ?_⟩
  intro ty' id' h'
  obtain ⟨e1, e2⟩ := mapped_once hI h' h rfl
  simp only [Prod.mk.injEq] at e2
  exact ⟨e1, e2.1, e2.2.1⟩

/-- C44.  A free id is found: if the pool has fewer than 2³² - 1 registered threads, a thread that
is being given out is registered after at most two attempts more than there are registered
threads, wherever the counter stands. -/
theorem C44_found (max : Nat) (evs : List (Bool × PoolEv)) (b : Bool) (ty : Int) {t : Nat}
    (ht : t ∈ ((threadsAfter max evs).pool b).held)
    (hn : ((threadsAfter max evs).pool b).map.length + 2 ≤ 2 ^ 32) :
    ∃ id, (ty, id, t) ∈ (((threadsAfter max evs).run max
      (List.replicate (((threadsAfter max evs).pool b).map.length + 2)
        (b, .attempt t ty))).pool b).map := by
  have hI : PoolInv (threadsAfter max evs) := pool_inv_run evs inv_start
  rcases attempts (max := max) b t ty (((threadsAfter max evs).pool b).map.length + 2) hI ht with
    h | h
  · exact h
  · exfalso
    have hd := candidates_nodup _ (threadsAfter max evs).counter hn
    have := nodup_subset_length hd h
    have hl : ∀ (n : Nat) (c : UInt64), (candidates c n).length = n := by
      intro n
      induction n with
      | zero => intro c; rfl
      | succ n ih => intro c; simp [candidates, ih]
    rw [hl] at this
    simp only [List.length_cons, List.length_map] at this
    omega

/-- The counter wraps to zero and then meets an id in use: the third attempt succeeds. -/
example : ((Threads.run 4
    { counter := 18446744069414584320
      fresh := 2
      pool := fun _ => { map := [(7, 1, 0)], held := [1] }
      own := fun _ => (7, 1) }
    (List.replicate 3 (false, .attempt 1 7))).pool false).map = [(7, 2, 1), (7, 1, 0)] := by
  decide +kernel

/-- C44.  The ids of all threads of both pools are different as long as the counter has not
wrapped around. -/
theorem C44_before_wrap (max : Nat) (evs : List (Bool × PoolEv)) (hn : evs.length + 2 ≤ 2 ^ 32)
    {e e' : Int × UInt32 × Nat} (he : e ∈ ((threadsAfter max evs).pool false).map)
    (he' : e' ∈ ((threadsAfter max evs).pool true).map) : e.2.1 ≠ e'.2.1 := by
  have h0 : BeforeWrap {} 0 :=
    ⟨by decide, fun b e h => (by cases h), fun e h => (by cases h)⟩
  exact (before_run (max := max) evs h0 (by omega)).apart e he e' he'

/-- C44 does not hold for the server as a whole: `get` looks for duplicates in its own pool only.
A thread of the other pool, such as a sender, lives as long as the server; after the pool for
requests has gone once through all ids, it gives the same id to a connection.  `kill` with this
id ends the connection, and the other thread cannot be killed any more. -/
theorem C44_pools_collide : ∃ evs ty ty' t t', t ≠ t' ∧
    (ty, 1, t) ∈ ((threadsAfter 1 evs).pool false).map ∧
    (ty', 1, t') ∈ ((threadsAfter 1 evs).pool true).map ∧
    (threadsAfter 1 evs).killTarget 1 = some t := by
  obtain ⟨evs, h1⟩ : ∃ evs, Going (threadsAfter 1 evs) 4294967297 := by
    obtain ⟨n, hn⟩ : ∃ n : Nat, (2 : UInt64) + UInt64.ofNat n = 4294967297 :=
      ⟨4294967295, by decide +kernel⟩
    have h1 := going_rounds n (s := threadsAfter 1
      [(true, .pop), (true, .attempt 0 0), (false, .pop)]) (c := 2) ⟨rfl, rfl, rfl, rfl, rfl, rfl⟩
    rw [hn] at h1
    refine ⟨[(true, .pop), (true, .attempt 0 0), (false, .pop)] ++ rounds 2 n, ?_⟩
    unfold threadsAfter Threads.run
    rw [List.foldl_append]
    exact h1
  have hlast : threadsAfter 1 (evs ++ [(false, .attempt 1 0)]) =
      (threadsAfter 1 evs).attemptStep false 1 0 := List.foldl_append
  have hm : ((threadsAfter 1 (evs ++ [(false, .attempt 1 0)])).pool false).map = [(0, 1, 1)] := by
    rw [hlast]
    simp [Threads.attemptStep, Threads.setPool, h1.held, h1.map, h1.counter]
  have ho : ((threadsAfter 1 (evs ++ [(false, .attempt 1 0)])).pool true).map = [(0, 1, 0)] := by
    rw [hlast]
    simp [Threads.attemptStep, Threads.setPool, h1.held, h1.map, h1.counter, h1.other]
  refine ⟨evs ++ [(false, .attempt 1 0)], 0, 0, 1, 0, by decide, ?_, ?_, ?_⟩
  · rw [hm]; exact List.mem_singleton.2 rfl
  · rw [ho]; exact List.mem_singleton.2 rfl
  · simp [Threads.killTarget, Pool.getActive, hm]

end Flare
