import Verif.Lemmas.Locks
import Verif.Props.KeyResolver

/-! Property theorems about the locks of the storages: C15. -/
namespace Flare

/-- With a number of slots that divides 2^31 (the default is 64) every key has an existing slot,
whatever the hash function returns. -/
theorem C15_slot (ext : HashAlgorithm → Bytes → UInt32) (n : Nat) (hn : n ∣ 2 ^ 31) (key : Bytes) :
    ∃ i, slotIndex ext n key = some i ∧ i < n := by
  have h1 : 1 ≤ n := by
    rcases Nat.eq_zero_or_pos n with h | h
    · rw [h] at hn; norm_num at hn
    · exact h
  have key : ∀ x : Int, (0 ≤ x ∨ x = -2147483648) → 0 ≤ x.tmod n ∧ x.tmod n < n := by
    intro x hx
    refine ⟨?_, Int.tmod_lt_of_pos _ (by omega)⟩
    rcases hx with hx | rfl
    · exact Int.tmod_nonneg _ hx
    · have : (-2147483648 : Int).tmod n = 0 := by
        apply Int.tmod_eq_zero_of_dvd
        have : ((n : Nat) : Int) ∣ ((2 ^ 31 : Nat) : Int) := Int.natCast_dvd_natCast.2 hn
        norm_num at this
        exact (Int.dvd_neg).2 this
      omega
  obtain ⟨h2, h3⟩ := key (keyHash ext .murmur ‹_›).toInt (by
    rcases C17_nonneg_partial ext .murmur ‹_› with h | h
    · left; exact Int32.le_iff_toInt_le.1 h
    · right; rw [h]; decide)
  refine ⟨_, if_neg (by omega), by omega⟩

/-- With another number of slots the index can be negative: the lock taken is not one of the slots
(undefined behaviour). -/
theorem C15_slot_negative : slotIndex (fun _ _ => 2147483648) 100 [97] = none := by decide

example : slotIndex (fun _ _ => 2147483648) 64 [97] = some 0 := by decide
example : slotIndex (fun _ _ => 4294967294) 64 [97] = some 2 := by decide

/-- Every command of the storage takes the iteration mutex before the store-wide lock, that before
slots, slots in increasing order, the lock of the header cache last, never a lock it holds; it
touches data under the lock that protects it, and has released everything when it returns, on each
of the ways through the code.  Missing for the full claim: `incr` of an expired key in
`storage_tcb`, see `C15_tcb_waits_for_itself`. -/
theorem C15_ordered_partial (n : Nat) (c : StoCmd) (h : c.InRange n) : WellLocked (c.acts n) :=
  wellLocked_cmd n c h

example : WellLocked ((StoCmd.incrExpired 3 [true] [false, true]).acts 64) :=
  C15_ordered_partial 64 _ (show 3 < 64 by decide)
example : ¬ WellLocked (StoCmd.acts 3 (.write 3 [true])) := by decide

/-- Threads that run commands of the storage: whatever they did so far, all are done or one of them
can go on.  Both if readers may overtake waiting writers and if not. -/
theorem C15_progress_partial (prefer : Bool) (n : Nat) (cmds : List (List StoCmd))
    (h : ∀ l ∈ cmds, ∀ c ∈ l, c.InRange n) (s : List LThread)
    (hr : LockRun prefer (storageThreads n cmds) s) : AllDone s ∨ ∃ s', LockStep prefer s s' :=
  Classical.or_iff_not_imp_left.mpr (lock_progress prefer s (threadsOk_run (storageThreads_ok n cmds h) hr))

/-- So no run gets stuck: every run can be completed, takes as many steps as there are operations,
and leaves nothing locked. -/
theorem C15_completes_partial (prefer : Bool) (n : Nat) (cmds : List (List StoCmd))
    (h : ∀ l ∈ cmds, ∀ c ∈ l, c.InRange n) (s : List LThread)
    (hr : LockRun prefer (storageThreads n cmds) s) :
    (∃ s', LockRun prefer s s' ∧ AllDone s') ∧ (∀ s', LockStep prefer s s' → lockWork s' < lockWork s) ∧
      (AllDone s → ∀ t ∈ s, t.held = []) := by
  have hk := threadsOk_run (storageThreads_ok n cmds h) hr
  refine ⟨lock_finish prefer s hk, fun s' st => ?_, fun hd t ht => ?_⟩
  · have := lockWork_step st; omega
  · have := hk t ht
    rw [hd t ht] at this
    exact Option.some.inj this

/-- Two threads never touch at the same time what one lock protects, unless both only read: in
particular no two writers are in the same slot, no reader is in a slot while somebody writes it, and
nobody writes anywhere while `iter_next` moves the cursor. -/
theorem C15_exclusive_partial (prefer : Bool) (n : Nat) (cmds : List (List StoCmd))
    (h : ∀ l ∈ cmds, ∀ c ∈ l, c.InRange n) (s : List LThread)
    (hr : LockRun prefer (storageThreads n cmds) s) (i j : Nat) (hij : i ≠ j) (t u : LThread)
    (ht : s[i]? = some t) (hu : s[j]? = some u) (l : Nat) (w w' : Bool) (r r' : List LockAct)
    (h1 : t.rest = .use l w :: r) (h2 : u.rest = .use l w' :: r') : w = false ∧ w' = false := by
  have hk := threadsOk_run (storageThreads_ok n cmds h) hr
  have he := lockExcl_run (storageThreads_excl n cmds) hr
  have hold : ∀ (t : LThread) (w : Bool) (r : List LockAct), t ∈ s → t.rest = .use l w :: r →
      ∃ a ∈ t.held, a.1 = l ∧ (a.2 = false → w = false) := by
    intro t w r ht h1
    have := hk t ht
    rw [h1] at this
    simp only [lockAfter] at this
    split at this
    · rename_i hc
      rcases hc with hc | ⟨hw, hc⟩
      · exact ⟨_, hc, rfl, nofun⟩
      · exact ⟨_, hc, rfl, fun _ => hw⟩
    · cases this
  obtain ⟨a, ha, e1, f1⟩ := hold t w r (List.mem_of_getElem? ht) h1
  obtain ⟨b, hb, e2, f2⟩ := hold u w' r' (List.mem_of_getElem? hu) h2
  obtain ⟨g1, g2⟩ := he i j t u hij ht hu a ha b hb (e1.trans e2.symm)
  exact ⟨f1 g1, f2 g2⟩

/-! Two writers of one slot and an iteration: after two steps of the first writer the other ones
have to wait for the slot and for the store. -/
example : storageThreads 2 [[.write 1 []], [.write 1 [true]], [.iterNext]] =
    [⟨[], [.acq 1 false, .acq 3 true, .use 1 false, .use 3 true, .use 3 true, .rel 3, .rel 1]⟩,
     ⟨[], [.acq 1 false, .acq 3 true, .use 1 false, .use 3 true, .acq 4 true, .use 4 true, .rel 4,
           .use 3 true, .rel 3, .rel 1]⟩,
     ⟨[], [.acq 0 true, .use 0 true, .rel 0, .acq 1 true, .use 1 true, .rel 1]⟩] := by decide

example (p : Bool) (r s : List LockAct) (s' : List LThread) :
    ¬ lockEnabled p (⟨[(3, true), (1, false)], r⟩ :: ⟨[(1, false)], s⟩ :: s') (.acq 3 true) ∧
    ¬ lockEnabled p (⟨[(3, true), (1, false)], r⟩ :: ⟨[(1, false)], s⟩ :: s') (.acq 1 true) :=
  ⟨(fun h => nomatch (h.1 _ List.mem_cons_self (3, true) List.mem_cons_self rfl).1),
   (fun h => nomatch (h.1 _ List.mem_cons_self (1, false)
     (List.mem_cons_of_mem _ List.mem_cons_self) rfl).1)⟩

/-! ### The B+ tree storage -/

theorem lockRun_trans {p : Bool} {a b c : List LThread} (h1 : LockRun p a b) (h2 : LockRun p b c) :
    LockRun p a c := by
  induction h1 with
  | refl => exact h2
  | step st _ ih => exact .step st (ih h2)

/-- A thread that does not wait for anything goes on. -/
theorem lockRun_alone (p : Bool) (held : List (Nat × Bool)) (a : LockAct) (r : List LockAct)
    (h : ∀ l w, a = .acq l w → ∀ x ∈ held, x.1 = l → w = false ∧ x.2 = false) :
    LockRun p [⟨held, a :: r⟩] [(⟨held, a :: r⟩ : LThread).next] := by
  refine .step ⟨0, _, a, r, rfl, rfl, ?_, rfl⟩ (.refl _)
  cases a with
  | acq l w =>
    refine ⟨fun u hu x hx e => ?_, fun _ hw u hu hc => ?_⟩
    · rw [List.mem_singleton.mp hu] at hx; exact h l w rfl x hx e
    · rw [List.mem_singleton.mp hu] at hc; cases hc; cases hw
  | rel l => trivial
  | use l w => trivial

/-- `storage_tcb::incr` of an expired key whose slot is also the slot of the empty key waits for
itself, for ever and without any other thread: it removes a key (the wrong one) before it has
released its own locks. -/
theorem C15_tcb_waits_for_itself (prefer : Bool) (n i : Nat) (cache : List Bool) :
    ∃ s, LockRun prefer [⟨[], tcbIncrExpired n i i cache⟩] s ∧ ¬ AllDone s ∧
      ∀ s', ¬ LockStep prefer s s' := by
  obtain ⟨t, et⟩ : ∃ t, t = ([.use wholeLock false, .use (slotLock i) true] ++ cacheActs n cache ++
    [.use (slotLock i) true, .rel (slotLock i), .rel wholeLock]) ++
    [.rel (slotLock i), .rel wholeLock] := ⟨_, rfl⟩
  have e : tcbIncrExpired n i i cache = .acq wholeLock false :: .acq (slotLock i) true ::
      .use wholeLock false :: .use (slotLock i) true :: .acq wholeLock false ::
      .acq (slotLock i) true :: t := by
    rw [et]; simp [tcbIncrExpired, writeActs]
  rw [e]
  refine ⟨[⟨[(wholeLock, false), (slotLock i, true), (wholeLock, false)],
    .acq (slotLock i) true :: t⟩], ?_, ?_, ?_⟩
  · refine lockRun_trans (lockRun_alone _ _ _ _ ?_) (lockRun_trans (lockRun_alone _ _ _ _ ?_)
      (lockRun_trans (lockRun_alone _ _ _ _ nofun) (lockRun_trans (lockRun_alone _ _ _ _ nofun)
      (lockRun_alone _ _ _ _ ?_))))
    · intro l w h x hx; cases hx
    · intro l w h x hx e
      cases h
      rw [List.mem_singleton.mp hx] at e
      simp [slotLock, wholeLock] at e; omega
    · intro l w h x hx e
      cases h
      simp only [List.mem_cons, List.not_mem_nil, or_false] at hx
      rcases hx with rfl | rfl
      · simp [slotLock, wholeLock] at e; omega
      · exact ⟨rfl, rfl⟩
  · intro hd; exact absurd (hd _ List.mem_cons_self) (List.cons_ne_nil _ _)
  · rintro s' ⟨k, u, a, r, hk, hr, he, -⟩
    have := List.mem_of_getElem? hk
    rw [List.mem_singleton.mp this] at hr
    cases hr
    have := he.1 _ List.mem_cons_self (slotLock i, true)
      (List.mem_cons_of_mem _ List.mem_cons_self) rfl
    exact nomatch this.1

example : tcbIncrExpired 64 0 0 [] ≠ [] := by decide

/-- If a reader waits behind waiting writers, any expired `incr` of `storage_tcb` and an `iter_next`
can block each other, whatever the slots are. -/
theorem C15_tcb_blocks_iteration (n i j : Nat) (cache : List Bool) :
    ∃ s, LockRun true [⟨[], tcbIncrExpired n i j cache⟩, ⟨[], StoCmd.acts n .iterNext⟩] s ∧
      ¬ AllDone s ∧ ∀ s', ¬ LockStep true s s' := by
  obtain ⟨t, et⟩ : ∃ t, t = ([.acq (slotLock j) true, .use wholeLock false, .use (slotLock j) true] ++
    cacheActs n cache ++ [.use (slotLock j) true, .rel (slotLock j), .rel wholeLock]) ++
    [.rel (slotLock i), .rel wholeLock] := ⟨_, rfl⟩
  have e : tcbIncrExpired n i j cache = .acq wholeLock false :: .acq (slotLock i) true ::
      .use wholeLock false :: .use (slotLock i) true :: .acq wholeLock false :: t := by
    rw [et]; simp [tcbIncrExpired, writeActs]
  rw [e]
  have hs : slotLock i ≠ wholeLock := by simp [slotLock, wholeLock]; omega
  refine ⟨[⟨[(slotLock i, true), (wholeLock, false)], .acq wholeLock false :: t⟩,
    ⟨[], [.acq wholeLock true, .use wholeLock true, .rel wholeLock]⟩], ?_, ?_, ?_⟩
  · refine .step ⟨0, _, _, _, rfl, rfl, ?_, rfl⟩ (.step ⟨0, _, _, _, rfl, rfl, ?_, rfl⟩
      (.step ⟨0, _, _, _, rfl, rfl, trivial, rfl⟩ (.step ⟨0, _, _, _, rfl, rfl, trivial, rfl⟩
      (.step ⟨1, _, _, _, rfl, rfl, ?_, rfl⟩ (.step ⟨1, _, _, _, rfl, rfl, trivial, rfl⟩
      (.step ⟨1, _, _, _, rfl, rfl, trivial, rfl⟩ (.refl _)))))))
    · simp [lockEnabled, StoCmd.acts, iterLock, wholeLock]
    · simp [lockEnabled, LThread.next, hs.symm]
    · simp [lockEnabled, LThread.next, wholeLock, iterLock]
      intro a; simp [slotLock]; omega
  · intro hd; exact absurd (hd _ List.mem_cons_self) (List.cons_ne_nil _ _)
  · rintro s' ⟨k, u, a, r, hk, hr, he, -⟩
    have := List.mem_of_getElem? hk
    simp only [List.mem_cons, List.not_mem_nil, or_false] at this
    rcases this with rfl | rfl
    · cases hr
      exact he.2 rfl rfl _ (List.mem_cons_of_mem _ List.mem_cons_self) rfl
    · cases hr
      have := he.1 _ List.mem_cons_self (wholeLock, false)
        (List.mem_cons_of_mem _ List.mem_cons_self) rfl
      exact nomatch this.1

end Flare
