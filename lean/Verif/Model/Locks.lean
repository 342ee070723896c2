import Verif.Model.KeyResolver

/-! Model of the locks of the storages: which locks a command takes and gives back, and what
threads that run commands at the same time can do.

Simplifications.
* A command is the list of its lock operations and of its accesses to what the locks protect.  The
  lists are given per way through the code; the use of the header cache (any number of short reads
  and writes under its own lock) is left open as a parameter.
* Locks inside of the database libraries are not modelled.
* `behavior_skip_lock` occurs inside of the storages only, in calls made while the locks are held;
  such calls are part of the caller's list. -/
namespace Flare

/-- Lock operations, and accesses to what a lock protects; `true` is for writing.  Locks are
numbers. -/
inductive LockAct where
  | acq (l : Nat) (w : Bool)
  | rel (l : Nat)
  | use (l : Nat) (w : Bool)
  deriving DecidableEq, Repr

/-- The mutex of iterations, /repo/src/lib/storage.h:205. -/
def iterLock : Nat := 0
/-- The store-wide lock, /repo/src/lib/storage.h:210. -/
def wholeLock : Nat := 1
/-- The lock of a slot, /repo/src/lib/storage.h:203. -/
def slotLock (i : Nat) : Nat := 2 + i
/-- The lock of the header cache, /repo/src/lib/storage.h:208; `n` is the number of slots. -/
def cacheLock (n : Nat) : Nat := 2 + n

/-- The slot of a key, `e.get_key_hash_value(hash_algorithm_murmur) % this->_mutex_slot_size`, e.g.
/repo/src/lib/storage_tch.cc:130; `none` for an index below 0 and for a division by 0. -/
def slotIndex (ext : HashAlgorithm → Bytes → UInt32) (n : Nat) (key : Bytes) : Option Nat :=
  let r := (keyHash ext .murmur key).toInt.tmod (n : Int)
  if n = 0 ∨ r < 0 then none else some r.toNat

/-- Reads and writes of the header cache, /repo/src/lib/storage.h:424-452,
/repo/src/lib/storage.cc:318-341. -/
def cacheActs (n : Nat) (cache : List Bool) : List LockAct :=
  (cache.map fun w => [.acq (cacheLock n) w, .use (cacheLock n) w, .rel (cacheLock n)]).flatten

/-- `set`, `incr` and `remove`, all ways through the code that take the locks once:
/repo/src/lib/storage_tch.cc:125-309, :311-442, :513-579 and the same in
/repo/src/lib/storage_tcb.cc:125-310, :312-442, :513-579 and
/repo/src/lib/storage_kch.cc:126-308, :310-434, :504-570. -/
def writeActs (n i : Nat) (cache : List Bool) : List LockAct :=
  [.acq wholeLock false, .acq (slotLock i) true, .use wholeLock false, .use (slotLock i) true] ++
  cacheActs n cache ++ [.use (slotLock i) true, .rel (slotLock i), .rel wholeLock]

/-- `get`, /repo/src/lib/storage_tch.cc:444-511, up to the release of the lock. -/
def readActs (i : Nat) : List LockAct :=
  [.acq (slotLock i) false, .use (slotLock i) false, .rel (slotLock i)]

/-- `truncate`, /repo/src/lib/storage_tch.cc:581-604. -/
def truncateActs (n : Nat) : List LockAct :=
  [.acq wholeLock true] ++ (List.range n).map (fun i => .acq (slotLock i) true) ++
  [.use wholeLock true] ++ (List.range n).map (fun i => .use (slotLock i) true) ++
  cacheActs n [true] ++ (List.range n).reverse.map (fun i => .rel (slotLock i)) ++
  [.rel wholeLock]

/-- The commands of a storage with the ways through the code that differ in their locks. -/
inductive StoCmd where
  | write (slot : Nat) (cache : List Bool)
  /-- `incr` of an expired key: the key is removed after the locks have been released,
  /repo/src/lib/storage_tch.cc:421-431 -/
  | incrExpired (slot : Nat) (cache cache' : List Bool)
  | get (slot : Nat)
  /-- `get` of an expired key, /repo/src/lib/storage_tch.cc:490-503 -/
  | getExpired (slot : Nat) (cache : List Bool)
  | truncate
  /-- `iter_begin`, `iter_end`, and `iter_next` without a cursor,
  /repo/src/lib/storage_tch.cc:606-631, :658-670 -/
  | iterMutex
  /-- /repo/src/lib/storage_tch.cc:624-656 -/
  | iterNext
  deriving DecidableEq, Repr

/-- The lock operations of a command of a storage with `n` slots. -/
def StoCmd.acts (n : Nat) : StoCmd → List LockAct
  | .write i c => writeActs n i c
  | .incrExpired i c c' => writeActs n i c ++ writeActs n i c'
  | .get i => readActs i
  | .getExpired i c => readActs i ++ writeActs n i c
  | .truncate => truncateActs n
  | .iterMutex => [.acq iterLock true, .use iterLock true, .rel iterLock]
  | .iterNext => [.acq iterLock true, .use iterLock true, .rel iterLock,
                  .acq wholeLock true, .use wholeLock true, .rel wholeLock]

/-- `storage_tcb::incr` of an expired key, /repo/src/lib/storage_tcb.cc:420-434: `remove` is called
before the locks are released, and with an entry whose key is not set (`e_current`, :335-351), so
that `j` is the slot of the empty key. -/
def tcbIncrExpired (n i j : Nat) (cache : List Bool) : List LockAct :=
  [.acq wholeLock false, .acq (slotLock i) true, .use wholeLock false, .use (slotLock i) true] ++
  writeActs n j cache ++ [.rel (slotLock i), .rel wholeLock]

/-! ### Threads -/

/-- A thread: the locks it holds and what it is still going to do. -/
structure LThread where
  held : List (Nat × Bool)
  rest : List LockAct
  deriving DecidableEq, Repr

/-- `pthread_rwlock_rdlock`, `pthread_rwlock_wrlock`: whether a thread can do its next operation.  A
lock is granted if nobody holds it, or if it is held and wanted for reading only; with `prefer` a
reader also waits while somebody waits to write (POSIX leaves that open).  A thread that wants a
lock it holds waits for itself (POSIX allows an error instead, which the code would ignore). -/
def lockEnabled (prefer : Bool) (s : List LThread) : LockAct → Prop
  | .acq l w => (∀ u ∈ s, ∀ h ∈ u.held, h.1 = l → w = false ∧ h.2 = false) ∧
      (prefer = true → w = false → ∀ u ∈ s, u.rest.head? ≠ some (.acq l true))
  | _ => True

/-- The thread after its next operation. -/
def LThread.next (t : LThread) : LThread :=
  match t.rest with
  | [] => t
  | .acq l w :: r => ⟨(l, w) :: t.held, r⟩
  | .rel l :: r => ⟨t.held.eraseP (fun h => h.1 == l), r⟩
  | .use _ _ :: r => ⟨t.held, r⟩

/-- One thread goes on. -/
def LockStep (prefer : Bool) (s s' : List LThread) : Prop :=
  ∃ i t a r, s[i]? = some t ∧ t.rest = a :: r ∧ lockEnabled prefer s a ∧ s' = s.set i t.next

/-- Any number of steps. -/
inductive LockRun (prefer : Bool) : List LThread → List LThread → Prop where
  | refl (s) : LockRun prefer s s
  | step {s s' s''} : LockStep prefer s s' → LockRun prefer s' s'' → LockRun prefer s s''

/-- Threads that run commands one after the other. -/
def storageThreads (n : Nat) (cmds : List (List StoCmd)) : List LThread :=
  cmds.map fun l => ⟨[], (l.map (StoCmd.acts n)).flatten⟩

end Flare
