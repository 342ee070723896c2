import Verif.Model.Session
import Verif.Model.BinSession

/-! Model of the counters that `stats` shows: /repo/src/lib/stats.h:52-73, as the operations of a session count
(/repo/src/lib/op_get.cc:120-178, /repo/src/lib/op_set.cc:113-175, /repo/src/lib/op_delete.cc:124-134,
/repo/src/lib/op_incr.cc:182-197).

Simplifications.
* Requests of Model/Session and Model/BinSession.  (`keys` also counts `cmd_get` for every prefix, and nothing else.)
* The counters do not wrap; each is atomic, so that the counts of several clients add up in any order. -/
namespace Flare

/-- The counters. -/
structure Tally where
  cmdGet : Nat := 0
  cmdSet : Nat := 0
  getHits : Nat := 0
  getMisses : Nat := 0
  deleteHits : Nat := 0
  deleteMisses : Nat := 0
  incrHits : Nat := 0
  incrMisses : Nat := 0
  decrHits : Nat := 0
  decrMisses : Nat := 0
  casHits : Nat := 0
  casMisses : Nat := 0
  casBadval : Nat := 0
  touchHits : Nat := 0
  touchMisses : Nat := 0
  totalItems : Nat := 0
  deriving DecidableEq, Repr

def Tally.add (a b : Tally) : Tally where
  cmdGet := a.cmdGet + b.cmdGet
  cmdSet := a.cmdSet + b.cmdSet
  getHits := a.getHits + b.getHits
  getMisses := a.getMisses + b.getMisses
  deleteHits := a.deleteHits + b.deleteHits
  deleteMisses := a.deleteMisses + b.deleteMisses
  incrHits := a.incrHits + b.incrHits
  incrMisses := a.incrMisses + b.incrMisses
  decrHits := a.decrHits + b.decrHits
  decrMisses := a.decrMisses + b.decrMisses
  casHits := a.casHits + b.casHits
  casMisses := a.casMisses + b.casMisses
  casBadval := a.casBadval + b.casBadval
  touchHits := a.touchHits + b.touchHits
  touchMisses := a.touchMisses + b.touchMisses
  totalItems := a.totalItems + b.totalItems

/-- What the first loop writes to `r_map` for a key, op_get.cc:126-149; nothing if the read was handed to another node. -/
def ReadAt.mapped : ReadAt → Option Result
  | .asked _ => none
  | .refused => some .notFound
  | .here o => some (if o.rc = .ok then o.r.getD .none_ else .notFound)

/-- `r_map` at a key: the last one counts. -/
def mappedFor (rs : List (Bytes × ReadAt)) (k : Bytes) : Option Result :=
  (rs.filterMap fun x => if x.1 = k then x.2.mapped else none).getLast?

/-- Whether a key counts as a hit, op_get.cc:152-178. -/
def countsHit (rs : List (Bytes × ReadAt)) (x : Bytes × ReadAt) : Bool :=
  match askedFor rs x.1 with
  | some g => g.avail
  | none =>
    match mappedFor rs x.1 with
    | none => false
    | some .notFound => false
    | some _ => (ownSlot x.1 x.2).avail

/-- `op_get::_run_server`. -/
def tallyGet (rs : List (Bytes × ReadAt)) : Tally :=
  { cmdGet := rs.length
    getHits := (rs.filter (countsHit rs)).length
    getMisses := (rs.filter fun x => !countsHit rs x).length }

/-- `op_set::_run_server`, which `cas`, `touch`, `gat` and the others inherit: op_set.cc:114 and 149-175. -/
def tallySet (cmd : WriteCmd) : Done → Tally
  | .own o =>
    match o.rc, o.r with
    | .ok, some res =>
      let done := res = .stored ∨ res = .touched
      { cmdSet := 1
        totalItems := if res = .stored then 1 else 0
        casHits := if cmd = .cas ∧ done then 1 else 0
        touchHits := if cmd = .touch ∧ done then 1 else 0
        casBadval := if cmd = .cas ∧ res = .exists_ then 1 else 0
        casMisses := if cmd = .cas ∧ res = .notFound then 1 else 0
        touchMisses := if cmd = .touch ∧ res = .notFound then 1 else 0 }
    | _, _ => { cmdSet := 1 }
  | _ => { cmdSet := 1 }

/-- `op_delete::_run_server`. -/
def tallyDelete : Done → Tally
  | .own o =>
    match o.rc, o.r with
    | .ok, some .deleted => { deleteHits := 1 }
    | .ok, some .notFound => { deleteMisses := 1 }
    | _, _ => {}
  | _ => {}

/-- `op_incr::_run_server`; `inc`: it is `incr`. -/
def tallyIncr (inc : Bool) : Done → Tally
  | .own o =>
    match o.rc, o.r with
    | .ok, some .stored => if inc then { incrHits := 1 } else { decrHits := 1 }
    | .ok, some .notFound => if inc then { incrMisses := 1 } else { decrMisses := 1 }
    | _, _ => {}
  | _ => {}

/-- What one request of a session adds to the counters. -/
def tallyOf : SReq → Did → Tally
  | .get _ _, .got rs => tallyGet rs
  | .write r, .wrote d =>
    match r.cmd.kind with
    | .store | .touch => tallySet r.cmd d
    | .delete => tallyDelete d
    | .count => tallyIncr (r.cmd = .incr) d
  | _, _ => {}

/-- What a session adds to the counters. -/
def tallyAll : List (SReq × Did) → Tally
  | [] => {}
  | (r, d) :: l => (tallyOf r d).add (tallyAll l)

/-! ### The binary protocol -/

/-- `op_set::_run_server` for a request of the binary protocol, op_set.cc:149-175: a version has made a store conditional,
whatever it is called. -/
def tallyHeld (op : HeldOp) (d : Done) : Tally :=
  match op.req.cmd.kind with
  | .store | .touch => tallySet (if op.cas then .cas else op.req.cmd) d
  | .delete => tallyDelete d
  | .count => tallyIncr (op.req.cmd = .incr) d

/-- What one request of a session of the binary protocol adds to the counters. -/
def bTallyOf : BReq → Did → Tally
  | .get _, .got rs => tallyGet rs
  | .write op, .wrote d => tallyHeld op d
  | _, _ => {}

/-- What a session of the binary protocol adds to the counters. -/
def bTallyAll : List (BReq × Did) → Tally
  | [] => {}
  | (r, d) :: l => (bTallyOf r d).add (bTallyAll l)

end Flare
