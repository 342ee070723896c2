import Verif.Model.Rebuild

/-! Model of a partition with any number of nodes and clients: a write is executed by the node that takes
itself for the master, copies go to the slaves it knows, the client is answered, and the roles change.
`op_set::_run_server` (/repo/src/lib/op_set.cc:113-181; incr and delete alike), `post_proxy_write`
(/repo/src/lib/cluster.cc:1422-1495), and `queue_proxy_write::run`
(/repo/src/lib/queue_proxy_write.cc:75-128) at the sender.  A node that is prepared gets the records of another one by a dump
(/repo/src/lib/handler_reconstruction.cc:66-108, /repo/src/lib/cluster.cc:1528-1582); what it held before stays where it is
(cluster.cc:1541).

Simplifications.
* A write and the `post_proxy_write` that follows it are one step at the node; copies of writes done at the
  same time are sent by several threads and may arrive in any order (C33), so nothing is gained by telling
  them apart.
* A node executes a copy it gets (C29, C30: it does so unless it does not know the sender's map yet).
* That a client is answered too early because of a wake-up meant for somebody else is C43, and is left
  out.
* Requests that a node forwards to the master are C58, C62 and C63.
* Which keys a dump visits is up to the caller, as in `Verif.Model.Rebuild`. -/
namespace Flare

/-- `_is_sync`, /repo/src/lib/op_proxy_write.h:62-71; `rep` is whether the cluster replicates
synchronously. -/
def isSync (option : UInt32) (rep : Bool) : Bool :=
  if option &&& optSync ≠ 0 then true else if option &&& optAsync ≠ 0 then false else rep

/-- A copy on its way: the number of the write, the node it goes to. -/
structure Flight where
  id : Nat
  dest : Nat
  copy : WriteReq
  deriving DecidableEq, Repr

structure Group where
  store : Nat → Store
  /-- The slaves a node sends copies to; `none`: it does not take itself for the master. -/
  slaves : Nat → Option (List Nat)
  next : Nat := 0
  flying : List Flight := []
  /-- Writes that are executed but not answered yet. -/
  open_ : List (Nat × WriteReq × Out) := []
  /-- Writes that have been answered. -/
  acked : List (WriteReq × Out) := []
  /-- Records of dumps on their way, and the node they go to. -/
  dumps : List (Nat × Entry) := []

inductive GEv where
  /-- Node `i` executes a client's write; `refused` are the slaves whose queue does not take the copy,
  /repo/src/lib/cluster.cc:1467-1474. -/
  | write (i : Nat) (env : Env) (path : List Bytes) (r : WriteReq) (refused : List Nat)
  /-- The copy number `f` on the way is executed and the sender gets its answer. -/
  | arrive (f : Nat) (env : Env)
  /-- It is executed, but the sender gets no answer and will try again. -/
  | again (f : Nat) (env : Env)
  /-- The sender has tried often enough, is told to stop, or skips a node that is down or a proxy. -/
  | lose (f : Nat)
  /-- The client is answered, /repo/src/lib/op_set.cc:176-180, unless it wants no answer. -/
  | answer (a : Nat)
  /-- A client reads at node `i`. -/
  | read (i : Nat) (env : Env) (e : Entry)
  /-- Node `i` gets a new node map. -/
  | role (i : Nat) (l : Option (List Nat))
  /-- Node `i`, which serves a dump for node `j`, comes to key `k`. -/
  | dump (i j : Nat) (env : Env) (k : Bytes)
  /-- Record number `d` of the dumps on the way is stored. -/
  | put (d : Nat) (env : Env)
  /-- It gets lost with its connection. -/
  | drop (d : Nat)
  deriving Repr

def Group.setStore (g : Group) (i : Nat) (s : Store) : Group :=
  { g with store := fun j => if j = i then s else g.store j }

/-- One step; `rep` as in `isSync`. -/
def gStep (rep : Bool) (g : Group) : GEv → Group
  | .write i env path r refused =>
    match g.slaves i with
    | none => g
    | some l =>
      let (m, c) := atMaster (g.store i) env path r
      let o := (step (g.store i) env r.call).2
      { g.setStore i m with
        next := g.next + 1
        flying := g.flying ++ c.toList.flatMap fun c =>
          (l.filter fun j => !refused.contains j).map fun j => ⟨g.next, j, c⟩
        open_ := g.open_ ++ [(g.next, r, o)] }
  | .arrive f env =>
    match g.flying[f]? with
    | none => g
    | some x =>
      { g.setStore x.dest (atSlave (g.store x.dest) env x.copy) with flying := g.flying.eraseIdx f }
  | .again f env =>
    match g.flying[f]? with
    | none => g
    | some x => g.setStore x.dest (atSlave (g.store x.dest) env x.copy)
  | .lose f => { g with flying := g.flying.eraseIdx f }
  | .answer a =>
    match g.open_[a]? with
    | none => g
    | some (id, r, o) =>
      if isSync r.entry.option rep && g.flying.any (fun x => x.id == id) then g
      else
        { g with
          open_ := g.open_.eraseIdx a
          acked := if r.entry.option &&& optNoreply ≠ 0 then g.acked else g.acked ++ [(r, o)] }
  | .read i env e => g.setStore i (get (g.store i) env e {}).1
  | .role i l => { g with slaves := fun j => if j = i then l else g.slaves j }
  | .dump i j env k =>
    let (s, x) := (MEvent.dump env k).apply (g.store i)
    { g.setStore i s with
      dumps := g.dumps ++ match x with
        | some (.dump e) => [(j, e)]
        | _ => [] }
  | .put d env =>
    match g.dumps[d]? with
    | none => g
    | some (j, e) =>
      { g.setStore j ((Arrival.dump e).apply (g.store j) env) with dumps := g.dumps.eraseIdx d }
  | .drop d => { g with dumps := g.dumps.eraseIdx d }

def gRun (rep : Bool) (g : Group) (evs : List GEv) : Group := evs.foldl (gStep rep) g

end Flare
