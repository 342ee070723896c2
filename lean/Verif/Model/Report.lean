import Verif.Model.IndexSession
import Verif.Model.Binary

/-! Model of what `stats nodes` and `stats threads` show, in both protocols: /repo/src/lib/op_stats.cc:179-251 and 260-298,
/repo/src/flared/op_stats_node.cc:67-97, /repo/src/flarei/op_stats_index.cc:64-97, and of the lists of threads they are made
from, `thread_pool::get_thread_info` (/repo/src/lib/thread_pool.cc:233-261) and `get_thread_size` (:267-275).

Simplifications.
* A request is answered from one list of nodes and one list of threads; the two pools are read one after the other.
* Writing to the connection succeeds (a failure closes it, Model/Connection); the buffered packets of the binary answer are
  sent with the last one (/repo/src/lib/connection_tcp.cc:471-483).
* The numbers of `stats` without parameter are C84. -/
namespace Flare

/-- What is known about a node: `cluster::node`, /repo/src/lib/cluster.h:112-119. -/
structure NodeInfo where
  name : Bytes
  port : Int32
  role : Role
  state : NState
  partition : Int32
  balance : Int32
  threadType : Int32
  deriving DecidableEq, Repr

/-- `thread::thread_info`, /repo/src/lib/thread.h:60-72. -/
structure ThreadInfo where
  id : UInt32
  type : Int32
  peer : Bytes
  port : Int32
  op : Bytes
  since : Int64
  state : Bytes
  info : Bytes
  queue : UInt32
  behind : Int32
  deriving DecidableEq, Repr

/-- `op_stats::_send_stats_nodes` for one node, op_stats.cc:234-251: names (a buffer of 8192 bytes) and values. -/
def nodeStats (n : NodeInfo) : List (Bytes × Bytes) :=
  let k := toNodeKey n.name n.port
  [(snprintfBuf (k ++ ascii ":role"), n.role.name), (snprintfBuf (k ++ ascii ":state"), n.state.name),
    (snprintfBuf (k ++ ascii ":partition"), printInt n.partition), (snprintfBuf (k ++ ascii ":balance"), printInt n.balance),
    (snprintfBuf (k ++ ascii ":thread_type"), printInt n.threadType)]

/-- `op_stats::_send_stats` for one thread, op_stats.cc:179-199; `now` is `get_timestamp()`. -/
def threadStats (now : Int64) (t : ThreadInfo) : List (Bytes × Bytes) :=
  let k := decimal t.id.toNat
  [(snprintfBuf (k ++ ascii ":type"), printInt t.type),
    (snprintfBuf (k ++ ascii ":peer"), snprintfBuf (cstr t.peer ++ [chColon] ++ printInt t.port)),
    (snprintfBuf (k ++ ascii ":op"), t.op), (snprintfBuf (k ++ ascii ":uptime"), decimalInt (now - t.since).toInt),
    (snprintfBuf (k ++ ascii ":state"), t.state), (snprintfBuf (k ++ ascii ":info"), t.info),
    (snprintfBuf (k ++ ascii ":queue"), decimal t.queue.toNat), (snprintfBuf (k ++ ascii ":behind"), printInt t.behind)]

/-- `_send_text_stat` for each pair, and `_send_text_result(result_end)`, op_stats.cc:260-264 and 277-287. -/
def statsText (l : List (Bytes × Bytes)) : Bytes :=
  (l.map fun x => ascii "STAT " ++ cstr x.1 ++ chSpace :: x.2 ++ crlf).flatten ++ (ascii "END" ++ crlf)

/-- `_send_binary_stat`, op_stats.cc:266-275.  `opcode_stat` is 0x10. -/
def binStat (x : Bytes × Bytes) : Except Fault Bytes :=
  let body := cstr x.1 ++ x.2
  sendBin (hset (hset (hnew 0x81 0x10) .keyLength (cstr x.1).length) .totalBodyLength body.length) body

/-- All of them, and the packet without key and value, op_stats.cc:289-298. -/
def statsBin : List (Bytes × Bytes) → Except Fault Bytes
  | [] => sendBin (hnew 0x81 0x10) []
  | x :: l =>
    match binStat x with
    | .error f => .error f
    | .ok a =>
      match statsBin l with
      | .error f => .error f
      | .ok b => .ok (a ++ b)

/-! ### The threads -/

/-- `_global_map`: the threads of each type, in the order of the types.  What counts here is which types have an entry. -/
abbrev TypeMap := List (Int32 × List ThreadInfo)

/-- `_global_map[type]`: an entry is made if there is none. -/
def TypeMap.at (m : TypeMap) (ty : Int32) : List ThreadInfo × TypeMap :=
  match m.find? (·.1 = ty) with
  | some x => (x.2, m)
  | none => ([], m ++ [(ty, [])])

/-- `get_thread_info()`. -/
def TypeMap.all (m : TypeMap) : List ThreadInfo := m.flatMap (·.2)

/-- Where a thread is that asks for the threads of a type: `pthread_rwlock_rdlock` is next, `_global_map[type]` is next (the
lock is held), the lock has been given back. -/
inductive AskAt where
  | before | inside | done
  deriving DecidableEq, Repr

/-- Requests that ask for the threads of a type, `get_thread_info(type)` and `get_thread_size(type)`, at the same time. -/
structure Asking where
  map : TypeMap
  /-- the requests: the type each asks for and where it is -/
  asks : List (Int32 × AskAt)
  /-- the map was changed while another thread was allowed to read it: undefined behaviour -/
  race : Bool := false

/-- The next step of request `i`.  A lock that is held for reading is given to further readers. -/
def Asking.step (s : Asking) (i : Nat) : Asking :=
  match s.asks[i]? with
  | some (ty, .before) => { s with asks := s.asks.set i (ty, .inside) }
  | some (ty, .inside) =>
    { map := (s.map.at ty).2
      asks := s.asks.set i (ty, .done)
      race := s.race || ((s.map.at ty).2.length != s.map.length && (s.asks.set i (ty, .done)).any (fun a => a.2 = .inside)) }
  | _ => s

def Asking.run (s : Asking) (is : List Nat) : Asking := is.foldl Asking.step s

end Flare
