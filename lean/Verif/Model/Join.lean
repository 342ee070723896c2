import Verif.Model.IndexSession
import Verif.Model.NodeView

/-!
How a node joins: what `startup_node` sends to the index server and makes of the answers.

Simplifications.
* Both requests go over one connection, and the index server takes them one after the other; the node sends the
  second one after it has read the answer to the first.
* The numbers of the key table are kept as they are (what is built from them: Model/KeyResolver).
* Which of several index servers is asked (`_open_index`, /repo/src/lib/cluster.cc:2266-2301) is left out.
-/
namespace Flare

/-- `op_node_add::_run_client`, /repo/src/lib/op_node_add.cc:141-146. -/
def addRequest (name : Bytes) (port : Int32) : Bytes :=
  snprintfBuf (ascii "node add " ++ cstr name ++ [chSpace] ++ printInt port) ++ crlf

/-- `op_meta::_run_client`, /repo/src/lib/op_meta.cc:131-135. -/
def metaRequest : Bytes := ascii "meta" ++ crlf

/-- `static_cast<role>`, /repo/src/lib/cluster.cc:154: `none` for a number that is no role. -/
def Role.ofNumber (i : Int32) : Option Role :=
  if i = 0 then some .master else if i = 1 then some .slave else if i = 2 then some .proxy else none

/-- `static_cast<state>`, /repo/src/lib/cluster.cc:162. -/
def NState.ofNumber (i : Int32) : Option NState :=
  if i = 0 then some .active else if i = 1 then some .prepare else if i = 2 then some .down
  else if i = 3 then some .ready else none

/-- An entry of the node map as it is made of a line, /repo/src/lib/cluster.cc:1118 and :1148. -/
def nodeOf (key : Bytes → Int32 → NodeKey) (l : NodeLine) : Option (NodeKey × Node) :=
  match Role.ofNumber l.role, NState.ofNumber l.state with
  | some r, some s => some (key l.name l.port, ⟨r, s, l.partition.toInt, l.balance.toInt, l.threadType.toInt⟩)
  | _, _ => none

/-- How joining ends: not at all (`flared` gives up), undefined, or with a node map, a hash function, a key
table and threads started. -/
inductive Joined where
  | failed
  | ub
  | up (v : View) (hash : HashAlgorithm) (kr : Resolver) (jobs : List Job)
  deriving DecidableEq, Repr

/-- The entries of a list of lines: undefined if one has a number that is no role or state. -/
def entriesOf (key : Bytes → Int32 → NodeKey) : List NodeLine → Option (List (NodeKey × Node))
  | [] => some []
  | l :: ls =>
    match nodeOf key l, entriesOf key ls with
    | some e, some es => some (e :: es)
    | _, _ => none

/-- `cluster::startup_node`, /repo/src/lib/cluster.cc:258-334, on all that the index server answers.  `q` and `q'`
are the buffers of `node::parse` and of `op_meta`; `reconstruct_node` is called without a version
(:322, /repo/src/lib/cluster.h:234). -/
def joinAnswers (near : NodeKey → Bool) (key : Bytes → Int32 → NodeKey) (me : NodeKey) (q q' a : Bytes) : Joined :=
  match readNodes q (a.length + 1) a with
  | .error .err => .failed
  | .error .ub => .ub
  | .ok (ns, a) =>
    match readMeta q' (a.length + 1) a MetaVars.init with
    | .error .err => .failed
    | .error .ub => .ub
    | .ok (x, _) =>
      match x.type with
      | none => .ub
      | some .modular =>
        match entriesOf key ns with
        | none => .ub
        | some es =>
          let r := receive near me .init ⟨es, 0⟩
          if r.2.1 < 0 then .failed
          else .up r.1 x.hash
            ⟨x.partitionSize.toInt.toNat, x.hint.toInt.toNat, x.virtual_.toInt.toNat⟩ r.2.2

/-! ### Near nodes -/

/-- The mask of a prefix length, /repo/src/lib/cluster.cc:262-263, in host byte order; zero if there is none.  `none`:
a shift by more than the width.  The option is not checked (/repo/src/flared/ini_option.cc:344-346). -/
def priorMask (n : Nat) : Option (BitVec 32) :=
  if n = 0 then some 0
  else if n ≤ 32 then some (BitVec.allOnes 32 <<< (32 - n)) else none

/-- `util::inet_addr`, /repo/src/lib/util.cc:153-164.  `dns` gives the address of a name, if it has one; otherwise the
result is `INADDR_NONE`, without the mask. -/
def inetAddr (dns : Bytes → Option (BitVec 32)) (mask : BitVec 32) (host : Bytes) : BitVec 32 :=
  match dns host with
  | none => BitVec.allOnes 32
  | some a => a &&& mask

/-- Whether a node is near, /repo/src/lib/cluster.cc:1887, 1928-1933 and 1987-1992. -/
def isNear (dns : Bytes → Option (BitVec 32)) (mask : BitVec 32) (own other : Bytes) : Bool :=
  mask ≠ 0 && inetAddr dns mask own = inetAddr dns mask other

end Flare
