import Verif.Model.Archive
import Verif.Model.Cluster

/-! The index server's state (`Model/Cluster`) as the text that is stored: names for the keys, which the model of the
index server numbers, and numbers for the enums, /repo/src/lib/cluster.h:87-98. -/
namespace Flare

/-- How the keys are called: their text, the names and ports, and the key that a text stands for. -/
structure KeyNames where
  key : NodeKey → Bytes
  name : NodeKey → Bytes
  port : NodeKey → Int
  back : Bytes → NodeKey

/-- /repo/src/lib/cluster.h:87-91. -/
def arcRole : Role → Int
  | .master => 0
  | .slave => 1
  | .proxy => 2

/-- /repo/src/lib/cluster.h:93-98. -/
def arcNodeState : NState → Int
  | .active => 0
  | .prepare => 1
  | .down => 2
  | .ready => 3

/-- An `int` taken for a role. -/
def arcRoleBack (i : Int) : Role := if i = 0 then .master else if i = 1 then .slave else .proxy

def arcNodeStateBack (i : Int) : NState := if i = 0 then .active else if i = 1 then .prepare else if i = 2 then .down else .ready

def arcNodeOf (N : KeyNames) (k : NodeKey) (n : Node) : ArcNode :=
  ⟨N.name k, N.port k, arcRole n.role, arcNodeState n.state, n.partition, n.balance, n.threadType⟩

/-- What is stored, as it is in memory. -/
def arcOf (N : KeyNames) (t : Nat × NodeMap × Int) : ArcState :=
  ⟨t.1, t.2.1.map fun e => (N.key e.1, arcNodeOf N e.1 e.2), t.2.2⟩

def arcBack (N : KeyNames) (a : ArcState) : Nat × NodeMap × Int :=
  (a.version, a.nodes.map fun e =>
    (N.back e.1, ⟨arcRoleBack e.2.role, arcNodeStateBack e.2.state, e.2.partition, e.2.balance, e.2.threadType⟩), a.threadType)

/-- `startup_index` of a new process with the text `x`, /repo/src/lib/cluster.cc:196-245: `none` when it fails. -/
def startupText (N : KeyNames) (x : Bytes) : Option Index :=
  if x = [] then startup none
  else match arcLoad x ⟨0, [], 16⟩ with
    | (a, true) => startup (some (arcBack N a))
    | (_, false) => none

end Flare
