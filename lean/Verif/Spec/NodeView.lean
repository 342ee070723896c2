import Verif.Model.NodeView
import Verif.Spec.Cluster

namespace Flare

/-- The node map with the given entries; of entries with the same key the last one counts. -/
def build (l : List (NodeKey × Node)) : NodeMap := l.foldl (fun m e => mset m e.1 e.2) []

/-- The messages an index server sends during a history, /repo/src/lib/cluster.cc:483, :606, :673, :764,
:851, :1049 with `queue_node_sync`: after every command that stored a map, that map and its version. -/
def sent : Index → List IAct → List NodeMsg
  | _, [] => []
  | s, .cmd env c :: as =>
    (if (ixStep env s c).1.saved = s.saved then []
     else [⟨(ixStep env s c).1.nodes, (ixStep env s c).1.version⟩]) ++ sent (ixAct s (.cmd env c)) as
  | s, .update env :: as => sent (ixAct s (.update env)) as
  | s, .restart :: as => sent (ixAct s .restart) as

end Flare
