import Verif.Model.Dump

/-!
Model of where the index server keeps its state: the option index-db, the choice of a coordinator
(/repo/src/lib/coordinator_factory.cc) and the two readings of the URI
(/repo/src/lib/coordinator.h, /repo/src/lib/zookeeper_coordinator.h).

Simplifications:
* The regular expressions are written as functions.  Each of them has at most one way to match: a scheme ends at the
  first colon, an authority at the first slash, a path at the first question mark.
* A dot matches every character, line ends too, as is usual with boost.
* Query and fragment are not kept, nobody asks for them.
* The program is compiled with ZooKeeper, whose server takes the node of the index server
  (`setup`, /repo/src/lib/zookeeper_coordinator.cc:252-294). -/
namespace Flare

/-- `[user@]host[:port]`, /repo/src/lib/coordinator.h:71 and /repo/src/lib/zookeeper_coordinator.h:85: the user, the
host and the digits of the port. -/
def authParts (a : Bytes) : Option (Bytes × Bytes × Bytes) :=
  let user := if 64 ∈ a then a.takeWhile (· ≠ 64) else []
  let rest := if 64 ∈ a then (a.dropWhile (· ≠ 64)).drop 1 else a
  let host := rest.takeWhile (· ≠ 58)
  if 58 ∈ user ∨ 64 ∈ host then none
  else match rest.dropWhile (· ≠ 58) with
    | [] => some (user, host, [])
    | _ :: d => if d ≠ [] ∧ d.all isDigit then some (user, host, d) else none

/-- What both URI patterns have in common: scheme, the text of the authorities, and the path,
/repo/src/lib/coordinator.h:70-72 and /repo/src/lib/zookeeper_coordinator.h:86-90. -/
def uriParts (s : Bytes) : Option (Bytes × Bytes × Bytes) :=
  let scheme := s.takeWhile (· ≠ 58)
  match scheme, s.dropWhile (· ≠ 58) with
  | _ :: _, 58 :: 47 :: 47 :: body =>
    match body.dropWhile (· ≠ 47) with
    | [] => none
    | p => some (scheme, body.takeWhile (· ≠ 47), p.takeWhile (· ≠ 63))
  | _, _ => none

/-- `uri::path`, /repo/src/lib/coordinator.h:69-89: empty if the pattern does not match. -/
def uriPath (s : Bytes) : Bytes :=
  match uriParts s with
  | none => []
  | some (_, a, p) => if (authParts a).isSome then p else []

/-- `lexical_cast<int>` of the digits of a port; what cannot be cast is 0,
/repo/src/lib/zookeeper_coordinator.h:108-111. -/
def portOf (d : Bytes) : Nat := if d = [] ∨ 2147483647 < decValue d then 0 else decValue d

/-- The parts between commas. -/
def commaParts : Bytes → List Bytes
  | [] => [[]]
  | c :: l => if c = 44 then [] :: commaParts l else
    match commaParts l with
    | [] => [[c]]
    | p :: ps => (c :: p) :: ps

/-- One element of `authorities`: host and port, /repo/src/lib/zookeeper_coordinator.h:102-113. -/
def zkHost (a : Bytes) : Bytes × Nat :=
  match authParts a with
  | none => ([], 0)
  | some (_, h, d) => (h, portOf d)

/-- `ext_uri`, /repo/src/lib/zookeeper_coordinator.h:83-118: the hosts, at most five, and the path. -/
def zkUri (s : Bytes) : List (Bytes × Nat) × Bytes :=
  match uriParts s with
  | none => ([([], 0)], [])
  | some (_, a, p) =>
    if (commaParts a).length ≤ 5 then ((commaParts a).map zkHost, p) else ([([], 0)], [])

/-- `connstring_oss`, /repo/src/lib/zookeeper_coordinator.cc:69-79. -/
def zkHosts : List (Bytes × Nat) → Bytes
  | [] => []
  | [h] => h.1 ++ 58 :: decimal h.2
  | h :: l => h.1 ++ 58 :: decimal h.2 ++ 44 :: zkHosts l

/-- `_connstring`, /repo/src/lib/zookeeper_coordinator.cc:69-81. -/
def zkConn (s : Bytes) : Bytes := zkHosts (zkUri s).1 ++ (zkUri s).2

/-- The scheme in `create_coordinator`, /repo/src/lib/coordinator_factory.cc:80-85. -/
def factoryScheme (s : Bytes) : Bytes :=
  match s.dropWhile (· ≠ 58) with
  | 58 :: 47 :: 47 :: _ :: _ => s.takeWhile (· ≠ 58)
  | _ => []

/-- Where the state is kept. -/
inductive Keeper where
  /-- in this file, /repo/src/lib/file_coordinator.cc:79 and :114 -/
  | file (path : Bytes)
  /-- with the servers of this connection string -/
  | zookeeper (conn : Bytes)
  /-- the index server does not start -/
  | refused
  deriving DecidableEq, Repr

/-- `coordinator_factory::create_coordinator`, /repo/src/lib/coordinator_factory.cc:79-108. -/
def createKeeper (s : Bytes) : Keeper :=
  if factoryScheme s = ascii "file" then .file (uriPath s ++ ascii "/flare.xml")
  else if factoryScheme s = ascii "zookeeper" then .zookeeper (zkConn s)
  else .refused

/-- The options index-db and data-dir, /repo/src/flarei/flarei.cc:176-186. -/
def startKeeper (db dir : Bytes) : Keeper :=
  createKeeper (if db = [] then ascii "file://" ++ dir else db)

end Flare
