import Verif.Model.Dump
import Verif.Model.Cluster

/-! Model of the conversions between names and numbers, and of answer lines.

Simplification: a `switch` that falls through to `return ""` for numbers outside an enumeration is
not modelled, because such a value cannot be formed here. -/
namespace Flare

/-- `storage::option_cast(option)`, /repo/src/lib/storage.h:250-262.  Combined options have no
name of their own. -/
def optionName (o : UInt32) : Bytes :=
  if o = optNoreply then ascii "noreply"
  else if o = optSync then ascii "sync"
  else if o = optAsync then ascii "async"
  else []

/-- `storage::result_cast(string, result&)`, /repo/src/lib/storage.h:264-285. -/
def resultCast (s : Bytes) : Option Result :=
  if s = ascii "" then some .none_
  else if s = ascii "STORED" then some .stored
  else if s = ascii "NOT_STORED" then some .notStored
  else if s = ascii "EXISTS" then some .exists_
  else if s = ascii "NOT_FOUND" then some .notFound
  else if s = ascii "DELETED" then some .deleted
  else if s = ascii "FOUND" then some .found
  else if s = ascii "TOUCHED" then some .touched
  else none

/-- `storage::result_cast(result)`, /repo/src/lib/storage.h:287-307. -/
def Result.name : Result → Bytes
  | .none_ => ascii ""
  | .stored => ascii "STORED"
  | .notStored => ascii "NOT_STORED"
  | .exists_ => ascii "EXISTS"
  | .notFound => ascii "NOT_FOUND"
  | .deleted => ascii "DELETED"
  | .found => ascii "FOUND"
  | .touched => ascii "TOUCHED"

/-- The numbers of `storage::result`, /repo/src/lib/storage.h:74-83. -/
def Result.number : Result → Int
  | .none_ => 0
  | .stored => 16
  | .notStored => 17
  | .exists_ => 18
  | .notFound => 19
  | .deleted => 20
  | .found => 21
  | .touched => 22

/-- `storage::type`, /repo/src/lib/storage.h:85-89. -/
inductive StorageType where
  | tch | tcb | kch
  deriving DecidableEq, Repr

/-- `storage::type_cast(string, type&)`, /repo/src/lib/storage.h:309-320. -/
def storageTypeCast (s : Bytes) : Option StorageType :=
  if s = ascii "tch" then some .tch
  else if s = ascii "tcb" then some .tcb
  else if s = ascii "kch" then some .kch
  else none

/-- `storage::type_cast(type)`, /repo/src/lib/storage.h:322-332. -/
def StorageType.name : StorageType → Bytes
  | .tch => ascii "tch"
  | .tcb => ascii "tcb"
  | .kch => ascii "kch"

/-- `storage::compress`, /repo/src/lib/storage.h:96-101. -/
inductive Compress where
  | none_ | deflate | bz2 | tcbs
  deriving DecidableEq, Repr

/-- `storage::compress_cast(string, compress&)`, /repo/src/lib/storage.h:334-347. -/
def compressCast (s : Bytes) : Option Compress :=
  if s = ascii "" then some .none_
  else if s = ascii "deflate" then some .deflate
  else if s = ascii "bz2" then some .bz2
  else if s = ascii "tcbs" then some .tcbs
  else none

/-- `storage::compress_cast(compress)`, /repo/src/lib/storage.h:349-361. -/
def Compress.name : Compress → Bytes
  | .none_ => ascii ""
  | .deflate => ascii "deflate"
  | .bz2 => ascii "bz2"
  | .tcbs => ascii "tcbs"

/-- `storage::hash_algorithm_cast(const string&, hash_algorithm&)`,
/repo/src/lib/storage.h:363-380. -/
def hashAlgorithmCast (s : Bytes) : Option HashAlgorithm :=
  if s = ascii "simple" then some .simple
  else if s = ascii "bitshift" then some .bitshift
  else if s = ascii "crc32" then some .crc32
  else if s = ascii "adler32" then some .adler32
  else if s = ascii "murmur" then some .murmur
  else if s = ascii "jenkins" then some .jenkins
  else none

/-- `storage::hash_algorithm_cast(hash_algorithm)`, /repo/src/lib/storage.h:382-398. -/
def HashAlgorithm.name : HashAlgorithm → Bytes
  | .simple => ascii "simple"
  | .bitshift => ascii "bitshift"
  | .crc32 => ascii "crc32"
  | .adler32 => ascii "adler32"
  | .murmur => ascii "murmur"
  | .jenkins => ascii "jenkins"

/-- `cluster::replication`, /repo/src/lib/cluster.h:82-85. -/
inductive ReplType where
  | async | sync
  deriving DecidableEq, Repr

/-- `cluster::replication_cast(string, replication&)`, /repo/src/lib/cluster.h:317-326. -/
def replTypeCast (s : Bytes) : Option ReplType :=
  if s = ascii "async" then some .async
  else if s = ascii "sync" then some .sync
  else none

/-- `cluster::replication_cast(replication)`, /repo/src/lib/cluster.h:328-336. -/
def ReplType.name : ReplType → Bytes
  | .async => ascii "async"
  | .sync => ascii "sync"

/-- `cluster::role_cast(string, role&)`, /repo/src/lib/cluster.h:338-349. -/
def roleCast (s : Bytes) : Option Role :=
  if s = ascii "master" then some .master
  else if s = ascii "slave" then some .slave
  else if s = ascii "proxy" then some .proxy
  else none

/-- `cluster::role_cast(role)`, /repo/src/lib/cluster.h:351-361. -/
def Role.name : Role → Bytes
  | .master => ascii "master"
  | .slave => ascii "slave"
  | .proxy => ascii "proxy"

/-- `cluster::state_cast(string, state&)`, /repo/src/lib/cluster.h:363-376. -/
def stateCast (s : Bytes) : Option NState :=
  if s = ascii "active" then some .active
  else if s = ascii "prepare" then some .prepare
  else if s = ascii "down" then some .down
  else if s = ascii "ready" then some .ready
  else none

/-- `cluster::state_cast(state)`, /repo/src/lib/cluster.h:378-390. -/
def NState.name : NState → Bytes
  | .active => ascii "active"
  | .prepare => ascii "prepare"
  | .down => ascii "down"
  | .ready => ascii "ready"

/-- `key_resolver::type`, /repo/src/lib/key_resolver.h:43-45. -/
inductive ResolverType where
  | modular
  deriving DecidableEq, Repr

/-- `key_resolver::type_cast(string, type&)`, /repo/src/lib/key_resolver.h:57-64. -/
def resolverTypeCast (s : Bytes) : Option ResolverType :=
  if s = ascii "modular" then some .modular else none

/-- `key_resolver::type_cast(type)`, /repo/src/lib/key_resolver.h:66-72. -/
def ResolverType.name : ResolverType → Bytes
  | .modular => ascii "modular"

/-- `cluster_replication::mode`, /repo/src/lib/cluster_replication.h:50-53. -/
inductive ReplMode where
  | duplicate | forward
  deriving DecidableEq, Repr

/-- `cluster_replication::mode_cast(string, mode&)`,
/repo/src/lib/cluster_replication.h:82-91. -/
def replModeCast (s : Bytes) : Option ReplMode :=
  if s = ascii "duplicate" then some .duplicate
  else if s = ascii "forward" then some .forward
  else none

/-- `cluster_replication::mode_cast(mode)`, /repo/src/lib/cluster_replication.h:93-101. -/
def ReplMode.name : ReplMode → Bytes
  | .duplicate => ascii "duplicate"
  | .forward => ascii "forward"

/-- `op::result`, /repo/src/lib/op.h:52-70. -/
inductive OpResult where
  | error | clientError | serverError | none_ | ok | end_ | stored | notStored | exists_ | notFound
  | deleted | found | touched
  deriving DecidableEq, Repr

/-- `op::result_cast(string, result&)`, /repo/src/lib/op.h:108-139. -/
def opResultCast (s : Bytes) : Option OpResult :=
  if s = ascii "" then some .none_
  else if s = ascii "OK" then some .ok
  else if s = ascii "END" then some .end_
  else if s = ascii "STORED" then some .stored
  else if s = ascii "NOT_STORED" then some .notStored
  else if s = ascii "EXISTS" then some .exists_
  else if s = ascii "NOT_FOUND" then some .notFound
  else if s = ascii "DELETED" then some .deleted
  else if s = ascii "FOUND" then some .found
  else if s = ascii "TOUCHED" then some .touched
  else if s = ascii "ERROR" then some .error
  else if s = ascii "CLIENT_ERROR" then some .clientError
  else if s = ascii "SERVER_ERROR" then some .serverError
  else none

/-- `op::result_cast(result)`, /repo/src/lib/op.h:141-171. -/
def OpResult.name : OpResult → Bytes
  | .none_ => ascii ""
  | .ok => ascii "OK"
  | .end_ => ascii "END"
  | .stored => ascii "STORED"
  | .notStored => ascii "NOT_STORED"
  | .exists_ => ascii "EXISTS"
  | .notFound => ascii "NOT_FOUND"
  | .deleted => ascii "DELETED"
  | .found => ascii "FOUND"
  | .touched => ascii "TOUCHED"
  | .error => ascii "ERROR"
  | .clientError => ascii "CLIENT_ERROR"
  | .serverError => ascii "SERVER_ERROR"

/-- The numbers of `op::result`, /repo/src/lib/op.h:52-70. -/
def OpResult.number : OpResult → Int
  | .error => -3
  | .clientError => -2
  | .serverError => -1
  | .none_ => 0
  | .ok => 1
  | .end_ => 2
  | .stored => 16
  | .notStored => 17
  | .exists_ => 18
  | .notFound => 19
  | .deleted => 20
  | .found => 21
  | .touched => 22

/-! ### Answer lines -/

/-- `op::_send_text_result`, /repo/src/lib/op.cc:181-190, with the message as a C string (empty
for NULL).  `writeline` adds the line delimiter. -/
def resultLine (r : OpResult) (message : Bytes) : Bytes :=
  (if cstr message ≠ [] then r.name ++ [chSpace] ++ cstr message else r.name) ++ crlf

/-- `op::_parse_text_response`, /repo/src/lib/op.cc:155-176, on a line that ends with a newline;
`q` is the buffer.  The message stays as it is (here: empty) if the line ends after the first
word without a newline. -/
def parseResponse (p q : Bytes) : Except Fault (OpResult × Bytes) :=
  match scanWord p q with
  | .error f => .error f
  | .ok (rest, q) =>
    match opResultCast (cstr q) with
    | none => .error .err
    | some r => .ok (r, (cstr (rest.drop (blanks rest))).dropLast)

/-- The peer reads a line and parses it, e.g. /repo/src/lib/op_delete.cc:176-185. -/
def readResponse (q s : Bytes) : Except Fault ((OpResult × Bytes) × Bytes) :=
  match readLine s with
  | none => .error .err
  | some (line, rest) =>
    match parseResponse line q with
    | .error f => .error f
    | .ok x => .ok (x, rest)

end Flare
