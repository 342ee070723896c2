import Verif.Model.Replication
import Verif.Model.Dump

/-! Model of the copies for a MySQL server (`--enable-mysql-replication`): the master of a partition is a MySQL
master for one MySQL slave, /repo/src/lib/mysql_replication.cc, /repo/src/flared/handler_mysql_replication.cc.

Simplifications.
* `localtime_r` and the format of the date are a function `clock` of the expiry
  (/repo/src/lib/mysql_replication.cc:221-223).
* Bytes are written as for a little-endian machine with `long` of 64 bits: `mysql_int4store` then writes eight bytes,
  of which the last four are written again by what follows (/repo/src/lib/mysql_replication.h:47).
* `snprintf(buf+len, sizeof(buf)-len, ...)` of the name of the database has a size of nearly 2^64
  (/repo/src/lib/mysql_replication.cc:369); it is taken to write everything, as the C library does.
* A write to the socket sends all or fails; `_read` gets all or nothing. -/
namespace Flare

/-- Options and the thread's number: `mysql-replication-id`, `-db`, `-table`. -/
structure SqlConf where
  id : UInt32
  db : Bytes
  table : Bytes
  thread : UInt32
  clock : Int64 → Bytes

/-- One byte of a value, /repo/src/lib/mysql_replication.cc:183-214. -/
def sqlEscapeByte (c : UInt8) : Bytes :=
  if c = 0 then [92, 48]
  else if c = 10 then [92, 110]
  else if c = 13 then [92, 114]
  else if c = 92 then [92, 92]
  else if c = 39 then [92, 39]
  else if c = 34 then [92, 34]
  else if c = 26 then [92, 90]
  else [c]

def sqlEscape (d : Bytes) : Bytes := d.flatMap sqlEscapeByte

/-- The text of the statement, /repo/src/lib/mysql_replication.cc:170-228.  The key is printed with `%s`. -/
def sqlText (cf : SqlConf) (delete : Bool) (e : Entry) : Bytes :=
  if delete then ascii "DELETE FROM `" ++ cstr cf.table ++ ascii "` WHERE k='" ++ cstr e.key ++ ascii "'"
  else ascii "REPLACE INTO `" ++ cstr cf.table ++ ascii "` VALUES ('" ++ cstr e.key ++ ascii "', '" ++
    sqlEscape (e.data.take e.size.toNat) ++ ascii "', " ++ decimal e.flag.toNat ++ ascii ", " ++
    decimal e.version.toNat ++ ascii ", " ++
    (if e.expire > 0 then ascii "'" ++ cf.clock e.expire ++ ascii "')" else ascii "0)")

/-- The statement in its buffer of BUFSIZ + key + 2 * size bytes.  `none`: more than the buffer, more than an
`int`, or a value shorter than its size. -/
def sqlQuery (cf : SqlConf) (delete : Bool) (e : Entry) : Option Bytes :=
  if e.data.length < e.size.toNat ∨ 8192 + e.key.length + 2 * e.size.toNat > intMax ∨
      8192 + e.key.length + 2 * e.size.toNat ≤ (sqlText cf delete e).length then none
  else some (sqlText cf delete e)

/-- The counters of a connection. -/
structure SqlLink where
  packet : UInt32 := 0
  offset : UInt32 := 0
  deriving DecidableEq, Repr

/-- `_send_query_log_event` without the write, /repo/src/lib/mysql_replication.cc:315-374: the event and the new
position.  `none`: the name of the database does not fit the buffer. -/
def queryEvent (cf : SqlConf) (now : Int64) (offset : UInt32) (query : Bytes) : Option (Bytes × UInt32) :=
  if 8192 < 34 + (cstr cf.db).length then none
  else
    let len := 19 + 13 + cf.db.length + 1 + query.length
    let next := offset + UInt32.ofNat len
    some ([0] ++ leBytes 4 now.toUInt64.toNat ++ [2] ++ leBytes 4 cf.id.toNat ++ leBytes 4 len ++
      leBytes 4 next.toNat ++ leBytes 2 0 ++ leBytes 4 cf.thread.toNat ++ leBytes 4 0 ++
      [UInt8.ofNat cf.db.length] ++ leBytes 2 0 ++ leBytes 2 0 ++ cstr cf.db ++ [0] ++ query, next)

/-- `MYSQL_MAX_PACKET_LENGTH`, /repo/src/lib/mysql_replication.h:77. -/
def maxPacket : Nat := 16777215

/-- The loop of `_write`, /repo/src/lib/mysql_replication.cc:529-556: the bytes and the next packet number.  `m` is
the largest packet; the first argument bounds the turns. -/
def cutPackets (m : Nat) : Nat → UInt32 → Bytes → Bytes × UInt32
  | 0, id, _ => ([], id)
  | n + 1, id, b =>
    if b.length = 0 then ([], id)
    else
      let k := if b.length > m then m else b.length
      let r := cutPackets m n (id + 1) (b.drop k)
      (leBytes 3 k ++ [id.toUInt8] ++ b.take k ++ r.1, r.2)

/-- `_write` of a message. -/
def sqlWrite (l : SqlLink) (b : Bytes) : Bytes × SqlLink :=
  let r := cutPackets maxPacket b.length l.packet b
  (r.1, { l with packet := r.2 })

/-- `send`, /repo/src/lib/mysql_replication.cc:158-237, for a copy with its `op_ident`: the bytes and the counters.
`none`: undefined, or the sizes are beyond the model. -/
def sqlSend (cf : SqlConf) (now : Int64) (l : SqlLink) (delete : Bool) (e : Entry) : Option (Bytes × SqlLink) :=
  match sqlQuery cf delete e with
  | none => none
  | some q =>
    match queryEvent cf now l.offset q with
    | none => none
    | some (b, next) => some (sqlWrite { l with offset := next } b)

/-! ### What the slave says -/

/-- A `char` as an `int`. -/
def signedChar (c : UInt8) : Int32 := c.toInt8.toInt32

/-- `(header[2] << 16) | (header[1] << 8) | header[0]`, /repo/src/lib/mysql_replication.cc:566. -/
def signedLen (a b c : UInt8) : Int32 := ((signedChar c) <<< 16) ||| ((signedChar b) <<< 8) ||| signedChar a

/-- What `_read` gets. -/
inductive SqlRead where
  | packet (b : Bytes) (next : UInt32) (rest : Bytes)
  | failed
  deriving DecidableEq, Repr

/-- `_read`, /repo/src/lib/mysql_replication.cc:558-583, with `readsize`
(/repo/src/lib/connection_tcp.cc:421-465), which returns 0 for a negative length. -/
def sqlRead (packet : UInt32) : Bytes → SqlRead
  | a :: b :: c :: i :: s =>
    let len := signedLen a b c
    let packet := if signedChar i ≠ packet.toUInt8.toUInt32.toInt32 then (signedChar i).toUInt32 else packet
    if len < 0 then .failed
    else if s.length < len.toInt.toNat then .failed
    else .packet (s.take len.toInt.toNat) (packet + 1) (s.drop len.toInt.toNat)
  | _ => .failed

def lowerByte (c : UInt8) : UInt8 := if 65 ≤ c ∧ c ≤ 90 then c + 32 else c

/-- `strncasecmp(p, literal, length of p) == 0`. -/
def caseMatch : Bytes → Bytes → Bool
  | [], _ => true
  | x :: _, [] => x = 0
  | x :: a, y :: b => lowerByte x = lowerByte y && caseMatch a b

/-- `strncasecmp(p, "SET NAMES", 9) == 0` where `p` may be shorter; `none`: it reads behind the packet. -/
def setNames : Bytes → Bytes → Option Bool
  | _, [] => some true
  | [], _ => none
  | x :: a, y :: b => if lowerByte x = lowerByte y then setNames a b else some false

/-- `_make_field_packet`, /repo/src/lib/mysql_replication.cc:396-431. -/
def sqlField (name : Bytes) (type : UInt8) : Bytes :=
  [3] ++ ascii "def" ++ [0, 0, 0, UInt8.ofNat name.length] ++ name ++ [0, 12] ++ leBytes 2 63 ++ leBytes 4 11 ++
    [type, 0, 0, 0, 0, 0]

/-- `_send_row_1`, `_send_row_2`. -/
def sqlCell (b : Bytes) : Bytes := UInt8.ofNat b.length :: b

/-- `_send_eof`, /repo/src/lib/mysql_replication.cc:448-464. -/
def sqlEof : Bytes := [0xfe, 0, 0, 0, 0]

/-- `_send_ok`, /repo/src/lib/mysql_replication.cc:292-313. -/
def sqlOk : Bytes := [0, 0, 0, 2, 0, 0, 0]

/-- The answers to the queries that are known, /repo/src/lib/mysql_replication.cc:92-146, as messages; `none` is
undefined behaviour.  Other queries get no answer. -/
def sqlAnswer (now : Int64) (q : Bytes) : Option (List Bytes) :=
  if caseMatch q (ascii "SELECT UNIX_TIMESTAMP()") then
    some [[1], sqlField (ascii "UNIX_TIMESTAMP()") 7, sqlEof, sqlCell (decimalInt now.toInt), sqlEof]
  else if caseMatch q (ascii "select @@version_comment limit 1") then
    some [[1], sqlField (ascii "@@version_comment") 0xfe, sqlEof,
      sqlCell (ascii "served by replication dedicated thread"), sqlEof]
  else if caseMatch q (ascii "SHOW VARIABLES LIKE 'SERVER_ID'") then
    some [[2], sqlField (ascii "Variable_name") 0xfe ++ sqlField (ascii "Value") 3, sqlEof,
      sqlCell (ascii "server_id") ++ sqlCell (ascii "8"), sqlEof]
  else if caseMatch q (ascii "SHOW SLAVE HOSTS") then
    some [[5], sqlField (ascii "Server_id") 3 ++ sqlField (ascii "Host") 0xfe ++ sqlField (ascii "Port") 3 ++
      sqlField (ascii "Rpl_recovery_rank") 3 ++ sqlField (ascii "Master_id") 3, sqlEof, sqlEof]
  else match setNames q (ascii "SET NAMES") with
    | none => none
    | some true => some [sqlOk]
    | some false => some []

/-- Messages sent one after the other. -/
def sqlWriteAll (l : SqlLink) : List Bytes → Bytes × SqlLink
  | [] => ([], l)
  | b :: bs =>
    let r := sqlWrite l b
    let t := sqlWriteAll r.2 bs
    (r.1 ++ t.1, t.2)

/-- How `parse` ends. -/
inductive SqlEnd where
  /-- COM_BINLOG_DUMP: the events follow -/
  | dump (l : SqlLink) (rest : Bytes)
  /-- COM_QUIT -/
  | quit
  /-- `_read` has failed -/
  | failed
  | ub
  /-- for the bound of the model only -/
  | running
  deriving DecidableEq, Repr

/-- `parse`, /repo/src/lib/mysql_replication.cc:76-156: the bytes sent and the end.  A packet of length 0 leaves no
buffer, and `*p` is undefined. -/
def sqlParse (now : Int64) : Nat → SqlLink → Bytes → Bytes × SqlEnd
  | 0, _, _ => ([], .running)
  | n + 1, l, s =>
    match sqlRead l.packet s with
    | .failed => ([], .failed)
    | .packet [] _ _ => ([], .ub)
    | .packet (c :: q) packet rest =>
      if c = 1 then ([], .quit)
      else if c = 18 then ([], .dump { l with packet := packet } rest)
      else if c = 3 then
        match sqlAnswer now q with
        | none => ([], .ub)
        | some bs =>
          let a := sqlWriteAll { l with packet := packet } bs
          let t := sqlParse now n a.2 rest
          (a.1 ++ t.1, t.2)
      else sqlParse now n { l with packet := packet } rest

/-- `_send_handshake`, /repo/src/lib/mysql_replication.cc:245-290. -/
def sqlHello (cf : SqlConf) : Bytes :=
  [10] ++ ascii "5.0.23-flare-1.3.4" ++ [0] ++ leBytes 4 cf.thread.toNat ++ List.replicate 8 0 ++ [0, 0, 0, 63, 2, 0] ++
    List.replicate 26 0

/-- `handshake` and `parse`, /repo/src/lib/mysql_replication.cc:62-156: what the slave sends is not looked at
before its commands. -/
def sqlGreet (cf : SqlConf) (now : Int64) (s : Bytes) : Bytes × SqlEnd :=
  let a := sqlWrite {} (sqlHello cf)
  match sqlRead a.2.packet s with
  | .failed => (a.1, .failed)
  | .packet _ packet rest =>
    let b := sqlWrite { a.2 with packet := packet } sqlOk
    let t := sqlParse now (rest.length + 1) b.2 rest
    (a.1 ++ b.1 ++ t.1, t.2)

/-! ### The copies on their way -/

/-- A copy in the queue of the thread: the statement it will be, and whether a client waits for it (`sync_ref`). -/
structure SqlCopy where
  delete : Bool
  entry : Entry
  waits : Bool := false
  deriving DecidableEq, Repr

/-- The copy that `post_proxy_write` makes of a write at the master, /repo/src/lib/cluster.cc:1463-1464, and
`op_ident != "delete"` of `send`. -/
def sqlCopyOf (r : WriteReq) (o : Out) : Option SqlCopy :=
  if r.cmd.copies o.r then some { delete := r.cmd = .delete, entry := o.e } else none

/-- The thread: the flag `_mysql_replication` of the cluster, its queue, what has been sent on any connection, the
entries that have been dropped, and the clients that have been let go. -/
structure SqlFeed where
  on : Bool := false
  queue : List SqlCopy := []
  sent : List SqlCopy := []
  lost : List SqlCopy := []
  released : Nat := 0
  deriving DecidableEq, Repr

/-- What happens to the thread. -/
inductive SqlEvent where
  /-- `post_proxy_write` hands over a copy, if the flag is set: /repo/src/lib/cluster.cc:1475-1480, `_enqueue` :1628-1651 -/
  | copy (c : SqlCopy)
  /-- a slave has asked for the events, /repo/src/flared/handler_mysql_replication.cc:92 -/
  | connect
  /-- the next entry is taken and sent, :127-139 -/
  | take
  /-- the next entry is taken and `send` fails: the loop is left and the flag reset, :133-136, 145 -/
  | fail
  /-- the queue has been empty for a minute and the slave is gone, :112-126, 145 -/
  | gone
  deriving DecidableEq, Repr

/-- The waits that end with an entry. -/
def SqlCopy.refs (c : SqlCopy) : Nat := if c.waits then 1 else 0

def SqlFeed.step (f : SqlFeed) : SqlEvent → SqlFeed
  | .copy c => if f.on then { f with queue := f.queue ++ [c] } else f
  | .connect => { f with on := true }
  | .take =>
    if f.on then
      match f.queue with
      | [] => f
      | c :: q => { f with queue := q, sent := f.sent ++ [c], released := f.released + c.refs }
    else f
  | .fail =>
    if f.on then
      match f.queue with
      | [] => f
      | c :: q => { f with on := false, queue := q, lost := f.lost ++ [c], released := f.released + c.refs }
    else f
  | .gone => if f.on ∧ f.queue = [] then { f with on := false } else f

def SqlFeed.run (f : SqlFeed) (evs : List SqlEvent) : SqlFeed := evs.foldl SqlFeed.step f

end Flare
