import Verif.Model.Control
import Verif.Model.Dump
import Verif.Model.Keys

/-! Model of the requests `dump` and `dump_key` as lines (/repo/src/lib/op_dump.cc:78-160 and 237-245,
/repo/src/lib/op_dump_key.cc:76-141 and 179-189) and of the list of keys that `dump_key` sends
(/repo/src/lib/op_dump_key.cc:143-177 and 191-234).  What `dump` sends is in Model/Dump.

Simplifications.
* Which keys `tchdbiternext` returns is an input of the model.
* The bandwidth limit (C57) delays the lines and is left out.
* A write that fails closes the connection (/repo/src/lib/connection_tcp.cc:518-527), so that nothing that is written
  later arrives. -/
namespace Flare

/-- What is asked for. -/
structure DumpAsk where
  /-- of `dump` only -/
  wait : Int32 := 0
  partition : Int32 := -1
  size : Int32 := 0
  limit : UInt64 := 0
  deriving DecidableEq, Repr

/-- The optional limit, op_dump.cc:129-139. -/
def scanLimitOr (old : UInt64) (p q : Bytes) : Except Fault (UInt64 × Bytes × Bytes) :=
  match scanDigit p q with
  | .error f => .error f
  | .ok (p, q) =>
    if cstr q = [] then .ok (old, p, q)
    else match lexUnsigned 64 (cstr q) with
      | none => .error .err
      | some n => .ok (UInt64.ofNat n, p, q)

/-- The checks at the end, op_dump.cc:141-152.  `_partition+1` is an addition of `int`. -/
def checkDump (a : DumpAsk) : Except Fault DumpAsk :=
  if 0 ≤ a.partition ∧ a.size ≤ 0 then .error .err
  else if a.partition = 2147483647 then .error .ub
  else if 0 ≤ a.partition ∧ a.size < a.partition + 1 then .error .err
  else if 0 < a.size ∧ a.partition < 0 then .error .err
  else .ok a

/-- Partition, number of partitions and limit, op_dump.cc:104-152, op_dump_key.cc:84-134. -/
def dumpRest (wait : Int32) (p q : Bytes) : Except Fault DumpAsk :=
  match scanIntOr (-1) p q with
  | .error f => .error f
  | .ok (partition, p, q) =>
    match scanIntOr 0 p q with
    | .error f => .error f
    | .ok (size, p, q) =>
      if size < 0 then .error .err
      else match scanLimitOr 0 p q with
        | .error f => .error f
        | .ok (limit, _, _) => checkDump { wait := wait, partition := partition, size := size, limit := limit }

/-- `op_dump::_parse_text_server_parameters` on the rest of the line, op_dump.cc:84-159. -/
def dumpParams (p q : Bytes) : Except Fault DumpAsk :=
  match scanIntOr 0 p q with
  | .error f => .error f
  | .ok (wait, p, q) => if wait < 0 then .error .err else dumpRest wait p q

/-- `op_dump_key::_parse_text_server_parameters`. -/
def dumpKeyParams (p q : Bytes) : Except Fault DumpAsk := dumpRest 0 p q

/-- Partition, number of partitions and limit as they are printed. -/
def dumpFields (a : DumpAsk) : Bytes :=
  chSpace :: printInt a.partition ++ (chSpace :: printInt a.size ++
    (if 0 < a.limit then chSpace :: decimal a.limit.toNat else []))

/-- `op_dump::_run_client`. -/
def dumpRequest (a : DumpAsk) : Bytes := ascii "dump" ++ (chSpace :: printInt a.wait ++ dumpFields a) ++ crlf

/-- `op_dump_key::_run_client`. -/
def dumpKeyRequest (a : DumpAsk) : Bytes := ascii "dump_key" ++ dumpFields a ++ crlf

/-- One round of the loop: the answer of `tchdbiternext`, and whether the line can be written. -/
structure ListRound where
  ans : Iteration
  writeOk : Bool := true
  deriving Repr

/-- The loop with what follows it, op_dump_key.cc:152-176: the keys whose lines arrive and the last line that arrives, if
any.  The iteration is locked by this request (C14), so that `iter_next` gives what the database gives, cut at a NUL. -/
def listLoop (belongs : Bytes → Option Bool) : List ListRound → List Bytes × Option Bytes
  | [] => ([], none)
  | r :: rs =>
    match r.ans with
    | .end_ => ([], some (strEnd ++ crlf))
    | .error => ([], some (ascii "SERVER_ERROR" ++ crlf))
    | .continue_ k =>
      match belongs (cstr k) with
      | none => ([], none)
      | some false => listLoop belongs rs
      | some true =>
        if r.writeOk then
          let (ks, l) := listLoop belongs rs
          (cstr k :: ks, l)
        else ([], none)

/-- `op_dump_key::_run_server`: what arrives.  `begun`: `iter_begin` succeeds. -/
def dumpKeyServer (belongs : Bytes → Option Bool) (begun : Bool) (rs : List ListRound) : Bytes :=
  if begun then keyLines (listLoop belongs rs).1 ++ (listLoop belongs rs).2.getD []
  else ascii "SERVER_ERROR database busy" ++ crlf

/-- `op_dump_key::_parse_text_client_parameters`: the keys seen and the return value.  `sd` gives the shutdown flag at the
successive moments it is looked at. -/
def dumpKeyClient (w : Bytes) (sd : Nat → Bool) : Nat → Nat → Bytes → List Bytes × ClientEnd
  | 0, _, _ => ([], .failed)
  | fuel + 1, n, s =>
    if sd n then ([], .ok)
    else match readLine s with
      | none => ([], .failed)
      | some (line, s) =>
        if sd (n + 1) then ([], .ok)
        else if line = strEnd ++ [chNl] then ([], .ok)
        else match scanWord line w with
          | .error .err => ([], .failed)
          | .error .ub => ([], .ub)
          | .ok (p, w') =>
            if cstr w' ≠ ascii "KEY" then ([], .failed)
            else match scanWord p w' with
              | .error .err => ([], .failed)
              | .error .ub => ([], .ub)
              | .ok (_, w') =>
                if cstr w' = [] then ([], .failed)
                else
                  let (ks, r) := dumpKeyClient w sd fuel (n + 2) s
                  (cstr w' :: ks, r)

end Flare
