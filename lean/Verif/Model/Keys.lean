import Verif.Model.Control
import Verif.Model.Dump
import Verif.Model.Get

/-! Model of `keys` (/repo/src/lib/op_keys.cc), the search for keys by prefix, and of the search that
is handed to another node (/repo/src/lib/queue_proxy_read.cc:66-112 with several entries).

Simplifications.
* Where each prefix is looked up is given (`KeysAt`); the decision is `preRead` of Model/Routing, for
  the hash value of the prefix.
* The order of the keys in the tree is the order of the list.
* A byte stream per try, as in Model/Get. -/
namespace Flare

/-- `op_keys::_parse_text_server_parameters`, /repo/src/lib/op_keys.cc:62-107, on the rest of the line:
the last word is the limit, all others are prefixes. -/
def keysParams (line q : Bytes) : Except Fault (List Bytes × Int32) :=
  match getKeysLoop (line.length + 1) line q with
  | .error f => .error f
  | .ok ws =>
    if ws.length < 2 then .error .err
    else match lexInt (ws.getLast?.getD []) with
      | none => .error .err
      | some n => if n ≤ 0 then .error .err else .ok (ws.dropLast, n)

/-- `storage_tcb::get_key`, /repo/src/lib/storage_tcb.cc:685-701, on the keys of the tree: `tcbdbfwmkeys`
gives the first `limit` keys that begin with the prefix, and each is copied as a C string. -/
def prefixKeys (keys : List Bytes) (p : Bytes) (limit : Nat) : List Bytes :=
  ((keys.filter fun k => p.isPrefixOf k).take limit).map cstr

/-- What has become of one prefix, /repo/src/lib/op_keys.cc:118-151. -/
inductive KeysAt where
  /-- looked up in the own storage -/
  | here (l : List Bytes)
  /-- the own storage has no search -/
  | unable
  /-- handed to another node: the list of the queue entry after `q->sync()` -/
  | asked (l : List Bytes)
  /-- no partition, no node to ask, or an error of the storage -/
  | refused
  deriving DecidableEq, Repr

/-- `q_map`: the last list for a prefix counts. -/
def keysAsked : List (Bytes × KeysAt) → Bytes → Option (List Bytes)
  | [], _ => none
  | (p, .asked l) :: rs, k => (keysAsked rs k).or (if p = k then some l else none)
  | _ :: rs, k => keysAsked rs k

/-- `r_map` and `s_map`: the last outcome for a prefix counts. -/
def keysOwn : List (Bytes × KeysAt) → Bytes → Option (List Bytes)
  | [], _ => none
  | (p, .here l) :: rs, k => (keysOwn rs k).or (if p = k then some l else none)
  | (p, .refused) :: rs, k => (keysOwn rs k).or (if p = k then some [] else none)
  | _ :: rs, k => keysOwn rs k

/-- The lines `KEY <key>`, /repo/src/lib/op_keys.cc:159-163, 174-178. -/
def keyLines (l : List Bytes) : Bytes := l.flatMap fun k => ascii "KEY " ++ k ++ crlf

/-- `op_keys::_run_server`, /repo/src/lib/op_keys.cc:109-184: the bytes sent.  The success of a queue
entry is not looked at. -/
def keysServe (rs : List (Bytes × KeysAt)) : Bytes :=
  if rs.any (fun x => x.2 = .unable) then
    ascii "SERVER_ERROR not available on current storage type" ++ crlf
  else
    rs.flatMap (fun x => keyLines (((keysAsked rs x.1).or (keysOwn rs x.1)).getD [])) ++ strEnd ++ crlf

/-- `op_keys::_run_client`, /repo/src/lib/op_keys.cc:191-207. -/
def keysRequest (l : List Bytes) (limit : Int32) : Bytes :=
  ascii "keys" ++ l.flatMap (fun k => chSpace :: k) ++ chSpace :: printInt limit ++ crlf

/-- `op_keys::_parse_text_client_parameters`, /repo/src/lib/op_keys.cc:214-251, after `e.clear()`.
Every round takes a byte. -/
def keysClient (w : Bytes) : Nat → Bytes → List Bytes → GetEnd × List Bytes × Bytes
  | 0, s, l => (.failed, l, s)
  | n + 1, s, l =>
    match readLine s with
    | none => (.failed, l, [])
    | some (line, s) =>
      if line = strEnd ++ [chNl] then (.done, l, s)
      else match scanWord line w with
        | .error f => (.ofFault f, l, s)
        | .ok (p, w') =>
          if cstr w' ≠ ascii "KEY" then (.failed, l, s)
          else match scanWord p w' with
            | .error f => (.ofFault f, l, s)
            | .ok (_, w') =>
              if cstr w' = [] then (.failed, l, s) else keysClient w n s (l ++ [cstr w'])

/-- One pass of the loop: whether the request is sent, what arrives then, and whether the connection is
closed when the pass fails. -/
structure KeysTry where
  sent : Bool := true
  stream : Bytes := []
  closed : Bool := true
  deriving DecidableEq, Repr

/-- The loop of `queue_proxy_read::run`, /repo/src/lib/queue_proxy_read.cc:79-104, for the list of entries
`l`, which is the list of prefixes to send and becomes the list of keys received: how it ends, the
list, what is left of the connection, and the lists sent. -/
def keysTries (w : Bytes) : Nat → List KeysTry → Bytes → List Bytes →
    GetEnd × List Bytes × Bytes × List (List Bytes)
  | 0, _, left, l => (.failed, l, left, [])
  | _ + 1, [], left, l => (.failed, l, left, [])
  | n + 1, t :: ts, left, l =>
    if l = [] then keysTries w n ts left l
    else if t.sent = false then keysTries w n ts (if t.closed then [] else left) l
    else
      match keysClient w ((left ++ t.stream).length + 1) (left ++ t.stream) [] with
      | (.failed, l', rest) =>
        let r := keysTries w n ts (if t.closed then [] else rest) l'
        (r.1, r.2.1, r.2.2.1, l :: r.2.2.2)
      | (r, l', rest) => (r, l', rest, [l])

/-- The queue entry of a forwarded search for `p` after its tries on a connection without unread bytes. -/
def askKeys (w p : Bytes) (ts : List KeysTry) : GetEnd × List Bytes × Bytes × List (List Bytes) :=
  keysTries w maxRetry ts [] [p]

end Flare
