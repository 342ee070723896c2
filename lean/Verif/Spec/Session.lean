import Verif.Model.Session
import Verif.Spec.Text
import Verif.Spec.Control
import Verif.Props.Get

namespace Flare

/-! What a client of the text protocol sends, and how it reads the answers. -/

/-- The bytes of a request.  The writes are written as a node writes them (`encodeWrite`). -/
def encodeReq : SReq → Option Bytes
  | .write r => encodeWrite r
  | .get t ks => some ((if t = .gets then ascii "gets" else ascii "get") ++
      ks.flatMap (fun k => chSpace :: k) ++ crlf)
  | .ping => some (ascii "ping\r\n")
  | .version => some (ascii "version\r\n")
  | .verbosity n noreply => some (ascii "verbosity" ++ chSpace :: decimalInt n ++
      (if noreply then chSpace :: strNoreply else []) ++ crlf)
  | .flush noreply => some (ascii "flush_all" ++ (if noreply then chSpace :: strNoreply else []) ++ crlf)
  | .quit => some (ascii "quit\r\n")

/-- The request the node should have in hand. -/
def SReq.seen (now : Int64) : SReq → SReq
  | .write r => .write (arrives now r)
  | r => r

/-- Requests of the protocol: plain keys, different from each other in a `get`, an `int` for `verbosity`. -/
def SReq.Proper : SReq → Prop
  | .write r => Sendable r 8192
  | .get t ks => (t = .get ∨ t = .gets) ∧ ks ≠ [] ∧ ks.Nodup ∧ ∀ k ∈ ks, PlainKey k 8192
  | .verbosity n _ => -(intMax : Int) - 1 ≤ n ∧ n ≤ intMax
  | _ => True

/-- The client has asked for no answer. -/
def SReq.silent : SReq → Bool
  | .write r => r.entry.option &&& optNoreply ≠ 0
  | .verbosity _ n => n
  | .flush n => n
  | _ => false

/-- What a client learns from an answer. -/
inductive Reply where
  | nothing
  | result (r : OpResult) (msg : Bytes)
  | number (n : Nat)
  | values (es : List Entry)
  | version
  deriving DecidableEq, Repr

/-- The client reads the answer to a request: nothing if it has asked for none; for `get` values up to END;
for `gat` a value or a line; for `incr` and `decr` a number or a line; else a line. -/
def readReply (now : Int64) (w q : Bytes) (r : SReq) (s : Bytes) : Except Fault (Reply × Bytes) :=
  if r.silent then .ok (.nothing, s)
  else
    let line : Except Fault (Reply × Bytes) := (readResponse q s).map fun x => (.result x.1.1 x.1.2, x.2)
    match r with
    | .get _ _ => (readAnswers now w q (s.length + 1) s).map fun x => (.values x.1, x.2)
    | .version =>
      match readLine s with
      | some (l, rest) => if (ascii "VERSION ").isPrefixOf l then .ok (.version, rest) else line
      | none => .error .err
    | .write x =>
      if x.cmd = .gat then
        match readAnswer now w q s with
        | .ok (.value e rest) => .ok (.values [e], rest)
        | _ => line
      else if x.cmd.kind = .count then
        match readLine s with
        | some (l, rest) => if isUnsignedString l.dropLast then .ok (.number (decValue l.dropLast), rest) else line
        | none => .error .err
      else line
    | _ => line

/-- The client reads the answers to its requests one after the other. -/
def readReplies (now : Int64) (w q : Bytes) : List SReq → Bytes → Except Fault (List Reply × Bytes)
  | [], s => .ok ([], s)
  | r :: rs, s =>
    match readReply now w q r s with
    | .error f => .error f
    | .ok (t, s) => (readReplies now w q rs s).map fun x => (t :: x.1, x.2)

/-- What the client should learn about a write. -/
def Done.reply (now : Int64) (cmd : WriteCmd) : Done → Reply
  | .noQueue => .result .serverError (ascii "proxy failure")
  | .noPartition => .result .serverError (ascii "no partition available")
  | .sent false _ _ _ => .result .serverError (ascii "proxy error")
  | .sent true r msg e =>
    if cmd.kind = .count ∧ r = .stored then .number (decValue (msg.takeWhile isDigit))
    else if cmd = .gat ∧ r = .touched then
      match e with
      | some e => .values [shown .get now e]
      | none => .result r msg
    else .result r msg
  | .own o =>
    match o.rc, o.r with
    | .ok, some r =>
      if cmd.kind = .count ∧ r = .stored then .number (decValue (o.e.data.take o.e.size.toNat))
      else if cmd = .gat ∧ r = .touched then .values [shown .get now o.e]
      else .result r.toOp []
    | _, _ => .result .serverError (ascii "i/o error")

/-- What the client should learn: nothing if it has asked for no answer. -/
def SReq.reply (now : Int64) (r : SReq) (d : Did) : Reply :=
  if r.silent then .nothing
  else match r, d with
  | .write x, .wrote d => d.reply now x.cmd
  | .get t _, .got rs => .values (rs.filterMap fun x => x.2.found.map (shown t now))
  | .ping, .status (some m) => .result .serverError m
  | .flush _, .flushed false => .result .serverError (ascii "unknown error")
  | .version, _ => .version
  | .quit, _ => .result .end_ []
  | _, _ => .result .ok []

/-- A value that can be sent. -/
def SoundValue (t : ResponseType) (e : Entry) : Prop := PlainKey e.key 8192 ∧ (response t e).isSome

/-- Outcomes of writes that make sense: no undefined behaviour, messages without line ends, numbers for `incr`
and `decr`, values that can be sent for `gat`. -/
def Done.Sound (cmd : WriteCmd) : Done → Prop
  | .noQueue | .noPartition => True
  | .sent ok r msg e => ok = true →
    if cmd.kind = .count ∧ r = .stored then ∃ n, isUnsignedString n = true ∧ msg = n ++ crlf
    else (r ≠ .none_ ∨ msg = []) ∧ PlainMessage msg ∧
      (cmd = .gat → r = .touched → ∀ x, e = some x → SoundValue .get x)
  | .own o => o.rc ≠ .ub ∧ (o.rc = .ok → ∃ r, o.r = some r ∧
      (cmd.kind = .count → r = .stored → isUnsignedString (o.e.data.take o.e.size.toNat) = true ∧
        o.e.size.toNat + 2 < 8192) ∧
      (cmd = .gat → r = .touched → SoundValue .get o.e))

/-- Outcomes that make sense. -/
def Did.Sound : SReq → Did → Prop
  | .write r, .wrote d => d.Sound r.cmd
  | .get t _, .got rs => ∀ x ∈ rs, ∀ e, x.2.found = some e → SoundValue t e
  | .ping, .status (some m) => PlainMessage m
  | _, _ => True

/-- A request for no answer that fails with an answer all the same. -/
def Did.loud : SReq → Did → Bool
  | .write r, .wrote d => r.entry.option &&& optNoreply ≠ 0 && (match d with
    | .noQueue | .noPartition => true
    | .sent _ _ _ _ => false
    | .own o => o.rc = .err)
  | _, _ => false

/-- The requests carried out one after the other. -/
def performAll {σ : Type} (B : Back σ) : σ → List SReq → σ × List (SReq × Did)
  | st, [] => (st, [])
  | st, r :: rs =>
    let (st, d) := perform B st r
    let (st, ds) := performAll B st rs
    (st, (r, d) :: ds)

end Flare
