import Verif.Model.Session
import Verif.Model.BinSession

/-! Sessions with clients that are slow.  `connection_tcp::read` gives up when nothing has come for
`net-read-timeout` seconds, without closing the connection (/repo/src/lib/connection_tcp.cc:241-249), and
`readline` and `readsize` then drop what they have read (:349-355, :433-436).

A client is the list of what it sends between two such breaks; the end of the list is the end of the
connection.  A break before the first byte of a request, within a line of the text protocol or within a
header of the binary protocol makes `parse_server` return NULL, which ends the session
(/repo/src/lib/op_parser.h:81-85, /repo/src/lib/op_parser_text.cc:55-58,
/repo/src/lib/op_parser_binary.cc:56-67, /repo/src/flared/handler_request.cc:63-72).  A break within a value
is an error of the parameters, which is answered with ERROR (/repo/src/lib/op.cc:66-70), and the session goes
on with what comes after the break. -/
namespace Flare

variable {σ : Type}

/-- `handler_request::run` for the text protocol with breaks; `more` is what comes after the next break. -/
def slowSession (B : Back σ) (now : Int64) (first q : Bytes) : Nat → σ → Bytes → List Bytes → Talk σ
  | 0, st, _, _ => { st := st, stop := .running }
  | n + 1, st, s, more =>
    match takeReq now first q s with
    | .over => { st := st, stop := .closed }
    | .other => { st := st, stop := .other }
    | .ub => { st := st, stop := .ub }
    | .cut =>
      match more with
      | [] => { st := st, out := resultLine .error [], stop := .closed }
      | s :: more => (slowSession B now first q n st s more).after [] (resultLine .error [])
    | .bad rest => (slowSession B now first q n st rest more).after [] (resultLine .error [])
    | .req r rest =>
      let p := perform B st r
      match answer r p.2 with
      | none => { st := p.1, did := [(r, p.2)], stop := .ub }
      | some b =>
        if r = .quit then { st := p.1, did := [(r, p.2)], out := b, stop := .quit }
        else (slowSession B now first q n p.1 rest more).after [(r, p.2)] b

/-- A session over all that a slow client sends. -/
def serveSlow (B : Back σ) (now : Int64) (first q : Bytes) (st : σ) (s : Bytes) (more : List Bytes) : Talk σ :=
  slowSession B now first q (s.length + more.flatten.length + more.length + 1) st s more

/-- The same for the binary protocol. -/
def slowBinSession (B : BBack σ) (now : Int64) : Nat → σ → Bytes → List Bytes → BTalk σ
  | 0, st, _, _ => { st := st, stop := .running }
  | n + 1, st, s, more =>
    match takeBin now s with
    | .over => { st := st, stop := .closed }
    | .other => { st := st, stop := .other }
    | .ub => { st := st, stop := .ub }
    | .cut op =>
      match binResult (answerCode op) .error [] with
      | .error _ => { st := st, stop := .ub }
      | .ok b =>
        match more with
        | [] => { st := st, out := b, stop := .closed }
        | s :: more => (slowBinSession B now n st s more).after [] b
    | .bad op rest =>
      match binResult (answerCode op) .error [] with
      | .error _ => { st := st, stop := .ub }
      | .ok b => (slowBinSession B now n st rest more).after [] b
    | .req op r rest =>
      let p := bPerform B st r
      match bAnswer op r p.2 with
      | .error _ => { st := p.1, did := [(r, p.2)], stop := .ub }
      | .ok b =>
        if r = .quit then { st := p.1, did := [(r, p.2)], out := b, stop := .quit }
        else (slowBinSession B now n p.1 rest more).after [(r, p.2)] b

/-- A session over all that a slow client sends. -/
def binServeSlow (B : BBack σ) (now : Int64) (st : σ) (s : Bytes) (more : List Bytes) : BTalk σ :=
  slowBinSession B now (s.length + more.flatten.length + more.length + 1) st s more

end Flare
