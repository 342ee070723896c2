import Verif.Model.Report
import Verif.Spec.BinSession

/-! What a client makes of the answer to `stats`. -/
namespace Flare

/-- The lines of the answer: `STAT`, a name, a value that is the rest of the line; `END` ends the answer. -/
def readStats : Nat → Bytes → Option (List (Bytes × Bytes) × Bytes)
  | 0, _ => none
  | n + 1, s =>
    match readLine s with
    | none => none
    | some (l, s) =>
      if l = ascii "END\n" then some ([], s)
      else if l.take 5 = ascii "STAT " then
        let t := (l.drop 5).dropLast
        let name := t.takeWhile (· ≠ chSpace)
        if name.length < t.length then (readStats n s).map fun x => ((name, t.drop (name.length + 1)) :: x.1, x.2)
        else none
      else none

/-- What should be shown about a node. -/
def NodeInfo.shown (n : NodeInfo) : List (Bytes × Bytes) :=
  let k := n.name ++ [chColon] ++ printInt n.port
  [(k ++ ascii ":role", n.role.name), (k ++ ascii ":state", n.state.name), (k ++ ascii ":partition", printInt n.partition),
    (k ++ ascii ":balance", printInt n.balance), (k ++ ascii ":thread_type", printInt n.threadType)]

/-- A name as it can be read from a line, short enough for the buffer that is used to show it. -/
def NodeInfo.Plain (n : NodeInfo) : Prop := (∀ c ∈ n.name, wordChar c = true) ∧ n.name.length ≤ 8167

/-- What should be shown about a thread. -/
def ThreadInfo.shown (now : Int64) (t : ThreadInfo) : List (Bytes × Bytes) :=
  let k := decimal t.id.toNat
  [(k ++ ascii ":type", printInt t.type), (k ++ ascii ":peer", t.peer ++ [chColon] ++ printInt t.port), (k ++ ascii ":op", t.op),
    (k ++ ascii ":uptime", decimalInt (now - t.since).toInt), (k ++ ascii ":state", t.state), (k ++ ascii ":info", t.info),
    (k ++ ascii ":queue", decimal t.queue.toNat), (k ++ ascii ":behind", printInt t.behind)]

/-- The texts of a thread fit into a line, and the name of its peer into the buffer. -/
def ThreadInfo.Plain (t : ThreadInfo) : Prop :=
  (∀ c ∈ t.peer, c ≠ 0 ∧ c ≠ chNl) ∧ t.peer.length ≤ 8000 ∧ (∀ c ∈ t.op, c ≠ chNl) ∧ (∀ c ∈ t.state, c ≠ chNl) ∧
    (∀ c ∈ t.info, c ≠ chNl)

end Flare
