import Verif.Model.Client
import Verif.Spec.Session
import Verif.Props.Errand

/-! What the client library should do. -/
namespace Flare

/-- The storage call that a call means; written down without the code that sends it. -/
def ClientCall.meaning : ClientCall → Option Cmd
  | .connect | .disconnect => none
  | .get _ k _ => some (.get { key := k } {})
  | .add k d flag => some (.set { key := k, flag, size := UInt64.ofNat d.length, data := d } .ofAdd)
  | .addInt k d flag =>
    some (.set { key := k, flag, size := UInt64.ofNat (decimalInt d.toInt).length, data := decimalInt d.toInt } .ofAdd)
  | .cas k d flag version => some (.set { key := k, flag, version, size := UInt64.ofNat d.length, data := d } .ofCas)

/-- A call that can be written as a request: a plain key, a value that fits, and for `get` and `gets` an entry that has
not been used before. -/
def ClientCall.Proper : ClientCall → Prop
  | .connect | .disconnect => True
  | .get y k g => (y = .get ∨ y = .gets) ∧ PlainKey k 8192 ∧ ∃ k0, g = { e := { key := k0 } }
  | .add k d _ => PlainKey k 8192 ∧ k.length + d.length + 8192 ≤ intMax
  | .addInt k _ _ => PlainKey k 8192
  | .cas k d _ _ => PlainKey k 8192 ∧ k.length + d.length + 8192 ≤ intMax

def ClientCall.cmd : ClientCall → WriteCmd
  | .cas _ _ _ _ => .cas
  | _ => .add

/-- What a caller should be told for what the node has done: of a write its result, of a read the value. -/
def ClientCall.right (now : Int64) : ClientCall → ErrandDid → ClientSaid → Prop
  | .get y k _, .read a, x => ∃ g, x = .value (if a.found.isSome then .ok else .notFound) g ∧ g.e.key = k ∧
      (ReadAt.asked g).found = a.found.map (shown y now)
  | .add _ _ _, .wrote d, x | .addInt _ _ _, .wrote d, x => ∃ r, x = .result r ∧ ∃ m, ∀ now, d.reply now .add = .result r m
  | .cas _ _ _ _, .wrote d, x => ∃ r, x = .result r ∧ ∃ m, ∀ now, d.reply now .cas = .result r m
  | _, _, _ => False

/-- The caller is told that the call has failed. -/
def ClientSaid.isError : ClientSaid → Bool
  | .result r => r == .error
  | .value r _ => r == .error
  | _ => false

/-- A call that leaves nothing on the connection (`CalmTurn`), if its request is sent. -/
def CalmCall (P : ErrandBufs) (x : ClientCall) (t : ClientTurn) (c : ClientSt) : Prop :=
  ∀ e, x.errand = some e → (c.up = true ∨ t.opens = true) → CalmTurn P e t.try_ c.desk.store

def CalmCalls (P : ErrandBufs) : List (ClientCall × ClientTurn) → ClientSt → Prop
  | [], _ => True
  | (x, t) :: l, c => CalmCall P x t c ∧ CalmCalls P l (c.call P t x).1

end Flare
