import Verif.Model.Text

/-! What the text protocol is expected to transport. -/
namespace Flare

/-- A key that can be written into a line: not empty, no NUL, blank or newline, and shorter
than the buffer of the scan. -/
def PlainKey (k : Bytes) (n : Nat) : Prop :=
  k ≠ [] ∧ (∀ c ∈ k, c ≠ 0 ∧ c ≠ chSpace ∧ c ≠ chNl) ∧ k.length < n

/-- Names of nodes as they occur in a forwarding path ("host:port"). -/
def PlainPath (path : List Bytes) : Prop :=
  ∀ n ∈ path, n ≠ [] ∧ ∀ c ∈ n, c ≠ 0 ∧ c ≠ chNl ∧ c ≠ chComma ∧ c ≠ chGt

/-- A write that can be forwarded: plain key and path, known options, an expiry that is not
negative. -/
def Sendable (r : WriteReq) (n : Nat) : Prop :=
  PlainKey r.entry.key n ∧ PlainPath r.path ∧ r.entry.option < 8 ∧ 0 ≤ r.entry.expire.toInt

/-- The request a node should have in hand when `r` has been forwarded to it at time `now`:
stores carry everything; a deletion has no flag, size or value; a touch has neither those nor
a version, and only the option noreply; incr and decr carry key, amount and options.  An
expiry is read as a client's expiry would be. -/
def arrives (now : Int64) (r : WriteReq) : WriteReq :=
  match r.cmd with
  | .incr | .decr =>
    { r with entry := { key := r.entry.key, option := r.entry.option } }
  | .delete =>
    { r with
      entry := { key := r.entry.key, expire := realtime now r.entry.expire,
                 version := r.entry.version, option := r.entry.option }
      value := 0 }
  | .touch | .gat =>
    { r with
      entry := { key := r.entry.key, expire := realtime now r.entry.expire,
                 option := r.entry.option &&& optNoreply }
      value := 0 }
  | _ =>
    { r with
      entry := { r.entry with expire := realtime now r.entry.expire
                              data := r.entry.data.take r.entry.size.toNat }
      value := 0 }

/-- An expiry that means the same on every node: never, or a point in time later than the
first 30 days of 1970. -/
def Absolute (x : Int64) : Prop := x = 0 ∨ maxRealtimeDelta < x

end Flare
