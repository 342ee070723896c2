import Verif.Model.Control
import Verif.Model.KeyResolver
import Verif.Model.Cast

/-! Model of how an index server comes to its partitioning when it starts: its own options, what the
index servers share (`zookeeper_coordinator::get_meta_variables`,
/repo/src/lib/zookeeper_coordinator.cc:207-246), what `flarei::startup` makes of both
(/repo/src/flarei/flarei.cc:168-223 and :257-281), and the tables of the key resolver
(/repo/src/lib/key_resolver_modular.cc:68-99).

Simplifications.
* The options are those `ini_option::load` accepts: the type is a known one, and so is the hash
  algorithm; the numbers are not checked (/repo/src/flarei/ini_option.cc:184-217).
* The tries of `zoo_get_children` are one call that works or fails.
* Memory does not run out, and neither does the stack under the array `counter` of
  `key_resolver_modular::startup`.
* The other steps of `flarei::startup` work. -/
namespace Flare

/-- Name of a variable, with the answer to its read: the connection fails, or the node has no data, or
the data. -/
inductive VarRead where
  | failed
  | null
  | data (d : Bytes)
  deriving DecidableEq, Repr

/-- How a start ends, other than well. -/
inductive StartErr where
  /-- `startup` returns -1. -/
  | refused
  /-- An exception that nobody catches. -/
  | abort
  /-- Undefined behaviour. -/
  | ub
  deriving DecidableEq, Repr

/-- The loop over the variables, /repo/src/lib/zookeeper_coordinator.cc:234-245: `ok` is `ret == ZOK`.
The buffer has 512 bytes.  A node without data gives the length -1, and `string(buf, -1)` throws. -/
def readVars : List (Bytes × VarRead) → Bool → List (Bytes × Bytes) → Except StartErr (Bool × List (Bytes × Bytes))
  | [], ok, vars => .ok (ok, vars)
  | (_, .failed) :: l, _, vars => readVars l false vars
  | (_, .null) :: _, _, _ => .error .abort
  | (k, .data d) :: l, _, vars => readVars l true ((k, d.take 512) :: vars)

/-- `get_meta_variables`; `none`: the directory could not be listed. -/
def getMeta (children : Option (List (Bytes × VarRead))) : Except StartErr (Bool × List (Bytes × Bytes)) :=
  match children with
  | none => .ok (false, [])
  | some l => readVars l true []

/-- What decides about the partition of a key. -/
structure Parting where
  hint : Int32
  virtual_ : Int32
  size : Int32
  type : Bytes
  hash : Bytes
  deriving DecidableEq, Repr

/-- `lexical_cast<int>` of a variable, if it is there; `none`: `startup` returns -1. -/
def varInt (vars : List (Bytes × Bytes)) (k : String) (d : Int32) : Option Int32 :=
  match vars.lookup (ascii k) with
  | none => some d
  | some v => lexInt v

def varText (vars : List (Bytes × Bytes)) (k : String) (d : Bytes) : Bytes :=
  (vars.lookup (ascii k)).getD d

/-- /repo/src/flarei/flarei.cc:189-223. -/
def mixParting (own : Parting) (vars : List (Bytes × Bytes)) : Option Parting := do
  let h ← varInt vars "partition-modular-hint" own.hint
  let v ← varInt vars "partition-modular-virtual" own.virtual_
  let s ← varInt vars "partition-size" own.size
  return ⟨h, v, s, varText vars "partition-type" own.type, varText vars "key-hash-algorithm" own.hash⟩

/-- The hash algorithm is known and not one of those in use for something else,
/repo/src/flarei/flarei.cc:258-265; the proxy's is murmur, /repo/src/lib/cluster.cc:67. -/
def hashAllowed (s : Bytes) : Option HashAlgorithm :=
  match hashAlgorithmCast s with
  | some .bitshift | some .adler32 | some .murmur | none => none
  | some h => some h

/-- `key_resolver_modular::startup`: `new int*[size]` throws for a negative size; for every row but the
first, `new int[virtual]` throws for a negative number, and row 1 is computed from row 0, a null pointer,
if the hint is below 1 and there is anything to compute. -/
def resolverStart (p : Parting) : Option StartErr :=
  if p.size.toInt < 0 then some .abort
  else if p.size.toInt < 2 then none
  else if p.virtual_.toInt < 0 then some .abort
  else if p.hint.toInt < 1 ∧ 0 < p.virtual_.toInt then some .ub
  else none

/-- The start as a whole.  `key_resolver::type_cast` leaves the type as it is when it does not know the
name, and nobody looks at its result (/repo/src/flarei/flarei.cc:272-273): an uninitialised variable is
read. -/
def indexStart (own : Parting) (children : Option (List (Bytes × VarRead))) :
    Except StartErr (Resolver × HashAlgorithm) :=
  match getMeta children with
  | .error e => .error e
  | .ok (false, _) => .error .refused
  | .ok (true, vars) =>
    match mixParting own vars with
    | none => .error .refused
    | some p =>
      match hashAllowed p.hash with
      | none => .error .refused
      | some h =>
        match resolverTypeCast p.type with
        | none => .error .ub
        | some .modular =>
          match resolverStart p with
          | some e => .error e
          | none => .ok (⟨p.size.toInt.toNat, p.hint.toInt.toNat, p.virtual_.toInt.toNat⟩, h)

end Flare
