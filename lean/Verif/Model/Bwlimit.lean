/-! Model of the bandwidth limiter, /repo/src/lib/bwlimitter.cc, which `dump`, `dump_key` and the
dump replication call after every entry.

Simplifications.
* A time is a number of microseconds; what `gettimeofday` says is input, and so is how long `usleep`
  takes.  A limiter that has not been called has no prior time (`tv_sec` 0).
* A computation that leaves the range of `long` is undefined behaviour (`none`). -/
namespace Flare

/-- `bwlimitter`, /repo/src/lib/bwlimitter.h:39-43. -/
structure Bw where
  bwlimit : UInt64
  total : Int
  prior : Option Int
  deriving DecidableEq, Repr

/-- A new limiter with a limit, /repo/src/lib/bwlimitter.cc:36-41. -/
def Bw.new (limit : UInt64) : Bw := ⟨limit, 0, none⟩

/-- A value of type `long`. -/
def inLong (x : Int) : Option Int := if -(2 ^ 63) ≤ x ∧ x < 2 ^ 63 then some x else none

/-- `(long)this->_bwlimit`. -/
def Bw.longLimit (b : Bw) : Int := b.bwlimit.toInt64.toInt

/-- Lines 52-67: the bytes still to be paid for. -/
def Bw.debt (b : Bw) (bytes : Nat) (now : Int) : Option Int :=
  match inLong (b.total + bytes) with
  | none => none
  | some total =>
    match b.prior with
    | none => some total
    | some prior =>
      match inLong ((now - prior) * b.longLimit) with
      | none => none
      | some x =>
        match inLong (total - x.tdiv 976) with
        | none => none
        | some total => some (if total < 0 then 0 else total)

/-- Line 69: the microseconds to sleep; the division is one of `uint64_t`. -/
def Bw.sleepTime (b : Bw) (debt : Int) : Option Int :=
  match inLong (debt * 976) with
  | none => none
  | some x => inLong ((x % 2 ^ 64).toNat / b.bwlimit.toNat : Nat)

/-- What a call did: the microseconds it wanted to sleep and those that have passed, or nothing. -/
abbrev BwSlept := Option (Int × Int)

/-- `bwlimitter::sleep_for_bwlimit`, /repo/src/lib/bwlimitter.cc:47-82; `now` and `wake` are the
times before and after `usleep`. -/
def Bw.call (b : Bw) (bytes : Nat) (now wake : Int) : Option (Bw × BwSlept) :=
  if b.bwlimit = 0 ∨ bytes = 0 then some (b, none)
  else match b.debt bytes now with
    | none => none
    | some debt =>
      match b.sleepTime debt with
      | none => none
      | some sleep =>
        if sleep < 100000 then some ({ b with total := debt, prior := some now }, none)
        else match inLong ((sleep - (wake - now)) * b.longLimit) with
          | none => none
          | some x =>
            some ({ b with total := x.tdiv 976, prior := some wake }, some (sleep, wake - now))

/-- What `usleep` gets: its parameter has 32 bits. -/
def usleepArgument (sleep : Int) : Int := sleep % 2 ^ 32

/-- A call as input: bytes written, and the times before and after sleeping. -/
structure BwCall where
  bytes : Nat
  now : Int
  wake : Int
  deriving DecidableEq, Repr

/-- Calls one after the other: the limiter afterwards and what each of them did. -/
def Bw.calls : Bw → List BwCall → Option (Bw × List BwSlept)
  | b, [] => some (b, [])
  | b, c :: l =>
    match b.call c.bytes c.now c.wake with
    | none => none
    | some (b, s) =>
      match Bw.calls b l with
      | none => none
      | some (b, ss) => some (b, s :: ss)

/-- `cluster::_get_reconstruction_bwlimit_for_new_partition`, /repo/src/lib/cluster.cc:2306-2314:
when a node copies from every partition, each copy gets a part of the limit. -/
def partLimit (limit : Int) (partitions : Nat) : Int :=
  if limit ≤ 0 ∨ partitions = 0 then limit else max (limit.tdiv partitions) 1

end Flare
