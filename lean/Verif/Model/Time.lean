import Verif.Model.Version

/-!
# `time.Time` and `time.Duration`, and the dates of `/repo/parameters.go`

A `time.Time` is its number of nanoseconds since the Unix epoch (an unbounded `Int`; Go's range of
years is far wider than any value reached here). Location and monotonic reading are not modelled:
no compared pair of times has two monotonic readings. A `time.Duration` is an int64 number of
nanoseconds.
-/

namespace Verif.Model

/-- Two's complement wrap-around to int64. -/
def wrap64 (x : Int) : Int := (x + 2 ^ 63) % 2 ^ 64 - 2 ^ 63

/-- `time.Second` -/
def second : Int := 10 ^ 9

/-- product of two int64 durations -/
def durMul (a b : Int) : Int := wrap64 (a * b)

/-- int64 division truncates toward zero -/
def durDiv (a b : Int) : Int := a.tdiv b

/-- `t.Unix()` -/
def unix (t : Int) : Int := t / second

/-- `t.Add(d)` -/
def timeAdd (t d : Int) : Int := t + d

/-- `t.Sub(u)`: saturates at the int64 bounds. -/
def timeSub (t u : Int) : Int := max (-2 ^ 63) (min (2 ^ 63 - 1) (t - u))

/-- The zero `time.Time`, January 1 of year 1, UTC. -/
def zeroTime : Int := -62135596800 * 10 ^ 9

/-- `t.IsZero()` -/
def isZero (t : Int) : Bool := t == zeroTime

/-- conversion of an int64 to uint32 -/
def u32 (x : Int) : Nat := (x % 2 ^ 32).toNat

/-- parameters.go:9 EpochIncrement -/
def epochIncrement : Int := second

/-- parameters.go:16 EpochStart (1672531200 is the Unix time of 2023-01-01T00:00:00Z) -/
def epochStart : Int := 1672531200 * 10 ^ 9

/-- parameters.go:54 MaxCreationTime -/
def maxCreationTime : Int :=
  timeAdd epochStart (durMul epochIncrement (2 ^ creationOffsetBitCount - 1))

end Verif.Model
