import Verif.Model.Float
/-!
# What is said about floating point numbers

An `f64` is `k / 2^1074` for a number `k` with at most 53 bits, followed by zeros.
-/
namespace Pico

set_option exponentiation.threshold 3000

/-- At most 53 bits, followed by zeros. -/
def Bits53 (v : Nat) : Prop := ∃ m s, m < 2 ^ 53 ∧ v = m * 2 ^ s

/-- The `f64` that are not negative: below `2^1024`, or infinity. -/
def F64.Valid : F64 → Prop
  | none => True
  | some v => Bits53 v ∧ v < 2 ^ 2098

/-- The `f64` is an integer. -/
def F64.Integral : F64 → Prop
  | none => False
  | some v => 2 ^ 1074 ∣ v

/-- The distance of two numbers. -/
def distance (a b : Nat) : Nat := (a - b) + (b - a)

/-- The number that digits denote. -/
def decVal : Text → Nat
  | [] => 0
  | c :: cs => (c.toNat - '0'.toNat) * 10 ^ cs.length + decVal cs

end Pico
