import Verif.Model.Basic
/-!
# Floating point numbers (`f64`)

The tokenizer turns a literal `ds.fs` into an `f64` (src/tokenizer.rs:421, `f64::from_str`), the printer writes an `f64`
with `{}` (src/printer.rs:498). Both belong to the standard library of Rust; they are modelled here by what they
compute, not by how they compute it. Literals have no sign and no exponent, so that only numbers that are not negative,
and infinity, occur.

In the rest of the model a double is the text of its literal, and the text the printer writes for it is the parameter
`dbl`. `showLit` below is what Rust writes.
-/
namespace Pico

/-- An `f64` that is not negative: `some k` is the number `k / 2^1074` (all finite ones are multiples of `2^-1074`),
`none` is infinity. -/
abbrev F64 := Option Nat

/-- Round `n / u` to the nearest integer, halves to the even one. -/
def roundHalfEven (n u : Nat) : Nat :=
  if u < 2 * (n % u) ∨ (2 * (n % u) = u ∧ n / u % 2 = 1) then n / u + 1 else n / u

/-- The number of bits of an `f64` behind the first 53 when the number is about `q / 2^1074`. -/
def ulpBits (q : Nat) : Nat := q.log2 + 1 - 53

/-- The `f64` nearest to `num / den`: 53 bits, or as many as there are above `2^-1074`; halves go to the even number;
from `2^1024` on the result is infinity. -/
def f64Round (num den : Nat) : F64 :=
  let s := ulpBits (num * 2 ^ 1074 / den)
  let v := roundHalfEven (num * 2 ^ 1074) (den * 2 ^ s) * 2 ^ s
  if v < 2 ^ 2098 then some v else none

/-- The number that digits denote; other characters count as zero. -/
def digitsNat (ds : Text) : Nat := ds.foldl (fun n c => 10 * n + (c.toNat - '0'.toNat)) 0

/-- The digits before and behind the point. -/
def splitPoint (t : Text) : Text × Text := (t.takeWhile (· != '.'), (t.dropWhile (· != '.')).drop 1)

/-- `f64::from_str` on the texts that occur: `ds.fs`, `ds` and `inf`. -/
def f64FromStr (t : Text) : F64 :=
  if t = c!"inf" then none
  else
    let p := splitPoint t
    f64Round (digitsNat (p.1 ++ p.2)) (10 ^ p.2.length)

/-- The decimal number `num / 10^scale` in digits, without a point if `scale` is zero. -/
def decimalText (num scale : Nat) : Text :=
  if scale = 0 then Nat.toDigits 10 num
  else
    let fs := Nat.toDigits 10 (num % 10 ^ scale)
    Nat.toDigits 10 (num / 10 ^ scale) ++ c!"." ++ (List.replicate (scale - fs.length) '0' ++ fs)

/-- The multiples `a * 10^(309-i)` (or `a / 10^(i-309)`) of the unit with number `i` directly below and above the `f64`
`v` that are read as `v`: the nearer one, the upper one if both are equally near. -/
def f64Try (v i : Nat) : Option Nat :=
  let n := v * 10 ^ (i - 309)
  let u := 2 ^ 1074 * 10 ^ (309 - i)
  let a := n / u
  let down := f64Round (a * 10 ^ (309 - i)) (10 ^ (i - 309)) == some v
  let up := f64Round ((a + 1) * 10 ^ (309 - i)) (10 ^ (i - 309)) == some v
  if up && (!down || decide (u ≤ 2 * (n % u))) then some (a + 1)
  else if down then some a
  else none

/-- The shortest decimal number that is read as `v`: the first one found with units `10^309`, `10^308`, ... The unit
`10^-1074` needs no trial, every `f64` is a multiple of it. The result is `num / 10^scale`. -/
def f64Search (v : Nat) : Nat → Nat → Nat × Nat
  | 0, _ => (v * 5 ^ 1074, 1074)
  | fuel + 1, i =>
    (f64Try v i).elim (f64Search v fuel (i + 1)) fun a => (a * 10 ^ (309 - i), i - 309)

/-- `Display` of an `f64`: the shortest digits that are read as the same number, never with an exponent. -/
def f64Display : F64 → Text
  | none => c!"inf"
  | some v => decimalText (f64Search v 1383 0).1 (f64Search v 1383 0).2

/-- What Rust prints for the double that is written `l`. -/
def showLit (l : Text) : Text := f64Display (f64FromStr l)

end Pico
