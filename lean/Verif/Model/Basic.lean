import Lean
/-!
# Basic representation of Rust values

Texts are lists of characters; byte offsets refer to their UTF-8 encoding, exactly as in the Rust code.
-/

/-- `c!"abc"` is the list literal `['a', 'b', 'c']` (expanded at elaboration time, so that the kernel
never has to look inside a `String`). -/
syntax:max "c!" str : term
macro_rules
  | `(c!$s:str) => do
    let lits := (s.getString.toList.map (fun c => Lean.Syntax.mkCharLit c)).toArray
    `(([$lits,*] : List Char))

namespace Pico

/-- A Rust `str`/`String`/`RcStr`: its sequence of Unicode scalar values. -/
abbrev Text := List Char

/-- A Rust `u8`. Values built by the model are always below 256. -/
abbrev Byte := Nat

/-- Why a Rust program would abort. -/
inductive Panic
  | unimplemented   -- `unimplemented!()`
  | unreachable     -- `unreachable!()`
  | index           -- index out of range
  | charBoundary    -- string slice not on a character boundary or out of range
  | subOverflow     -- unsigned subtraction below zero (debug profile)
  | unwrap          -- `unwrap()` on `None` or `Err`
  | assert          -- failed `assert!`/`assert_eq!`
  deriving DecidableEq, Repr

/-- Length of the UTF-8 encoding in bytes: Rust `str::len`. -/
def byteLen : Text → Nat
  | [] => 0
  | c :: cs => c.utf8Size + byteLen cs

/-- `&s[n..]`: `none` is Rust's slicing panic (offset beyond the end or inside a character). -/
def dropBytes : Text → Nat → Option Text
  | s, 0 => some s
  | [], _ + 1 => none
  | c :: cs, n => if c.utf8Size ≤ n then dropBytes cs (n - c.utf8Size) else none

/-- `&s[..n]`: `none` is Rust's slicing panic. -/
def takeBytes : Text → Nat → Option Text
  | _, 0 => some []
  | [], _ + 1 => none
  | c :: cs, n =>
    if c.utf8Size ≤ n then (takeBytes cs (n - c.utf8Size)).map (c :: ·) else none

/-- `s.starts_with(p)`. -/
def startsWith : Text → Text → Bool
  | _, [] => true
  | [], _ :: _ => false
  | c :: cs, p :: ps => c == p && startsWith cs ps

/-- `s.find(pat)` as the text before the first occurrence. -/
def beforeSub (pat : Text) : Text → Option Text
  | [] => if startsWith [] pat then some [] else none
  | c :: cs => if startsWith (c :: cs) pat then some [] else (beforeSub pat cs).map (c :: ·)

/-- UTF-8 encoding of one character (`char::encode_utf8`). -/
def encodeChar (c : Char) : List Byte :=
  let n := c.toNat
  if n < 0x80 then [n]
  else if n < 0x800 then [0xC0 + n / 64, 0x80 + n % 64]
  else if n < 0x10000 then [0xE0 + n / 4096, 0x80 + n / 64 % 64, 0x80 + n % 64]
  else [0xF0 + n / 262144, 0x80 + n / 4096 % 64, 0x80 + n / 64 % 64, 0x80 + n % 64]

/-- `str::as_bytes`. -/
def encode (s : Text) : List Byte := s.flatMap encodeChar

/-- Continuation byte test. -/
def isCont (b : Byte) : Bool := 0x80 ≤ b && b < 0xC0

/-- `String::from_utf8`: strict UTF-8 decoding, `none` for invalid input. -/
def decode : List Byte → Option Text
  | [] => some []
  | a :: rest =>
    if a < 0x80 then (decode rest).map (Char.ofNat a :: ·)
    else if a < 0xC2 then none
    else if a < 0xE0 then
      match rest with
      | b :: rest =>
        if isCont b then (decode rest).map (Char.ofNat ((a - 0xC0) * 64 + (b - 0x80)) :: ·) else none
      | _ => none
    else if a < 0xF0 then
      match rest with
      | b :: c :: rest =>
        let n := (a - 0xE0) * 4096 + (b - 0x80) * 64 + (c - 0x80)
        if isCont b && isCont c && 0x800 ≤ n && !(0xD800 ≤ n && n < 0xE000)
        then (decode rest).map (Char.ofNat n :: ·) else none
      | _ => none
    else if a < 0xF5 then
      match rest with
      | b :: c :: d :: rest =>
        let n := (a - 0xF0) * 262144 + (b - 0x80) * 4096 + (c - 0x80) * 64 + (d - 0x80)
        if isCont b && isCont c && isCont d && 0x10000 ≤ n && n < 0x110000
        then (decode rest).map (Char.ofNat n :: ·) else none
      | _ => none
    else none

/-- A Rust character range pattern `lo ... hi`. -/
def inRange (lo hi c : Char) : Bool := lo.toNat ≤ c.toNat && c.toNat ≤ hi.toNat

/-- Value of a digit in the given radix (`char::to_digit`). -/
def digitVal (radix : Nat) (c : Char) : Option Nat :=
  let v :=
    if inRange '0' '9' c then some (c.toNat - '0'.toNat)
    else if inRange 'a' 'z' c then some (c.toNat - 'a'.toNat + 10)
    else if inRange 'A' 'Z' c then some (c.toNat - 'A'.toNat + 10)
    else none
  match v with
  | some d => if d < radix then some d else none
  | none => none

/-- Value of a digit string read left to right with accumulator. -/
def digitsVal (radix : Nat) : Nat → Text → Option Nat
  | acc, [] => some acc
  | acc, c :: cs =>
    match digitVal radix c with
    | some d => digitsVal radix (acc * radix + d) cs
    | none => none

/-- Largest `i64`. -/
def i64Max : Nat := 9223372036854775807

/-- `iN::from_str_radix` / `u8::from_str_radix` on a text without sign: `none` is the parse error
(empty, invalid digit, or value above `max`). -/
def fromStrRadix (max radix : Nat) (s : Text) : Option Nat :=
  match s with
  | [] => none
  | _ =>
    match digitsVal radix 0 s with
    | some v => if v ≤ max then some v else none
    | none => none

/-- ASCII lower case of one character (the only part of `to_lowercase` that matters for ASCII words). -/
def lowerAscii (c : Char) : Char :=
  if inRange 'A' 'Z' c then Char.ofNat (c.toNat + 32) else c

/-- `chars().position(p)`: index (in characters) of the first character satisfying `p`. -/
def position (p : Char → Bool) : Text → Option Nat
  | [] => none
  | c :: cs => if p c then some 0 else (position p cs).map (· + 1)

/-- Rust `str::lines().count()`: pieces ended by `\n`, plus a last unterminated nonempty piece. -/
def linesCount : Text → Nat
  | [] => 0
  | ['\n'] => 1
  | [_] => 1
  | '\n' :: c :: cs => linesCount (c :: cs) + 1
  | _ :: c :: cs => linesCount (c :: cs)

end Pico
