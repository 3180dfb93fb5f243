import Verif.Spec.Source
import Verif.Spec.Layout
/-!
# What the language says about literals between double quotes (C59)
-/
namespace Pico

/-- The escape sequences of one letter. -/
def letterEscapes : List (Char × Nat) :=
  [('n', 10), ('r', 13), ('t', 9), ('v', 11), ('f', 12), ('"', 34), ('\\', 92), ('$', 36)]

def hexDigit (c : Char) : Bool := c.isDigit || c ∈ c!"abcdefABCDEF"

def octalDigit (c : Char) : Bool := c ∈ c!"01234567"

/-- The bytes of a literal without variables, from the text between its quotes. Without `full` some escape sequences are left out: `\e`,
`\101`, `\u{41}`, and `\x` with less than two digits and another letter behind it. -/
inductive DqMeans (full : Bool) : Text → List Nat → Prop
  | nil : DqMeans full [] []
  | plain {x : Text} {bs : List Nat} (c : Char) (hc : c ∉ c!"\\\"${") (h : DqMeans full x bs) : DqMeans full (c :: x) (utf8 [c] ++ bs)
  | dollar {x : Text} {bs : List Nat} (hx : ∀ c, x.head? = some c → c.isAlpha = false ∧ c ∉ c!"_{" ∧ c.toNat < 128) (h : DqMeans full x bs) :
      DqMeans full ('$' :: x) (36 :: bs)
  | brace {x : Text} {bs : List Nat} (hx : x.head? ≠ some '$') (h : DqMeans full x bs) : DqMeans full ('{' :: x) (123 :: bs)
  | letter {x : Text} {bs : List Nat} (c : Char) (b : Nat) (hc : (c, b) ∈ letterEscapes) (h : DqMeans full x bs) :
      DqMeans full ('\\' :: c :: x) (b :: bs)
  | hex {x ds : Text} {bs : List Nat} (k : Char) (hk : k = 'x' ∨ k = 'X')
      (hl : ds.length = 2 ∨ ds.length = 1 ∧ ∀ c, x.head? = some c → hexDigit c = false) (hd : ∀ c ∈ ds, hexDigit c = true)
      (hf : full = true ∨ (ds.length = 1 → ∀ c, x.head? = some c → c.isAlphanum = false)) (h : DqMeans full x bs) :
      DqMeans full ('\\' :: k :: (ds ++ x)) (numberValue 16 ds :: bs)
  | other {x : Text} {bs : List Nat} (c : Char) (hc : c ∉ c!"nrtvfe\"\\$xXu01234567") (h : DqMeans full x bs) :
      DqMeans full ('\\' :: c :: x) (utf8 ['\\', c] ++ bs)
  | noHex {x : Text} {bs : List Nat} (c : Char) (hc : c = 'x' ∨ c = 'X') (hx : ∀ c, x.head? = some c → hexDigit c = false)
      (hf : full = true ∨ ∀ c, x.head? = some c → c.isAlphanum = false) (h : DqMeans full x bs) :
      DqMeans full ('\\' :: c :: x) (utf8 ['\\', c] ++ bs)
  | escape {x : Text} {bs : List Nat} (hf : full = true) (h : DqMeans full x bs) : DqMeans full (c!"\\e" ++ x) (27 :: bs)
  | octal {x ds : Text} {bs : List Nat} (hf : full = true) (hne : ds ≠ []) (hl : ds.length ≤ 3) (hd : ∀ c ∈ ds, octalDigit c = true)
      (hm : ds.length < 3 → ∀ c, x.head? = some c → octalDigit c = false) (h : DqMeans full x bs) :
      DqMeans full ('\\' :: (ds ++ x)) (numberValue 8 ds % 256 :: bs)
  | unicode {x ds : Text} {bs : List Nat} (hf : full = true) (hne : ds ≠ []) (hd : ∀ c ∈ ds, hexDigit c = true)
      (hv : (numberValue 16 ds).isValidChar) (h : DqMeans full x bs) :
      DqMeans full (c!"\\u{" ++ ds ++ c!"}" ++ x) (utf8 [Char.ofNat (numberValue 16 ds)] ++ bs)

/-- `\e`, `\u`, or `\x` with a letter that is no digit in the place of one of its digits. -/
def badEscape (w : Text) : Prop :=
  w = c!"\\e" ∨ w = c!"\\u" ∨
  (∃ k d, (k = 'x' ∨ k = 'X') ∧ w = ['\\', k, d] ∧ d.isAlphanum = true ∧ hexDigit d = false) ∨
  ∃ k d e, (k = 'x' ∨ k = 'X') ∧ w = ['\\', k, d, e] ∧ hexDigit d = true ∧ e.isAlphanum = true ∧ hexDigit e = false

end Pico
