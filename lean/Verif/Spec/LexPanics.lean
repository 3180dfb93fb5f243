import Verif.Spec.Scan
import Verif.Spec.Errors
import Verif.Spec.Layout
/-!
# What makes the tokenizer panic

The panics of the lexical stage and the texts without which they cannot happen.
-/
namespace Pico

/-- `w` is a number without a point, and it goes on no further in `b`. -/
inductive Numeral : Text → Text → Prop
  | dec {w b : Text} (hne : w ≠ []) (hd : ∀ c ∈ w, c.isDigit = true) (hb : ∀ c r, b = c :: r → c.isDigit = false ∧ c ≠ '.') :
      Numeral w b
  | hex {ds b : Text} (hne : ds ≠ []) (hd : ∀ c ∈ ds, c.isDigit = true ∨ c ∈ c!"abcdefABCDEF")
      (hb : ∀ c r, b = c :: r → ¬ (c.isDigit = true ∨ c ∈ c!"abcdefABCDEF")) : Numeral (c!"0x" ++ ds) b
  | bin {ds b : Text} (hne : ds ≠ []) (hd : ∀ c ∈ ds, c = '0' ∨ c = '1') (hb : ∀ c r, b = c :: r → ¬ (c = '0' ∨ c = '1')) :
      Numeral (c!"0b" ++ ds) b

/-- The reasons for the tokenizer to panic. -/
inductive LexCause (src : Text) : Panic → Prop
  /-- A `}` where all braces are closed. -/
  | brace {toks : List TokSpan} {t : Tz} {w r : Text} (h : Scanned src toks t)
      (hr : dropBytes src t.st.srcPos = some (w ++ '}' :: r)) (hw : Blank w)
      (hc : count opensBrace toks = count closesBrace toks) : LexCause src .unreachable
  /-- (Where there are blocks in strings, nothing is said about which `}` it is.) -/
  | block (h : HasBlock src) (hb : '}' ∈ src) : LexCause src .unreachable
  /-- A number that is too large, or an octal number with an 8 or a 9. -/
  | number {a w b : Text} (h : src = a ++ w ++ b) (hw : Numeral w b) (hv : ∀ v, IntLit w v → 2 ^ 63 ≤ v) : LexCause src .unwrap
  /-- A point at the end. -/
  | dot (h : c!"." <:+ src) : LexCause src .unwrap
  /-- An escape `\x` with one or two letters or digits that are not all hexadecimal digits or end the source. -/
  | hexEscape {a w b : Text} {x : Char} (hq : HasQuote src) (h : src = a ++ '\\' :: x :: (w ++ b)) (hx : x = 'x' ∨ x = 'X')
      (hne : w ≠ []) (hl : w.length ≤ 2) (hw : ∀ c ∈ w, c.isAlphanum = true)
      (hbad : b = [] ∨ ∃ c ∈ w, ¬ (c.isDigit = true ∨ c ∈ c!"abcdefABCDEF")) : LexCause src .unwrap
  /-- The escapes `\e` and `\u`. -/
  | escape (hq : HasQuote src) (h : c!"\\e" <:+: src ∨ c!"\\u" <:+: src) : LexCause src .unimplemented
  /-- `$name[` in a string. -/
  | element {w : Text} (hq : HasQuote src) (hw : IsLabel w) (h : c!"$" ++ w ++ c!"[" <:+: src) : LexCause src .unimplemented
  /-- `${` in a string, whose block is not closed. -/
  | dollarBrace (hq : HasQuote src) (h : c!"${" <:+: src) : LexCause src .index
  /-- A string in double quotes that is not closed. -/
  | double {o post : Text} {a : Nat} (ho : o = c!"\"" ∨ o = c!"b\"") (h : OpensAt src o post a)
      (hp : '$' ∈ post ∨ Unclosed '"' post) : LexCause src .subOverflow
  /-- A string in backquotes, where the source ends with a line break, a `{` or (somehow) with an interpolation. -/
  | backquote {post : Text} {a : Nat} (h : OpensAt src c!"`" post a)
      (hp : '$' ∈ post ∨ c!"\n" <:+ post ∨ c!"{" <:+ post) : LexCause src .subOverflow
  /-- A character from `\u0080` to `ÿ`, or any beyond ASCII where there are blocks in strings. -/
  | wide {c : Char} (hc : c ∈ src) (h : 128 ≤ c.toNat) (hb : c.toNat ≤ 255 ∨ HasBlock src) : LexCause src .charBoundary

end Pico
