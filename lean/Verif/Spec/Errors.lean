import Verif.Model.Api
/-!
# What an error of the tokenizer points at

The range of an error is stated with respect to the source, without the tokenizer's state.
-/
namespace Pico

/-- A range begins at the beginning of `o` in `pre ++ o ++ post`, which is the whole source. -/
def OpensAt (src o post : Text) (p : Nat) : Prop := ∃ pre, src = pre ++ o ++ post ∧ byteLen pre = p

/-- No `q` stands in the text but behind a backslash. -/
inductive Unclosed (q : Char) : Text → Prop
  | nil : Unclosed q []
  | escaped {c : Char} {r : Text} (h : Unclosed q r) : Unclosed q ('\\' :: c :: r)
  | other {c : Char} {r : Text} (h1 : c ≠ q) (h2 : c ≠ '\\') (h : Unclosed q r) : Unclosed q (c :: r)

/-- What has been begun and not been finished, with the message the tokenizer gives and the range it reports. -/
inductive Unfinished (src : Text) : String → Span → Prop
  | single {o post : Text} {a : Nat} (ho : o = c!"'" ∨ o = c!"b'") (h : OpensAt src o post a)
      (hp : Unclosed '\'' post) :
      Unfinished src "single-quoted string literal" (mkSpan a (byteLen src + 1))
  | double {o post : Text} {a b : Nat} (ho : o = c!"\"" ∨ o = c!"b\"") (h : OpensAt src o post a)
      (hp : '$' ∈ post ∨ Unclosed '"' post) (hab : a ≤ b) (hb : b ≤ byteLen src) : Unfinished src "double-quoted string literal" (mkSpan a b)
  | backquote {post : Text} {a b : Nat} (h : OpensAt src c!"`" post a) (hab : a ≤ b)
      (hb : b ≤ byteLen src) : Unfinished src "Backquote" (mkSpan a b)
  | doc {o post : Text} {a b : Nat} (ho : o = c!"<<<" ∨ o = c!"b<<<") (h : OpensAt src o post a) (hab : a ≤ b)
      (hb : b ≤ byteLen src) : Unfinished src "Here/Nowdoc" (mkSpan a b)
  | docEnd {o post : Text} {a b : Nat} (ho : o = c!"<<<" ∨ o = c!"b<<<") (h : OpensAt src o post a) (hab : a ≤ b)
      (hb : b ≤ byteLen src) :
      Unfinished src "Here/Nowdoc: end-tag requires to be followed by a newline" (mkSpan a b)
  | escape {a : Nat} (h : OpensAt src c!"\\" [] a) : Unfinished src "string escape sequence" (mkSpan a (a + 1))
  /-- The empty range reported for a comment is *behind* its opening, and no `*/` follows. -/
  | comment {o post : Text} {a : Nat} (ho : o = c!"/*" ∨ o = c!"/**") (h : OpensAt src o post a)
      (hp : ¬ c!"*/" <:+: post) : Unfinished src "comment" (mkSpan (a + byteLen o) (a + byteLen o))

/-- The characters that are tokens of their own (or the beginning of a longer one). -/
def signs : Text := c!";:,.[]()|^&+-/*=%!~$<>?@"

/-- `c` does not begin a name and is no sign. -/
def Odd (c : Char) : Prop :=
  ¬ ('a' ≤ c ∧ c ≤ 'z') ∧ ¬ ('A' ≤ c ∧ c ≤ 'Z') ∧ ¬ ('\u0080' ≤ c ∧ c ≤ 'ÿ') ∧ c ≠ '_' ∧ c ∉ signs

/-- The error points at what it is about. -/
inductive Culprit (src : Text) : SyntaxErr → Prop
  | unknown {c : Char} {post : Text} {a : Nat} (h : OpensAt src [c] post a) (hc : Odd c) :
      Culprit src (.unknownCharacter (mkSpan a (a + 1)))
  | unfinished {what : String} {sp : Span} (h : Unfinished src what sp) : Culprit src (.unterminated what sp)

end Pico
