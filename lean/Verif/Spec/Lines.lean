import Verif.Model.Api
/-!
# Where a line break is counted

The tokenizer counts line breaks as it goes; it does not see those in the places named here. What the lines of
a text are is said without the tokenizer.
-/
namespace Pico

/-- No line break stands in a place where the tokenizer would not count it: in a heredoc, behind a backslash, in
a block comment or outside of the tags. -/
structure Counted (src : Text) : Prop where
  doc : ¬ c!"<<<" <:+: src
  escape : ¬ c!"\\\n" <:+: src
  comment : ∀ o body, (o = c!"/*" ∨ o = c!"/**") → (o ++ body ++ c!"*/") <:+: src → ¬ c!"*/" <:+: body → '\n' ∉ body
  outside : ∀ a b c, src = a ++ b ++ c → (a = [] ∨ c!"?>" <:+ a) → ¬ c!"<?" <:+: b → '\n' ∉ b

/-- `pre` is what stands in front of a line. -/
def LineBegins (pre : Text) : Prop := pre = [] ∨ c!"\n" <:+ pre

/-- Line number `n` (from 0) of the source has the bytes from `a` up to `b`, with its line break, and the offset
`pos` belongs to it; an offset at or behind the end of the source belongs to the last line. -/
def OnLine (src : Text) (pos n a b : Nat) : Prop :=
  ∃ pre line post, src = pre ++ line ++ post ∧ LineBegins pre ∧ pre.count '\n' = n ∧ byteLen pre = a ∧
    byteLen (pre ++ line) = b ∧ a ≤ pos ∧
    ((pos < b ∧ ∃ m, line = m ++ c!"\n" ∧ '\n' ∉ m) ∨ (post = [] ∧ '\n' ∉ line))

/-- Line number `n` begins at byte `a`, and the offset `pos` belongs to it: it is not in front of it, and no line
break is between. -/
def BeginsLine (src : Text) (pos n a : Nat) : Prop :=
  ∃ pre post, src = pre ++ post ∧ LineBegins pre ∧ pre.count '\n' = n ∧ byteLen pre = a ∧ a ≤ pos ∧
    ∀ x y, post = x ++ '\n' :: y → pos ≤ a + byteLen x

end Pico
