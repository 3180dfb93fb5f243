import Verif.Spec.Source
/-!
# How tokens are written

The texts a token may be written as, and what it means that a token stands where its range says. Nothing here
refers to how the tokenizer works.
-/
namespace Pico

/-- The tags with their tokens. -/
def tagTexts : List (Text × Kw) :=
  [(c!"<?php", .OpenTag), (c!"<?", .OpenTag), (c!"<?=", .OpenTagWithEcho), (c!"?>", .CloseTag)]

/-- Symbols that are not among `symbols`. -/
def rareSymbols : List (Text × Kw) := [(c!"$", .Dollar), (c!"**=", .PowEqual), (c!"${", .DollarCurlyBracesOpen)]

/-- `w` is a way to write the token. Two of the ways are peculiar to this tokenizer: the token of `yield` takes in
the blanks behind the word, and the token of an arrow inside of a string covers the minus sign only. -/
inductive WrittenAs : Token → Text → Prop
  | variable (n : Text) : WrittenAs (.variable n) (c!"$" ++ n)
  | name (w : Text) : WrittenAs (.string w) w
  | html (s : Text) : WrittenAs (.inlineHtml s) s
  | line (o s : Text) (h : o = c!"#" ∨ o = c!"//") : WrittenAs (.comment s) (o ++ s)
  | block (o s : Text) (h : o = c!"/*" ∨ o = c!"/**") : WrittenAs (.comment s) (o ++ s ++ c!"*/")
  | word {w : Text} {k : Kw} (h : (w, k) ∈ reservedWords) : WrittenAs (.k k) w
  | symbol {w : Text} {k : Kw} (h : (w, k) ∈ symbols) : WrittenAs (.k k) w
  | tag {w : Text} {k : Kw} (h : (w, k) ∈ tagTexts) : WrittenAs (.k k) w
  | cast (b w b' : Text) (k : Kw) (hb : Spaces b) (h : (w, k) ∈ castWords) (hb' : Spaces b') :
      WrittenAs (.k k) (c!"(" ++ b ++ w ++ b' ++ c!")")
  | yields (b : Text) (h : Blank b) : WrittenAs (.k .Yield) (c!"yield" ++ b)
  | yieldFrom (b : Text) (h : Blank b) : WrittenAs (.k .YieldFrom) (c!"yield" ++ b ++ c!"from")
  | rare {w : Text} {k : Kw} (h : (w, k) ∈ rareSymbols) : WrittenAs (.k k) w
  | innerArrow : WrittenAs (.k .ObjectOp) c!"-"

/-- The tokens whose ranges are spoken about: all but numbers, the texts of strings, the marks at the ends of
strings, the end of the source, and names that are not ASCII. -/
def ranged : Token → Bool
  | .variable n => n.all fun c => c.toNat < 128
  | .string w => w.all fun c => c.toNat < 128
  | .inlineHtml _ => true
  | .comment _ => true
  | .k k => !([.End, .DoubleQuote, .Backquote, .HereDocStart, .HereDocEnd].contains k)
  | _ => false

/-- The range of the token is where it is written in the source. -/
def StandsIn (src : Text) (x : TokSpan) : Prop :=
  ∃ pre w post, src = pre ++ w ++ post ∧ byteLen pre = x.span.start ∧ byteLen (pre ++ w) = x.span.stop ∧
    WrittenAs x.tok w

end Pico
