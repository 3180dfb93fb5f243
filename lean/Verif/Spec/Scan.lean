import Verif.Model.Api
import Verif.Spec.Grammar
/-!
# What is said about scanning a whole source

Vocabulary for the statements about the line table, token positions, termination and braces.
-/
namespace Pico

/-- A usable line table when everything up to `p` has been scanned: it begins with 0, does not decrease, and
no entry is beyond `p`. -/
structure LinesOk (m : LineMap) (p : Nat) : Prop where
  head : m.data.head? = some 0
  sorted : m.data.Pairwise (· ≤ ·)
  upto : ∀ x ∈ m.data, x ≤ p

/-- Number literals. -/
def isNumber : Token → Bool
  | .int _ => true
  | .double _ => true
  | _ => false

/-- Opening braces. -/
def opensBrace (t : Token) : Bool := t == .k .CurlyBracesOpen || t == .k .DollarCurlyBracesOpen

/-- The closing brace. -/
def closesBrace (t : Token) : Bool := t == .k .CurlyBracesClose

/-- Braces. -/
def isBrace (t : Token) : Bool := opensBrace t || closesBrace t

/-- The source contains `{$` or `${`: the openings of an expression inside a string. -/
def HasBlock (src : Text) : Prop := c!"{$" <:+: src ∨ c!"${" <:+: src

/-- The source contains something that begins an interpolated string: a double quote, a back quote or `<<<`. -/
def HasQuote (src : Text) : Prop := c!"\"" <:+: src ∨ c!"`" <:+: src ∨ c!"<<<" <:+: src

/-- The tokenizer of `src` has delivered the tokens `toks` and is now in the state `t`. -/
inductive Scanned (src : Text) : List TokSpan → Tz → Prop
  | start : Scanned src [] (Tz.new src)
  | next {toks : List TokSpan} {t t' : Tz} {x : TokSpan} (n : Nat) (h : Scanned src toks t)
      (hn : nextToken n t = .ok x t') : Scanned src (toks ++ [x]) t'

/-- The states of the tokenizer after each call of `next_token`, whether it delivered a token or an error. -/
inductive Moment (src : Text) : Tz → Prop
  | token {toks : List TokSpan} {t : Tz} (h : Scanned src toks t) : Moment src t
  | error {toks : List TokSpan} {t t' : Tz} {e : SyntaxErr} (n : Nat) (h : Scanned src toks t)
      (hn : nextToken n t = .err e t') : Moment src t'

/-- How many tokens satisfy `p`. -/
def count (p : Token → Bool) (toks : List TokSpan) : Nat := (toks.filter fun x => p x.tok).length

end Pico
