import Verif.Model.Token
/-!
# Brackets
-/
namespace Pico

/-- The three kinds of brackets. -/
inductive Bracket
  | round | square | curly
  deriving DecidableEq

/-- The opening brackets; `${` in a string is closed by `}`. -/
def Bracket.opens : Bracket → Token → Bool
  | .round, .k .ParenthesesOpen => true
  | .square, .k .SquareBracketOpen => true
  | .curly, .k .CurlyBracesOpen => true
  | .curly, .k .DollarCurlyBracesOpen => true
  | _, _ => false

/-- The closing brackets. -/
def Bracket.closes : Bracket → Token → Bool
  | .round, .k .ParenthesesClose => true
  | .square, .k .SquareBracketClose => true
  | .curly, .k .CurlyBracesClose => true
  | _, _ => false

/-- No bracket is closed that has not been opened: up to any point there are at least as many opening as closing brackets
of each kind. -/
def NoStray (ts : List Token) : Prop :=
  ∀ (b : Bracket) (us vs : List Token), ts = us ++ vs → us.countP b.closes ≤ us.countP b.opens

/-- One token: an opening bracket is put on the stack, a closing one takes its counterpart from it. -/
def nestTok (st : List Bracket) (t : Token) : Option (List Bracket) :=
  if Bracket.round.opens t then some (.round :: st)
  else if Bracket.square.opens t then some (.square :: st)
  else if Bracket.curly.opens t then some (.curly :: st)
  else if Bracket.round.closes t then (match st with | .round :: st => some st | _ => none)
  else if Bracket.square.closes t then (match st with | .square :: st => some st | _ => none)
  else if Bracket.curly.closes t then (match st with | .curly :: st => some st | _ => none)
  else some st

/-- The brackets that are still open after the tokens; `none` if a bracket is closed that is not the last one opened. -/
def nest (st : List Bracket) : List Token → Option (List Bracket)
  | [] => some st
  | t :: ts => (nestTok st t).bind fun st => nest st ts

/-- The brackets match. -/
def Balanced (ts : List Token) : Prop := nest [] ts = some []

end Pico
