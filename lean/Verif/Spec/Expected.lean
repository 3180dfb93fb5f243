import Verif.Model.Parser
/-!
# What the parser says it expected

An error of the parser lists tokens. `expectations` is the list of all lists it can show, and `Token.like`
says which tokens of a source an entry of such a list stands for.
-/
namespace Pico

/-- Is the token of the kind that is named in an error? The entries for names, variables and texts stand for
every name, variable and text. -/
def Token.like : Token → Token → Bool
  | .k a, .k b => decide (a = b)
  | .variable _, .variable _ => true
  | .string _, .string _ => true
  | .encaps _, .encaps _ => true
  | _, _ => false

/-- All lists of tokens in errors of the parser. -/
def expectations : List (List Token) :=
  [[],
   [.string []], [.variable []], [.encaps []],
   [.k .ParenthesesOpen], [.k .ParenthesesClose], [.k .CurlyBracesOpen], [.k .CurlyBracesClose],
   [.k .SquareBracketClose], [.k .SemiColon], [.k .Colon], [.k .Equal], [.k .As], [.k .While], [.k .Class],
   [.k .ScopeOp], [.k .DoubleQuote], [.k .HereDocEnd],
   [.k .Dollar, .variable []],
   [.k .Colon, .k .SemiColon],
   [.k .Array, .k .SquareBracketOpen, .encaps []]]

end Pico
