import Verif.Spec.Grammar
/-!
# Appendices of a variable that are not finished, and what is called

Used in the statements about C22 and C50.
-/
namespace Pico

/-- An index whose bracket is not closed, an arrow without a name, two colons without a variable. -/
inductive BadAppendix : List Token → Prop
  | index {ts : List Token} {i : Option Expr} (h : Derives .opt ts i) : BadAppendix (.k .SquareBracketOpen :: ts)
  | member : BadAppendix [.k .ObjectOp]
  | static : BadAppendix [.k .ScopeOp]

/-- Names of functions and variables: what is called. -/
inductive Called : List Token → Prop
  | var (x : Text) : Called [.variable x]
  | name (abs : Bool) (ns : List Text) (id : Text) : Called (qualToks abs ns id)

end Pico
