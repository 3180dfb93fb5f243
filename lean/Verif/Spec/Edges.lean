import Verif.Spec.Grammar
/-!
# How statements begin and end
-/
namespace Pico

/-- Statements end with `;` or `}`. -/
def endsStmt : Token → Bool
  | .k .SemiColon | .k .CurlyBracesClose => true
  | _ => false

/-- The tokens expressions begin with. -/
def beginsExpr : Token → Bool
  | .variable _ | .int _ | .double _ | .string _ | .encaps _ => true
  | .k kw =>
    (prefixOf kw).isSome || (castOf kw).isSome || (includeOf kw).isSome || (magicOf kw).isSome ||
    match kw with
    | .ParenthesesOpen | .SquareBracketOpen | .Array | .List | .NsSeparator | .Static | .DoubleQuote | .HereDocStart
    | .New | .Clone | .Yield | .Exit | .Isset | .Empty | .Function => true
    | _ => false
  | _ => false

/-- The tokens statements begin with. -/
def beginsStmt : Token → Bool
  | .inlineHtml _ => true
  | .k .SemiColon | .k .CurlyBracesOpen | .k .Echo | .k .Return | .k .Break | .k .Continue | .k .Throw | .k .Unset
  | .k .If | .k .While | .k .Do | .k .For | .k .Foreach | .k .Try | .k .Switch | .k .Global
  | .k .Abstract | .k .Final | .k .Class | .k .Interface | .k .Trait => true
  | t => beginsExpr t

/-- The tokens the statements of a file begin with. -/
def beginsTop : Token → Bool
  | .k .Namespace | .k .Use => true
  | t => beginsStmt t

end Pico
