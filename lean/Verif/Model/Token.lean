import Verif.Model.Basic
/-! # Tokens (src/tokens.rs) -/
namespace Pico

/-- src/tokens.rs:7-16 `Span` (byte positions; `doc` is `doc_comment`). -/
structure Span where
  start : Nat
  stop : Nat
  doc : Option Text := none
  deriving DecidableEq, Repr

/-- src/tokenizer.rs:26-33 `mk_span`. The cast to `u32` is left out: by C53 it loses nothing for inputs
below 4 GiB. -/
def mkSpan (a b : Nat) : Span := ⟨a, b, none⟩

/-- src/tokens.rs:20-26 `Span::new`. -/
def Span.new : Span := ⟨0, 0, none⟩

/-- The tokens without payload, src/tokens.rs:49-216. -/
inductive Kw
  | End
  | SemiColon | Colon | Comma | Dot | SquareBracketOpen | SquareBracketClose
  | ParenthesesOpen | ParenthesesClose | BwOr | BwXor | Ampersand | Plus | Minus | Div | Mul | Equal
  | Mod | BoolNot | BwNot | Dollar | Lt | Gt | QuestionMark | Silence
  | DollarCurlyBracesOpen | CurlyBracesOpen | CurlyBracesClose | Backquote | DoubleQuote
  | HereDocStart | HereDocEnd
  | OpenTagWithEcho | OpenTag | CloseTag
  | Exit | Function | Const | Return | Yield | YieldFrom | Try | Catch | Finally | Throw
  | If | ElseIf | EndIf | Else | While | EndWhile | Do | For | Endfor | Foreach | EndForeach
  | Declare | EndDeclare | InstanceOf | As | Switch | EndSwitch | Case | Default | Break | Continue
  | Goto | Echo | Print | Class | Interface | Trait | Extends | Implements
  | ObjectOp | ScopeOp | NsSeparator | Ellipsis | Coalesce | New | Clone | Var
  | CastInt | CastDouble | CastString | CastArray | CastObject | CastBool | CastUnset
  | Eval | Include | IncludeOnce | Require | RequireOnce | Namespace | Use | Insteadof | Global
  | Isset | Empty | HaltCompiler | Static | Abstract | Final | Private | Protected | Public | Unset
  | DoubleArrow | List | Array | Callable | Increment | Decrement
  | IsIdentical | IsNotIdentical | IsEqual | IsNotEqual | SpaceShip | IsSmallerOrEqual
  | IsGreaterOrEqual | PlusEqual | MinusEqual | MulEqual | Pow | PowEqual | DivEqual | ConcatEqual
  | ModEqual | SlEqual | SrEqual | AndEqual | OrEqual | XorEqual | BoolOr | BoolAnd
  | LogicalOr | LogicalAnd | LogicalXor | Sl | Sr
  | MagicClass | MagicTrait | MagicFunction | MagicMethod | MagicLine | MagicFile | MagicDir
  | MagicNamespace
  deriving DecidableEq, Repr

/-- src/tokens.rs:49-216 `Token`. A `Double` keeps the text of its literal instead of the rounded `f64`. -/
inductive Token
  | k (kw : Kw)
  | variable (name : Text)
  | int (value : Nat)
  | double (lit : Text)
  | comment (text : Text)
  | string (name : Text)
  | encaps (text : Text)          -- ConstantEncapsedString
  | binary (bytes : List Byte)    -- BinaryCharSequence
  | inlineHtml (text : Text)
  deriving DecidableEq, Repr

/-- src/tokens.rs:5 `TokenSpan`. -/
structure TokSpan where
  tok : Token
  span : Span
  deriving DecidableEq, Repr

/-- src/tokens.rs:30-34 `SyntaxError`. -/
inductive SyntaxErr
  | none
  | unterminated (what : String) (span : Span)
  | unknownCharacter (span : Span)
  deriving DecidableEq, Repr

/-- src/tokens.rs:237-358 `Token::repr`; `none` is `unimplemented!()`. -/
def Kw.repr? : Kw → Option Text
  | .OpenTagWithEcho => c!"<?=" | .OpenTag => c!"<?php" | .CloseTag => c!"?>"
  | .Exit => c!"exit" | .Function => c!"function" | .Const => c!"const" | .Return => c!"return"
  | .Try => c!"try" | .Catch => c!"catch" | .Finally => c!"finally" | .Throw => c!"throw"
  | .If => c!"if" | .ElseIf => c!"elseif" | .EndIf => c!"endif" | .Else => c!"else"
  | .While => c!"while" | .EndWhile => c!"endwhile" | .Do => c!"do" | .Foreach => c!"foreach"
  | .EndForeach => c!"endforeach" | .For => c!"for" | .Endfor => c!"endfor"
  | .Declare => c!"declare" | .EndDeclare => c!"enddeclare" | .InstanceOf => c!"instanceof"
  | .As => c!"as" | .Switch => c!"switch" | .EndSwitch => c!"endswitch" | .Case => c!"case"
  | .Default => c!"default" | .Break => c!"break" | .Continue => c!"continue" | .Goto => c!"goto"
  | .Echo => c!"echo" | .Print => c!"print" | .Class => c!"class" | .Interface => c!"interface"
  | .Trait => c!"trait" | .Extends => c!"extends" | .Implements => c!"implements"
  | .ObjectOp => c!"->" | .ScopeOp => c!"::" | .NsSeparator => c!"\\" | .Ellipsis => c!"..."
  | .Coalesce => c!"??" | .New => c!"new" | .Clone => c!"clone" | .Var => c!"var"
  | .CastInt => c!"int" | .CastDouble => c!"double" | .CastString => c!"string"
  | .CastArray => c!"array" | .CastObject => c!"object" | .CastBool => c!"bool"
  | .CastUnset => c!"unset" | .Eval => c!"eval" | .IncludeOnce => c!"include_once"
  | .Include => c!"include" | .RequireOnce => c!"require_once" | .Require => c!"require"
  | .Namespace => c!"namespace" | .Use => c!"use" | .Insteadof => c!"insteadof"
  | .Global => c!"global" | .Isset => c!"isset" | .Empty => c!"empty"
  | .HaltCompiler => c!"__halt_compiler" | .Static => c!"static" | .Abstract => c!"abstract"
  | .Final => c!"final" | .Private => c!"private" | .Protected => c!"protected"
  | .Public => c!"public" | .Unset => c!"unset" | .DoubleArrow => c!"=>" | .List => c!"list"
  | .Array => c!"array" | .Callable => c!"callable" | .Increment => c!"++" | .Decrement => c!"--"
  | .IsIdentical => c!"===" | .IsNotIdentical => c!"!==" | .IsEqual => c!"=="
  | .IsNotEqual => c!"!=" | .SpaceShip => c!"<=>" | .IsSmallerOrEqual => c!"<="
  | .IsGreaterOrEqual => c!">=" | .PlusEqual => c!"+=" | .MinusEqual => c!"-="
  | .MulEqual => c!"*=" | .Pow => c!"**" | .PowEqual => c!"**=" | .DivEqual => c!"/="
  | .ConcatEqual => c!".=" | .ModEqual => c!"%=" | .SlEqual => c!"<<=" | .SrEqual => c!">>="
  | .AndEqual => c!"&=" | .OrEqual => c!"|=" | .XorEqual => c!"^=" | .BoolOr => c!"||"
  | .BoolAnd => c!"&&" | .LogicalOr => c!"OR" | .LogicalAnd => c!"AND" | .LogicalXor => c!"XOR"
  | .Sl => c!"<<" | .Sr => c!">>" | .CurlyBracesOpen => c!"{" | .CurlyBracesClose => c!"}"
  | .MagicClass => c!"__CLASS__" | .MagicTrait => c!"__TRAIT__"
  | .MagicFunction => c!"__FUNCTION__" | .MagicMethod => c!"__METHOD__"
  | .MagicLine => c!"__LINE__" | .MagicFile => c!"__FILE__" | .MagicDir => c!"__DIR__"
  | .MagicNamespace => c!"__NAMESPACE__"
  | _ => none

/-- `Token::repr` where it is known to be defined (empty text otherwise; only used on table entries). -/
def Kw.repr (k : Kw) : Text := k.repr?.getD []

/-- src/tokens.rs:220-233 `Token::is_reserved_non_modifier`. -/
def Kw.isReservedNonModifier : Kw → Bool
  | .Include | .IncludeOnce | .Eval | .Require | .RequireOnce | .LogicalOr | .LogicalXor
  | .LogicalAnd | .InstanceOf | .New | .Clone | .Exit | .If | .ElseIf | .Else | .EndIf | .Echo
  | .Do | .While | .EndWhile | .For | .Foreach | .EndForeach | .Declare | .EndDeclare | .As | .Try
  | .Catch | .Finally | .Throw | .Use | .Insteadof | .Global | .Var | .Unset | .Isset | .Empty
  | .Continue | .Goto | .Function | .Const | .Return | .Print | .Yield | .List | .Switch
  | .EndSwitch | .Case | .Default | .Break | .Array | .Callable | .Extends | .Implements
  | .Namespace | .Trait | .Interface | .Class | .MagicClass | .MagicTrait | .MagicFunction
  | .MagicMethod | .MagicLine | .MagicFile | .MagicDir | .MagicNamespace => true
  | _ => false

end Pico
