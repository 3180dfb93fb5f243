import Verif.Model.Ast
import Verif.Spec.Brackets
/-!
# The language, as a grammar

`Derives c ts x`: the tokens `ts` are a phrase of the syntactic category `c` and mean the tree `x`. This is
the specification the parser is compared with; it does not mention the parser. Trees carry no positions.

Operators are described by one table (`infixLevel`, `infixOp`), and expressions are stratified by it:
`Cat.expr p s` are the expressions whose outermost infix operators all bind tighter than level `p`; `s` is
the highest level of an infix operator that may follow the expression without being drawn into it (an
expression that ends in an assignment, say, has `s = 0`: whatever operator follows belongs to the right-hand
side).
-/
namespace Pico

/-- An expression without position. -/
abbrev bare (k : ExprK) : Expr := .mk k Span.new

/-- A statement without position. -/
abbrev bareS (k : StmtK) : Stmt := .mk k Span.new

/-! ## Positions -/

/-- Words and variables. -/
def isWord : Token → Bool
  | .string _ => true
  | .variable _ => true
  | _ => false

/-- Words and variables do not stand at the first byte of a source: they follow an open tag. -/
def Placed (toks : List TokSpan) : Prop := ∀ t ∈ toks, isWord t.tok = true → 1 ≤ t.span.start

/-! ## Operators -/

/-- The precedence table (`xor` and `^` make the same node: the trees have no logical exclusive or): `or` < `xor` < `and` < `?:` < `||` < `&&` < `|` < `^` < `&` < equality <
comparison < shift < `+ - .` < `* / %` < `**` < `instanceof`. -/
def infixLevel : Kw → Option Nat
  | .LogicalOr => some 1
  | .LogicalXor => some 2
  | .LogicalAnd => some 3
  | .QuestionMark => some 4
  | .BoolOr => some 5
  | .BoolAnd => some 6
  | .BwOr => some 7
  | .BwXor => some 8
  | .Ampersand => some 9
  | .IsEqual | .IsNotEqual | .IsIdentical | .IsNotIdentical => some 10
  | .Lt | .Gt | .IsSmallerOrEqual | .IsGreaterOrEqual | .SpaceShip => some 11
  | .Sl | .Sr => some 12
  | .Plus | .Minus | .Dot => some 13
  | .Mul | .Div | .Mod => some 14
  | .Pow => some 15
  | .InstanceOf => some 16
  | _ => none

/-- The level of prefix operators and casts, above every infix operator. -/
def prefixLevel : Nat := 17

/-- The binary operators of the left associative levels. -/
def leftOp : Kw → Option Op
  | .LogicalOr | .BoolOr => some .Or
  | .LogicalAnd | .BoolAnd => some .And
  | .LogicalXor | .BwXor => some .BitwiseExclOr
  | .BwOr => some .BitwiseInclOr
  | .Ampersand => some .BitwiseAnd
  | .IsEqual => some .Eq
  | .IsNotEqual => some .Neq
  | .IsIdentical => some .Identical
  | .IsNotIdentical => some .NotIdentical
  | .Lt => some .Lt
  | .Gt => some .Gt
  | .IsSmallerOrEqual => some .Le
  | .IsGreaterOrEqual => some .Ge
  | .SpaceShip => some .Spaceship
  | .Sl => some .Sl
  | .Sr => some .Sr
  | .Plus => some .Add
  | .Minus => some .Sub
  | .Dot => some .Concat
  | .Mul => some .Mul
  | .Div => some .Div
  | .Mod => some .Mod
  | _ => none

/-- The prefix operators. -/
def prefixOf : Kw → Option UnaryOp
  | .Plus => some .Positive
  | .Minus => some .Negative
  | .BoolNot => some .Not
  | .BwNot => some .BitwiseNot
  | .Silence => some .SilenceErrors
  | .Increment => some .PreInc
  | .Decrement => some .PreDec
  | _ => none

/-- The combined assignment operators, without `&=` (for which the parser builds the operator `&&`). -/
def compoundOf : Kw → Option Op
  | .PlusEqual => some .Add
  | .MinusEqual => some .Sub
  | .MulEqual => some .Mul
  | .PowEqual => some .Pow
  | .DivEqual => some .Div
  | .ConcatEqual => some .Concat
  | .ModEqual => some .Mod
  | .XorEqual => some .BitwiseExclOr
  | .SlEqual => some .Sl
  | .SrEqual => some .Sr
  | _ => none

/-- The casts. -/
def castOf : Kw → Option Ty
  | .CastInt => some .Int
  | .CastDouble => some .Double
  | .CastString => some .String
  | .CastArray => some .Array
  | .CastObject => some (.Object none)
  | .CastBool => some .Bool
  | _ => none

/-- The inclusions. -/
def includeOf : Kw → Option IncludeTy
  | .Include => some .Include
  | .IncludeOnce => some .IncludeOnce
  | .Require => some .Require
  | .RequireOnce => some .RequireOnce
  | _ => none

/-- The magic constants. -/
def magicOf : Kw → Option Const
  | .MagicLine => some .MagicLine
  | .MagicFile => some .MagicFile
  | .MagicDir => some .MagicDir
  | .MagicTrait => some .MagicTrait
  | .MagicMethod => some .MagicMethod
  | .MagicFunction => some .MagicFunction
  | .MagicClass => some .MagicClass
  | _ => none

/-- Tokens that close whatever construct an expression stands in. -/
def closesExpr : Kw → Bool
  | .SemiColon | .ParenthesesClose | .SquareBracketClose | .CurlyBracesClose | .Comma | .Colon
  | .DoubleArrow | .As => true
  | _ => false

/-- What may follow an expression of `Cat.expr p s`: nothing, a closing token, or an infix operator of level
at most `s`. -/
def endsExpr (s : Nat) : List Token → Bool
  | [] => true
  | .k k :: _ => closesExpr k || (match infixLevel k with | some lv => decide (lv ≤ s) | none => false)
  | _ => false

/-- The next token does not extend a variable: it is not `[`, `->`, `::` or `(`. -/
def endsVar : List Token → Bool
  | .k .SquareBracketOpen :: _ => false
  | .k .ObjectOp :: _ => false
  | .k .ScopeOp :: _ => false
  | .k .ParenthesesOpen :: _ => false
  | _ => true

/-! ## Names -/

/-- The tokens of a qualified name without leading separator. -/
def nameToks : List Text → Text → List Token
  | [], id => [.string id]
  | x :: xs, id => .string x :: .k .NsSeparator :: nameToks xs id

/-- The tokens of a qualified name: optional leading separator, namespace segments, identifier. -/
def qualToks (abs : Bool) (ns : List Text) (id : Text) : List Token :=
  (if abs then [.k .NsSeparator] else []) ++ nameToks ns id

/-- The path it means: the segments but the last are the namespace, joined by backslashes. -/
def qualPath (abs : Bool) (ns : List Text) (id : Text) : Path :=
  ⟨abs, if ns = [] then none else some (List.intercalate ['\\'] ns), id⟩

/-- `static` or a qualified name. -/
inductive ClassName : List Token → Path → Prop
  | static : ClassName [.k .Static] ⟨false, none, c!"static"⟩
  | qual (abs : Bool) (ns : List Text) (id : Text) : ClassName (qualToks abs ns id) (qualPath abs ns id)

/-- The reserved words that are allowed as names of constants and methods behind `::` (all but the modifiers), with the
spelling the name gets in the tree. -/
def memberWords : List (Text × Kw) :=
  [(c!"include", .Include), (c!"include_once", .IncludeOnce), (c!"eval", .Eval), (c!"require", .Require),
   (c!"require_once", .RequireOnce), (c!"OR", .LogicalOr), (c!"XOR", .LogicalXor), (c!"AND", .LogicalAnd),
   (c!"instanceof", .InstanceOf), (c!"new", .New), (c!"clone", .Clone), (c!"exit", .Exit), (c!"if", .If),
   (c!"elseif", .ElseIf), (c!"else", .Else), (c!"endif", .EndIf), (c!"echo", .Echo), (c!"do", .Do),
   (c!"while", .While), (c!"endwhile", .EndWhile), (c!"for", .For), (c!"foreach", .Foreach),
   (c!"endforeach", .EndForeach), (c!"declare", .Declare), (c!"enddeclare", .EndDeclare), (c!"as", .As),
   (c!"try", .Try), (c!"catch", .Catch), (c!"finally", .Finally), (c!"throw", .Throw), (c!"use", .Use),
   (c!"insteadof", .Insteadof), (c!"global", .Global), (c!"var", .Var), (c!"unset", .Unset), (c!"isset", .Isset),
   (c!"empty", .Empty), (c!"continue", .Continue), (c!"goto", .Goto), (c!"function", .Function), (c!"const", .Const),
   (c!"return", .Return), (c!"print", .Print), (c!"list", .List), (c!"switch", .Switch), (c!"endswitch", .EndSwitch),
   (c!"case", .Case), (c!"default", .Default), (c!"break", .Break), (c!"array", .Array), (c!"callable", .Callable),
   (c!"extends", .Extends), (c!"implements", .Implements), (c!"namespace", .Namespace), (c!"trait", .Trait),
   (c!"interface", .Interface), (c!"class", .Class), (c!"__CLASS__", .MagicClass), (c!"__TRAIT__", .MagicTrait),
   (c!"__FUNCTION__", .MagicFunction), (c!"__METHOD__", .MagicMethod), (c!"__LINE__", .MagicLine),
   (c!"__FILE__", .MagicFile), (c!"__DIR__", .MagicDir), (c!"__NAMESPACE__", .MagicNamespace)]

/-- An identifier behind `::`: a word, or a reserved word that is not a modifier. -/
inductive Ident : Token → Text → Prop
  | word (s : Text) : Ident (.string s) s
  | reserved (k : Kw) (s : Text) (h : (s, k) ∈ memberWords) : Ident (.k k) s

/-- A word of an expression: `true`, `false`, `null` (in any case, without namespace) or a name. -/
def constOf (p : Path) : ExprK :=
  if p.ns = none ∧ p.ident.map lowerAscii = c!"true" then .const .True
  else if p.ns = none ∧ p.ident.map lowerAscii = c!"false" then .const .False
  else if p.ns = none ∧ p.ident.map lowerAscii = c!"null" then .const .Null
  else .path p

/-- Comma separated names. -/
inductive NameList : List Token → List Path → Prop
  | one (abs : Bool) (ns : List Text) (id : Text) : NameList (qualToks abs ns id) [qualPath abs ns id]
  | cons (abs : Bool) (ns : List Text) (id : Text) {ts : List Token} {ps : List Path} (h : NameList ts ps) :
      NameList (qualToks abs ns id ++ .k .Comma :: ts) (qualPath abs ns id :: ps)

/-! ## Variables: indices and members extend the innermost access of the same kind -/

def withIndex (b : Expr) (i : Option Expr) : Expr :=
  match b with
  | .mk (.arrayIdx e is) _ => bare (.arrayIdx e (is ++ [i]))
  | _ => bare (.arrayIdx b [i])

def withMember (b m : Expr) : Expr :=
  match b with
  | .mk (.objMember e ms) _ => bare (.objMember e (ms ++ [m]))
  | _ => bare (.objMember b [m])

def withStatic (b m : Expr) : Expr :=
  match b with
  | .mk (.staticMember e ms) _ => bare (.staticMember e (ms ++ [m]))
  | _ => bare (.staticMember b [m])

def isInstance : Expr → Bool
  | .mk (.instanceOf _ _) _ => true
  | _ => false

/-! ## Strings with interpolation -/

/-- A string is a sequence of literal fragments and expressions. -/
abbrev Part := Text ⊕ Expr

/-- The leaves of the resulting concatenation: neighbouring fragments are one, empty ones disappear. -/
def leaves : Text → List Part → List Expr
  | t, [] => if t = [] then [] else [bare (.str t)]
  | t, .inl s :: ps => leaves (t ++ s) ps
  | t, .inr e :: ps => (if t = [] then [] else [bare (.str t)]) ++ e :: leaves [] ps

/-- The concatenation of some expressions, nested to the right. -/
def concatAll (e : Expr) : List Expr → Expr
  | [] => e
  | e' :: es => bare (.binary .Concat e (concatAll e' es))

/-! ## Switch -/

/-- The cases of a switch from its labelled clauses (`none` is `default`): labels without statements belong
to the next clause that has statements; at the end they stand for themselves. `pend` and `dflt` are the labels
still waiting for statements. -/
def casesOf (pend : List Expr) (dflt : Bool) : List (Option Expr × List Stmt) → List Case
  | [] => (pend.map fun e => .mk [e] false []) ++ (if dflt then [.mk [] true []] else [])
  | (some e, []) :: cl => casesOf (pend ++ [e]) dflt cl
  | (none, []) :: cl => casesOf pend true cl
  | (some e, b) :: cl => .mk (pend ++ [e]) dflt b :: casesOf [] false cl
  | (none, b) :: cl => .mk pend true b :: casesOf [] false cl

/-! ## Declarations -/

/-- The keyword of a member modifier. -/
def modifierKw : MemberModifier → Kw
  | .Public => .Public | .Protected => .Protected | .Private => .Private
  | .Static => .Static | .Abstract => .Abstract | .Final => .Final

/-- The keyword of a class modifier. -/
def classModifierKw : ClassModifier → Kw
  | .Abstract => .Abstract | .Final => .Final

def memberModifierToks (ms : List MemberModifier) : List Token := ms.map fun m => .k (modifierKw m)

def classModifierToks (ms : List ClassModifier) : List Token := ms.map fun m => .k (classModifierKw m)

def refToks (r : Bool) : List Token := if r then [.k .Ampersand] else []

def variadicToks (v : Bool) : List Token := if v then [.k .Ellipsis] else []

/-- Type hints of parameters. -/
inductive TypeHint : List Token → Option Ty → Prop
  | none : TypeHint [] none
  | array : TypeHint [.k .Array] (some .Array)
  | callable : TypeHint [.k .Callable] (some .Callable)
  | name (abs : Bool) (ns : List Text) (id : Text) :
      TypeHint (qualToks abs ns id) (some (.Object (some (qualPath abs ns id))))
  -- the tree does not record the question mark
  | nullArray : TypeHint [.k .QuestionMark, .k .Array] (some .Array)
  | nullCallable : TypeHint [.k .QuestionMark, .k .Callable] (some .Callable)
  | nullName (abs : Bool) (ns : List Text) (id : Text) :
      TypeHint (.k .QuestionMark :: qualToks abs ns id) (some (.Object (some (qualPath abs ns id))))

/-- The captured variables of a closure. -/
inductive Captures : List Token → List (Bool × Text) → Prop
  | one (r : Bool) (v : Text) : Captures (refToks r ++ [.variable v]) [(r, v)]
  | cons (r : Bool) (v : Text) {ts : List Token} {vs : List (Bool × Text)} (h : Captures ts vs) :
      Captures (refToks r ++ .variable v :: .k .Comma :: ts) ((r, v) :: vs)

inductive UseClauses : Bool → List Token → List (Bool × Text) → Prop
  | none (c : Bool) : UseClauses c [] []
  | some {ts : List Token} {vs : List (Bool × Text)} (h : Captures ts vs) :
      UseClauses true (.k .Use :: .k .ParenthesesOpen :: ts ++ [.k .ParenthesesClose]) vs

/-- Comma separated variables (`global`). -/
inductive GlobalList : List Token → List Variable → Prop
  | one (v : Text) : GlobalList [.variable v] [.name v]
  | cons (v : Text) {ts : List Token} {vs : List Variable} (h : GlobalList ts vs) :
      GlobalList (.variable v :: .k .Comma :: ts) (.name v :: vs)

/-- The rules inside `use A, B { .. }`. -/
inductive TraitRules : List Token → List TraitUse → Prop
  | nil : TraitRules [] []
  | insteadOf (abs : Bool) (ns : List Text) (id : Text) {t : Token} {m : Text} (hm : Ident t m)
      {nts : List Token} {names : List Path} (hn : NameList nts names)
      {ts : List Token} {us : List TraitUse} (h : TraitRules ts us) :
      TraitRules (qualToks abs ns id ++ .k .ScopeOp :: t :: .k .Insteadof :: (nts ++ .k .SemiColon :: ts))
        (.insteadOf (qualPath abs ns id) m names :: us)
  | asQual (abs : Bool) (ns : List Text) (id : Text) {t : Token} {m : Text} (hm : Ident t m) (a : Text)
      {ts : List Token} {us : List TraitUse} (h : TraitRules ts us) :
      TraitRules (qualToks abs ns id ++ .k .ScopeOp :: t :: .k .As :: .string a :: .k .SemiColon :: ts)
        (.asAlias (some (qualPath abs ns id)) m MemberModifiers.none (some a) :: us)
  | asSimple {t : Token} {m : Text} (hm : Ident t m) (a : Text)
      {ts : List Token} {us : List TraitUse} (h : TraitRules ts us) :
      TraitRules (t :: .k .As :: .string a :: .k .SemiColon :: ts)
        (.asAlias none m MemberModifiers.none (some a) :: us)

/-- What else is accepted inside `use A, B { .. }`: `A::b;` and `b;` without any rule. -/
inductive LaxRules : List Token → List TraitUse → Prop
  | nil : LaxRules [] []
  | insteadOf (abs : Bool) (ns : List Text) (id : Text) {t : Token} {m : Text} (hm : Ident t m)
      {nts : List Token} {names : List Path} (hn : NameList nts names)
      {ts : List Token} {us : List TraitUse} (h : LaxRules ts us) :
      LaxRules (qualToks abs ns id ++ .k .ScopeOp :: t :: .k .Insteadof :: (nts ++ .k .SemiColon :: ts))
        (.insteadOf (qualPath abs ns id) m names :: us)
  | asQual (abs : Bool) (ns : List Text) (id : Text) {t : Token} {m : Text} (hm : Ident t m) (a : Text)
      {ts : List Token} {us : List TraitUse} (h : LaxRules ts us) :
      LaxRules (qualToks abs ns id ++ .k .ScopeOp :: t :: .k .As :: .string a :: .k .SemiColon :: ts)
        (.asAlias (some (qualPath abs ns id)) m MemberModifiers.none (some a) :: us)
  | asSimple {t : Token} {m : Text} (hm : Ident t m) (a : Text)
      {ts : List Token} {us : List TraitUse} (h : LaxRules ts us) :
      LaxRules (t :: .k .As :: .string a :: .k .SemiColon :: ts)
        (.asAlias none m MemberModifiers.none (some a) :: us)
  | qual (abs : Bool) (ns : List Text) (id : Text) {t : Token} {m : Text} (hm : Ident t m)
      {ts : List Token} {us : List TraitUse} (h : LaxRules ts us) :
      LaxRules (qualToks abs ns id ++ .k .ScopeOp :: t :: .k .SemiColon :: ts) us
  | simple {t : Token} {m : Text} (hm : Ident t m) {ts : List Token} {us : List TraitUse} (h : LaxRules ts us) :
      LaxRules (t :: .k .SemiColon :: ts) us

/-- `extends`/`implements` and names, or nothing. -/
inductive OptNames (k : Kw) : List Token → List Path → Prop
  | none : OptNames k [] []
  | some {ts : List Token} {ps : List Path} (h : NameList ts ps) : OptNames k (.k k :: ts) ps

inductive OptBase : List Token → Option Path → Prop
  | none : OptBase [] none
  | some (abs : Bool) (ns : List Text) (id : Text) :
      OptBase (.k .Extends :: qualToks abs ns id) (some (qualPath abs ns id))

/-- Clauses of a `use` at the top of a file. -/
inductive UseList : List Token → List UseClause → Prop
  | one (abs : Bool) (ns : List Text) (id : Text) : UseList (qualToks abs ns id) [⟨qualPath abs ns id, none⟩]
  | oneAs (abs : Bool) (ns : List Text) (id a : Text) :
      UseList (qualToks abs ns id ++ [.k .As, .string a]) [⟨qualPath abs ns id, some a⟩]
  | cons (abs : Bool) (ns : List Text) (id : Text) {ts : List Token} {cs : List UseClause} (h : UseList ts cs) :
      UseList (qualToks abs ns id ++ .k .Comma :: ts) (⟨qualPath abs ns id, none⟩ :: cs)
  | consAs (abs : Bool) (ns : List Text) (id a : Text) {ts : List Token} {cs : List UseClause}
      (h : UseList ts cs) :
      UseList (qualToks abs ns id ++ .k .As :: .string a :: .k .Comma :: ts)
        (⟨qualPath abs ns id, some a⟩ :: cs)

/-! ## The grammar -/

/-- Syntactic categories. `apps simple b`: indices, members and calls applied to the tree `b` (no calls if
`simple`). `stmt o`/`body o`: with `o = true` a following `else` would be drawn in. `fn closure abs ref`: a
function from its parameter list on. -/
inductive Cat
  | expr (p s : Nat)
  | var
  | apps (simple : Bool) (b : Expr)
  | opt
  | prop
  | cref
  | args
  | argl
  | exprs
  | items
  | parts
  | dflt
  | params
  | fn (closure abs ref : Bool)
  | vars
  | consts
  | fvar
  | varl
  | stmt (o : Bool)
  | body (o : Bool)
  | stmts
  | ifTail
  | catches
  | fin
  | clauses
  | member
  | members
  | top
  | tops

/-- What a phrase of each category means. -/
@[reducible] def Cat.Tree : Cat → Type
  | .expr _ _ => Expr
  | .var => Expr
  | .apps _ _ => Expr
  | .opt => Option Expr
  | .prop => Expr
  | .cref => Expr
  | .args => List Expr
  | .argl => List Expr
  | .exprs => List Expr
  | .items => List (Option Expr × Expr)
  | .parts => List Part
  | .dflt => Option Expr
  | .params => List Param
  | .fn _ _ _ => FnDecl
  | .vars => List (Text × Option Expr)
  | .consts => List (Text × Expr)
  | .fvar => Expr
  | .varl => List Expr
  | .stmt _ => Stmt
  | .body _ => List Stmt
  | .stmts => List Stmt
  | .ifTail => List Stmt
  | .catches => List Catch
  | .fin => Option (List Stmt)
  | .clauses => List (Option Expr × List Stmt)
  | .member => List Member
  | .members => List Member
  | .top => Stmt
  | .tops => List Stmt

/-- Is the tree a block? -/
def isBlock : Stmt → Bool
  | .mk (.block _) _ => true
  | _ => false

/-- Is the tree an expression, `echo`, `return`, `break`, `continue` or `throw`? -/
def isSimple : Stmt → Bool
  | .mk (.expr _) _ | .mk (.echo _) _ | .mk (.ret _) _ | .mk (.brk _) _ | .mk (.cont _) _ | .mk (.throw _) _ => true
  | _ => false

/-- The tokens that begin a variable (in the sense of `Cat.var`). -/
def startsVar : Token → Bool
  | .variable _ | .string _ | .encaps _ => true
  | .k .ParenthesesOpen | .k .Array | .k .SquareBracketOpen | .k .Static | .k .NsSeparator => true
  | _ => false

/-- The tokens that begin a class, an interface or a trait. -/
def startsClass : Token → Bool
  | .k .Trait | .k .Interface | .k .Abstract | .k .Final | .k .Class => true
  | _ => false

open Token (k string encaps) in
/-- The grammar; with `lax`, also the rules `x_..` at the end: what the parser accepts beyond it. In these rules `j` are
tokens that are dropped: arbitrary ones, except that they close no bracket they have not opened. -/
inductive DerivesX (lax : Bool) : (c : Cat) → List Token → c.Tree → Prop
  -- variables
  | v_name (n : Text) {ts e} (h : DerivesX lax (.apps false (bare (.var (.name n)))) ts e) :
      DerivesX lax .var (.variable n :: ts) e
  | v_paren {s ts e us e'} (h : DerivesX lax (.expr 0 s) ts e) (h' : DerivesX lax (.apps false e) us e') :
      DerivesX lax .var (k .ParenthesesOpen :: (ts ++ k .ParenthesesClose :: us)) e'
  | v_array {ts its us e} (h : DerivesX lax .items ts its) (h' : DerivesX lax (.apps false (bare (.array its))) us e) :
      DerivesX lax .var (k .Array :: k .ParenthesesOpen :: (ts ++ k .ParenthesesClose :: us)) e
  | v_bracket {ts its us e} (h : DerivesX lax .items ts its) (h' : DerivesX lax (.apps false (bare (.array its))) us e) :
      DerivesX lax .var (k .SquareBracketOpen :: (ts ++ k .SquareBracketClose :: us)) e
  | v_str (x : Text) {ts e} (h : DerivesX lax (.apps false (bare (.str x))) ts e) : DerivesX lax .var (encaps x :: ts) e
  | v_static {cts p} (n : Text) {ts e} (hc : ClassName cts p)
      (h : DerivesX lax (.apps false (bare (.staticMember (bare (.path p)) [bare (.var (.name n))]))) ts e) :
      DerivesX lax .var (cts ++ k .ScopeOp :: .variable n :: ts) e
  | v_scall {cts p t m as es ts e} (hc : ClassName cts p) (hm : Ident t m) (ha : DerivesX lax .args as es)
      (h : DerivesX lax (.apps false
        (bare (.call (bare (.staticMember (bare (.path p)) [bare (.path ⟨false, none, m⟩)])) es))) ts e) :
      DerivesX lax .var (cts ++ k .ScopeOp :: t :: (as ++ ts)) e
  | v_call (abs : Bool) (ns : List Text) (id : Text) {as es ts e} (ha : DerivesX lax .args as es)
      (h : DerivesX lax (.apps false (bare (.call (bare (.path (qualPath abs ns id))) es))) ts e) :
      DerivesX lax .var (qualToks abs ns id ++ (as ++ ts)) e
  -- what may be appended to a variable
  | a_nil (simple : Bool) (b : Expr) : DerivesX lax (.apps simple b) [] b
  | a_index {simple b ts i us e} (h : DerivesX lax .opt ts i) (h' : DerivesX lax (.apps simple (withIndex b i)) us e) :
      DerivesX lax (.apps simple b) (k .SquareBracketOpen :: (ts ++ k .SquareBracketClose :: us)) e
  | a_member {simple b ts m us e} (h : DerivesX lax .prop ts m) (h' : DerivesX lax (.apps simple (withMember b m)) us e) :
      DerivesX lax (.apps simple b) (k .ObjectOp :: (ts ++ us)) e
  | a_static {simple b} (n : Text) {us e}
      (h : DerivesX lax (.apps simple (withStatic b (bare (.var (.name n))))) us e) :
      DerivesX lax (.apps simple b) (k .ScopeOp :: .variable n :: us) e
  | a_call {b as es us e} (h : DerivesX lax .args as es) (h' : DerivesX lax (.apps false (bare (.call b es))) us e) :
      DerivesX lax (.apps false b) (as ++ us) e
  -- optional expressions, property names, class name references
  | o_none : DerivesX lax .opt [] none
  | o_some {s ts e} (h : DerivesX lax (.expr 0 s) ts e) : DerivesX lax .opt ts (some e)
  | p_var (n : Text) : DerivesX lax .prop [.variable n] (bare (.var (.name n)))
  | p_word (w : Text) : DerivesX lax .prop [string w] (bare (.path ⟨false, none, w⟩))
  | p_expr {s ts e} (h : DerivesX lax (.expr 0 s) ts e) :
      DerivesX lax .prop (k .CurlyBracesOpen :: (ts ++ [k .CurlyBracesClose])) e
  | c_name {ts p} (h : ClassName ts p) : DerivesX lax .cref ts (bare (.path p))
  | c_var (n : Text) {ts e} (h : DerivesX lax (.apps true (bare (.var (.name n)))) ts e) :
      DerivesX lax .cref (.variable n :: ts) e
  -- arguments
  | args_nil : DerivesX lax .args [k .ParenthesesOpen, k .ParenthesesClose] []
  | args_some {ts es} (h : DerivesX lax .argl ts es) :
      DerivesX lax .args (k .ParenthesesOpen :: (ts ++ [k .ParenthesesClose])) es
  | argl_one {s ts e} (h : DerivesX lax (.expr 0 s) ts e) : DerivesX lax .argl ts [e]
  | argl_unpack {s ts e} (h : DerivesX lax (.expr 0 s) ts e) : DerivesX lax .argl (k .Ellipsis :: ts) [bare (.unpack e)]
  | argl_cons {s ts e us es} (h : DerivesX lax (.expr 0 s) ts e) (h' : DerivesX lax .argl us es) :
      DerivesX lax .argl (ts ++ k .Comma :: us) (e :: es)
  | argl_cons_unpack {s ts e us es} (h : DerivesX lax (.expr 0 s) ts e) (h' : DerivesX lax .argl us es) :
      DerivesX lax .argl (k .Ellipsis :: (ts ++ k .Comma :: us)) (bare (.unpack e) :: es)
  | exprs_one {s ts e} (h : DerivesX lax (.expr 0 s) ts e) : DerivesX lax .exprs ts [e]
  | exprs_cons {s ts e us es} (h : DerivesX lax (.expr 0 s) ts e) (h' : DerivesX lax .exprs us es) :
      DerivesX lax .exprs (ts ++ k .Comma :: us) (e :: es)
  -- elements of an array; a comma may follow the last one
  | items_nil : DerivesX lax .items [] []
  | items_one {s ts e} (h : DerivesX lax (.expr 0 s) ts e) : DerivesX lax .items ts [(none, e)]
  | items_key {s ts e s' us e'} (h : DerivesX lax (.expr 0 s) ts e) (h' : DerivesX lax (.expr 0 s') us e') :
      DerivesX lax .items (ts ++ k .DoubleArrow :: us) [(some e, e')]
  | items_cons {s ts e us es} (h : DerivesX lax (.expr 0 s) ts e) (h' : DerivesX lax .items us es) :
      DerivesX lax .items (ts ++ k .Comma :: us) ((none, e) :: es)
  | items_cons_key {s ts e s' us e' vs es} (h : DerivesX lax (.expr 0 s) ts e) (h' : DerivesX lax (.expr 0 s') us e')
      (h'' : DerivesX lax .items vs es) :
      DerivesX lax .items (ts ++ k .DoubleArrow :: (us ++ k .Comma :: vs)) ((some e, e') :: es)
  -- parts of a string
  | parts_nil : DerivesX lax .parts [] []
  | parts_text (x : Text) {ts ps} (h : DerivesX lax .parts ts ps) : DerivesX lax .parts (encaps x :: ts) (.inl x :: ps)
  | parts_var (n : Text) {us e ts ps} (h : DerivesX lax .var (.variable n :: us) e) (hs : endsVar ts = true)
      (h' : DerivesX lax .parts ts ps) : DerivesX lax .parts (.variable n :: (us ++ ts)) (.inr e :: ps)
  | parts_brace {s us e ts ps} (h : DerivesX lax (.expr 0 s) us e) (h' : DerivesX lax .parts ts ps) :
      DerivesX lax .parts (k .CurlyBracesOpen :: (us ++ k .CurlyBracesClose :: ts)) (.inr e :: ps)
  | parts_dollar {t n us e ts ps} (hn : Ident t n) (h : DerivesX lax (.apps false (bare (.var (.name n)))) us e)
      (h' : DerivesX lax .parts ts ps) :
      DerivesX lax .parts (k .DollarCurlyBracesOpen :: t :: (us ++ k .CurlyBracesClose :: ts)) (.inr e :: ps)
  -- operands
  | e_var {p ts e} (h : DerivesX lax .var ts e) : DerivesX lax (.expr p prefixLevel) ts e
  | e_postInc {p ts e} (h : DerivesX lax .var ts e) :
      DerivesX lax (.expr p prefixLevel) (ts ++ [k .Increment]) (bare (.unary .PostInc e))
  | e_postDec {p ts e} (h : DerivesX lax .var ts e) :
      DerivesX lax (.expr p prefixLevel) (ts ++ [k .Decrement]) (bare (.unary .PostDec e))
  | e_int {p} (v : Nat) : DerivesX lax (.expr p prefixLevel) [.int v] (bare (.int v))
  | e_double {p} (l : Text) : DerivesX lax (.expr p prefixLevel) [.double l] (bare (.double l))
  | e_magic {p kw c} (h : magicOf kw = some c) : DerivesX lax (.expr p prefixLevel) [k kw] (bare (.const c))
  | e_name {p ts q} (h : ClassName ts q) : DerivesX lax (.expr p prefixLevel) ts (bare (constOf q))
  | e_classConst {p cts q t m} (hc : ClassName cts q) (hm : Ident t m) :
      DerivesX lax (.expr p prefixLevel) (cts ++ [k .ScopeOp, t])
        (bare (.staticMember (bare (constOf q)) [bare (.path ⟨false, none, m⟩)]))
  | e_emptyString {p} : DerivesX lax (.expr p prefixLevel) [k .DoubleQuote, k .DoubleQuote] (bare (.str []))
  | e_string {p ts ps e es} (h : DerivesX lax .parts ts ps) (hp : leaves [] ps = e :: es) :
      DerivesX lax (.expr p prefixLevel) (k .DoubleQuote :: (ts ++ [k .DoubleQuote])) (concatAll e es)
  | e_heredoc {p ts ps e es} (h : DerivesX lax .parts ts ps) (hp : leaves [] ps = e :: es) :
      DerivesX lax (.expr p prefixLevel) (k .HereDocStart :: (ts ++ [k .HereDocEnd])) (concatAll e es)
  | e_new {p ts e} (h : DerivesX lax .cref ts e) : DerivesX lax (.expr p prefixLevel) (k .New :: ts) (bare (.new e []))
  | e_newArgs {p ts e as es} (h : DerivesX lax .cref ts e) (h' : DerivesX lax .args as es) :
      DerivesX lax (.expr p prefixLevel) (k .New :: (ts ++ as)) (bare (.new e es))
  | e_exit {p} : DerivesX lax (.expr p prefixLevel) [k .Exit] (bare (.exit none))
  | e_exitValue {p s ts e} (h : DerivesX lax (.expr 0 s) ts e) :
      DerivesX lax (.expr p prefixLevel) (k .Exit :: k .ParenthesesOpen :: (ts ++ [k .ParenthesesClose]))
        (bare (.exit (some e)))
  | e_isset {p ts es} (h : DerivesX lax .exprs ts es) :
      DerivesX lax (.expr p prefixLevel) (k .Isset :: k .ParenthesesOpen :: (ts ++ [k .ParenthesesClose]))
        (bare (.isset es))
  | e_empty {p s ts e} (h : DerivesX lax (.expr 0 s) ts e) :
      DerivesX lax (.expr p prefixLevel) (k .Empty :: k .ParenthesesOpen :: (ts ++ [k .ParenthesesClose]))
        (bare (.empty e))
  | e_closure {p r ts f} (h : DerivesX lax (.fn true false r) ts f) :
      DerivesX lax (.expr p prefixLevel) (k .Function :: (refToks r ++ ts)) (bare (.function f))
  -- operands that extend to the right as far as possible
  | e_clone {p s ts e} (h : DerivesX lax (.expr 0 s) ts e) : DerivesX lax (.expr p 0) (k .Clone :: ts) (bare (.clone e))
  | e_yield {p} : DerivesX lax (.expr p 0) [k .Yield] (bare (.yield none))
  | e_yieldValue {p s ts e} (h : DerivesX lax (.expr 0 s) ts e) :
      DerivesX lax (.expr p 0) (k .Yield :: ts) (bare (.yield (some e)))
  | e_include {p s kw ty ts e} (hk : includeOf kw = some ty) (h : DerivesX lax (.expr 0 s) ts e) :
      DerivesX lax (.expr p 0) (k kw :: ts) (bare (.include ty e))
  | e_assign {p s ts v us e} (h : DerivesX lax .var ts v) (h' : DerivesX lax (.expr 0 s) us e) :
      DerivesX lax (.expr p 0) (ts ++ k .Equal :: us) (bare (.assign v e))
  | e_assignRef {p s ts v us e} (h : DerivesX lax .var ts v) (h' : DerivesX lax (.expr 0 s) us e) :
      DerivesX lax (.expr p 0) (ts ++ k .Equal :: k .Ampersand :: us) (bare (.assignRef v e))
  | e_compound {p s kw op ts v us e} (hk : compoundOf kw = some op) (h : DerivesX lax .var ts v)
      (h' : DerivesX lax (.expr 0 s) us e) :
      DerivesX lax (.expr p 0) (ts ++ k kw :: us) (bare (.compoundAssign v op e))
  | e_list {p s ts its us e} (h : DerivesX lax .items ts its) (h' : DerivesX lax (.expr 0 s) us e) :
      DerivesX lax (.expr p 0) (k .List :: k .ParenthesesOpen :: (ts ++ k .ParenthesesClose :: k .Equal :: us))
        (bare (.assign (bare (.list its)) e))
  | e_listRef {p s ts its us e} (h : DerivesX lax .items ts its) (h' : DerivesX lax (.expr 0 s) us e) :
      DerivesX lax (.expr p 0) (k .List :: k .ParenthesesOpen :: (ts ++ k .ParenthesesClose :: k .Equal :: k .Ampersand :: us))
        (bare (.assignRef (bare (.list its)) e))
  -- operators
  | e_cast {p s kw ty ts e} (hk : castOf kw = some ty) (h : DerivesX lax (.expr prefixLevel s) ts e) :
      DerivesX lax (.expr p s) (k kw :: ts) (bare (.cast ty e))
  | e_prefix {p s kw op ts e} (hk : prefixOf kw = some op) (h : DerivesX lax (.expr prefixLevel s) ts e) :
      DerivesX lax (.expr p s) (k kw :: ts) (bare (.unary op e))
  | e_left {p lv kw op sl sr ts l us r} (hk : leftOp kw = some op) (hl : infixLevel kw = some lv) (hp : p < lv)
      (h : DerivesX lax (.expr (lv - 1) sl) ts l) (hs : lv ≤ sl) (h' : DerivesX lax (.expr lv sr) us r) :
      DerivesX lax (.expr p (min lv sr)) (ts ++ k kw :: us) (bare (.binary op l r))
  | e_pow {p sl sr ts l us r} (hp : p < 15) (h : DerivesX lax (.expr 15 sl) ts l) (hs : 15 ≤ sl)
      (h' : DerivesX lax (.expr 14 sr) us r) :
      DerivesX lax (.expr p (min 14 sr)) (ts ++ k .Pow :: us) (bare (.binary .Pow l r))
  | e_ternary {p sc sm se ts c us m vs e} (hp : p < 4) (h : DerivesX lax (.expr 3 sc) ts c) (hs : 4 ≤ sc)
      (h' : DerivesX lax (.expr 4 sm) us m) (h'' : DerivesX lax (.expr 4 se) vs e) :
      DerivesX lax (.expr p (min 4 se)) (ts ++ k .QuestionMark :: (us ++ k .Colon :: vs))
        (bare (.ternary c (some m) e))
  | e_elvis {p sc se ts c vs e} (hp : p < 4) (h : DerivesX lax (.expr 3 sc) ts c) (hs : 4 ≤ sc)
      (h'' : DerivesX lax (.expr 4 se) vs e) :
      DerivesX lax (.expr p (min 4 se)) (ts ++ k .QuestionMark :: k .Colon :: vs) (bare (.ternary c none e))
  | e_instance {p sl ts l us r} (hp : p < 16) (h : DerivesX lax (.expr 16 sl) ts l) (hs : 16 ≤ sl)
      (hi : isInstance l = false) (h' : DerivesX lax .cref us r) :
      DerivesX lax (.expr p prefixLevel) (ts ++ k .InstanceOf :: us) (bare (.instanceOf l r))
  -- functions
  | dflt_none : DerivesX lax .dflt [] none
  | dflt_some {s ts e} (h : DerivesX lax (.expr 0 s) ts e) : DerivesX lax .dflt (k .Equal :: ts) (some e)
  | params_nil : DerivesX lax .params [] []
  | params_one {tts ty} (n : Text) (r v : Bool) {ds d} (ht : TypeHint tts ty) (h : DerivesX lax .dflt ds d) :
      DerivesX lax .params (tts ++ (refToks r ++ (variadicToks v ++ .variable n :: ds))) [.mk n r v ty d]
  | params_cons {tts ty} (n : Text) (r v : Bool) {ds d ts ps} (ht : TypeHint tts ty) (h : DerivesX lax .dflt ds d)
      (h' : DerivesX lax .params ts ps) :
      DerivesX lax .params (tts ++ (refToks r ++ (variadicToks v ++ .variable n :: (ds ++ k .Comma :: ts))))
        (.mk n r v ty d :: ps)
  | fn_body {c a r ts ps us vs bs b} (h : DerivesX lax .params ts ps) (hu : UseClauses c us vs)
      (h' : DerivesX lax .stmts bs b) :
      DerivesX lax (.fn c a r) (k .ParenthesesOpen :: (ts ++ k .ParenthesesClose ::
        (us ++ k .CurlyBracesOpen :: (bs ++ [k .CurlyBracesClose])))) (.mk ps (some b) vs r)
  | fn_abstract {r ts ps} (h : DerivesX lax .params ts ps) :
      DerivesX lax (.fn false true r) (k .ParenthesesOpen :: (ts ++ [k .ParenthesesClose, k .SemiColon]))
        (.mk ps none [] r)
  -- lists of variables and constants with values
  | vars_one (n : Text) {ds d} (h : DerivesX lax .dflt ds d) : DerivesX lax .vars (.variable n :: ds) [(n, d)]
  | vars_cons (n : Text) {ds d ts vs} (h : DerivesX lax .dflt ds d) (h' : DerivesX lax .vars ts vs) :
      DerivesX lax .vars (.variable n :: (ds ++ k .Comma :: ts)) ((n, d) :: vs)
  | consts_one {t n s ts e} (hn : Ident t n) (h : DerivesX lax (.expr 0 s) ts e) :
      DerivesX lax .consts (t :: k .Equal :: ts) [(n, e)]
  | consts_cons {t n s ts e us cs} (hn : Ident t n) (h : DerivesX lax (.expr 0 s) ts e) (h' : DerivesX lax .consts us cs) :
      DerivesX lax .consts (t :: k .Equal :: (ts ++ k .Comma :: us)) ((n, e) :: cs)
  -- statements
  | fv_plain {ts e} (h : DerivesX lax .var ts e) : DerivesX lax .fvar ts e
  | fv_ref (n : Text) {ts e} (h : DerivesX lax .var (.variable n :: ts) e) :
      DerivesX lax .fvar (k .Ampersand :: .variable n :: ts) (bare (.reference e))
  | varl_one {ts e} (h : DerivesX lax .var ts e) : DerivesX lax .varl ts [e]
  | varl_cons {ts e us es} (h : DerivesX lax .var ts e) (h' : DerivesX lax .varl us es) :
      DerivesX lax .varl (ts ++ k .Comma :: us) (e :: es)
  | s_empty : DerivesX lax (.stmt false) [k .SemiColon] (bareS .none)
  | s_block {ts b} (h : DerivesX lax .stmts ts b) :
      DerivesX lax (.stmt false) (k .CurlyBracesOpen :: (ts ++ [k .CurlyBracesClose])) (bareS (.block b))
  | s_expr {s ts e} (h : DerivesX lax (.expr 0 s) ts e) :
      DerivesX lax (.stmt false) (ts ++ [k .SemiColon]) (bareS (.expr e))
  | s_html (x : Text) :
      DerivesX lax (.stmt false) [.inlineHtml x, k .SemiColon] (bareS (.echo [bare (.str x)]))
  | s_echo {ts es} (h : DerivesX lax .exprs ts es) :
      DerivesX lax (.stmt false) (k .Echo :: (ts ++ [k .SemiColon])) (bareS (.echo es))
  | s_return {ts e} (h : DerivesX lax .opt ts e) :
      DerivesX lax (.stmt false) (k .Return :: (ts ++ [k .SemiColon])) (bareS (.ret e))
  | s_break {ts e} (h : DerivesX lax .opt ts e) :
      DerivesX lax (.stmt false) (k .Break :: (ts ++ [k .SemiColon])) (bareS (.brk e))
  | s_continue {ts e} (h : DerivesX lax .opt ts e) :
      DerivesX lax (.stmt false) (k .Continue :: (ts ++ [k .SemiColon])) (bareS (.cont e))
  | s_throw {s ts e} (h : DerivesX lax (.expr 0 s) ts e) :
      DerivesX lax (.stmt false) (k .Throw :: (ts ++ [k .SemiColon])) (bareS (.throw e))
  | s_unset {ts es} (h : DerivesX lax .varl ts es) :
      DerivesX lax (.stmt false) (k .Unset :: k .ParenthesesOpen :: (ts ++ [k .ParenthesesClose, k .SemiColon]))
        (bareS (.unset es))
  | s_if {s cs c o bs b ts e} (h : DerivesX lax (.expr 0 s) cs c) (h' : DerivesX lax (.body o) bs b)
      (h'' : DerivesX lax .ifTail ts e) (ho : ts = [] ∨ o = false) :
      DerivesX lax (.stmt true) (k .If :: k .ParenthesesOpen :: (cs ++ k .ParenthesesClose :: (bs ++ ts)))
        (bareS (.ite c b e))
  | s_while {s cs c o bs b} (h : DerivesX lax (.expr 0 s) cs c) (h' : DerivesX lax (.body o) bs b) :
      DerivesX lax (.stmt o) (k .While :: k .ParenthesesOpen :: (cs ++ k .ParenthesesClose :: bs))
        (bareS (.while c b))
  | s_do {s cs c o bs b} (h' : DerivesX lax (.body o) bs b) (h : DerivesX lax (.expr 0 s) cs c) :
      DerivesX lax (.stmt false) (k .Do :: (bs ++ k .While :: k .ParenthesesOpen :: (cs ++
        [k .ParenthesesClose, k .SemiColon]))) (bareS (.doWhile b c))
  | s_for {is i cs c ls l o bs b} (hi : DerivesX lax .opt is i) (hc : DerivesX lax .opt cs c) (hl : DerivesX lax .opt ls l)
      (h' : DerivesX lax (.body o) bs b) :
      DerivesX lax (.stmt o) (k .For :: k .ParenthesesOpen :: (is ++ k .SemiColon :: (cs ++ k .SemiColon ::
        (ls ++ k .ParenthesesClose :: bs)))) (bareS (.for i c l b))
  | s_foreach {s cs c vs v o bs b} (h : DerivesX lax (.expr 0 s) cs c) (hv : DerivesX lax .fvar vs v)
      (h' : DerivesX lax (.body o) bs b) :
      DerivesX lax (.stmt o) (k .Foreach :: k .ParenthesesOpen :: (cs ++ k .As :: (vs ++ k .ParenthesesClose :: bs)))
        (bareS (.forEach c none v b))
  | s_foreachKey {s cs c ks kv vs v o bs b} (h : DerivesX lax (.expr 0 s) cs c) (hk : DerivesX lax .fvar ks kv)
      (hv : DerivesX lax .fvar vs v) (h' : DerivesX lax (.body o) bs b) :
      DerivesX lax (.stmt o) (k .Foreach :: k .ParenthesesOpen :: (cs ++ k .As :: (ks ++ k .DoubleArrow ::
        (vs ++ k .ParenthesesClose :: bs)))) (bareS (.forEach c (some kv) v b))
  | s_try {bs b cts cs fts f} (h : DerivesX lax .stmts bs b) (hc : DerivesX lax .catches cts cs) (hf : DerivesX lax .fin fts f) :
      DerivesX lax (.stmt false) (k .Try :: k .CurlyBracesOpen :: (bs ++ k .CurlyBracesClose :: (cts ++ fts)))
        (bareS (.try b cs f))
  | s_switch {s es e ts cl} (h : DerivesX lax (.expr 0 s) es e) (h' : DerivesX lax .clauses ts cl) :
      DerivesX lax (.stmt false) (k .Switch :: k .ParenthesesOpen :: (es ++ k .ParenthesesClose ::
        k .CurlyBracesOpen :: (ts ++ [k .CurlyBracesClose]))) (bareS (.switch e (casesOf [] false cl)))
  | s_static {ts vs} (h : DerivesX lax .vars ts vs) :
      DerivesX lax (.stmt false) (k .Static :: (ts ++ [k .SemiColon])) (bareS (.decl (.staticVars vs)))
  | s_global {ts vs} (h : GlobalList ts vs) :
      DerivesX lax (.stmt false) (k .Global :: (ts ++ [k .SemiColon])) (bareS (.decl (.globalVars vs)))
  | s_function {r} (n : Text) {ts f} (h : DerivesX lax (.fn false false r) ts f) :
      DerivesX lax (.stmt false) (k .Function :: (refToks r ++ string n :: ts)) (bareS (.decl (.globalFunction n f)))
  | s_class (ms : List ClassModifier) (n : Text) {xts base its impls mts members} (hx : OptBase xts base)
      (hi : OptNames .Implements its impls) (hm : DerivesX lax .members mts members) :
      DerivesX lax (.stmt false) (classModifierToks ms ++ k .Class :: string n :: (xts ++ (its ++
        k .CurlyBracesOpen :: (mts ++ [k .CurlyBracesClose]))))
        (bareS (.decl (.cls (ClassModifiers.new ms) n base impls members)))
  | s_interface (n : Text) {xts exts mts members} (hx : OptNames .Extends xts exts)
      (hm : DerivesX lax .members mts members) :
      DerivesX lax (.stmt false) (k .Interface :: string n :: (xts ++
        k .CurlyBracesOpen :: (mts ++ [k .CurlyBracesClose]))) (bareS (.decl (.interface n exts members)))
  | s_trait (n : Text) {mts members} (hm : DerivesX lax .members mts members) :
      DerivesX lax (.stmt false) (k .Trait :: string n :: k .CurlyBracesOpen :: (mts ++ [k .CurlyBracesClose]))
        (bareS (.decl (.trait n members)))
  | b_block {ts b} (h : DerivesX lax .stmts ts b) :
      DerivesX lax (.body false) (k .CurlyBracesOpen :: (ts ++ [k .CurlyBracesClose])) b
  | b_stmt {o ts s} (h : DerivesX lax (.stmt o) ts s) (hb : isBlock s = false) : DerivesX lax (.body o) ts [s]
  | stmts_nil : DerivesX lax .stmts [] []
  | stmts_cons {o ts s us ss} (h : DerivesX lax (.stmt o) ts s) (h' : DerivesX lax .stmts us ss) :
      DerivesX lax .stmts (ts ++ us) (s :: ss)
  | if_none : DerivesX lax .ifTail [] []
  | if_else {o bs b} (h : DerivesX lax (.body o) bs b) : DerivesX lax .ifTail (k .Else :: bs) b
  | if_elseif {s cs c o bs b ts e} (h : DerivesX lax (.expr 0 s) cs c) (h' : DerivesX lax (.body o) bs b)
      (h'' : DerivesX lax .ifTail ts e) (ho : ts = [] ∨ o = false) :
      DerivesX lax .ifTail (k .ElseIf :: k .ParenthesesOpen :: (cs ++ k .ParenthesesClose :: (bs ++ ts)))
        [bareS (.ite c b e)]
  | catches_nil : DerivesX lax .catches [] []
  | catches_cons (abs : Bool) (ns : List Text) (id n : Text) {bs b ts cs} (h : DerivesX lax .stmts bs b)
      (h' : DerivesX lax .catches ts cs) :
      DerivesX lax .catches (k .Catch :: k .ParenthesesOpen :: (qualToks abs ns id ++ .variable n ::
        k .ParenthesesClose :: k .CurlyBracesOpen :: (bs ++ k .CurlyBracesClose :: ts)))
        (.mk (qualPath abs ns id) n b :: cs)
  | fin_none : DerivesX lax .fin [] none
  | fin_some {bs b} (h : DerivesX lax .stmts bs b) :
      DerivesX lax .fin (k .Finally :: k .CurlyBracesOpen :: (bs ++ [k .CurlyBracesClose])) (some b)
  | clauses_nil : DerivesX lax .clauses [] []
  | clauses_case {s es e} (colon : Bool) {bs b ts cl} (h : DerivesX lax (.expr 0 s) es e) (h' : DerivesX lax .stmts bs b)
      (h'' : DerivesX lax .clauses ts cl) :
      DerivesX lax .clauses (k .Case :: (es ++ k (if colon then .Colon else .SemiColon) :: (bs ++ ts)))
        ((some e, b) :: cl)
  | clauses_default (colon : Bool) {bs b ts cl} (h' : DerivesX lax .stmts bs b) (hb : b ≠ [])
      (h'' : DerivesX lax .clauses ts cl) :
      DerivesX lax .clauses (k .Default :: k (if colon then .Colon else .SemiColon) :: (bs ++ ts)) ((none, b) :: cl)
  -- members of classes
  | m_var {ts vs} (h : DerivesX lax .vars ts vs) :
      DerivesX lax .member (k .Var :: (ts ++ [k .SemiColon]))
        (vs.map fun v => .property (MemberModifiers.new [.Public]) v.1 v.2)
  | m_property (ms : List MemberModifier) {ts vs} (h : DerivesX lax .vars ts vs) :
      DerivesX lax .member (memberModifierToks ms ++ (ts ++ [k .SemiColon]))
        (vs.map fun v => .property (MemberModifiers.new ms) v.1 v.2)
  | m_const (ms : List MemberModifier) {ts cs} (h : DerivesX lax .consts ts cs) :
      DerivesX lax .member (memberModifierToks ms ++ k .Const :: (ts ++ [k .SemiColon]))
        (cs.map fun c => .constant (MemberModifiers.new ms) c.1 c.2)
  | m_method (ms : List MemberModifier) (r : Bool) (n : Text) {ts f} (h : DerivesX lax (.fn false true r) ts f) :
      DerivesX lax .member (memberModifierToks ms ++ k .Function :: (refToks r ++ string n :: ts))
        [.method (MemberModifiers.new ms) n f]
  | m_use {ts ps} (h : NameList ts ps) : DerivesX lax .member (k .Use :: (ts ++ [k .SemiColon])) [.traitUse ps []]
  | m_useRules {ts ps us rules} (h : NameList ts ps) (hr : TraitRules us rules) (hn : us ≠ []) :
      DerivesX lax .member (k .Use :: (ts ++ k .CurlyBracesOpen :: (us ++ [k .CurlyBracesClose])))
        [.traitUse ps rules]
  | members_nil : DerivesX lax .members [] []
  | members_cons {ts ms us ns} (h : DerivesX lax .member ts ms) (h' : DerivesX lax .members us ns) :
      DerivesX lax .members (ts ++ us) (ms ++ ns)
  -- the top level
  | t_stmt {o ts s} (h : DerivesX lax (.stmt o) ts s) : DerivesX lax .top ts s
  | t_namespace (ns : List Text) (id : Text) :
      DerivesX lax .top (k .Namespace :: (nameToks ns id ++ [k .SemiColon]))
        (bareS (.decl (.namespace (qualPath false ns id))))
  | t_use {ts cs} (h : UseList ts cs) : DerivesX lax .top (k .Use :: (ts ++ [k .SemiColon])) (bareS (.use cs))
  | tops_nil : DerivesX lax .tops [] []
  | tops_cons {ts s us ss} (h : DerivesX lax .top ts s) (h' : DerivesX lax .tops us ss) :
      DerivesX lax .tops (ts ++ us) (s :: ss)
  -- `lax`: an operator whose right operand fails is dropped with whatever has been read of that operand
  | x_op (hl : lax = true) {p s ts e} (kw : Kw) (lv : Nat) (j : List Token) (hj : NoStray j) (h : DerivesX lax (.expr 0 s) ts e)
      (hk : infixLevel kw = some lv) : DerivesX lax (.expr p prefixLevel) (ts ++ k kw :: j) e
  -- `lax`: the same for `[`, `->` and `::` behind a variable
  | x_apps (hl : lax = true) {simple b us e} (kw : Kw) (j : List Token) (hj : NoStray (k kw :: j))
      (hk : kw = .SquareBracketOpen ∨ kw = .ObjectOp ∨ kw = .ScopeOp) (h : DerivesX lax (.apps simple b) us e) :
      DerivesX lax (.apps simple b) (k kw :: (j ++ us)) e
  -- `lax`: an optional expression that fails counts as missing
  | x_opt (hl : lax = true) (j : List Token) (hj : NoStray j) : DerivesX lax .opt j none
  | x_yield (hl : lax = true) {p} (j : List Token) (hj : NoStray j) :
      DerivesX lax (.expr p prefixLevel) (k .Yield :: j) (bare (.yield none))
  | x_ternary (hl : lax = true) {p sc se ts c vs e} (j : List Token) (hj : NoStray j) (hp : p < 4)
      (h : DerivesX lax (.expr 3 sc) ts c)
      (hs : 4 ≤ sc) (h'' : DerivesX lax (.expr 4 se) vs e) :
      DerivesX lax (.expr p (min 4 se)) (ts ++ k .QuestionMark :: (j ++ k .Colon :: vs)) (bare (.ternary c none e))
  -- `lax`: a variable with failing arguments and an array that fails are dropped, if an operand follows
  | x_call (hl : lax = true) {p s t ts e} (j : List Token) (hj : NoStray (t :: j)) (ht : startsVar t = true)
      (h : DerivesX lax (.expr p s) ts e) :
      DerivesX lax (.expr p s) (t :: (j ++ ts)) e
  -- `lax`: so is `A::`, if a variable follows that is not a member
  | x_scope (hl : lax = true) {cts q ts e} (hc : ClassName cts q) (h : DerivesX lax .var ts e) :
      DerivesX lax .var (cts ++ k .ScopeOp :: ts) e
  -- `lax`: so is a backslash without name behind `new`, behind `instanceof` and before a parameter
  | x_cref (hl : lax = true) (n : Text) {ts e} (h : DerivesX lax (.apps true (bare (.var (.name n)))) ts e) :
      DerivesX lax .cref (k .NsSeparator :: .variable n :: ts) e
  | x_crefStatic (hl : lax = true) {cts q} (n : Text) {ts e} (hc : ClassName cts q) (h : DerivesX lax (.apps true
        (bare (.staticMember (bare (.path q)) [bare (.var (.name n))]))) ts e) :
      DerivesX lax .cref (k .NsSeparator :: (cts ++ k .ScopeOp :: .variable n :: ts)) e
  | x_param (hl : lax = true) (n : Text) (r v : Bool) {ds d} (h : DerivesX lax .dflt ds d) :
      DerivesX lax .params (k .NsSeparator :: (refToks r ++ (variadicToks v ++ .variable n :: ds))) [.mk n r v none d]
  | x_paramCons (hl : lax = true) (n : Text) (r v : Bool) {ds d ts ps} (h : DerivesX lax .dflt ds d)
      (h' : DerivesX lax .params ts ps) :
      DerivesX lax .params (k .NsSeparator :: (refToks r ++ (variadicToks v ++ .variable n :: (ds ++ k .Comma :: ts))))
        (.mk n r v none d :: ps)
  -- `lax`: a parameter, element, statement, member or part of a string that fails ends the list it stands in
  | x_params (hl : lax = true) (j : List Token) (hj : NoStray j) : DerivesX lax .params j []
  | x_items (hl : lax = true) (j : List Token) (hj : NoStray j) : DerivesX lax .items j []
  | x_stmts (hl : lax = true) (j : List Token) (hj : NoStray j) : DerivesX lax .stmts j []
  | x_members (hl : lax = true) (j : List Token) (hj : NoStray j) : DerivesX lax .members j []
  | x_parts (hl : lax = true) (j : List Token) (hj : NoStray j) : DerivesX lax .parts j []
  -- `lax`: a class, interface or trait that fails is dropped, if a simple statement follows
  | x_class (hl : lax = true) {o t ts s} (j : List Token) (hj : NoStray (t :: j)) (ht : startsClass t = true)
      (h : DerivesX lax (.stmt o) ts s)
      (hs : isSimple s = true) : DerivesX lax (.stmt o) (t :: (j ++ ts)) s
  -- `lax`: a default branch without statements is dropped
  | x_default (hl : lax = true) (colon : Bool) {bs ts cl} (h' : DerivesX lax .stmts bs []) (h'' : DerivesX lax .clauses ts cl) :
      DerivesX lax .clauses (k .Default :: k (if colon then .Colon else .SemiColon) :: (bs ++ ts)) cl
  -- `lax`: modifiers before `use` are dropped, and so is a `use` with empty braces
  | x_use (hl : lax = true) (ms : List MemberModifier) {ts ps} (h : NameList ts ps) :
      DerivesX lax .member (memberModifierToks ms ++ k .Use :: (ts ++ [k .SemiColon])) [.traitUse ps []]
  | x_useRules (hl : lax = true) (ms : List MemberModifier) {ts ps us rules} (h : NameList ts ps) (hr : LaxRules us rules) :
      DerivesX lax .member (memberModifierToks ms ++ k .Use :: (ts ++ k .CurlyBracesOpen :: (us ++ [k .CurlyBracesClose])))
        [.traitUse ps rules]
  | x_useEmpty (hl : lax = true) (ms : List MemberModifier) {ts ps} (h : NameList ts ps) :
      DerivesX lax .member (memberModifierToks ms ++ k .Use :: (ts ++ [k .CurlyBracesOpen, k .CurlyBracesClose])) []
  -- `lax`: nothing is dropped, but the grammar does not have these
  | x_and (hl : lax = true) {p s ts v us e} (h : DerivesX lax .var ts v) (h' : DerivesX lax (.expr 0 s) us e) :
      DerivesX lax (.expr p 0) (ts ++ k .AndEqual :: us) (bare (.compoundAssign v .And e))
  | x_postInc (hl : lax = true) {p s ts e} (h : DerivesX lax (.expr prefixLevel s) ts e) :
      DerivesX lax (.expr p prefixLevel) (ts ++ [k .Increment]) (bare (.unary .PostInc e))
  | x_postDec (hl : lax = true) {p s ts e} (h : DerivesX lax (.expr prefixLevel s) ts e) :
      DerivesX lax (.expr p prefixLevel) (ts ++ [k .Decrement]) (bare (.unary .PostDec e))
  | x_part (hl : lax = true) {us e ts ps} (h : DerivesX lax .var us e) (h' : DerivesX lax .parts ts ps) :
      DerivesX lax .parts (us ++ ts) (.inr e :: ps)
  | x_fetch (hl : lax = true) {s us e ts ps} (h : DerivesX lax (.expr 0 s) us e) (h' : DerivesX lax .parts ts ps) :
      DerivesX lax .parts (k .DollarCurlyBracesOpen :: (us ++ k .CurlyBracesClose :: ts)) (.inr (bare (.var (.fetch e))) :: ps)
  | x_ref (hl : lax = true) {ts e} (h : DerivesX lax .var ts e) : DerivesX lax .fvar (k .Ampersand :: ts) (bare (.reference e))

/-- The grammar. -/
abbrev Derives : (c : Cat) → List Token → c.Tree → Prop := DerivesX false

end Pico
