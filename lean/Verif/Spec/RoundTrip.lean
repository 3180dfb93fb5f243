import Verif.Model.Printer
import Verif.Spec.Grammar
import Verif.Spec.Source
/-!
# The trees the round trip theorems speak about

`rtExpr dbl`, `rtStmts dbl`, `rtTops dbl` hold of the trees for which the printed form is shown to parse back. They
exclude the trees whose printed form the tokenizer or the parser reads differently (`exit` without argument, names of
types directly in parentheses, number literals around `.`, texts with two backslashes in a row, `instanceof` below a
prefix operator, ...; see DESIGN.md for the complete list) and those that cannot come from the parser.
`dbl` is how the printer formats floating point numbers.
-/
namespace Pico

/-! ## Names -/

/-- A name of an own choice: not a reserved word. -/
def nameOk (w : Text) : Bool := isIdentifier w && (reservedWords.lookup w).isNone && w != c!"yieldfrom"

/-- A name behind `->`. -/
def propOk (w : Text) : Bool := isIdentifier w && w != c!"yieldfrom"

/-- A name behind `::` or `const`: reserved words are allowed, but not modifiers. -/
def identOk (w : Text) : Bool :=
  nameOk w || (propOk w && match reservedWords.lookup w with
    | some k => memberWords.contains (w, k)
    | none => false)

/-- The segments of a namespace. -/
def splitNs : Text → List Text
  | [] => [[]]
  | c :: cs => if c = '\\' then [] :: splitNs cs else
    match splitNs cs with
    | [] => [[c]]
    | s :: ss => (c :: s) :: ss

def nsSegs (p : Path) : List Text :=
  match p.ns with
  | none => []
  | some t => splitNs t

def pathOk (p : Path) : Bool := (nsSegs p).all nameOk && nameOk p.ident

def isStaticName (p : Path) : Bool := p == ⟨false, none, c!"static"⟩

def classNameOk (p : Path) : Bool := pathOk p || isStaticName p

def isCastWord (w : Text) : Bool := castWords.any fun x => x.1 == w

/-- The first segment of a name. -/
def firstSeg (p : Path) : Text := (nsSegs p ++ [p.ident]).headD []

/-- The name is not a type name, which between parentheses would make a cast. -/
def callable (p : Path) : Bool := pathOk p && !(!p.isAbsolute && isCastWord (firstSeg p))

/-- As an expression: neither `true`, `false` nor `null`. -/
def isPathK : ExprK → Bool
  | .path _ => true
  | _ => false

/-! ## Literals -/

/-- No two backslashes in a row. -/
def strOk : Text → Bool
  | '\\' :: '\\' :: _ => false
  | _ :: cs => strOk cs
  | [] => true

/-- Digits, a dot, digits; and printed as it was written. -/
def doubleOk (dbl : Text → Text) (l : Text) : Bool :=
  dbl l == l && !(l.takeWhile Char.isDigit).isEmpty && (match l.dropWhile Char.isDigit with
    | '.' :: fs => fs.all Char.isDigit
    | _ => false)

/-! ## Kinds of expressions -/

/-- Operators, indices, members, calls, `new`, assignments and conditionals are printed in parentheses when they are
operands. -/
def ExprK.bracketed : ExprK → Bool
  | .binary .. | .unary .. | .ternary .. => true
  | .arrayIdx .. | .objMember .. | .staticMember .. | .call .. | .new .. => true
  | .assign .. => true
  | _ => false

def constWord : Const → Text
  | .True => c!"true"
  | .False => c!"false"
  | .Null => c!"null"
  | _ => []

def includeWord : IncludeTy → Text
  | .Include => c!"include"
  | .IncludeOnce => c!"include_once"
  | .Require => c!"require"
  | .RequireOnce => c!"require_once"

def Expr.isArrayIdx : Expr → Bool
  | .mk (.arrayIdx _ _) _ => true
  | _ => false

def Expr.isObjMember : Expr → Bool
  | .mk (.objMember _ _) _ => true
  | _ => false

def Expr.isStaticMember : Expr → Bool
  | .mk (.staticMember _ _) _ => true
  | _ => false

def Expr.isPath : Expr → Bool
  | .mk (.path _) _ => true
  | _ => false

def Expr.isList : Expr → Bool
  | .mk (.list _) _ => true
  | _ => false

def Expr.isRef : Expr → Bool
  | .mk (.reference _) _ => true
  | _ => false

def Expr.isVarName : Expr → Bool
  | .mk (.var (.name _)) _ => true
  | _ => false

def Expr.isNumber : Expr → Bool
  | .mk (.int _) _ => true
  | .mk (.double _) _ => true
  | _ => false

/-- `A::B`. -/
def Expr.isClassConst : Expr → Bool
  | .mk (.staticMember (.mk (.path _) _) [.mk (.path _) _]) _ => true
  | _ => false

/-- Variables, and whatever else can be indexed or called without parentheses. -/
def Expr.isVar (e : Expr) : Bool :=
  match e with
  | .mk (.var (.name _)) _ => true
  | .mk (.str _) _ => true
  | .mk (.array _) _ => true
  | .mk (.arrayIdx _ _) _ => true
  | .mk (.objMember _ _) _ => true
  | .mk (.staticMember _ _) _ => !e.isClassConst
  | .mk (.call _ _) _ => true
  | _ => false

/-- What indices and members may be applied to: parenthesised expressions and the variables that need no
parentheses. -/
def baseOk (e : Expr) : Bool := e.kind.bracketed || e.isVar

/-- What `foreach` assigns to: a variable or a reference. -/
def eachOk (e : Expr) : Bool := e.isVar || e.isRef

/-- What may stand behind `new` and `instanceof`, but for names: a variable with indices or members of one kind. -/
def crefOk : Expr → Bool
  | .mk (.var (.name _)) _ => true
  | .mk (.arrayIdx b _) _ => b.isVarName
  | .mk (.objMember b _) _ => b.isVarName
  | .mk (.staticMember b _) _ => b.isVarName
  | _ => false

/-- How the printed form begins. -/
inductive Lead
  | word (w : Text)
  | sign
  | digit
  | other
  deriving DecidableEq

def UnaryOp.isPostfix : UnaryOp → Bool
  | .PostInc => true
  | .PostDec => true
  | _ => false

mutual

def Expr.lead : Expr → Lead
  | .mk k _ => ExprK.lead k

def ExprK.lead : ExprK → Lead
  | .path p => if p.isAbsolute then .other else .word (firstSeg p)
  | .const c => .word (constWord c)
  | .int _ => .digit
  | .double _ => .digit
  | .isset _ => .word c!"isset"
  | .empty _ => .word c!"empty"
  | .exit _ => .word c!"exit"
  | .clone _ => .word c!"clone"
  | .include t _ => .word (includeWord t)
  | .new _ _ => .word c!"new"
  | .yield _ => .word c!"yield"
  | .function _ => .word c!"function"
  | .list _ => .word c!"list"
  | .arrayIdx b _ => if b.kind.bracketed then .other else Expr.lead b
  | .objMember b _ => if b.kind.bracketed then .other else Expr.lead b
  | .staticMember b _ => if b.kind.bracketed then .other else Expr.lead b
  | .call t _ => Expr.lead t
  | .unary op e => if op.isPostfix then Expr.lead e else .sign
  | .binary _ l _ => if l.kind.bracketed then .other else Expr.lead l
  | .ternary c _ _ => if c.kind.bracketed then .other else Expr.lead c
  | .instanceOf l _ => Expr.lead l
  | .assign l _ => Expr.lead l
  | .compoundAssign l _ _ => Expr.lead l
  | .assignRef l _ => Expr.lead l
  | _ => .other

end

/-- How an expression may be combined with operators without parentheses: `tight` with all of them, `inst` with the
infix ones, `opn` only as last operand, `loose` not at all. -/
inductive Grade
  | tight | inst | opn | loose
  deriving DecidableEq

mutual

def Expr.grade : Expr → Grade
  | .mk k _ => ExprK.grade k

def ExprK.grade : ExprK → Grade
  | .binary _ _ _ => .loose
  | .ternary _ _ _ => .loose
  | .instanceOf _ _ => .inst
  | .clone _ => .opn
  | .include _ _ => .opn
  | .yield _ => .opn
  | .assign _ _ => .opn
  | .compoundAssign _ _ _ => .opn
  | .assignRef _ _ => .opn
  | .unary op e => if op.isPostfix || e.kind.bracketed then .tight else Expr.grade e
  | _ => .tight

end

/-- Operand of an infix operator, not the last one. -/
def leftOk (e : Expr) : Bool := e.kind.bracketed || e.grade == .tight || e.grade == .inst

/-- Operand behind a sign. -/
def signOk (e : Expr) : Bool := e.kind.bracketed || e.lead != .sign

/-- The combined assignments that are read back. -/
def compoundKw : Op → Option (Text × Kw)
  | .Add => some (c!"+=", .PlusEqual)
  | .Sub => some (c!"-=", .MinusEqual)
  | .Mul => some (c!"*=", .MulEqual)
  | .Div => some (c!"/=", .DivEqual)
  | .Concat => some (c!".=", .ConcatEqual)
  | .Mod => some (c!"%=", .ModEqual)
  | .BitwiseExclOr => some (c!"^=", .XorEqual)
  | .Sl => some (c!"<<=", .SlEqual)
  | .Sr => some (c!">>=", .SrEqual)
  | _ => none

def castKw : Ty → Option (Text × Kw)
  | .Int => some (c!"int", .CastInt)
  | .Double => some (c!"double", .CastDouble)
  | .String => some (c!"string", .CastString)
  | .Array => some (c!"array", .CastArray)
  | .Object none => some (c!"object", .CastObject)
  | .Bool => some (c!"bool", .CastBool)
  | _ => none

/-- Not `from`. -/
def noFromLead : Lead → Bool
  | .word w => !c!"from".isPrefixOf w
  | _ => true

/-! ## Declarations -/

def tyOk : Option Ty → Bool
  | none => true
  | some .Array => true
  | some .Callable => true
  | some (.Object (some p)) => pathOk p
  | _ => false

def useVarsOk (vs : List (Bool × Text)) : Bool := vs.all fun v => isIdentifier v.2

def traitUseOk : TraitUse → Bool
  | .insteadOf p m ps => pathOk p && identOk m && !ps.isEmpty && ps.all pathOk
  | .asAlias p m ms a => (match p with | some p => pathOk p | none => true) && identOk m && ms == MemberModifiers.none &&
      (match a with | some a => nameOk a | none => false)

/-- Where an expression stands: `list(..)` only on the left of `=`, `...` only in arguments, `&` only in `foreach`. -/
inductive Place
  | plain | lhs | arg | each
  deriving DecidableEq

/-- A variable. -/
def simpleVar : Expr → Bool
  | .mk (.var (.name n)) _ => isIdentifier n
  | _ => false

/-- The class in front of `::`. -/
def scopeOk : Expr → Bool
  | .mk (.path p) _ => classNameOk p && !(!p.isAbsolute && isCastWord (firstSeg p))
  | _ => false

/-- A class constant `A::B`. -/
def classConstOk : Expr → List Expr → Bool
  | .mk (.path p) _, [.mk (.path m) _] => isPathK (constOf p) && !m.isAbsolute && m.ns == none && identOk m.ident
  | _, _ => false

/-- The name of a function. -/
def callee : Expr → Bool
  | .mk (.path p) _ => callable p
  | _ => false

/-- The name of a class. -/
def classRef : Expr → Bool
  | .mk (.path p) _ => classNameOk p
  | _ => false

/-- A name behind `->`. -/
def propName : Expr → Bool
  | .mk (.path p) _ => !p.isAbsolute && p.ns == none && propOk p.ident
  | _ => false

section
variable (dbl : Text → Text)

mutual

def rtExpr (c : Place) : Expr → Bool
  | .mk k _ => rtExprK c k

def rtExprK (c : Place) : ExprK → Bool
  | .path p => callable p && isPathK (constOf p)
  | .const x => x == .True || x == .False || x == .Null
  | .str s => strOk s
  | .binStr _ => false
  | .int v => decide (0 ≤ v) && decide (v < 2 ^ 63)
  | .double l => doubleOk dbl l
  | .array items => rtItems items
  | .var v => (match v with | .name n => isIdentifier n | .fetch _ => false)
  | .reference e => c == .each && rtExpr .plain e && crefOk e && e.isVar
  | .clone e => rtExpr .plain e
  | .isset es => !es.isEmpty && rtExprs .plain es
  | .empty e => rtExpr .plain e
  | .exit e => e.isSome && rtOpt e
  | .include _ e => rtExpr .plain e
  | .arrayIdx b idxs => rtExpr .plain b && baseOk b && !b.isArrayIdx && !idxs.isEmpty && rtOpts idxs
  | .objMember b ms => rtExpr .plain b && baseOk b && !b.isObjMember && !ms.isEmpty && rtMembers ms
  | .staticMember b ms => !ms.isEmpty &&
      (scopeOk b && (ms.all simpleVar || classConstOk b ms) ||
        rtExpr .plain b && baseOk b && !b.isStaticMember && ms.all simpleVar)
  | .call t args => (callee t || rtExpr .plain t && (t.isVar || t.isClassConst)) && rtExprs .arg args
  | .new t args => (classRef t || rtExpr .plain t && crefOk t) && rtExprs .arg args
  | .unpack e => c == .arg && rtExpr .plain e
  | .unary op e => rtExpr .plain e && (match op with
    | .PreInc | .PreDec | .PostInc | .PostDec => e.isVar
    | _ => signOk e && (e.kind.bracketed || e.grade != .inst))
  | .binary op l r => rtExpr .plain l && rtExpr .plain r && leftOk l && signOk r &&
      (op != .Concat || (!l.isNumber && (r.kind.bracketed || r.lead != .digit)))
  | .instanceOf l r => rtExpr .plain l && l.grade == .tight && (classRef r || rtExpr .plain r && crefOk r)
  | .cast t e => (castKw t).isSome && rtExpr .plain e
  | .yield e => rtOpt e && (match e with | some e => noFromLead e.lead | none => true)
  | .function f => rtFn true false f
  | .assign l r => rtExpr .lhs l && (l.isVar || l.isList) && rtExpr .plain r
  | .compoundAssign l op r => rtExpr .plain l && l.isVar && (compoundKw op).isSome && rtExpr .plain r
  | .assignRef l r => rtExpr .lhs l && (l.isVar || l.isList) && rtExpr .plain r
  | .list items => c == .lhs && rtItems items
  | .ternary c t e => rtExpr .plain c && leftOk c && rtOpt t && rtExpr .plain e

def rtOpt : Option Expr → Bool
  | none => true
  | some e => rtExpr .plain e

def rtExprs (c : Place) : List Expr → Bool
  | [] => true
  | e :: es => rtExpr c e && rtExprs c es

def rtItems : List (Option Expr × Expr) → Bool
  | [] => true
  | (k, e) :: es => rtOpt k && rtExpr .plain e && rtItems es

def rtOpts : List (Option Expr) → Bool
  | [] => true
  | e :: es => rtOpt e && rtOpts es

/-- What follows `->`: names, variables, and expressions that are printed in braces. -/
def rtMembers : List Expr → Bool
  | [] => true
  | e :: es => (propName e || simpleVar e || (e.kind.bracketed && rtExpr .plain e)) && rtMembers es

/-- A function: `closure` may capture variables, `abs` may lack a body. -/
def rtFn (closure abs : Bool) : FnDecl → Bool
  | .mk params body usev _ => rtParams params && useVarsOk usev && (match body with
    | some b => rtStmts b && (closure || usev.isEmpty)
    | none => abs && usev.isEmpty)

def rtParams : List Param → Bool
  | [] => true
  | q :: qs => rtParam q && rtParams qs

def rtParam : Param → Bool
  | .mk n _ _ t d => isIdentifier n && tyOk t && rtOpt d

def rtStmt : Stmt → Bool
  | .mk k _ => rtStmtK k

def rtStmtK : StmtK → Bool
  | .none => true
  | .block b => rtStmts b
  | .decl d => rtDecl d
  | .use _ => false
  | .expr e => rtExpr .plain e
  | .echo es => !es.isEmpty && rtExprs .plain es
  | .ret e => rtOpt e
  | .brk e => rtOpt e
  | .cont e => rtOpt e
  | .unset es => !es.isEmpty && rtExprs .plain es && es.all Expr.isVar
  | .ite c t e => rtExpr .plain c && rtStmts t && rtStmts e
  | .while c b => rtExpr .plain c && rtStmts b
  | .doWhile b c => rtStmts b && rtExpr .plain c
  | .for i c l b => rtOpt i && rtOpt c && rtOpt l && rtStmts b
  | .forEach e k v b => rtExpr .plain e && (match k with | some k => rtExpr .each k && eachOk k | none => true) && rtExpr .each v && eachOk v && rtStmts b
  | .try b cs f => rtStmts b && rtCatches cs && (match f with | some f => rtStmts f | none => true)
  | .throw e => rtExpr .plain e
  | .switch e cs => rtExpr .plain e && rtCases cs

def rtStmts : List Stmt → Bool
  | [] => true
  | s :: ss => rtStmt s && rtStmts ss

def rtCatches : List Catch → Bool
  | [] => true
  | .mk ty v b :: cs => pathOk ty && isIdentifier v && rtStmts b && rtCatches cs

/-- Cases with statements; behind them cases with one label and nothing else. -/
def rtCases : List Case → Bool
  | [] => true
  | .mk conds d b :: cs => rtExprs .plain conds && rtStmts b &&
      (if b.isEmpty then !d && conds.length == 1 && cs.all (fun c => match c with | .mk _ _ b => b.isEmpty)
       else d || !conds.isEmpty) && rtCases cs

def rtDecl : Decl → Bool
  | .namespace _ => false
  | .globalFunction n f => nameOk n && rtFn false false f
  | .cls m n b i ms => decide (m.bits < 4) && nameOk n && (match b with | some b => pathOk b | none => true) &&
      i.all pathOk && rtMemberDecls ms
  | .interface n x ms => nameOk n && x.all pathOk && rtMemberDecls ms
  | .trait n ms => nameOk n && rtMemberDecls ms
  | .staticVars vs => !vs.isEmpty && rtStaticVars vs
  | .globalVars _ => false

def rtStaticVars : List (Text × Option Expr) → Bool
  | [] => true
  | (n, e) :: vs => isIdentifier n && rtOpt e && rtStaticVars vs

def rtMember : Member → Bool
  | .constant m n e => decide (m.bits < 64) && identOk n && rtExpr .plain e
  | .property m n e => decide (m.bits < 64) && isIdentifier n && rtOpt e
  | .method m n f => decide (m.bits < 64) && nameOk n && rtFn false true f
  | .traitUse ps us => !ps.isEmpty && ps.all pathOk && us.all traitUseOk

def rtMemberDecls : List Member → Bool
  | [] => true
  | m :: ms => rtMember m && rtMemberDecls ms

end

/-- Statements of a whole file: also `namespace N;` and `use N;` with a single name. -/
def rtTop : Stmt → Bool
  | .mk (.decl (.namespace p)) _ => !p.isAbsolute && pathOk p
  | .mk (.use [c]) _ => pathOk c.path && (match c.alias_ with | some a => nameOk a | none => true)
  | s => rtStmt dbl s

def rtTops (ss : List Stmt) : Bool := ss.all (rtTop dbl)

end

end Pico
