import Verif.Spec.RoundTrip
/-!
# Well-formed trees

The type `Stmt` has more values than there are programs: an `isset` of nothing, a spread `...` outside of arguments, a
method without body outside of a class, ... `shTops` says of a tree that it has none of these oddities. It is about
the tree alone and mentions neither tokens nor the parser:

* lists that have at least one element in every program are not empty;
* indices, members and static members are collected: `$a[1][2]` is one node with two indices;
* `...` only stands in arguments, `&` only before what `foreach` assigns to, `list(..)` only left of `=`;
* only closures capture variables, only methods lack a body;
* a case of `switch` is empty only if it has a single label and nothing but such cases follow;
* `namespace` and `use` only stand at the top level;
* modifiers are sets of the modifiers there are; casts are to types that can be written; a combined assignment has an
  operator; integers are non-negative and have 63 bits.
-/
namespace Pico

/-- The operators of combined assignments. -/
def compoundShape : Op → Bool
  | .Add | .Sub | .Mul | .Pow | .Div | .Concat | .Mod | .And | .BitwiseExclOr | .Sl | .Sr => true
  | _ => false

/-- The types of parameters: `array`, `callable` or a class. -/
def tyShape : Option Ty → Bool
  | none => true
  | some .Array => true
  | some .Callable => true
  | some (.Object (some _)) => true
  | _ => false

/-- Behind `insteadof` stands a name; behind `as` an alias and no visibility. -/
def traitUseShape : TraitUse → Bool
  | .insteadOf _ _ ps => !ps.isEmpty
  | .asAlias _ _ ms a => ms == MemberModifiers.none && a.isSome

/-- What follows `::`: a variable or a name. -/
def staticShape (e : Expr) : Bool := e.isVarName || e.isPath

def Expr.isInstance : Expr → Bool
  | .mk (.instanceOf _ _) _ => true
  | _ => false

def Variable.isName : Variable → Bool
  | .name _ => true
  | .fetch _ => false

mutual

def shExpr (c : Place) : Expr → Bool
  | .mk k _ => shExprK c k

def shExprK (c : Place) : ExprK → Bool
  | .path _ => true
  | .const _ => true
  | .str _ => true
  | .binStr _ => false
  | .int v => decide (0 ≤ v) && decide (v < 2 ^ 63)
  | .double _ => true
  | .array items => shItems items
  | .var (.name _) => true
  | .var (.fetch e) => shExpr .plain e
  | .reference e => c == .each && shExpr .plain e
  | .clone e => shExpr .plain e
  | .isset es => !es.isEmpty && shExprs .plain es
  | .empty e => shExpr .plain e
  | .exit e => shOpt e
  | .include _ e => shExpr .plain e
  | .arrayIdx b idxs => shExpr .plain b && !b.isArrayIdx && !idxs.isEmpty && shOpts idxs
  | .objMember b ms => shExpr .plain b && !b.isObjMember && !ms.isEmpty && shExprs .plain ms
  | .staticMember b ms => shExpr .plain b && !b.isStaticMember && !ms.isEmpty && ms.all staticShape
  | .call t args => shExpr .plain t && shExprs .arg args
  | .new t args => shExpr .plain t && shExprs .arg args
  | .unpack e => c == .arg && shExpr .plain e
  | .unary _ e => shExpr .plain e
  | .binary _ l r => shExpr .plain l && shExpr .plain r
  | .instanceOf l r => shExpr .plain l && !l.isInstance && shExpr .plain r
  | .cast t e => (castKw t).isSome && shExpr .plain e
  | .yield e => shOpt e
  | .function f => shFn true false f
  | .assign l r => shExpr .lhs l && shExpr .plain r
  | .compoundAssign l op r => shExpr .plain l && compoundShape op && shExpr .plain r
  | .assignRef l r => shExpr .lhs l && shExpr .plain r
  | .list items => c == .lhs && shItems items
  | .ternary c t e => shExpr .plain c && shOpt t && shExpr .plain e

def shOpt : Option Expr → Bool
  | none => true
  | some e => shExpr .plain e

def shExprs (c : Place) : List Expr → Bool
  | [] => true
  | e :: es => shExpr c e && shExprs c es

def shItems : List (Option Expr × Expr) → Bool
  | [] => true
  | (k, e) :: es => shOpt k && shExpr .plain e && shItems es

def shOpts : List (Option Expr) → Bool
  | [] => true
  | e :: es => shOpt e && shOpts es

/-- A function: `closure` may capture variables, `abs` may lack a body. -/
def shFn (closure abs : Bool) : FnDecl → Bool
  | .mk params body usev _ => shParams params && (closure || usev.isEmpty) && (match body with
    | some b => shStmts b
    | none => abs)

def shParams : List Param → Bool
  | [] => true
  | q :: qs => shParam q && shParams qs

def shParam : Param → Bool
  | .mk _ _ _ t d => tyShape t && shOpt d

def shStmt : Stmt → Bool
  | .mk k _ => shStmtK k

def shStmtK : StmtK → Bool
  | .none => true
  | .block b => shStmts b
  | .decl d => shDecl d
  | .use _ => false
  | .expr e => shExpr .plain e
  | .echo es => !es.isEmpty && shExprs .plain es
  | .ret e => shOpt e
  | .brk e => shOpt e
  | .cont e => shOpt e
  | .unset es => !es.isEmpty && shExprs .plain es
  | .ite c t e => shExpr .plain c && shStmts t && shStmts e
  | .while c b => shExpr .plain c && shStmts b
  | .doWhile b c => shStmts b && shExpr .plain c
  | .for i c l b => shOpt i && shOpt c && shOpt l && shStmts b
  | .forEach e k v b => shExpr .plain e && (match k with | some k => shExpr .each k | none => true) && shExpr .each v &&
      shStmts b
  | .try b cs f => shStmts b && shCatches cs && (match f with | some f => shStmts f | none => true)
  | .throw e => shExpr .plain e
  | .switch e cs => shExpr .plain e && shCases cs

def shStmts : List Stmt → Bool
  | [] => true
  | s :: ss => shStmt s && shStmts ss

def shCatches : List Catch → Bool
  | [] => true
  | .mk _ _ b :: cs => shStmts b && shCatches cs

/-- Cases with statements; behind them cases with one label and nothing else. -/
def shCases : List Case → Bool
  | [] => true
  | .mk conds d b :: cs => shExprs .plain conds && shStmts b &&
      (if b.isEmpty then !d && conds.length == 1 && cs.all (fun c => match c with | .mk _ _ b => b.isEmpty)
       else d || !conds.isEmpty) && shCases cs

def shDecl : Decl → Bool
  | .namespace _ => false
  | .globalFunction _ f => shFn false false f
  | .cls m _ _ _ ms => decide (m.bits < 4) && shMembers ms
  | .interface _ _ ms => shMembers ms
  | .trait _ ms => shMembers ms
  | .staticVars vs => !vs.isEmpty && shStaticVars vs
  | .globalVars vs => !vs.isEmpty && vs.all Variable.isName

def shStaticVars : List (Text × Option Expr) → Bool
  | [] => true
  | (_, e) :: vs => shOpt e && shStaticVars vs

def shMember : Member → Bool
  | .constant m _ e => decide (m.bits < 64) && shExpr .plain e
  | .property m _ e => decide (m.bits < 64) && shOpt e
  | .method m _ f => decide (m.bits < 64) && shFn false true f
  | .traitUse ps us => !ps.isEmpty && us.all traitUseShape

def shMembers : List Member → Bool
  | [] => true
  | m :: ms => shMember m && shMembers ms

end

/-- Statements of a whole file: also `namespace N;` and `use N, ..;`. -/
def shTop : Stmt → Bool
  | .mk (.decl (.namespace p)) _ => !p.isAbsolute
  | .mk (.use cs) _ => !cs.isEmpty
  | s => shStmt s

def shTops (ss : List Stmt) : Bool := ss.all shTop

end Pico
