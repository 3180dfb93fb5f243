import Verif.Model.Ast
/-!
# Quantifying over the nodes of a syntax tree

`Expr.All p e` says that every expression node inside `e` (including `e` itself, and including the nodes
inside closures) satisfies `p`; `Stmt.All p s` says the same for the expressions inside a statement.
-/
namespace Pico

section
variable (p : ExprK → Prop)

mutual

def Expr.All : Expr → Prop
  | .mk k _ => p k ∧ ExprK.Children k

/-- All expression nodes strictly below this one. -/
def ExprK.Children : ExprK → Prop
  | .path _ | .const _ | .str _ | .binStr _ | .int _ | .double _ => True
  | .array items => allItems items
  | .var v => Variable.All v
  | .reference e => Expr.All e
  | .clone e => Expr.All e
  | .isset es => allExprs es
  | .empty e => Expr.All e
  | .exit e => allOpt e
  | .include _ e => Expr.All e
  | .arrayIdx e idxs => Expr.All e ∧ allOpts idxs
  | .objMember e ms => Expr.All e ∧ allExprs ms
  | .staticMember e ms => Expr.All e ∧ allExprs ms
  | .call e args => Expr.All e ∧ allExprs args
  | .new e args => Expr.All e ∧ allExprs args
  | .unpack e => Expr.All e
  | .unary _ e => Expr.All e
  | .binary _ l r => Expr.All l ∧ Expr.All r
  | .instanceOf l r => Expr.All l ∧ Expr.All r
  | .cast _ e => Expr.All e
  | .yield e => allOpt e
  | .function f => FnDecl.All f
  | .assign l r => Expr.All l ∧ Expr.All r
  | .compoundAssign l _ r => Expr.All l ∧ Expr.All r
  | .assignRef l r => Expr.All l ∧ Expr.All r
  | .list items => allItems items
  | .ternary c t e => Expr.All c ∧ allOpt t ∧ Expr.All e

def Variable.All : Variable → Prop
  | .name _ => True
  | .fetch e => Expr.All e

def allOpt : Option Expr → Prop
  | none => True
  | some e => Expr.All e

def allExprs : List Expr → Prop
  | [] => True
  | e :: es => Expr.All e ∧ allExprs es

def allItems : List (Option Expr × Expr) → Prop
  | [] => True
  | (k, e) :: es => allOpt k ∧ Expr.All e ∧ allItems es

def allOpts : List (Option Expr) → Prop
  | [] => True
  | e :: es => allOpt e ∧ allOpts es

def FnDecl.All : FnDecl → Prop
  | .mk params body _ _ => allParams params ∧ allBody body

def allParams : List Param → Prop
  | [] => True
  | q :: qs => Param.All q ∧ allParams qs

def Param.All : Param → Prop
  | .mk _ _ _ _ d => allOpt d

def allBody : Option (List Stmt) → Prop
  | none => True
  | some b => allStmts b

def Stmt.All : Stmt → Prop
  | .mk k _ => StmtK.All k

def StmtK.All : StmtK → Prop
  | .none | .use _ => True
  | .block b => allStmts b
  | .decl d => Decl.All d
  | .expr e => Expr.All e
  | .echo es => allExprs es
  | .ret e => allOpt e
  | .brk e => allOpt e
  | .cont e => allOpt e
  | .unset es => allExprs es
  | .ite c t e => Expr.All c ∧ allStmts t ∧ allStmts e
  | .while c b => Expr.All c ∧ allStmts b
  | .doWhile b c => allStmts b ∧ Expr.All c
  | .for i c l b => allOpt i ∧ allOpt c ∧ allOpt l ∧ allStmts b
  | .forEach e k v b => Expr.All e ∧ allOpt k ∧ Expr.All v ∧ allStmts b
  | .try b cs f => allStmts b ∧ allCatches cs ∧ allBody f
  | .throw e => Expr.All e
  | .switch e cs => Expr.All e ∧ allCases cs

def allStmts : List Stmt → Prop
  | [] => True
  | s :: ss => Stmt.All s ∧ allStmts ss

def Catch.All : Catch → Prop
  | .mk _ _ b => allStmts b

def allCatches : List Catch → Prop
  | [] => True
  | c :: cs => Catch.All c ∧ allCatches cs

def Case.All : Case → Prop
  | .mk conds _ b => allExprs conds ∧ allStmts b

def allCases : List Case → Prop
  | [] => True
  | c :: cs => Case.All c ∧ allCases cs

def Decl.All : Decl → Prop
  | .namespace _ => True
  | .globalFunction _ f => FnDecl.All f
  | .cls _ _ _ _ ms => allMembers ms
  | .interface _ _ ms => allMembers ms
  | .trait _ ms => allMembers ms
  | .staticVars vs => allStaticVars vs
  | .globalVars vs => allVariables vs

def allStaticVars : List (Text × Option Expr) → Prop
  | [] => True
  | (_, e) :: vs => allOpt e ∧ allStaticVars vs

def allVariables : List Variable → Prop
  | [] => True
  | v :: vs => Variable.All v ∧ allVariables vs

def Member.All : Member → Prop
  | .constant _ _ e => Expr.All e
  | .property _ _ e => allOpt e
  | .method _ _ f => FnDecl.All f
  | .traitUse _ _ => True

def allMembers : List Member → Prop
  | [] => True
  | m :: ms => Member.All m ∧ allMembers ms

end

end

/-- The two expression forms for which the printer has no code (`unimplemented!()`): binary string
literals and casts to a named class. -/
def ExprK.hasPrinter : ExprK → Prop
  | .binStr _ => False
  | .cast (.Object (some _)) _ => False
  | _ => True

end Pico
