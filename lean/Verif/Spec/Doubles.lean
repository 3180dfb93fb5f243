import Verif.Model.Ast
import Verif.Model.Float
/-!
# Rewriting the literals of doubles

`redblStmts g` replaces every literal `l` of a double in a tree by `g l` and leaves the rest as it is.
-/
namespace Pico

section
variable (g : Text → Text)

mutual

def Expr.redbl : Expr → Expr
  | .mk k sp => .mk (ExprK.redbl k) sp

def ExprK.redbl : ExprK → ExprK
  | .path p => .path p
  | .const c => .const c
  | .str s => .str s
  | .binStr bs => .binStr bs
  | .int v => .int v
  | .double l => .double (g l)
  | .array items => .array (redblItems items)
  | .var v => .var (Variable.redbl v)
  | .reference e => .reference (Expr.redbl e)
  | .clone e => .clone (Expr.redbl e)
  | .isset es => .isset (redblExprs es)
  | .empty e => .empty (Expr.redbl e)
  | .exit e => .exit (redblOpt e)
  | .include t e => .include t (Expr.redbl e)
  | .arrayIdx e idxs => .arrayIdx (Expr.redbl e) (redblOpts idxs)
  | .objMember e ms => .objMember (Expr.redbl e) (redblExprs ms)
  | .staticMember e ms => .staticMember (Expr.redbl e) (redblExprs ms)
  | .call e args => .call (Expr.redbl e) (redblExprs args)
  | .new e args => .new (Expr.redbl e) (redblExprs args)
  | .unpack e => .unpack (Expr.redbl e)
  | .unary op e => .unary op (Expr.redbl e)
  | .binary op l r => .binary op (Expr.redbl l) (Expr.redbl r)
  | .instanceOf l r => .instanceOf (Expr.redbl l) (Expr.redbl r)
  | .cast t e => .cast t (Expr.redbl e)
  | .yield e => .yield (redblOpt e)
  | .function f => .function (FnDecl.redbl f)
  | .assign l r => .assign (Expr.redbl l) (Expr.redbl r)
  | .compoundAssign l op r => .compoundAssign (Expr.redbl l) op (Expr.redbl r)
  | .assignRef l r => .assignRef (Expr.redbl l) (Expr.redbl r)
  | .list items => .list (redblItems items)
  | .ternary c t e => .ternary (Expr.redbl c) (redblOpt t) (Expr.redbl e)

def Variable.redbl : Variable → Variable
  | .name n => .name n
  | .fetch e => .fetch (Expr.redbl e)

def redblOpt : Option Expr → Option Expr
  | none => none
  | some e => some (Expr.redbl e)

def redblExprs : List Expr → List Expr
  | [] => []
  | e :: es => Expr.redbl e :: redblExprs es

def redblItems : List (Option Expr × Expr) → List (Option Expr × Expr)
  | [] => []
  | (k, e) :: es => (redblOpt k, Expr.redbl e) :: redblItems es

def redblOpts : List (Option Expr) → List (Option Expr)
  | [] => []
  | e :: es => redblOpt e :: redblOpts es

def FnDecl.redbl : FnDecl → FnDecl
  | .mk params body usev rr => .mk (redblParams params) (redblBody body) usev rr

def redblParams : List Param → List Param
  | [] => []
  | q :: qs => Param.redbl q :: redblParams qs

def Param.redbl : Param → Param
  | .mk n r v t d => .mk n r v t (redblOpt d)

def redblBody : Option (List Stmt) → Option (List Stmt)
  | none => none
  | some b => some (redblStmts b)

def Stmt.redbl : Stmt → Stmt
  | .mk k sp => .mk (StmtK.redbl k) sp

def StmtK.redbl : StmtK → StmtK
  | .none => .none
  | .use cs => .use cs
  | .block b => .block (redblStmts b)
  | .decl d => .decl (Decl.redbl d)
  | .expr e => .expr (Expr.redbl e)
  | .echo es => .echo (redblExprs es)
  | .ret e => .ret (redblOpt e)
  | .brk e => .brk (redblOpt e)
  | .cont e => .cont (redblOpt e)
  | .unset es => .unset (redblExprs es)
  | .ite c t e => .ite (Expr.redbl c) (redblStmts t) (redblStmts e)
  | .while c b => .while (Expr.redbl c) (redblStmts b)
  | .doWhile b c => .doWhile (redblStmts b) (Expr.redbl c)
  | .for i c l b => .for (redblOpt i) (redblOpt c) (redblOpt l) (redblStmts b)
  | .forEach e k v b => .forEach (Expr.redbl e) (redblOpt k) (Expr.redbl v) (redblStmts b)
  | .try b cs f => .try (redblStmts b) (redblCatches cs) (redblBody f)
  | .throw e => .throw (Expr.redbl e)
  | .switch e cs => .switch (Expr.redbl e) (redblCases cs)

def redblStmts : List Stmt → List Stmt
  | [] => []
  | s :: ss => Stmt.redbl s :: redblStmts ss

def Catch.redbl : Catch → Catch
  | .mk t v b => .mk t v (redblStmts b)

def redblCatches : List Catch → List Catch
  | [] => []
  | c :: cs => Catch.redbl c :: redblCatches cs

def Case.redbl : Case → Case
  | .mk conds d b => .mk (redblExprs conds) d (redblStmts b)

def redblCases : List Case → List Case
  | [] => []
  | c :: cs => Case.redbl c :: redblCases cs

def Decl.redbl : Decl → Decl
  | .namespace p => .namespace p
  | .globalFunction n f => .globalFunction n (FnDecl.redbl f)
  | .cls m n b i ms => .cls m n b i (redblMembers ms)
  | .interface n x ms => .interface n x (redblMembers ms)
  | .trait n ms => .trait n (redblMembers ms)
  | .staticVars vs => .staticVars (redblStaticVars vs)
  | .globalVars vs => .globalVars (redblVariables vs)

def redblStaticVars : List (Text × Option Expr) → List (Text × Option Expr)
  | [] => []
  | (n, e) :: vs => (n, redblOpt e) :: redblStaticVars vs

def redblVariables : List Variable → List Variable
  | [] => []
  | v :: vs => Variable.redbl v :: redblVariables vs

def Member.redbl : Member → Member
  | .constant m n e => .constant m n (Expr.redbl e)
  | .property m n e => .property m n (redblOpt e)
  | .method m n f => .method m n (FnDecl.redbl f)
  | .traitUse ps us => .traitUse ps us

def redblMembers : List Member → List Member
  | [] => []
  | m :: ms => Member.redbl m :: redblMembers ms

end

end

end Pico
