import Verif.Model.Ast
/-!
# Trees up to source positions

`erase` replaces every position by the empty one; two trees are the same up to positions when their
erasures are equal.
-/
namespace Pico

mutual

def Expr.erase : Expr → Expr
  | .mk k _ => .mk (ExprK.erase k) Span.new

def ExprK.erase : ExprK → ExprK
  | .path p => .path p
  | .const c => .const c
  | .str s => .str s
  | .binStr bs => .binStr bs
  | .int v => .int v
  | .double l => .double l
  | .array items => .array (eraseItems items)
  | .var v => .var (Variable.erase v)
  | .reference e => .reference (Expr.erase e)
  | .clone e => .clone (Expr.erase e)
  | .isset es => .isset (eraseExprs es)
  | .empty e => .empty (Expr.erase e)
  | .exit e => .exit (eraseOpt e)
  | .include t e => .include t (Expr.erase e)
  | .arrayIdx e idxs => .arrayIdx (Expr.erase e) (eraseOpts idxs)
  | .objMember e ms => .objMember (Expr.erase e) (eraseExprs ms)
  | .staticMember e ms => .staticMember (Expr.erase e) (eraseExprs ms)
  | .call e args => .call (Expr.erase e) (eraseExprs args)
  | .new e args => .new (Expr.erase e) (eraseExprs args)
  | .unpack e => .unpack (Expr.erase e)
  | .unary op e => .unary op (Expr.erase e)
  | .binary op l r => .binary op (Expr.erase l) (Expr.erase r)
  | .instanceOf l r => .instanceOf (Expr.erase l) (Expr.erase r)
  | .cast t e => .cast t (Expr.erase e)
  | .yield e => .yield (eraseOpt e)
  | .function f => .function (FnDecl.erase f)
  | .assign l r => .assign (Expr.erase l) (Expr.erase r)
  | .compoundAssign l op r => .compoundAssign (Expr.erase l) op (Expr.erase r)
  | .assignRef l r => .assignRef (Expr.erase l) (Expr.erase r)
  | .list items => .list (eraseItems items)
  | .ternary c t e => .ternary (Expr.erase c) (eraseOpt t) (Expr.erase e)

def Variable.erase : Variable → Variable
  | .name n => .name n
  | .fetch e => .fetch (Expr.erase e)

def eraseOpt : Option Expr → Option Expr
  | none => none
  | some e => some (Expr.erase e)

def eraseExprs : List Expr → List Expr
  | [] => []
  | e :: es => Expr.erase e :: eraseExprs es

def eraseItems : List (Option Expr × Expr) → List (Option Expr × Expr)
  | [] => []
  | (k, e) :: es => (eraseOpt k, Expr.erase e) :: eraseItems es

def eraseOpts : List (Option Expr) → List (Option Expr)
  | [] => []
  | e :: es => eraseOpt e :: eraseOpts es

def FnDecl.erase : FnDecl → FnDecl
  | .mk params body usev rr => .mk (eraseParams params) (eraseBody body) usev rr

def eraseParams : List Param → List Param
  | [] => []
  | q :: qs => Param.erase q :: eraseParams qs

def Param.erase : Param → Param
  | .mk n r v t d => .mk n r v t (eraseOpt d)

def eraseBody : Option (List Stmt) → Option (List Stmt)
  | none => none
  | some b => some (eraseStmts b)

def Stmt.erase : Stmt → Stmt
  | .mk k _ => .mk (StmtK.erase k) Span.new

def StmtK.erase : StmtK → StmtK
  | .none => .none
  | .use cs => .use cs
  | .block b => .block (eraseStmts b)
  | .decl d => .decl (Decl.erase d)
  | .expr e => .expr (Expr.erase e)
  | .echo es => .echo (eraseExprs es)
  | .ret e => .ret (eraseOpt e)
  | .brk e => .brk (eraseOpt e)
  | .cont e => .cont (eraseOpt e)
  | .unset es => .unset (eraseExprs es)
  | .ite c t e => .ite (Expr.erase c) (eraseStmts t) (eraseStmts e)
  | .while c b => .while (Expr.erase c) (eraseStmts b)
  | .doWhile b c => .doWhile (eraseStmts b) (Expr.erase c)
  | .for i c l b => .for (eraseOpt i) (eraseOpt c) (eraseOpt l) (eraseStmts b)
  | .forEach e k v b => .forEach (Expr.erase e) (eraseOpt k) (Expr.erase v) (eraseStmts b)
  | .try b cs f => .try (eraseStmts b) (eraseCatches cs) (eraseBody f)
  | .throw e => .throw (Expr.erase e)
  | .switch e cs => .switch (Expr.erase e) (eraseCases cs)

def eraseStmts : List Stmt → List Stmt
  | [] => []
  | s :: ss => Stmt.erase s :: eraseStmts ss

def Catch.erase : Catch → Catch
  | .mk t v b => .mk t v (eraseStmts b)

def eraseCatches : List Catch → List Catch
  | [] => []
  | c :: cs => Catch.erase c :: eraseCatches cs

def Case.erase : Case → Case
  | .mk conds d b => .mk (eraseExprs conds) d (eraseStmts b)

def eraseCases : List Case → List Case
  | [] => []
  | c :: cs => Case.erase c :: eraseCases cs

def Decl.erase : Decl → Decl
  | .namespace p => .namespace p
  | .globalFunction n f => .globalFunction n (FnDecl.erase f)
  | .cls m n b i ms => .cls m n b i (eraseMembers ms)
  | .interface n x ms => .interface n x (eraseMembers ms)
  | .trait n ms => .trait n (eraseMembers ms)
  | .staticVars vs => .staticVars (eraseStaticVars vs)
  | .globalVars vs => .globalVars (eraseVariables vs)

def eraseStaticVars : List (Text × Option Expr) → List (Text × Option Expr)
  | [] => []
  | (n, e) :: vs => (n, eraseOpt e) :: eraseStaticVars vs

def eraseVariables : List Variable → List Variable
  | [] => []
  | v :: vs => Variable.erase v :: eraseVariables vs

def Member.erase : Member → Member
  | .constant m n e => .constant m n (Expr.erase e)
  | .property m n e => .property m n (eraseOpt e)
  | .method m n f => .method m n (FnDecl.erase f)
  | .traitUse ps us => .traitUse ps us

def eraseMembers : List Member → List Member
  | [] => []
  | m :: ms => Member.erase m :: eraseMembers ms

end

end Pico
