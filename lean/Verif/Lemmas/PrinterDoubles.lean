import Verif.Model.Printer
import Verif.Spec.Doubles

/-!
# Literals of doubles that are printed alike
-/

namespace Pico

section
variable {σ : Type} (tg : Target σ) (g : Text → Text)

theorem wrapped_redbl (e : Expr) : (e.redbl g).kind.wrapped = e.kind.wrapped := by
  cases e with
  | mk k sp => cases k <;> rfl

theorem wrapParens_redbl (c : Bool) (e : Expr) {b b' : W σ} (h : b = b') :
    wrapParens tg c (e.redbl g) b = wrapParens tg c e b' := by
  subst h
  unfold wrapParens
  rw [wrapped_redbl]

theorem redblStmts_isEmpty (ss : List Stmt) : (redblStmts g ss).isEmpty = ss.isEmpty := by
  cases ss <;> rfl

variable (hg : ∀ l, tg.dbl (g l) = tg.dbl l)
include hg

mutual

theorem print_redbl_expr : (e : Expr) → pExpr tg (e.redbl g) = pExpr tg e
  | .mk k _ => by
    have := print_redbl_exprK k
    simpa only [Expr.redbl, pExpr] using this


theorem print_redbl_exprK : (k : ExprK) → pExprK tg (k.redbl g) = pExprK tg k
  | .path _ => by
    simp only [ExprK.redbl, pExprK, redblOpt]
  | .const _ => by
    simp only [ExprK.redbl, pExprK, redblOpt]
  | .str _ => by
    simp only [ExprK.redbl, pExprK, redblOpt]
  | .binStr _ => by
    simp only [ExprK.redbl, pExprK, redblOpt]
  | .int _ => by
    simp only [ExprK.redbl, pExprK, redblOpt]
  | .double _ => by
    simp only [hg, ExprK.redbl, pExprK, redblOpt]
  | .array items => by
    have h0 := print_redbl_items items true
    simp only [ExprK.redbl, pExprK, redblOpt, h0]
  | .var v => by
    have h0 := print_redbl_variable v
    simp only [ExprK.redbl, pExprK, redblOpt, h0]
  | .reference e => by
    have h0 := print_redbl_expr e
    simp only [ExprK.redbl, pExprK, redblOpt, h0]
  | .clone e => by
    have h0 := print_redbl_expr e
    simp only [ExprK.redbl, pExprK, redblOpt, h0]
  | .isset es => by
    have h0 := print_redbl_args es true
    simp only [ExprK.redbl, pExprK, redblOpt, h0]
  | .empty e => by
    have h0 := print_redbl_expr e
    simp only [ExprK.redbl, pExprK, redblOpt, h0]
  | .exit e => by
    have h0 := print_redbl_opt e
    simp only [ExprK.redbl, pExprK, redblOpt, h0]
  | .include _ e => by
    have h0 := print_redbl_expr e
    simp only [ExprK.redbl, pExprK, redblOpt, h0]
  | .arrayIdx e idxs => by
    have h0 := wrapParens_redbl tg g false e (print_redbl_expr e)
    have h1 := print_redbl_idxs idxs
    simp only [ExprK.redbl, pExprK, redblOpt, h0, h1]
  | .objMember e ms => by
    have h0 := wrapParens_redbl tg g false e (print_redbl_expr e)
    have h1 := print_redbl_memberNames ms c!"->" true
    simp only [ExprK.redbl, pExprK, redblOpt, h0, h1]
  | .staticMember e ms => by
    have h0 := wrapParens_redbl tg g false e (print_redbl_expr e)
    have h1 := print_redbl_memberNames ms c!"::" false
    simp only [ExprK.redbl, pExprK, redblOpt, h0, h1]
  | .call e args => by
    have h0 := print_redbl_expr e
    have h1 := print_redbl_args args true
    simp only [ExprK.redbl, pExprK, redblOpt, h0, h1]
  | .new e args => by
    have h0 := print_redbl_expr e
    have h1 := print_redbl_args args true
    simp only [ExprK.redbl, pExprK, redblOpt, h0, h1]
  | .unpack e => by
    have h0 := print_redbl_expr e
    simp only [ExprK.redbl, pExprK, redblOpt, h0]
  | .unary op e => by
    have h0 := wrapParens_redbl tg g false e (b := pExpr tg e) rfl
    have h1 := print_redbl_expr e
    simp only [ExprK.redbl, pExprK, redblOpt, h0, h1]
  | .binary op l r => by
    have h0 := wrapParens_redbl tg g false l (print_redbl_expr l)
    have h1 := wrapParens_redbl tg g false r (print_redbl_expr r)
    simp only [ExprK.redbl, pExprK, redblOpt, h0, h1]
  | .instanceOf l r => by
    have h0 := print_redbl_expr l
    have h1 := print_redbl_expr r
    simp only [ExprK.redbl, pExprK, redblOpt, h0, h1]
  | .cast t e => by
    have h0 := print_redbl_expr e
    simp only [ExprK.redbl, pExprK, redblOpt, h0]
  | .yield e => by
    have h0 := print_redbl_opt e
    simp only [ExprK.redbl, pExprK, redblOpt, h0]
  | .function f => by
    have h0 := print_redbl_fn f none
    simp only [ExprK.redbl, pExprK, redblOpt, h0]
  | .assign l r => by
    have h0 := print_redbl_expr l
    have h1 := print_redbl_expr r
    simp only [ExprK.redbl, pExprK, redblOpt, h0, h1]
  | .compoundAssign l op r => by
    have h0 := print_redbl_expr l
    have h1 := print_redbl_expr r
    simp only [ExprK.redbl, pExprK, redblOpt, h0, h1]
  | .assignRef l r => by
    have h0 := print_redbl_expr l
    have h1 := print_redbl_expr r
    simp only [ExprK.redbl, pExprK, redblOpt, h0, h1]
  | .list items => by
    have h0 := print_redbl_items items true
    simp only [ExprK.redbl, pExprK, redblOpt, h0]
  | .ternary c none e => by
    have h0 := wrapParens_redbl tg g false c (print_redbl_expr c)
    have h1 := wrapParens_redbl tg g false e (print_redbl_expr e)
    simp only [ExprK.redbl, pExprK, redblOpt, h0, h1]
  | .ternary c (some t) e => by
    have h0 := wrapParens_redbl tg g false c (print_redbl_expr c)
    have h1 := wrapParens_redbl tg g false t (print_redbl_expr t)
    have h2 := wrapParens_redbl tg g false e (print_redbl_expr e)
    simp only [ExprK.redbl, pExprK, redblOpt, h0, h1, h2]

theorem print_redbl_variable : (v : Variable) → pVariable tg (v.redbl g) = pVariable tg v
  | .name _ => by
    simp only [Variable.redbl, pVariable]
  | .fetch e => by
    have h0 := wrapParens_redbl tg g true e (print_redbl_expr e)
    simp only [Variable.redbl, pVariable, h0]

theorem print_redbl_opt : (e : Option Expr) → pOptExpr tg (redblOpt g e) = pOptExpr tg e
  | none => by
    simp only [redblOpt, pOptExpr]
  | some e => by
    have h0 := print_redbl_expr e
    simp only [redblOpt, pOptExpr, h0]

theorem print_redbl_args : (es : List Expr) → (first : Bool) → pArgs tg first (redblExprs g es) = pArgs tg first es
  | [], _ => by
    simp only [redblExprs, pArgs]
  | e :: es, _ => by
    have h0 := print_redbl_expr e
    have h1 := print_redbl_args es false
    simp only [redblExprs, pArgs, h0, h1]

theorem print_redbl_items : (es : List (Option Expr × Expr)) → (first : Bool) → pItems tg first (redblItems g es) = pItems tg first es
  | [], _ => by
    simp only [redblItems, redblOpt, pItems]
  | (none, v) :: es, _ => by
    have h0 := print_redbl_expr v
    have h1 := print_redbl_items es false
    simp only [redblItems, redblOpt, pItems, h0, h1]
  | (some k, v) :: es, _ => by
    have h0 := print_redbl_expr k
    have h1 := print_redbl_expr v
    have h2 := print_redbl_items es false
    simp only [redblItems, redblOpt, pItems, h0, h1, h2]

theorem print_redbl_idxs : (es : List (Option Expr)) → pIdxs tg (redblOpts g es) = pIdxs tg es
  | [] => by
    simp only [redblOpts, redblOpt, pIdxs]
  | none :: es => by
    have h0 := print_redbl_idxs es
    simp only [redblOpts, redblOpt, pIdxs, h0]
  | some e :: es => by
    have h0 := print_redbl_expr e
    have h1 := print_redbl_idxs es
    simp only [redblOpts, redblOpt, pIdxs, h0, h1]

theorem print_redbl_memberNames : (es : List Expr) → (sep : Text) → (curly : Bool) →
    pMemberNames tg sep curly (redblExprs g es) = pMemberNames tg sep curly es
  | [], _, _ => by
    simp only [redblExprs, pMemberNames]
  | e :: es, sep, curly => by
    have h0 := wrapParens_redbl tg g curly e (print_redbl_expr e)
    have h1 := print_redbl_memberNames es sep curly
    simp only [redblExprs, pMemberNames, h0, h1]

theorem print_redbl_fn : (f : FnDecl) → (name : Option Text) → pFn tg name (f.redbl g) = pFn tg name f
  | .mk ps none _ _, _ => by
    have h0 := print_redbl_params ps true
    simp only [FnDecl.redbl, redblBody, pFn, h0]
  | .mk ps (some b) _ _, _ => by
    have h0 := print_redbl_params ps true
    have h1 := print_redbl_stmts b
    simp only [FnDecl.redbl, redblBody, pFn, h0, h1]

theorem print_redbl_params : (ps : List Param) → (first : Bool) → pParams tg first (redblParams g ps) = pParams tg first ps
  | [], _ => by
    simp only [redblParams, pParams]
  | p :: ps, _ => by
    have h0 := print_redbl_param p
    have h1 := print_redbl_params ps false
    simp only [redblParams, pParams, h0, h1]

theorem print_redbl_param : (p : Param) → pParam tg (p.redbl g) = pParam tg p
  | .mk _ _ _ _ none => by
    simp only [Param.redbl, redblOpt, pParam]
  | .mk _ _ _ _ (some e) => by
    have h0 := print_redbl_expr e
    simp only [Param.redbl, redblOpt, pParam, h0]

theorem print_redbl_stmt : (s : Stmt) → pStmt tg (s.redbl g) = pStmt tg s
  | .mk k _ => by
    have := print_redbl_stmtK k
    simpa only [Stmt.redbl, pStmt] using this


theorem print_redbl_stmtK : (k : StmtK) → pStmtK tg (k.redbl g) = pStmtK tg k
  | .none => by
    simp only [StmtK.redbl, redblOpt, redblBody, pStmtK, redblStmts_isEmpty]
  | .use _ => by
    simp only [StmtK.redbl, redblOpt, redblBody, pStmtK, redblStmts_isEmpty]
  | .block b => by
    have h0 := print_redbl_stmts b
    simp only [StmtK.redbl, redblOpt, redblBody, pStmtK, redblStmts_isEmpty, h0]
  | .decl d => by
    have h0 := print_redbl_decl d
    simp only [StmtK.redbl, redblOpt, redblBody, pStmtK, redblStmts_isEmpty, h0]
  | .expr e => by
    have h0 := print_redbl_expr e
    simp only [StmtK.redbl, redblOpt, redblBody, pStmtK, redblStmts_isEmpty, h0]
  | .echo es => by
    have h0 := print_redbl_args es true
    simp only [StmtK.redbl, redblOpt, redblBody, pStmtK, redblStmts_isEmpty, h0]
  | .ret none => by
    simp only [StmtK.redbl, redblOpt, redblBody, pStmtK, redblStmts_isEmpty]
  | .ret (some e) => by
    have h0 := print_redbl_expr e
    simp only [StmtK.redbl, redblOpt, redblBody, pStmtK, redblStmts_isEmpty, h0]
  | .brk none => by
    simp only [StmtK.redbl, redblOpt, redblBody, pStmtK, redblStmts_isEmpty]
  | .brk (some e) => by
    have h0 := print_redbl_expr e
    simp only [StmtK.redbl, redblOpt, redblBody, pStmtK, redblStmts_isEmpty, h0]
  | .cont none => by
    simp only [StmtK.redbl, redblOpt, redblBody, pStmtK, redblStmts_isEmpty]
  | .cont (some e) => by
    have h0 := print_redbl_expr e
    simp only [StmtK.redbl, redblOpt, redblBody, pStmtK, redblStmts_isEmpty, h0]
  | .unset es => by
    have h0 := print_redbl_args es true
    simp only [StmtK.redbl, redblOpt, redblBody, pStmtK, redblStmts_isEmpty, h0]
  | .ite c t e => by
    have h0 := print_redbl_expr c
    have h1 := print_redbl_stmts t
    have h2 := print_redbl_stmts e
    simp only [StmtK.redbl, redblOpt, redblBody, pStmtK, redblStmts_isEmpty, h0, h1, h2]
  | .while c b => by
    have h0 := print_redbl_expr c
    have h1 := print_redbl_stmts b
    simp only [StmtK.redbl, redblOpt, redblBody, pStmtK, redblStmts_isEmpty, h0, h1]
  | .doWhile b c => by
    have h0 := print_redbl_stmts b
    have h1 := print_redbl_expr c
    simp only [StmtK.redbl, redblOpt, redblBody, pStmtK, redblStmts_isEmpty, h0, h1]
  | .for i c l b => by
    have h0 := print_redbl_opt i
    have h1 := print_redbl_opt c
    have h2 := print_redbl_opt l
    have h3 := print_redbl_stmts b
    simp only [StmtK.redbl, redblOpt, redblBody, pStmtK, redblStmts_isEmpty, h0, h1, h2, h3]
  | .forEach e none v b => by
    have h0 := print_redbl_expr e
    have h1 := print_redbl_expr v
    have h2 := print_redbl_stmts b
    simp only [StmtK.redbl, redblOpt, redblBody, pStmtK, redblStmts_isEmpty, h0, h1, h2]
  | .forEach e (some k) v b => by
    have h0 := print_redbl_expr e
    have h1 := print_redbl_expr k
    have h2 := print_redbl_expr v
    have h3 := print_redbl_stmts b
    simp only [StmtK.redbl, redblOpt, redblBody, pStmtK, redblStmts_isEmpty, h0, h1, h2, h3]
  | .try b cs none => by
    have h0 := print_redbl_stmts b
    have h1 := print_redbl_catches cs
    simp only [StmtK.redbl, redblOpt, redblBody, pStmtK, redblStmts_isEmpty, h0, h1]
  | .try b cs (some f) => by
    have h0 := print_redbl_stmts b
    have h1 := print_redbl_catches cs
    have h2 := print_redbl_stmts f
    simp only [StmtK.redbl, redblOpt, redblBody, pStmtK, redblStmts_isEmpty, h0, h1, h2]
  | .throw e => by
    have h0 := print_redbl_expr e
    simp only [StmtK.redbl, redblOpt, redblBody, pStmtK, redblStmts_isEmpty, h0]
  | .switch e cs => by
    have h0 := print_redbl_expr e
    have h1 := print_redbl_cases cs
    simp only [StmtK.redbl, redblOpt, redblBody, pStmtK, redblStmts_isEmpty, h0, h1]

theorem print_redbl_stmts : (ss : List Stmt) → pStmts tg (redblStmts g ss) = pStmts tg ss
  | [] => by
    simp only [redblStmts, pStmts]
  | s :: ss => by
    have h0 := print_redbl_stmt s
    have h1 := print_redbl_stmts ss
    simp only [redblStmts, pStmts, h0, h1]

theorem print_redbl_catches : (cs : List Catch) → pCatches tg (redblCatches g cs) = pCatches tg cs
  | [] => by
    simp only [redblCatches, pCatches]
  | c :: cs => by
    have h0 := print_redbl_catch c
    have h1 := print_redbl_catches cs
    simp only [redblCatches, pCatches, h0, h1]

theorem print_redbl_catch : (c : Catch) → pCatch tg (c.redbl g) = pCatch tg c
  | .mk _ _ b => by
    have h0 := print_redbl_stmts b
    simp only [Catch.redbl, pCatch, h0]

theorem print_redbl_cases : (cs : List Case) → pCases tg (redblCases g cs) = pCases tg cs
  | [] => by
    simp only [redblCases, pCases]
  | c :: cs => by
    have h0 := print_redbl_case c
    have h1 := print_redbl_cases cs
    simp only [redblCases, pCases, h0, h1]

theorem print_redbl_case : (c : Case) → pCase tg (c.redbl g) = pCase tg c
  | .mk es _ b => by
    have h0 := print_redbl_conds es
    have h1 := print_redbl_stmts b
    simp only [Case.redbl, pCase, h0, h1]

theorem print_redbl_conds : (es : List Expr) → pConds tg (redblExprs g es) = pConds tg es
  | [] => by
    simp only [redblExprs, pConds]
  | e :: es => by
    have h0 := print_redbl_expr e
    have h1 := print_redbl_conds es
    simp only [redblExprs, pConds, h0, h1]

theorem print_redbl_decl : (d : Decl) → pDecl tg (d.redbl g) = pDecl tg d
  | .namespace _ => by
    simp only [Decl.redbl, pDecl]
  | .globalFunction n f => by
    have h0 := print_redbl_fn f (some n)
    simp only [Decl.redbl, pDecl, h0]
  | .cls _ _ _ _ ms => by
    have h0 := print_redbl_members ms
    simp only [Decl.redbl, pDecl, h0]
  | .interface _ _ ms => by
    have h0 := print_redbl_members ms
    simp only [Decl.redbl, pDecl, h0]
  | .trait _ ms => by
    have h0 := print_redbl_members ms
    simp only [Decl.redbl, pDecl, h0]
  | .staticVars vs => by
    have h0 := print_redbl_staticVars vs true
    simp only [Decl.redbl, pDecl, h0]
  | .globalVars vs => by
    have h0 := print_redbl_globalVars vs true
    simp only [Decl.redbl, pDecl, h0]

theorem print_redbl_staticVars : (vs : List (Text × Option Expr)) → (first : Bool) →
    pStaticVars tg first (redblStaticVars g vs) = pStaticVars tg first vs
  | [], _ => by
    simp only [redblStaticVars, redblOpt, pStaticVars]
  | (_, none) :: vs, _ => by
    have h0 := print_redbl_staticVars vs false
    simp only [redblStaticVars, redblOpt, pStaticVars, h0]
  | (_, some e) :: vs, _ => by
    have h0 := print_redbl_expr e
    have h1 := print_redbl_staticVars vs false
    simp only [redblStaticVars, redblOpt, pStaticVars, h0, h1]

theorem print_redbl_globalVars : (vs : List Variable) → (first : Bool) →
    pGlobalVars tg first (redblVariables g vs) = pGlobalVars tg first vs
  | [], _ => by
    simp only [redblVariables, pGlobalVars]
  | v :: vs, _ => by
    have h0 := print_redbl_variable v
    have h1 := print_redbl_globalVars vs false
    simp only [redblVariables, pGlobalVars, h0, h1]

theorem print_redbl_members : (ms : List Member) → pMembers tg (redblMembers g ms) = pMembers tg ms
  | [] => by
    simp only [redblMembers, pMembers]
  | m :: ms => by
    have h0 := print_redbl_member m
    have h1 := print_redbl_members ms
    simp only [redblMembers, pMembers, h0, h1]

theorem print_redbl_member : (m : Member) → pMember tg (m.redbl g) = pMember tg m
  | .constant _ _ e => by
    have h0 := print_redbl_expr e
    simp only [Member.redbl, redblOpt, pMember, h0]
  | .property _ _ none => by
    simp only [Member.redbl, redblOpt, pMember]
  | .property _ _ (some e) => by
    have h0 := print_redbl_expr e
    simp only [Member.redbl, redblOpt, pMember, h0]
  | .method _ n f => by
    have h0 := print_redbl_fn f (some n)
    simp only [Member.redbl, redblOpt, pMember, h0]
  | .traitUse _ _ => by
    simp only [Member.redbl, redblOpt, pMember]

end

end

end Pico
