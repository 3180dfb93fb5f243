import Verif.Model.Printer
import Verif.Spec.Erase

/-!
# The printer does not look at source positions
-/

namespace Pico

section
variable {σ : Type} (tg : Target σ)

theorem wrapped_erase (e : Expr) : e.erase.kind.wrapped = e.kind.wrapped := by
  cases e with
  | mk k sp => cases k <;> rfl

theorem wrapParens_erase (c : Bool) (e : Expr) {b b' : W σ} (h : b = b') :
    wrapParens tg c e.erase b = wrapParens tg c e b' := by
  subst h
  unfold wrapParens
  rw [wrapped_erase]

theorem eraseStmts_isEmpty (ss : List Stmt) : (eraseStmts ss).isEmpty = ss.isEmpty := by
  cases ss <;> rfl

mutual

theorem print_erase_expr : (e : Expr) → pExpr tg e.erase = pExpr tg e
  | .mk k _ => by
    have := print_erase_exprK k
    simpa only [Expr.erase, pExpr] using this


theorem print_erase_exprK : (k : ExprK) → pExprK tg k.erase = pExprK tg k
  | .path _ => by
    simp only [ExprK.erase, pExprK, eraseOpt]
  | .const _ => by
    simp only [ExprK.erase, pExprK, eraseOpt]
  | .str _ => by
    simp only [ExprK.erase, pExprK, eraseOpt]
  | .binStr _ => by
    simp only [ExprK.erase, pExprK, eraseOpt]
  | .int _ => by
    simp only [ExprK.erase, pExprK, eraseOpt]
  | .double _ => by
    simp only [ExprK.erase, pExprK, eraseOpt]
  | .array items => by
    have h0 := print_erase_items items true
    simp only [ExprK.erase, pExprK, eraseOpt, h0]
  | .var v => by
    have h0 := print_erase_variable v
    simp only [ExprK.erase, pExprK, eraseOpt, h0]
  | .reference e => by
    have h0 := print_erase_expr e
    simp only [ExprK.erase, pExprK, eraseOpt, h0]
  | .clone e => by
    have h0 := print_erase_expr e
    simp only [ExprK.erase, pExprK, eraseOpt, h0]
  | .isset es => by
    have h0 := print_erase_args es true
    simp only [ExprK.erase, pExprK, eraseOpt, h0]
  | .empty e => by
    have h0 := print_erase_expr e
    simp only [ExprK.erase, pExprK, eraseOpt, h0]
  | .exit e => by
    have h0 := print_erase_opt e
    simp only [ExprK.erase, pExprK, eraseOpt, h0]
  | .include _ e => by
    have h0 := print_erase_expr e
    simp only [ExprK.erase, pExprK, eraseOpt, h0]
  | .arrayIdx e idxs => by
    have h0 := wrapParens_erase tg false e (print_erase_expr e)
    have h1 := print_erase_idxs idxs
    simp only [ExprK.erase, pExprK, eraseOpt, h0, h1]
  | .objMember e ms => by
    have h0 := wrapParens_erase tg false e (print_erase_expr e)
    have h1 := print_erase_memberNames ms c!"->" true
    simp only [ExprK.erase, pExprK, eraseOpt, h0, h1]
  | .staticMember e ms => by
    have h0 := wrapParens_erase tg false e (print_erase_expr e)
    have h1 := print_erase_memberNames ms c!"::" false
    simp only [ExprK.erase, pExprK, eraseOpt, h0, h1]
  | .call e args => by
    have h0 := print_erase_expr e
    have h1 := print_erase_args args true
    simp only [ExprK.erase, pExprK, eraseOpt, h0, h1]
  | .new e args => by
    have h0 := print_erase_expr e
    have h1 := print_erase_args args true
    simp only [ExprK.erase, pExprK, eraseOpt, h0, h1]
  | .unpack e => by
    have h0 := print_erase_expr e
    simp only [ExprK.erase, pExprK, eraseOpt, h0]
  | .unary op e => by
    have h0 := wrapParens_erase tg false e (b := pExpr tg e) rfl
    have h1 := print_erase_expr e
    simp only [ExprK.erase, pExprK, eraseOpt, h0, h1]
  | .binary op l r => by
    have h0 := wrapParens_erase tg false l (print_erase_expr l)
    have h1 := wrapParens_erase tg false r (print_erase_expr r)
    simp only [ExprK.erase, pExprK, eraseOpt, h0, h1]
  | .instanceOf l r => by
    have h0 := print_erase_expr l
    have h1 := print_erase_expr r
    simp only [ExprK.erase, pExprK, eraseOpt, h0, h1]
  | .cast t e => by
    have h0 := print_erase_expr e
    simp only [ExprK.erase, pExprK, eraseOpt, h0]
  | .yield e => by
    have h0 := print_erase_opt e
    simp only [ExprK.erase, pExprK, eraseOpt, h0]
  | .function f => by
    have h0 := print_erase_fn f none
    simp only [ExprK.erase, pExprK, eraseOpt, h0]
  | .assign l r => by
    have h0 := print_erase_expr l
    have h1 := print_erase_expr r
    simp only [ExprK.erase, pExprK, eraseOpt, h0, h1]
  | .compoundAssign l op r => by
    have h0 := print_erase_expr l
    have h1 := print_erase_expr r
    simp only [ExprK.erase, pExprK, eraseOpt, h0, h1]
  | .assignRef l r => by
    have h0 := print_erase_expr l
    have h1 := print_erase_expr r
    simp only [ExprK.erase, pExprK, eraseOpt, h0, h1]
  | .list items => by
    have h0 := print_erase_items items true
    simp only [ExprK.erase, pExprK, eraseOpt, h0]
  | .ternary c none e => by
    have h0 := wrapParens_erase tg false c (print_erase_expr c)
    have h1 := wrapParens_erase tg false e (print_erase_expr e)
    simp only [ExprK.erase, pExprK, eraseOpt, h0, h1]
  | .ternary c (some t) e => by
    have h0 := wrapParens_erase tg false c (print_erase_expr c)
    have h1 := wrapParens_erase tg false t (print_erase_expr t)
    have h2 := wrapParens_erase tg false e (print_erase_expr e)
    simp only [ExprK.erase, pExprK, eraseOpt, h0, h1, h2]

theorem print_erase_variable : (v : Variable) → pVariable tg v.erase = pVariable tg v
  | .name _ => by
    simp only [Variable.erase, pVariable]
  | .fetch e => by
    have h0 := wrapParens_erase tg true e (print_erase_expr e)
    simp only [Variable.erase, pVariable, h0]

theorem print_erase_opt : (e : Option Expr) → pOptExpr tg (eraseOpt e) = pOptExpr tg e
  | none => by
    simp only [eraseOpt, pOptExpr]
  | some e => by
    have h0 := print_erase_expr e
    simp only [eraseOpt, pOptExpr, h0]

theorem print_erase_args : (es : List Expr) → (first : Bool) → pArgs tg first (eraseExprs es) = pArgs tg first es
  | [], _ => by
    simp only [eraseExprs, pArgs]
  | e :: es, _ => by
    have h0 := print_erase_expr e
    have h1 := print_erase_args es false
    simp only [eraseExprs, pArgs, h0, h1]

theorem print_erase_items : (es : List (Option Expr × Expr)) → (first : Bool) → pItems tg first (eraseItems es) = pItems tg first es
  | [], _ => by
    simp only [eraseItems, eraseOpt, pItems]
  | (none, v) :: es, _ => by
    have h0 := print_erase_expr v
    have h1 := print_erase_items es false
    simp only [eraseItems, eraseOpt, pItems, h0, h1]
  | (some k, v) :: es, _ => by
    have h0 := print_erase_expr k
    have h1 := print_erase_expr v
    have h2 := print_erase_items es false
    simp only [eraseItems, eraseOpt, pItems, h0, h1, h2]

theorem print_erase_idxs : (es : List (Option Expr)) → pIdxs tg (eraseOpts es) = pIdxs tg es
  | [] => by
    simp only [eraseOpts, eraseOpt, pIdxs]
  | none :: es => by
    have h0 := print_erase_idxs es
    simp only [eraseOpts, eraseOpt, pIdxs, h0]
  | some e :: es => by
    have h0 := print_erase_expr e
    have h1 := print_erase_idxs es
    simp only [eraseOpts, eraseOpt, pIdxs, h0, h1]

theorem print_erase_memberNames : (es : List Expr) → (sep : Text) → (curly : Bool) →
    pMemberNames tg sep curly (eraseExprs es) = pMemberNames tg sep curly es
  | [], _, _ => by
    simp only [eraseExprs, pMemberNames]
  | e :: es, sep, curly => by
    have h0 := wrapParens_erase tg curly e (print_erase_expr e)
    have h1 := print_erase_memberNames es sep curly
    simp only [eraseExprs, pMemberNames, h0, h1]

theorem print_erase_fn : (f : FnDecl) → (name : Option Text) → pFn tg name f.erase = pFn tg name f
  | .mk ps none _ _, _ => by
    have h0 := print_erase_params ps true
    simp only [FnDecl.erase, eraseBody, pFn, h0]
  | .mk ps (some b) _ _, _ => by
    have h0 := print_erase_params ps true
    have h1 := print_erase_stmts b
    simp only [FnDecl.erase, eraseBody, pFn, h0, h1]

theorem print_erase_params : (ps : List Param) → (first : Bool) → pParams tg first (eraseParams ps) = pParams tg first ps
  | [], _ => by
    simp only [eraseParams, pParams]
  | p :: ps, _ => by
    have h0 := print_erase_param p
    have h1 := print_erase_params ps false
    simp only [eraseParams, pParams, h0, h1]

theorem print_erase_param : (p : Param) → pParam tg p.erase = pParam tg p
  | .mk _ _ _ _ none => by
    simp only [Param.erase, eraseOpt, pParam]
  | .mk _ _ _ _ (some e) => by
    have h0 := print_erase_expr e
    simp only [Param.erase, eraseOpt, pParam, h0]

theorem print_erase_stmt : (s : Stmt) → pStmt tg s.erase = pStmt tg s
  | .mk k _ => by
    have := print_erase_stmtK k
    simpa only [Stmt.erase, pStmt] using this


theorem print_erase_stmtK : (k : StmtK) → pStmtK tg k.erase = pStmtK tg k
  | .none => by
    simp only [StmtK.erase, eraseOpt, eraseBody, pStmtK, eraseStmts_isEmpty]
  | .use _ => by
    simp only [StmtK.erase, eraseOpt, eraseBody, pStmtK, eraseStmts_isEmpty]
  | .block b => by
    have h0 := print_erase_stmts b
    simp only [StmtK.erase, eraseOpt, eraseBody, pStmtK, eraseStmts_isEmpty, h0]
  | .decl d => by
    have h0 := print_erase_decl d
    simp only [StmtK.erase, eraseOpt, eraseBody, pStmtK, eraseStmts_isEmpty, h0]
  | .expr e => by
    have h0 := print_erase_expr e
    simp only [StmtK.erase, eraseOpt, eraseBody, pStmtK, eraseStmts_isEmpty, h0]
  | .echo es => by
    have h0 := print_erase_args es true
    simp only [StmtK.erase, eraseOpt, eraseBody, pStmtK, eraseStmts_isEmpty, h0]
  | .ret none => by
    simp only [StmtK.erase, eraseOpt, eraseBody, pStmtK, eraseStmts_isEmpty]
  | .ret (some e) => by
    have h0 := print_erase_expr e
    simp only [StmtK.erase, eraseOpt, eraseBody, pStmtK, eraseStmts_isEmpty, h0]
  | .brk none => by
    simp only [StmtK.erase, eraseOpt, eraseBody, pStmtK, eraseStmts_isEmpty]
  | .brk (some e) => by
    have h0 := print_erase_expr e
    simp only [StmtK.erase, eraseOpt, eraseBody, pStmtK, eraseStmts_isEmpty, h0]
  | .cont none => by
    simp only [StmtK.erase, eraseOpt, eraseBody, pStmtK, eraseStmts_isEmpty]
  | .cont (some e) => by
    have h0 := print_erase_expr e
    simp only [StmtK.erase, eraseOpt, eraseBody, pStmtK, eraseStmts_isEmpty, h0]
  | .unset es => by
    have h0 := print_erase_args es true
    simp only [StmtK.erase, eraseOpt, eraseBody, pStmtK, eraseStmts_isEmpty, h0]
  | .ite c t e => by
    have h0 := print_erase_expr c
    have h1 := print_erase_stmts t
    have h2 := print_erase_stmts e
    simp only [StmtK.erase, eraseOpt, eraseBody, pStmtK, eraseStmts_isEmpty, h0, h1, h2]
  | .while c b => by
    have h0 := print_erase_expr c
    have h1 := print_erase_stmts b
    simp only [StmtK.erase, eraseOpt, eraseBody, pStmtK, eraseStmts_isEmpty, h0, h1]
  | .doWhile b c => by
    have h0 := print_erase_stmts b
    have h1 := print_erase_expr c
    simp only [StmtK.erase, eraseOpt, eraseBody, pStmtK, eraseStmts_isEmpty, h0, h1]
  | .for i c l b => by
    have h0 := print_erase_opt i
    have h1 := print_erase_opt c
    have h2 := print_erase_opt l
    have h3 := print_erase_stmts b
    simp only [StmtK.erase, eraseOpt, eraseBody, pStmtK, eraseStmts_isEmpty, h0, h1, h2, h3]
  | .forEach e none v b => by
    have h0 := print_erase_expr e
    have h1 := print_erase_expr v
    have h2 := print_erase_stmts b
    simp only [StmtK.erase, eraseOpt, eraseBody, pStmtK, eraseStmts_isEmpty, h0, h1, h2]
  | .forEach e (some k) v b => by
    have h0 := print_erase_expr e
    have h1 := print_erase_expr k
    have h2 := print_erase_expr v
    have h3 := print_erase_stmts b
    simp only [StmtK.erase, eraseOpt, eraseBody, pStmtK, eraseStmts_isEmpty, h0, h1, h2, h3]
  | .try b cs none => by
    have h0 := print_erase_stmts b
    have h1 := print_erase_catches cs
    simp only [StmtK.erase, eraseOpt, eraseBody, pStmtK, eraseStmts_isEmpty, h0, h1]
  | .try b cs (some f) => by
    have h0 := print_erase_stmts b
    have h1 := print_erase_catches cs
    have h2 := print_erase_stmts f
    simp only [StmtK.erase, eraseOpt, eraseBody, pStmtK, eraseStmts_isEmpty, h0, h1, h2]
  | .throw e => by
    have h0 := print_erase_expr e
    simp only [StmtK.erase, eraseOpt, eraseBody, pStmtK, eraseStmts_isEmpty, h0]
  | .switch e cs => by
    have h0 := print_erase_expr e
    have h1 := print_erase_cases cs
    simp only [StmtK.erase, eraseOpt, eraseBody, pStmtK, eraseStmts_isEmpty, h0, h1]

theorem print_erase_stmts : (ss : List Stmt) → pStmts tg (eraseStmts ss) = pStmts tg ss
  | [] => by
    simp only [eraseStmts, pStmts]
  | s :: ss => by
    have h0 := print_erase_stmt s
    have h1 := print_erase_stmts ss
    simp only [eraseStmts, pStmts, h0, h1]

theorem print_erase_catches : (cs : List Catch) → pCatches tg (eraseCatches cs) = pCatches tg cs
  | [] => by
    simp only [eraseCatches, pCatches]
  | c :: cs => by
    have h0 := print_erase_catch c
    have h1 := print_erase_catches cs
    simp only [eraseCatches, pCatches, h0, h1]

theorem print_erase_catch : (c : Catch) → pCatch tg c.erase = pCatch tg c
  | .mk _ _ b => by
    have h0 := print_erase_stmts b
    simp only [Catch.erase, pCatch, h0]

theorem print_erase_cases : (cs : List Case) → pCases tg (eraseCases cs) = pCases tg cs
  | [] => by
    simp only [eraseCases, pCases]
  | c :: cs => by
    have h0 := print_erase_case c
    have h1 := print_erase_cases cs
    simp only [eraseCases, pCases, h0, h1]

theorem print_erase_case : (c : Case) → pCase tg c.erase = pCase tg c
  | .mk es _ b => by
    have h0 := print_erase_conds es
    have h1 := print_erase_stmts b
    simp only [Case.erase, pCase, h0, h1]

theorem print_erase_conds : (es : List Expr) → pConds tg (eraseExprs es) = pConds tg es
  | [] => by
    simp only [eraseExprs, pConds]
  | e :: es => by
    have h0 := print_erase_expr e
    have h1 := print_erase_conds es
    simp only [eraseExprs, pConds, h0, h1]

theorem print_erase_decl : (d : Decl) → pDecl tg d.erase = pDecl tg d
  | .namespace _ => by
    simp only [Decl.erase, pDecl]
  | .globalFunction n f => by
    have h0 := print_erase_fn f (some n)
    simp only [Decl.erase, pDecl, h0]
  | .cls _ _ _ _ ms => by
    have h0 := print_erase_members ms
    simp only [Decl.erase, pDecl, h0]
  | .interface _ _ ms => by
    have h0 := print_erase_members ms
    simp only [Decl.erase, pDecl, h0]
  | .trait _ ms => by
    have h0 := print_erase_members ms
    simp only [Decl.erase, pDecl, h0]
  | .staticVars vs => by
    have h0 := print_erase_staticVars vs true
    simp only [Decl.erase, pDecl, h0]
  | .globalVars vs => by
    have h0 := print_erase_globalVars vs true
    simp only [Decl.erase, pDecl, h0]

theorem print_erase_staticVars : (vs : List (Text × Option Expr)) → (first : Bool) →
    pStaticVars tg first (eraseStaticVars vs) = pStaticVars tg first vs
  | [], _ => by
    simp only [eraseStaticVars, eraseOpt, pStaticVars]
  | (_, none) :: vs, _ => by
    have h0 := print_erase_staticVars vs false
    simp only [eraseStaticVars, eraseOpt, pStaticVars, h0]
  | (_, some e) :: vs, _ => by
    have h0 := print_erase_expr e
    have h1 := print_erase_staticVars vs false
    simp only [eraseStaticVars, eraseOpt, pStaticVars, h0, h1]

theorem print_erase_globalVars : (vs : List Variable) → (first : Bool) →
    pGlobalVars tg first (eraseVariables vs) = pGlobalVars tg first vs
  | [], _ => by
    simp only [eraseVariables, pGlobalVars]
  | v :: vs, _ => by
    have h0 := print_erase_variable v
    have h1 := print_erase_globalVars vs false
    simp only [eraseVariables, pGlobalVars, h0, h1]

theorem print_erase_members : (ms : List Member) → pMembers tg (eraseMembers ms) = pMembers tg ms
  | [] => by
    simp only [eraseMembers, pMembers]
  | m :: ms => by
    have h0 := print_erase_member m
    have h1 := print_erase_members ms
    simp only [eraseMembers, pMembers, h0, h1]

theorem print_erase_member : (m : Member) → pMember tg m.erase = pMember tg m
  | .constant _ _ e => by
    have h0 := print_erase_expr e
    simp only [Member.erase, eraseOpt, pMember, h0]
  | .property _ _ none => by
    simp only [Member.erase, eraseOpt, pMember]
  | .property _ _ (some e) => by
    have h0 := print_erase_expr e
    simp only [Member.erase, eraseOpt, pMember, h0]
  | .method _ n f => by
    have h0 := print_erase_fn f (some n)
    simp only [Member.erase, eraseOpt, pMember, h0]
  | .traitUse _ _ => by
    simp only [Member.erase, eraseOpt, pMember]

end

end

end Pico
