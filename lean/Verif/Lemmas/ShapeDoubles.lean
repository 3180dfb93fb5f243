import Verif.Spec.Shape
import Verif.Spec.Doubles
/-!
# Rewriting the literals of doubles keeps a tree well-formed
-/
namespace Pico

section
variable (g : Text → Text)

theorem isArrayIdx_redbl (e : Expr) : (e.redbl g).isArrayIdx = e.isArrayIdx := by
  obtain ⟨k, sp⟩ := e
  cases k <;> rfl

theorem isObjMember_redbl (e : Expr) : (e.redbl g).isObjMember = e.isObjMember := by
  obtain ⟨k, sp⟩ := e
  cases k <;> rfl

theorem isStaticMember_redbl (e : Expr) : (e.redbl g).isStaticMember = e.isStaticMember := by
  obtain ⟨k, sp⟩ := e
  cases k <;> rfl

theorem isInstance_redbl (e : Expr) : (e.redbl g).isInstance = e.isInstance := by
  obtain ⟨k, sp⟩ := e
  cases k <;> rfl

theorem isName_redbl (v : Variable) : (v.redbl g).isName = v.isName := by
  cases v <;> rfl

theorem staticShape_redbl (e : Expr) : staticShape (e.redbl g) = staticShape e := by
  obtain ⟨k, sp⟩ := e
  cases k <;> try rfl
  rename_i v
  cases v <;> rfl

theorem staticShapes_redbl (es : List Expr) : (redblExprs g es).all staticShape = es.all staticShape := by
  induction es with
  | nil => rfl
  | cons e es ih => simp only [redblExprs, List.all_cons, staticShape_redbl, ih]

theorem names_redbl (vs : List Variable) : (redblVariables g vs).all Variable.isName = vs.all Variable.isName := by
  induction vs with
  | nil => rfl
  | cons v vs ih => simp only [redblVariables, List.all_cons, isName_redbl, ih]

theorem exprs_redbl (es : List Expr) : (redblExprs g es).length = es.length ∧ (redblExprs g es).isEmpty = es.isEmpty := by
  induction es with
  | nil => exact ⟨rfl, rfl⟩
  | cons e es ih => exact ⟨by simp only [redblExprs, List.length_cons, ih.1], rfl⟩

theorem opts_redbl (es : List (Option Expr)) : (redblOpts g es).isEmpty = es.isEmpty := by
  cases es <;> rfl

theorem stmts_redbl (ss : List Stmt) : (redblStmts g ss).isEmpty = ss.isEmpty := by
  cases ss <;> rfl

theorem staticVars_redbl (vs : List (Text × Option Expr)) : (redblStaticVars g vs).isEmpty = vs.isEmpty := by
  cases vs <;> rfl

theorem variables_redbl (vs : List Variable) : (redblVariables g vs).isEmpty = vs.isEmpty := by
  cases vs <;> rfl

theorem cases_redbl {f : Case → Bool} (hf : ∀ c, f (c.redbl g) = f c) (cs : List Case) :
    (redblCases g cs).all f = cs.all f := by
  induction cs with
  | nil => rfl
  | cons c cs ih => simp only [redblCases, List.all_cons, hf, ih]

mutual

theorem sh_redbl_expr : (c : Place) → (e : Expr) → shExpr c (e.redbl g) = shExpr c e
  | c, .mk k _ => by
    have := sh_redbl_exprK c k
    simpa only [Expr.redbl, shExpr] using this

theorem sh_redbl_exprK : (c : Place) → (k : ExprK) → shExprK c (k.redbl g) = shExprK c k
  | _, .path _ => by
    simp only [ExprK.redbl, shExprK, redblOpt, isArrayIdx_redbl, isObjMember_redbl, isStaticMember_redbl, isInstance_redbl, exprs_redbl, opts_redbl, staticShapes_redbl]
  | _, .const _ => by
    simp only [ExprK.redbl, shExprK, redblOpt, isArrayIdx_redbl, isObjMember_redbl, isStaticMember_redbl, isInstance_redbl, exprs_redbl, opts_redbl, staticShapes_redbl]
  | _, .str _ => by
    simp only [ExprK.redbl, shExprK, redblOpt, isArrayIdx_redbl, isObjMember_redbl, isStaticMember_redbl, isInstance_redbl, exprs_redbl, opts_redbl, staticShapes_redbl]
  | _, .binStr _ => by
    simp only [ExprK.redbl, shExprK, redblOpt, isArrayIdx_redbl, isObjMember_redbl, isStaticMember_redbl, isInstance_redbl, exprs_redbl, opts_redbl, staticShapes_redbl]
  | _, .int _ => by
    simp only [ExprK.redbl, shExprK, redblOpt, isArrayIdx_redbl, isObjMember_redbl, isStaticMember_redbl, isInstance_redbl, exprs_redbl, opts_redbl, staticShapes_redbl]
  | _, .double _ => by
    simp only [ExprK.redbl, shExprK, redblOpt, isArrayIdx_redbl, isObjMember_redbl, isStaticMember_redbl, isInstance_redbl, exprs_redbl, opts_redbl, staticShapes_redbl]
  | _, .array items => by
    have h0 := sh_redbl_items items
    simp only [ExprK.redbl, shExprK, redblOpt, isArrayIdx_redbl, isObjMember_redbl, isStaticMember_redbl, isInstance_redbl, exprs_redbl, opts_redbl, staticShapes_redbl, h0]
  | _, .var (.name _) => by
    simp only [ExprK.redbl, Variable.redbl, shExprK]
  | _, .var (.fetch e) => by
    have h0 := sh_redbl_expr .plain e
    simp only [ExprK.redbl, Variable.redbl, shExprK, h0]
  | _, .reference e => by
    have h0 := sh_redbl_expr .plain e
    simp only [ExprK.redbl, shExprK, redblOpt, isArrayIdx_redbl, isObjMember_redbl, isStaticMember_redbl, isInstance_redbl, exprs_redbl, opts_redbl, staticShapes_redbl, h0]
  | _, .clone e => by
    have h0 := sh_redbl_expr .plain e
    simp only [ExprK.redbl, shExprK, redblOpt, isArrayIdx_redbl, isObjMember_redbl, isStaticMember_redbl, isInstance_redbl, exprs_redbl, opts_redbl, staticShapes_redbl, h0]
  | _, .isset es => by
    have h0 := sh_redbl_exprs .plain es
    simp only [ExprK.redbl, shExprK, redblOpt, isArrayIdx_redbl, isObjMember_redbl, isStaticMember_redbl, isInstance_redbl, exprs_redbl, opts_redbl, staticShapes_redbl, h0]
  | _, .empty e => by
    have h0 := sh_redbl_expr .plain e
    simp only [ExprK.redbl, shExprK, redblOpt, isArrayIdx_redbl, isObjMember_redbl, isStaticMember_redbl, isInstance_redbl, exprs_redbl, opts_redbl, staticShapes_redbl, h0]
  | _, .exit e => by
    have h0 := sh_redbl_opt e
    simp only [ExprK.redbl, shExprK, redblOpt, isArrayIdx_redbl, isObjMember_redbl, isStaticMember_redbl, isInstance_redbl, exprs_redbl, opts_redbl, staticShapes_redbl, h0]
  | _, .include _ e => by
    have h0 := sh_redbl_expr .plain e
    simp only [ExprK.redbl, shExprK, redblOpt, isArrayIdx_redbl, isObjMember_redbl, isStaticMember_redbl, isInstance_redbl, exprs_redbl, opts_redbl, staticShapes_redbl, h0]
  | _, .arrayIdx b idxs => by
    have h0 := sh_redbl_expr .plain b
    have h1 := sh_redbl_opts idxs
    simp only [ExprK.redbl, shExprK, redblOpt, isArrayIdx_redbl, isObjMember_redbl, isStaticMember_redbl, isInstance_redbl, exprs_redbl, opts_redbl, staticShapes_redbl, h0, h1]
  | _, .objMember b ms => by
    have h0 := sh_redbl_expr .plain b
    have h1 := sh_redbl_exprs .plain ms
    simp only [ExprK.redbl, shExprK, redblOpt, isArrayIdx_redbl, isObjMember_redbl, isStaticMember_redbl, isInstance_redbl, exprs_redbl, opts_redbl, staticShapes_redbl, h0, h1]
  | _, .staticMember b ms => by
    have h0 := sh_redbl_expr .plain b
    simp only [ExprK.redbl, shExprK, redblOpt, isArrayIdx_redbl, isObjMember_redbl, isStaticMember_redbl, isInstance_redbl, exprs_redbl, opts_redbl, staticShapes_redbl, h0]
  | _, .call t args => by
    have h0 := sh_redbl_expr .plain t
    have h1 := sh_redbl_exprs .arg args
    simp only [ExprK.redbl, shExprK, redblOpt, isArrayIdx_redbl, isObjMember_redbl, isStaticMember_redbl, isInstance_redbl, exprs_redbl, opts_redbl, staticShapes_redbl, h0, h1]
  | _, .new t args => by
    have h0 := sh_redbl_expr .plain t
    have h1 := sh_redbl_exprs .arg args
    simp only [ExprK.redbl, shExprK, redblOpt, isArrayIdx_redbl, isObjMember_redbl, isStaticMember_redbl, isInstance_redbl, exprs_redbl, opts_redbl, staticShapes_redbl, h0, h1]
  | _, .unpack e => by
    have h0 := sh_redbl_expr .plain e
    simp only [ExprK.redbl, shExprK, redblOpt, isArrayIdx_redbl, isObjMember_redbl, isStaticMember_redbl, isInstance_redbl, exprs_redbl, opts_redbl, staticShapes_redbl, h0]
  | _, .unary _ e => by
    have h0 := sh_redbl_expr .plain e
    simp only [ExprK.redbl, shExprK, redblOpt, isArrayIdx_redbl, isObjMember_redbl, isStaticMember_redbl, isInstance_redbl, exprs_redbl, opts_redbl, staticShapes_redbl, h0]
  | _, .binary _ l r => by
    have h0 := sh_redbl_expr .plain l
    have h1 := sh_redbl_expr .plain r
    simp only [ExprK.redbl, shExprK, redblOpt, isArrayIdx_redbl, isObjMember_redbl, isStaticMember_redbl, isInstance_redbl, exprs_redbl, opts_redbl, staticShapes_redbl, h0, h1]
  | _, .instanceOf l r => by
    have h0 := sh_redbl_expr .plain l
    have h1 := sh_redbl_expr .plain r
    simp only [ExprK.redbl, shExprK, redblOpt, isArrayIdx_redbl, isObjMember_redbl, isStaticMember_redbl, isInstance_redbl, exprs_redbl, opts_redbl, staticShapes_redbl, h0, h1]
  | _, .cast _ e => by
    have h0 := sh_redbl_expr .plain e
    simp only [ExprK.redbl, shExprK, redblOpt, isArrayIdx_redbl, isObjMember_redbl, isStaticMember_redbl, isInstance_redbl, exprs_redbl, opts_redbl, staticShapes_redbl, h0]
  | _, .yield e => by
    have h0 := sh_redbl_opt e
    simp only [ExprK.redbl, shExprK, redblOpt, isArrayIdx_redbl, isObjMember_redbl, isStaticMember_redbl, isInstance_redbl, exprs_redbl, opts_redbl, staticShapes_redbl, h0]
  | _, .function f => by
    have h0 := sh_redbl_fn true false f
    simp only [ExprK.redbl, shExprK, redblOpt, isArrayIdx_redbl, isObjMember_redbl, isStaticMember_redbl, isInstance_redbl, exprs_redbl, opts_redbl, staticShapes_redbl, h0]
  | _, .assign l r => by
    have h0 := sh_redbl_expr .lhs l
    have h1 := sh_redbl_expr .plain r
    simp only [ExprK.redbl, shExprK, redblOpt, isArrayIdx_redbl, isObjMember_redbl, isStaticMember_redbl, isInstance_redbl, exprs_redbl, opts_redbl, staticShapes_redbl, h0, h1]
  | _, .compoundAssign l _ r => by
    have h0 := sh_redbl_expr .plain l
    have h1 := sh_redbl_expr .plain r
    simp only [ExprK.redbl, shExprK, redblOpt, isArrayIdx_redbl, isObjMember_redbl, isStaticMember_redbl, isInstance_redbl, exprs_redbl, opts_redbl, staticShapes_redbl, h0, h1]
  | _, .assignRef l r => by
    have h0 := sh_redbl_expr .lhs l
    have h1 := sh_redbl_expr .plain r
    simp only [ExprK.redbl, shExprK, redblOpt, isArrayIdx_redbl, isObjMember_redbl, isStaticMember_redbl, isInstance_redbl, exprs_redbl, opts_redbl, staticShapes_redbl, h0, h1]
  | _, .list items => by
    have h0 := sh_redbl_items items
    simp only [ExprK.redbl, shExprK, redblOpt, isArrayIdx_redbl, isObjMember_redbl, isStaticMember_redbl, isInstance_redbl, exprs_redbl, opts_redbl, staticShapes_redbl, h0]
  | _, .ternary c t e => by
    have h0 := sh_redbl_expr .plain c
    have h1 := sh_redbl_opt t
    have h2 := sh_redbl_expr .plain e
    simp only [ExprK.redbl, shExprK, redblOpt, isArrayIdx_redbl, isObjMember_redbl, isStaticMember_redbl, isInstance_redbl, exprs_redbl, opts_redbl, staticShapes_redbl, h0, h1, h2]

theorem sh_redbl_opt : (e : Option Expr) → shOpt (redblOpt g e) = shOpt e
  | none => by
    simp only [redblOpt, shOpt]
  | some e => by
    have h0 := sh_redbl_expr .plain e
    simp only [redblOpt, shOpt, h0]

theorem sh_redbl_exprs : (c : Place) → (es : List Expr) → shExprs c (redblExprs g es) = shExprs c es
  | _, [] => by
    simp only [redblExprs, shExprs]
  | c, e :: es => by
    have h0 := sh_redbl_expr c e
    have h1 := sh_redbl_exprs c es
    simp only [redblExprs, shExprs, h0, h1]

theorem sh_redbl_items : (es : List (Option Expr × Expr)) → shItems (redblItems g es) = shItems es
  | [] => by
    simp only [redblItems, shItems]
  | (k, e) :: es => by
    have h0 := sh_redbl_opt k
    have h1 := sh_redbl_expr .plain e
    have h2 := sh_redbl_items es
    simp only [redblItems, shItems, h0, h1, h2]

theorem sh_redbl_opts : (es : List (Option Expr)) → shOpts (redblOpts g es) = shOpts es
  | [] => by
    simp only [redblOpts, shOpts]
  | e :: es => by
    have h0 := sh_redbl_opt e
    have h1 := sh_redbl_opts es
    simp only [redblOpts, shOpts, h0, h1]

theorem sh_redbl_fn : (c a : Bool) → (f : FnDecl) → shFn c a (f.redbl g) = shFn c a f
  | _, _, .mk ps none _ _ => by
    have h0 := sh_redbl_params ps
    simp only [FnDecl.redbl, redblBody, shFn, h0]
  | _, _, .mk ps (some b) _ _ => by
    have h0 := sh_redbl_params ps
    have h1 := sh_redbl_stmts b
    simp only [FnDecl.redbl, redblBody, shFn, h0, h1]

theorem sh_redbl_params : (ps : List Param) → shParams (redblParams g ps) = shParams ps
  | [] => by
    simp only [redblParams, shParams]
  | p :: ps => by
    have h0 := sh_redbl_param p
    have h1 := sh_redbl_params ps
    simp only [redblParams, shParams, h0, h1]

theorem sh_redbl_param : (p : Param) → shParam (p.redbl g) = shParam p
  | .mk _ _ _ _ d => by
    have h0 := sh_redbl_opt d
    simp only [Param.redbl, shParam, h0]

theorem sh_redbl_stmt : (s : Stmt) → shStmt (s.redbl g) = shStmt s
  | .mk k _ => by
    have := sh_redbl_stmtK k
    simpa only [Stmt.redbl, shStmt] using this

theorem sh_redbl_stmtK : (k : StmtK) → shStmtK (k.redbl g) = shStmtK k
  | .none => by
    simp only [StmtK.redbl, shStmtK, redblOpt, redblBody, exprs_redbl]
  | .use _ => by
    simp only [StmtK.redbl, shStmtK, redblOpt, redblBody, exprs_redbl]
  | .block b => by
    have h0 := sh_redbl_stmts b
    simp only [StmtK.redbl, shStmtK, redblOpt, redblBody, exprs_redbl, h0]
  | .decl d => by
    have h0 := sh_redbl_decl d
    simp only [StmtK.redbl, shStmtK, redblOpt, redblBody, exprs_redbl, h0]
  | .expr e => by
    have h0 := sh_redbl_expr .plain e
    simp only [StmtK.redbl, shStmtK, redblOpt, redblBody, exprs_redbl, h0]
  | .echo es => by
    have h0 := sh_redbl_exprs .plain es
    simp only [StmtK.redbl, shStmtK, redblOpt, redblBody, exprs_redbl, h0]
  | .ret e => by
    have h0 := sh_redbl_opt e
    simp only [StmtK.redbl, shStmtK, redblOpt, redblBody, exprs_redbl, h0]
  | .brk e => by
    have h0 := sh_redbl_opt e
    simp only [StmtK.redbl, shStmtK, redblOpt, redblBody, exprs_redbl, h0]
  | .cont e => by
    have h0 := sh_redbl_opt e
    simp only [StmtK.redbl, shStmtK, redblOpt, redblBody, exprs_redbl, h0]
  | .unset es => by
    have h0 := sh_redbl_exprs .plain es
    simp only [StmtK.redbl, shStmtK, redblOpt, redblBody, exprs_redbl, h0]
  | .ite c t e => by
    have h0 := sh_redbl_expr .plain c
    have h1 := sh_redbl_stmts t
    have h2 := sh_redbl_stmts e
    simp only [StmtK.redbl, shStmtK, redblOpt, redblBody, exprs_redbl, h0, h1, h2]
  | .while c b => by
    have h0 := sh_redbl_expr .plain c
    have h1 := sh_redbl_stmts b
    simp only [StmtK.redbl, shStmtK, redblOpt, redblBody, exprs_redbl, h0, h1]
  | .doWhile b c => by
    have h0 := sh_redbl_stmts b
    have h1 := sh_redbl_expr .plain c
    simp only [StmtK.redbl, shStmtK, redblOpt, redblBody, exprs_redbl, h0, h1]
  | .for i c l b => by
    have h0 := sh_redbl_opt i
    have h1 := sh_redbl_opt c
    have h2 := sh_redbl_opt l
    have h3 := sh_redbl_stmts b
    simp only [StmtK.redbl, shStmtK, redblOpt, redblBody, exprs_redbl, h0, h1, h2, h3]
  | .forEach e none v b => by
    have h0 := sh_redbl_expr .plain e
    have h1 := sh_redbl_expr .each v
    have h2 := sh_redbl_stmts b
    simp only [StmtK.redbl, shStmtK, redblOpt, redblBody, exprs_redbl, h0, h1, h2]
  | .forEach e (some k) v b => by
    have h0 := sh_redbl_expr .plain e
    have h1 := sh_redbl_expr .each v
    have h2 := sh_redbl_stmts b
    have h3 := sh_redbl_expr .each k
    simp only [StmtK.redbl, shStmtK, redblOpt, redblBody, exprs_redbl, h0, h1, h2, h3]
  | .try b cs none => by
    have h0 := sh_redbl_stmts b
    have h1 := sh_redbl_catches cs
    simp only [StmtK.redbl, shStmtK, redblOpt, redblBody, exprs_redbl, h0, h1]
  | .try b cs (some f) => by
    have h0 := sh_redbl_stmts b
    have h1 := sh_redbl_catches cs
    have h2 := sh_redbl_stmts f
    simp only [StmtK.redbl, shStmtK, redblOpt, redblBody, exprs_redbl, h0, h1, h2]
  | .throw e => by
    have h0 := sh_redbl_expr .plain e
    simp only [StmtK.redbl, shStmtK, redblOpt, redblBody, exprs_redbl, h0]
  | .switch e cs => by
    have h0 := sh_redbl_expr .plain e
    have h1 := sh_redbl_cases cs
    simp only [StmtK.redbl, shStmtK, redblOpt, redblBody, exprs_redbl, h0, h1]

theorem sh_redbl_stmts : (ss : List Stmt) → shStmts (redblStmts g ss) = shStmts ss
  | [] => by
    simp only [redblStmts, shStmts]
  | s :: ss => by
    have h0 := sh_redbl_stmt s
    have h1 := sh_redbl_stmts ss
    simp only [redblStmts, shStmts, h0, h1]

theorem sh_redbl_catches : (cs : List Catch) → shCatches (redblCatches g cs) = shCatches cs
  | [] => by
    simp only [redblCatches, shCatches]
  | .mk _ _ b :: cs => by
    have h0 := sh_redbl_stmts b
    have h1 := sh_redbl_catches cs
    simp only [redblCatches, Catch.redbl, shCatches, h0, h1]

theorem sh_redbl_cases : (cs : List Case) → shCases (redblCases g cs) = shCases cs
  | [] => by
    simp only [redblCases, shCases]
  | .mk es _ b :: cs => by
    have h0 := sh_redbl_exprs .plain es
    have h1 := sh_redbl_stmts b
    have h2 := sh_redbl_cases cs
    simp only [redblCases, Case.redbl, shCases, stmts_redbl, exprs_redbl, h0, h1, h2]
    rw [cases_redbl g (fun c => by obtain ⟨_, _, b⟩ := c; exact stmts_redbl g b) cs]

theorem sh_redbl_decl : (d : Decl) → shDecl (d.redbl g) = shDecl d
  | .namespace _ => by
    simp only [Decl.redbl, shDecl]
  | .globalFunction _ f => by
    have h0 := sh_redbl_fn false false f
    simp only [Decl.redbl, shDecl, h0]
  | .cls _ _ _ _ ms => by
    have h0 := sh_redbl_members ms
    simp only [Decl.redbl, shDecl, h0]
  | .interface _ _ ms => by
    have h0 := sh_redbl_members ms
    simp only [Decl.redbl, shDecl, h0]
  | .trait _ ms => by
    have h0 := sh_redbl_members ms
    simp only [Decl.redbl, shDecl, h0]
  | .staticVars vs => by
    have h0 := sh_redbl_staticVars vs
    simp only [Decl.redbl, shDecl, staticVars_redbl, h0]
  | .globalVars vs => by
    simp only [Decl.redbl, shDecl, variables_redbl, names_redbl]

theorem sh_redbl_staticVars : (vs : List (Text × Option Expr)) → shStaticVars (redblStaticVars g vs) = shStaticVars vs
  | [] => by
    simp only [redblStaticVars, shStaticVars]
  | (_, e) :: vs => by
    have h0 := sh_redbl_opt e
    have h1 := sh_redbl_staticVars vs
    simp only [redblStaticVars, shStaticVars, h0, h1]

theorem sh_redbl_member : (m : Member) → shMember (m.redbl g) = shMember m
  | .constant _ _ e => by
    have h0 := sh_redbl_expr .plain e
    simp only [Member.redbl, shMember, h0]
  | .property _ _ e => by
    have h0 := sh_redbl_opt e
    simp only [Member.redbl, shMember, h0]
  | .method _ _ f => by
    have h0 := sh_redbl_fn false true f
    simp only [Member.redbl, shMember, h0]
  | .traitUse _ _ => by
    simp only [Member.redbl, shMember]

theorem sh_redbl_members : (ms : List Member) → shMembers (redblMembers g ms) = shMembers ms
  | [] => by
    simp only [redblMembers, shMembers]
  | m :: ms => by
    have h0 := sh_redbl_member m
    have h1 := sh_redbl_members ms
    simp only [redblMembers, shMembers, h0, h1]

end

theorem sh_redbl_top (s : Stmt) : shTop (s.redbl g) = shTop s := by
  have h := sh_redbl_stmt g s
  obtain ⟨k, sp⟩ := s
  cases k with
  | decl d =>
    cases d <;> simp only [Stmt.redbl, StmtK.redbl, Decl.redbl] at h ⊢ <;> simp only [shTop] <;> exact h
  | use cs => simp only [Stmt.redbl, StmtK.redbl]
  | _ =>
    simp only [Stmt.redbl, StmtK.redbl] at h ⊢ <;> simp only [shTop] <;> exact h

theorem sh_redbl_tops (ss : List Stmt) : shTops (redblStmts g ss) = shTops ss := by
  unfold shTops
  induction ss with
  | nil => rfl
  | cons s ss ih => simp only [redblStmts, List.all_cons, sh_redbl_top, ih]

end

end Pico
