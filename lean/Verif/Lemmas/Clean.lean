import Verif.Spec.Clean
import Verif.Spec.Shape
/-!
# Well-formed trees without quirks are read back
-/
namespace Pico
variable {dbl : Text → Text}

theorem tyOk_of {t : Option Ty} (h1 : tyShape t = true) (h2 : tyClean t = true) : tyOk t = true := by
  unfold tyShape at h1
  split at h1 <;> first | rfl | exact h2 | cases h1

theorem traitUseOk_of {t : TraitUse} (h1 : traitUseShape t = true) (h2 : traitUseClean t = true) : traitUseOk t = true := by
  cases t with
  | insteadOf p m ps => simp_all [traitUseShape, traitUseClean, traitUseOk]
  | asAlias p m ms a =>
    cases a with
    | none => simp [traitUseShape] at h1
    | some a => cases p <;> simp_all [traitUseShape, traitUseClean, traitUseOk]

mutual

theorem rt_of_expr (c : Place) : ∀ e, shExpr c e = true → clExpr dbl e = true → rtExpr dbl c e = true
  | .mk k sp, h1, h2 => by
    unfold rtExpr
    exact rt_of_exprK c k (by unfold shExpr at h1; exact h1) (by unfold clExpr at h2; exact h2)

theorem rt_of_exprK (c : Place) : ∀ k, shExprK c k = true → clExprK dbl k = true → rtExprK dbl c k = true
  | .path _, h1, h2 => by simp_all [shExprK, clExprK, rtExprK]
  | .const _, h1, h2 => by simp_all [shExprK, clExprK, rtExprK]
  | .str _, h1, h2 => by simp_all [shExprK, clExprK, rtExprK]
  | .binStr _, h1, h2 => by simp_all [shExprK, clExprK, rtExprK]
  | .int v, h1, h2 => by unfold rtExprK; unfold shExprK at h1; exact h1
  | .double _, h1, h2 => by simp_all [shExprK, clExprK, rtExprK]
  | .array xs, h1, h2 => by
    have := rt_of_items xs
    simp_all [shExprK, clExprK, rtExprK]
  | .var (.name _), h1, h2 => by simp_all [shExprK, clExprK, rtExprK]
  | .var (.fetch _), h1, h2 => by simp_all [shExprK, clExprK, rtExprK]
  | .reference e, h1, h2 => by
    have := rt_of_expr .plain e
    simp_all [shExprK, clExprK, rtExprK]
  | .clone e, h1, h2 => by
    have := rt_of_expr .plain e
    simp_all [shExprK, clExprK, rtExprK]
  | .isset es, h1, h2 => by
    have := rt_of_exprs .plain es
    simp_all [shExprK, clExprK, rtExprK]
  | .empty e, h1, h2 => by
    have := rt_of_expr .plain e
    simp_all [shExprK, clExprK, rtExprK]
  | .exit e, h1, h2 => by
    have := rt_of_opt e
    simp_all [shExprK, clExprK, rtExprK]
  | .include _ e, h1, h2 => by
    have := rt_of_expr .plain e
    simp_all [shExprK, clExprK, rtExprK]
  | .arrayIdx b is, h1, h2 => by
    have := rt_of_expr .plain b
    have := rt_of_opts is
    simp_all [shExprK, clExprK, rtExprK]
  | .objMember b ms, h1, h2 => by
    have := rt_of_expr .plain b
    have := rt_of_names ms
    simp_all [shExprK, clExprK, rtExprK]
  | .staticMember b ms, h1, h2 => by
    have := rt_of_expr .plain b
    simp only [shExprK, clExprK, rtExprK, Bool.and_eq_true, Bool.or_eq_true] at h1 h2 ⊢
    refine ⟨h1.1.2, ?_⟩
    rcases h2 with h2 | h2
    · exact .inl h2
    · exact .inr ⟨⟨⟨this h1.1.1.1 h2.1.1, h2.1.2⟩, h1.1.1.2⟩, h2.2⟩
  | .call t args, h1, h2 => by
    have := rt_of_expr .plain t
    have := rt_of_exprs .arg args
    simp only [shExprK, clExprK, rtExprK, Bool.and_eq_true, Bool.or_eq_true] at h1 h2 ⊢
    refine ⟨h2.1.imp id fun h => ?_, ?_⟩ <;> simp_all
  | .new t args, h1, h2 => by
    have := rt_of_expr .plain t
    have := rt_of_exprs .arg args
    simp only [shExprK, clExprK, rtExprK, Bool.and_eq_true, Bool.or_eq_true] at h1 h2 ⊢
    refine ⟨h2.1.imp id fun h => ?_, ?_⟩ <;> simp_all
  | .unpack e, h1, h2 => by
    have := rt_of_expr .plain e
    simp_all [shExprK, clExprK, rtExprK]
  | .unary op e, h1, h2 => by
    have := rt_of_expr .plain e
    simp only [shExprK, clExprK, rtExprK, Bool.and_eq_true] at h1 h2 ⊢
    exact ⟨this h1 h2.1, h2.2⟩
  | .binary op l r, h1, h2 => by
    have hl := rt_of_expr .plain l
    have hr := rt_of_expr .plain r
    simp only [shExprK, clExprK, rtExprK, Bool.and_eq_true] at h1 h2 ⊢
    exact ⟨⟨⟨⟨hl h1.1 h2.1.1.1.1, hr h1.2 h2.1.1.1.2⟩, h2.1.1.2⟩, h2.1.2⟩, h2.2⟩
  | .instanceOf l r, h1, h2 => by
    have hl := rt_of_expr .plain l
    have hr := rt_of_expr .plain r
    simp only [shExprK, clExprK, rtExprK, Bool.and_eq_true, Bool.or_eq_true] at h1 h2 ⊢
    exact ⟨⟨hl h1.1.1 h2.1.1, h2.1.2⟩, h2.2.imp id fun h => ⟨hr h1.2 h.1, h.2⟩⟩
  | .cast _ e, h1, h2 => by
    have := rt_of_expr .plain e
    simp_all [shExprK, clExprK, rtExprK]
  | .yield e, h1, h2 => by
    have := rt_of_opt e
    simp only [shExprK, clExprK, rtExprK, Bool.and_eq_true] at h1 h2 ⊢
    exact ⟨this h1 h2.1, h2.2⟩
  | .function f, h1, h2 => by
    have := rt_of_fn true false rfl f
    simp_all [shExprK, clExprK, rtExprK]
  | .assign l r, h1, h2 => by
    have hl := rt_of_expr .lhs l
    have hr := rt_of_expr .plain r
    simp only [shExprK, clExprK, rtExprK, Bool.and_eq_true] at h1 h2 ⊢
    exact ⟨⟨hl h1.1 h2.1.1, h2.1.2⟩, hr h1.2 h2.2⟩
  | .compoundAssign l op r, h1, h2 => by
    have hl := rt_of_expr .plain l
    have hr := rt_of_expr .plain r
    simp only [shExprK, clExprK, rtExprK, Bool.and_eq_true] at h1 h2 ⊢
    exact ⟨⟨⟨hl h1.1.1 h2.1.1.1, h2.1.1.2⟩, h2.1.2⟩, hr h1.2 h2.2⟩
  | .assignRef l r, h1, h2 => by
    have hl := rt_of_expr .lhs l
    have hr := rt_of_expr .plain r
    simp only [shExprK, clExprK, rtExprK, Bool.and_eq_true] at h1 h2 ⊢
    exact ⟨⟨hl h1.1 h2.1.1, h2.1.2⟩, hr h1.2 h2.2⟩
  | .list items, h1, h2 => by
    have := rt_of_items items
    simp_all [shExprK, clExprK, rtExprK]
  | .ternary c t e, h1, h2 => by
    have := rt_of_expr .plain c
    have := rt_of_opt t
    have := rt_of_expr .plain e
    simp_all [shExprK, clExprK, rtExprK]

theorem rt_of_opt : ∀ e, shOpt e = true → clOpt dbl e = true → rtOpt dbl e = true
  | none, _, _ => rfl
  | some e, h1, h2 => by
    unfold rtOpt
    exact rt_of_expr .plain e (by unfold shOpt at h1; exact h1) (by unfold clOpt at h2; exact h2)

theorem rt_of_exprs (c : Place) : ∀ es, shExprs c es = true → clExprs dbl es = true → rtExprs dbl c es = true
  | [], _, _ => rfl
  | e :: es, h1, h2 => by
    have := rt_of_expr c e
    have := rt_of_exprs c es
    simp_all [shExprs, clExprs, rtExprs]

theorem rt_of_items : ∀ es, shItems es = true → clItems dbl es = true → rtItems dbl es = true
  | [], _, _ => rfl
  | (k, e) :: es, h1, h2 => by
    have := rt_of_opt k
    have := rt_of_expr .plain e
    have := rt_of_items es
    simp_all [shItems, clItems, rtItems]

theorem rt_of_opts : ∀ es, shOpts es = true → clOpts dbl es = true → rtOpts dbl es = true
  | [], _, _ => rfl
  | e :: es, h1, h2 => by
    have := rt_of_opt e
    have := rt_of_opts es
    simp_all [shOpts, clOpts, rtOpts]

theorem rt_of_names : ∀ es, shExprs .plain es = true → clNames dbl es = true → rtMembers dbl es = true
  | [], _, _ => rfl
  | e :: es, h1, h2 => by
    have he := rt_of_expr .plain e
    have hes := rt_of_names es
    simp only [shExprs, clNames, rtMembers, Bool.and_eq_true, Bool.or_eq_true] at h1 h2 ⊢
    exact ⟨h2.1.imp id fun h => ⟨h.1, he h1.1 h.2⟩, hes h1.2 h2.2⟩

theorem rt_of_fn (cl ab : Bool) (hc : (cl && ab) = false) : ∀ f, shFn cl ab f = true → clFn dbl f = true → rtFn dbl cl ab f = true
  | .mk ps (some b) us _, h1, h2 => by
    have := rt_of_params ps
    have := rt_of_stmts b
    simp_all [shFn, clFn, rtFn]
  | .mk ps none us _, h1, h2 => by
    have := rt_of_params ps
    cases cl <;> simp_all [shFn, clFn, rtFn]

theorem rt_of_params : ∀ es, shParams es = true → clParams dbl es = true → rtParams dbl es = true
  | [], _, _ => rfl
  | .mk n _ _ t d :: es, h1, h2 => by
    have := rt_of_opt d
    have := rt_of_params es
    simp only [shParams, shParam, clParams, clParam, rtParams, rtParam, Bool.and_eq_true] at h1 h2 ⊢
    have := tyOk_of h1.1.1 h2.1.1.2
    simp_all

theorem rt_of_stmt : ∀ s, shStmt s = true → clStmt dbl s = true → rtStmt dbl s = true
  | .mk k sp, h1, h2 => by
    unfold rtStmt
    exact rt_of_stmtK k (by unfold shStmt at h1; exact h1) (by unfold clStmt at h2; exact h2)

theorem rt_of_stmtK : ∀ k, shStmtK k = true → clStmtK dbl k = true → rtStmtK dbl k = true
  | .none, _, _ => rfl
  | .block b, h1, h2 => by
    have := rt_of_stmts b
    simp_all [shStmtK, clStmtK, rtStmtK]
  | .decl d, h1, h2 => by
    have := rt_of_decl d
    simp_all [shStmtK, clStmtK, rtStmtK]
  | .use _, h1, _ => by simp [shStmtK] at h1
  | .expr e, h1, h2 => by
    have := rt_of_expr .plain e
    simp_all [shStmtK, clStmtK, rtStmtK]
  | .echo es, h1, h2 => by
    have := rt_of_exprs .plain es
    simp_all [shStmtK, clStmtK, rtStmtK]
  | .ret e, h1, h2 => by
    have := rt_of_opt e
    simp_all [shStmtK, clStmtK, rtStmtK]
  | .brk e, h1, h2 => by
    have := rt_of_opt e
    simp_all [shStmtK, clStmtK, rtStmtK]
  | .cont e, h1, h2 => by
    have := rt_of_opt e
    simp_all [shStmtK, clStmtK, rtStmtK]
  | .unset es, h1, h2 => by
    have := rt_of_exprs .plain es
    simp only [shStmtK, clStmtK, rtStmtK, Bool.and_eq_true] at h1 h2 ⊢
    exact ⟨⟨h1.1, this h1.2 h2.1⟩, h2.2⟩
  | .ite c t e, h1, h2 => by
    have := rt_of_expr .plain c
    have := rt_of_stmts t
    have := rt_of_stmts e
    simp_all [shStmtK, clStmtK, rtStmtK]
  | .while c b, h1, h2 => by
    have := rt_of_expr .plain c
    have := rt_of_stmts b
    simp_all [shStmtK, clStmtK, rtStmtK]
  | .doWhile b c, h1, h2 => by
    have := rt_of_expr .plain c
    have := rt_of_stmts b
    simp_all [shStmtK, clStmtK, rtStmtK]
  | .for i c l b, h1, h2 => by
    have := rt_of_opt i
    have := rt_of_opt c
    have := rt_of_opt l
    have := rt_of_stmts b
    simp_all [shStmtK, clStmtK, rtStmtK]
  | .forEach e (some k) v b, h1, h2 => by
    have := rt_of_expr .plain e
    have := rt_of_expr .each k
    have := rt_of_expr .each v
    have := rt_of_stmts b
    simp_all [shStmtK, clStmtK, rtStmtK]
  | .forEach e none v b, h1, h2 => by
    have := rt_of_expr .plain e
    have := rt_of_expr .each v
    have := rt_of_stmts b
    simp_all [shStmtK, clStmtK, rtStmtK]
  | .try b cs (some f), h1, h2 => by
    have := rt_of_stmts b
    have := rt_of_catches cs
    have := rt_of_stmts f
    simp_all [shStmtK, clStmtK, rtStmtK]
  | .try b cs none, h1, h2 => by
    have := rt_of_stmts b
    have := rt_of_catches cs
    simp_all [shStmtK, clStmtK, rtStmtK]
  | .throw e, h1, h2 => by
    have := rt_of_expr .plain e
    simp_all [shStmtK, clStmtK, rtStmtK]
  | .switch e cs, h1, h2 => by
    have := rt_of_expr .plain e
    have := rt_of_cases cs
    simp_all [shStmtK, clStmtK, rtStmtK]

theorem rt_of_stmts : ∀ ss, shStmts ss = true → clStmts dbl ss = true → rtStmts dbl ss = true
  | [], _, _ => rfl
  | s :: ss, h1, h2 => by
    have := rt_of_stmt s
    have := rt_of_stmts ss
    simp_all [shStmts, clStmts, rtStmts]

theorem rt_of_catches : ∀ cs, shCatches cs = true → clCatches dbl cs = true → rtCatches dbl cs = true
  | [], _, _ => rfl
  | .mk ty v b :: cs, h1, h2 => by
    have := rt_of_stmts b
    have := rt_of_catches cs
    simp_all [shCatches, clCatches, rtCatches]

theorem rt_of_cases : ∀ cs, shCases cs = true → clCases dbl cs = true → rtCases dbl cs = true
  | [], _, _ => rfl
  | .mk es d b :: cs, h1, h2 => by
    have he := rt_of_exprs .plain es
    have hb := rt_of_stmts b
    have hc := rt_of_cases cs
    simp only [shCases, clCases, rtCases, Bool.and_eq_true] at h1 h2 ⊢
    exact ⟨⟨⟨he h1.1.1.1 h2.1.1, hb h1.1.1.2 h2.1.2⟩, h1.1.2⟩, hc h1.2 h2.2⟩

theorem rt_of_decl : ∀ d, shDecl d = true → clDecl dbl d = true → rtDecl dbl d = true
  | .namespace _, h1, _ => by simp [shDecl] at h1
  | .globalFunction n f, h1, h2 => by
    have := rt_of_fn false false rfl f
    simp_all [shDecl, clDecl, rtDecl]
  | .cls m n b i ms, h1, h2 => by
    have hm := rt_of_members ms
    simp only [shDecl, clDecl, rtDecl, Bool.and_eq_true] at h1 h2 ⊢
    exact ⟨⟨⟨⟨h1.1, h2.1.1.1⟩, h2.1.1.2⟩, h2.1.2⟩, hm h1.2 h2.2⟩
  | .interface n x ms, h1, h2 => by
    have := rt_of_members ms
    simp_all [shDecl, clDecl, rtDecl]
  | .trait n ms, h1, h2 => by
    have := rt_of_members ms
    simp_all [shDecl, clDecl, rtDecl]
  | .staticVars vs, h1, h2 => by
    have := rt_of_staticVars vs
    simp_all [shDecl, clDecl, rtDecl]
  | .globalVars _, _, h2 => by simp [clDecl] at h2

theorem rt_of_staticVars : ∀ vs, shStaticVars vs = true → clStaticVars dbl vs = true → rtStaticVars dbl vs = true
  | [], _, _ => rfl
  | (n, e) :: vs, h1, h2 => by
    have := rt_of_opt e
    have := rt_of_staticVars vs
    simp_all [shStaticVars, clStaticVars, rtStaticVars]

theorem rt_of_member : ∀ m, shMember m = true → clMember dbl m = true → rtMember dbl m = true
  | .constant m n e, h1, h2 => by
    have := rt_of_expr .plain e
    simp_all [shMember, clMember, rtMember]
  | .property m n e, h1, h2 => by
    have := rt_of_opt e
    simp_all [shMember, clMember, rtMember]
  | .method m n f, h1, h2 => by
    have := rt_of_fn false true rfl f
    simp_all [shMember, clMember, rtMember]
  | .traitUse ps us, h1, h2 => by
    simp only [shMember, clMember, rtMember, Bool.and_eq_true, List.all_eq_true] at h1 h2 ⊢
    exact ⟨⟨h1.1, h2.1⟩, fun u hu => traitUseOk_of (h1.2 u hu) (h2.2 u hu)⟩

theorem rt_of_members : ∀ ms, shMembers ms = true → clMembers dbl ms = true → rtMemberDecls dbl ms = true
  | [], _, _ => rfl
  | m :: ms, h1, h2 => by
    have := rt_of_member m
    have := rt_of_members ms
    simp_all [shMembers, clMembers, rtMemberDecls]

end

theorem rt_of_top (s : Stmt) (h1 : shTop s = true) (h2 : clTop dbl s = true) : rtTop dbl s = true := by
  have h := rt_of_stmt (dbl := dbl) s
  revert h1 h2 h
  unfold shTop clTop rtTop
  obtain ⟨k, sp⟩ := s
  cases k with
  | decl d =>
    cases d with
    | «namespace» p => intro h1 h2 _; simp_all [clStmt, clStmtK, clDecl]
    | _ => exact fun h1 h2 h => h h1 h2
  | use cs =>
    cases cs with
    | nil => intro h1; cases h1
    | cons c cs =>
      cases cs with
      | nil => exact fun _ h2 _ => h2
      | cons d cs => intro _ h2; cases h2
  | _ => exact fun h1 h2 h => h h1 h2

theorem rt_of_tops (ss : List Stmt) (h1 : shTops ss = true) (h2 : clTops dbl ss = true) : rtTops dbl ss = true := by
  unfold shTops clTops rtTops at *
  rw [List.all_eq_true] at *
  exact fun s hs => rt_of_top s (h1 s hs) (h2 s hs)

end Pico
