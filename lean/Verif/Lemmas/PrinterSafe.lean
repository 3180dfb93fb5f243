import Verif.Lemmas.PrinterText
import Verif.Spec.Tree
/-! # Trees without unprintable nodes are printed without an abort -/
set_option linter.unusedSimpArgs false

namespace Pico

/-- No abort among the chunks. -/
def NB (cs : List Chunk) : Prop := ∀ p, Chunk.boom p ∉ cs

theorem NB_append (a b : List Chunk) : NB (a ++ b) ↔ NB a ∧ NB b := by
  simp only [NB, List.mem_append, not_or]
  exact ⟨fun h => ⟨fun p => (h p).1, fun p => (h p).2⟩, fun h p => ⟨h.1 p, h.2 p⟩⟩

theorem NB_nil : NB [] := by simp [NB]
theorem NB_w (t : Text) : NB (w t) := by simp [NB, w]
theorem NB_ind (i : Nat) (t : Text) : NB (ind i t) := by simp [NB, ind]
theorem NB_ln (i : Nat) (t : Text) : NB (ln i t) := by simp [ln, NB_append, NB_w, NB_ind]
theorem NB_cnd (b : Bool) {m : List Chunk} (h : NB m) : NB (cnd b m) := by
  cases b
  · exact NB_nil
  · exact h
theorem NB_opt {α : Type} (o : Option α) {f : α → List Chunk} (h : ∀ x, NB (f x)) : NB (opt o f) := by
  cases o
  · exact NB_nil
  · exact h _

/-- Decompose a goal `NB cs`. -/
macro "nb" : tactic => `(tactic|
  with_reducible repeat' first
    | assumption
    | exact NB_nil | exact NB_w _ | exact NB_ind _ _ | exact NB_ln _ _
    | refine (NB_append _ _).2 ⟨?_, ?_⟩
    | refine NB_cnd _ ?_ | refine NB_opt _ (fun _ => ?_))

theorem NB_classModifiers (m : ClassModifiers) : NB (cClassModifiers m) := by unfold cClassModifiers; nb
theorem NB_memberModifiers (m : MemberModifiers) : NB (cMemberModifiers m) := by unfold cMemberModifiers; nb
theorem NB_path (p : Path) : NB (cPath p) := by
  obtain ⟨a, ns, id⟩ := p
  unfold cPath
  cases ns <;> nb
theorem NB_ty (t : Ty) : NB (cTy t) := by
  cases t with
  | Object p => cases p <;> first | exact NB_path _ | exact NB_w _
  | _ => exact NB_w _
theorem NB_str (s : Text) : NB (cStr s) := by unfold cStr; nb
theorem NB_parens (c : Bool) (e : Expr) {m : List Chunk} (h : NB m) : NB (cParens c e m) := by
  unfold cParens; nb
theorem NB_postfix (op : UnaryOp) : NB (cPostfix op) := by cases op <;> first | exact NB_w _ | exact NB_nil
theorem NB_castTy (t : Ty) (e : Expr) (h : ExprK.hasPrinter (.cast t e)) : NB (cCastTy t) := by
  cases t with
  | Object p => cases p with
    | none => exact NB_w _
    | some p => exact h.elim
  | _ => exact NB_w _
theorem NB_paths (b : Bool) (ps : List Path) : NB (cPaths b ps) := by
  induction ps generalizing b with
  | nil => exact NB_nil
  | cons p ps ih =>
    have := NB_path p
    have := ih false
    unfold cPaths; nb
theorem NB_useVars (b : Bool) (vs : List (Bool × Text)) : NB (cUseVars b vs) := by
  induction vs generalizing b with
  | nil => exact NB_nil
  | cons p ps ih =>
    have := ih false
    unfold cUseVars; nb
theorem NB_traitUse (u : TraitUse) : NB (cTraitUse u) := by
  cases u with
  | insteadOf p n ns =>
    have := NB_path p
    have := NB_paths true ns
    unfold cTraitUse; nb
  | asAlias p n m a =>
    have := NB_memberModifiers m
    unfold cTraitUse
    refine (NB_append _ _).2 ⟨NB_opt _ fun p => ?_, ?_⟩
    · have := NB_path p
      nb
    · nb
theorem NB_traitUses (i : Nat) (us : List TraitUse) : NB (cTraitUses i us) := by
  induction us with
  | nil => exact NB_nil
  | cons u us ih =>
    have := NB_traitUse u
    unfold cTraitUses; nb
theorem NB_use (i : Nat) (cs : List UseClause) : NB (cUse i cs) := by
  induction cs with
  | nil => exact NB_nil
  | cons c cs ih =>
    have := NB_path c.path
    unfold cUse; nb
theorem NB_block {i : Nat} {m : List Chunk} (h : NB m) : NB (cBlock i m) := by unfold cBlock; nb
theorem NB_memberBody {i : Nat} {m : List Chunk} (h : NB m) : NB (cMemberBody i m) := by
  unfold cMemberBody; nb
theorem NB_function {r : Bool} {n : Option Text} {ps b : List Chunk} {usev : List (Bool × Text)}
    (hp : NB ps) (hb : NB b) : NB (cFunction r n ps usev b) := by
  have := NB_useVars true usev
  unfold cFunction; nb

section
variable (dbl : Text → Text)

local notation "ok" => ExprK.hasPrinter

mutual

theorem nb_expr : (x : Expr) → Expr.All ok x → (i : Nat) → NB (cExpr dbl i x)
  | .mk k sp, h, i => by
    have hk : NB (cExprK dbl i k) := by
      simp only [Expr.All] at h
      exact nb_exprK k h.1 h.2 i
    simpa only [cExpr] using hk

theorem nb_exprK : (x : ExprK) → ok x → ExprK.Children ok x → (i : Nat) → NB (cExprK dbl i x)
  | .path p, hk, h, i => by
    simp only [cExprK]; exact NB_path p
  | .const _, hk, h, i => by
    simp only [cExprK]; nb
  | .str s, hk, h, i => by
    simp only [cExprK]; exact NB_str s
  | .binStr _, hk, h, i => absurd hk (by simp [ExprK.hasPrinter])
  | .int _, hk, h, i => by
    simp only [cExprK]; nb
  | .double _, hk, h, i => by
    simp only [cExprK]; nb
  | .array items, hk, h, i => by
    simp only [ExprK.Children] at h
    have := nb_items items h i true
    simp only [cExprK]; nb
  | .var v, hk, h, i => by
    simp only [ExprK.Children] at h
    have := nb_variable v h i
    simp only [cExprK]; nb
  | .reference e, hk, h, i => by
    simp only [ExprK.Children] at h
    have := nb_expr e h i
    simp only [cExprK]; nb
  | .clone e, hk, h, i => by
    simp only [ExprK.Children] at h
    have := nb_expr e h i
    simp only [cExprK]; nb
  | .isset es, hk, h, i => by
    simp only [ExprK.Children] at h
    have := nb_args es h i true
    simp only [cExprK]; nb
  | .empty e, hk, h, i => by
    simp only [ExprK.Children] at h
    have := nb_expr e h i
    simp only [cExprK]; nb
  | .exit e, hk, h, i => by
    simp only [ExprK.Children] at h
    have := nb_optExpr e h i
    simp only [cExprK]; nb
  | .include t e, hk, h, i => by
    simp only [ExprK.Children] at h
    have := nb_expr e h i
    simp only [cExprK]; nb
  | .arrayIdx e idxs, hk, h, i => by
    simp only [ExprK.Children] at h
    have := NB_parens false e (nb_expr e h.1 i)
    have := nb_idxs idxs h.2 i
    simp only [cExprK]; nb
  | .objMember e ms, hk, h, i => by
    simp only [ExprK.Children] at h
    have := NB_parens false e (nb_expr e h.1 i)
    have := nb_memberNames ms h.2 i c!"->" true
    simp only [cExprK]; nb
  | .staticMember e ms, hk, h, i => by
    simp only [ExprK.Children] at h
    have := NB_parens false e (nb_expr e h.1 i)
    have := nb_memberNames ms h.2 i c!"::" false
    simp only [cExprK]; nb
  | .call e args, hk, h, i => by
    simp only [ExprK.Children] at h
    have := nb_expr e h.1 i
    have := nb_args args h.2 i true
    simp only [cExprK]; nb
  | .new e args, hk, h, i => by
    simp only [ExprK.Children] at h
    have := nb_expr e h.1 i
    have := nb_args args h.2 i true
    simp only [cExprK]; nb
  | .unpack e, hk, h, i => by
    simp only [ExprK.Children] at h
    have := nb_expr e h i
    simp only [cExprK]; nb
  | .unary op e, hk, h, i => by
    simp only [ExprK.Children] at h
    have := nb_expr e h i
    have := NB_parens false e (nb_expr e h i)
    have := NB_postfix op
    simp only [cExprK]; refine (NB_append _ _).2 ⟨NB_w _, (NB_append _ _).2 ⟨?_, this⟩⟩; split <;> assumption
  | .binary op l r, hk, h, i => by
    simp only [ExprK.Children] at h
    have := NB_parens false l (nb_expr l h.1 i)
    have := NB_parens false r (nb_expr r h.2 i)
    simp only [cExprK]; nb
  | .instanceOf l r, hk, h, i => by
    simp only [ExprK.Children] at h
    have := nb_expr l h.1 i
    have := nb_expr r h.2 i
    simp only [cExprK]; nb
  | .cast t e, hk, h, i => by
    simp only [ExprK.Children] at h
    have := nb_expr e h i
    have := NB_castTy t e hk
    simp only [cExprK]; nb
  | .yield e, hk, h, i => by
    simp only [ExprK.Children] at h
    have := nb_optExpr e h i
    simp only [cExprK]; nb
  | .function f, hk, h, i => by
    simp only [ExprK.Children] at h
    have := nb_fn f h i none
    simp only [cExprK]; nb
  | .assign l r, hk, h, i => by
    simp only [ExprK.Children] at h
    have := nb_expr l h.1 i
    have := nb_expr r h.2 i
    simp only [cExprK]; nb
  | .compoundAssign l op r, hk, h, i => by
    simp only [ExprK.Children] at h
    have := nb_expr l h.1 i
    have := nb_expr r h.2 i
    simp only [cExprK]; nb
  | .assignRef l r, hk, h, i => by
    simp only [ExprK.Children] at h
    have := nb_expr l h.1 i
    have := nb_expr r h.2 i
    simp only [cExprK]; nb
  | .list items, hk, h, i => by
    simp only [ExprK.Children] at h
    have := nb_items items h i true
    simp only [cExprK]; nb
  | .ternary c none e, hk, h, i => by
    simp only [ExprK.Children, allOpt] at h
    have := NB_parens false c (nb_expr c h.1 i)
    have := NB_parens false e (nb_expr e h.2.2 i)
    simp only [cExprK]; nb
  | .ternary c (some t) e, hk, h, i => by
    simp only [ExprK.Children, allOpt] at h
    have := NB_parens false c (nb_expr c h.1 i)
    have := NB_parens false t (nb_expr t h.2.1 i)
    have := NB_parens false e (nb_expr e h.2.2 i)
    simp only [cExprK]; nb

theorem nb_variable : (x : Variable) → Variable.All ok x → (i : Nat) → NB (cVariable dbl i x)
  | .name n, h, i => by
    simp only [cVariable]; nb
  | .fetch e, h, i => by
    simp only [Variable.All] at h
    have := NB_parens true e (nb_expr e h i)
    simp only [cVariable]; nb

theorem nb_optExpr : (x : Option Expr) → allOpt ok x → (i : Nat) → NB (cOptExpr dbl i x)
  | none, h, i => by
    simp only [cOptExpr]; nb
  | some e, h, i => by
    simp only [allOpt] at h
    have := nb_expr e h i
    simp only [cOptExpr]; nb

theorem nb_args : (x : List Expr) → allExprs ok x → (i : Nat) → (b : Bool) → NB (cArgs dbl i b x)
  | [], h, i, b => by
    simp only [cArgs]; nb
  | e :: es, h, i, b => by
    simp only [allExprs] at h
    have := nb_expr e h.1 i
    have := nb_args es h.2 i false
    simp only [cArgs]; nb

theorem nb_items : (x : List (Option Expr × Expr)) → allItems ok x → (i : Nat) → (b : Bool) → NB (cItems dbl i b x)
  | [], h, i, b => by
    simp only [cItems]; nb
  | (none, e) :: es, h, i, b => by
    simp only [allItems, allOpt] at h
    have := nb_expr e h.2.1 i
    have := nb_items es h.2.2 i false
    simp only [cItems]; nb
  | (some q, e) :: es, h, i, b => by
    simp only [allItems, allOpt] at h
    have := nb_expr q h.1 i
    have := nb_expr e h.2.1 i
    have := nb_items es h.2.2 i false
    simp only [cItems]; nb

theorem nb_idxs : (x : List (Option Expr)) → allOpts ok x → (i : Nat) → NB (cIdxs dbl i x)
  | [], h, i => by
    simp only [cIdxs]; nb
  | none :: es, h, i => by
    simp only [allOpts, allOpt] at h
    have := nb_idxs es h.2 i
    simp only [cIdxs]; nb
  | some e :: es, h, i => by
    simp only [allOpts, allOpt] at h
    have := nb_expr e h.1 i
    have := nb_idxs es h.2 i
    simp only [cIdxs]; nb

theorem nb_memberNames : (x : List Expr) → allExprs ok x → (i : Nat) → (sep : Text) → (b : Bool) → NB (cMemberNames dbl i sep b x)
  | [], h, i, sep, b => by
    simp only [cMemberNames]; nb
  | e :: es, h, i, sep, b => by
    simp only [allExprs] at h
    have := NB_parens b e (nb_expr e h.1 i)
    have := nb_memberNames es h.2 i sep b
    simp only [cMemberNames]; nb

theorem nb_fn : (x : FnDecl) → FnDecl.All ok x → (i : Nat) → (n : Option Text) → NB (cFn dbl i n x)
  | .mk ps none usev rr, h, i, n => by
    simp only [FnDecl.All, allBody] at h
    have := nb_params ps h.1 i true
    simp only [cFn]; exact NB_function this (NB_w _)
  | .mk ps (some bd) usev rr, h, i, n => by
    simp only [FnDecl.All, allBody] at h
    have := nb_params ps h.1 i true
    have := NB_block (i := i) (nb_stmts bd h.2 (i + 1))
    simp only [cFn]; exact NB_function (by assumption) this

theorem nb_params : (x : List Param) → allParams ok x → (i : Nat) → (b : Bool) → NB (cParams dbl i b x)
  | [], h, i, b => by
    simp only [cParams]; nb
  | q :: qs, h, i, b => by
    simp only [allParams] at h
    have := nb_param q h.1 i
    have := nb_params qs h.2 i false
    simp only [cParams]; nb

theorem nb_param : (x : Param) → Param.All ok x → (i : Nat) → NB (cParam dbl i x)
  | .mk n r v ty none, h, i => by
    simp only [cParam]; refine (NB_append _ _).2 ⟨NB_opt _ fun t => (NB_append _ _).2 ⟨NB_ty t, NB_w _⟩, ?_⟩; nb
  | .mk n r v ty (some e), h, i => by
    simp only [Param.All, allOpt] at h
    have := nb_expr e h i
    simp only [cParam]; refine (NB_append _ _).2 ⟨NB_opt _ fun t => (NB_append _ _).2 ⟨NB_ty t, NB_w _⟩, ?_⟩; nb

theorem nb_stmt : (x : Stmt) → Stmt.All ok x → (i : Nat) → NB (cStmt dbl i x)
  | .mk q sp, h, i => by
    simp only [Stmt.All] at h
    have := nb_stmtK q h i
    simp only [cStmt]; nb

theorem nb_stmtK : (x : StmtK) → StmtK.All ok x → (i : Nat) → NB (cStmtK dbl i x)
  | .none, h, i => by
    simp only [cStmtK]; nb
  | .block b, h, i => by
    simp only [StmtK.All, allOpt, allBody] at h
    have := nb_stmts b h (i + 1)
    simp only [cStmtK]; nb
  | .decl d, h, i => by
    simp only [StmtK.All, allOpt, allBody] at h
    have := nb_decl d h i
    simp only [cStmtK]; nb
  | .use cs, h, i => by
    simp only [cStmtK]; exact NB_use _ _
  | .expr e, h, i => by
    simp only [StmtK.All, allOpt, allBody] at h
    have := nb_expr e h i
    simp only [cStmtK]; nb
  | .echo es, h, i => by
    simp only [StmtK.All, allOpt, allBody] at h
    have := nb_args es h i true
    simp only [cStmtK]; nb
  | .ret none, h, i => by
    simp only [cStmtK]; nb
  | .ret (some e), h, i => by
    simp only [StmtK.All, allOpt, allBody] at h
    have := nb_expr e h i
    simp only [cStmtK]; nb
  | .brk none, h, i => by
    simp only [cStmtK]; nb
  | .brk (some e), h, i => by
    simp only [StmtK.All, allOpt, allBody] at h
    have := nb_expr e h i
    simp only [cStmtK]; nb
  | .cont none, h, i => by
    simp only [cStmtK]; nb
  | .cont (some e), h, i => by
    simp only [StmtK.All, allOpt, allBody] at h
    have := nb_expr e h i
    simp only [cStmtK]; nb
  | .unset es, h, i => by
    simp only [StmtK.All, allOpt, allBody] at h
    have := nb_args es h i true
    simp only [cStmtK]; nb
  | .ite c t e, h, i => by
    simp only [StmtK.All, allOpt, allBody] at h
    have := nb_expr c h.1 i
    have := NB_block (i := i) (nb_stmts t h.2.1 (i + 1))
    have := NB_block (i := i) (nb_stmts e h.2.2 (i + 1))
    simp only [cStmtK]; nb
  | .while c b, h, i => by
    simp only [StmtK.All, allOpt, allBody] at h
    have := nb_expr c h.1 i
    have := NB_block (i := i) (nb_stmts b h.2 (i + 1))
    simp only [cStmtK]; nb
  | .doWhile b c, h, i => by
    simp only [StmtK.All, allOpt, allBody] at h
    have := nb_expr c h.2 i
    have := NB_block (i := i) (nb_stmts b h.1 (i + 1))
    simp only [cStmtK]; nb
  | .for s c l b, h, i => by
    simp only [StmtK.All] at h
    have := nb_optExpr s h.1 i
    have := nb_optExpr c h.2.1 i
    have := nb_optExpr l h.2.2.1 i
    have := NB_block (i := i) (nb_stmts b h.2.2.2 (i + 1))
    simp only [cStmtK]; nb
  | .forEach e none v b, h, i => by
    simp only [StmtK.All, allOpt, allBody] at h
    have := nb_expr e h.1 i
    have := nb_expr v h.2.2.1 i
    have := NB_block (i := i) (nb_stmts b h.2.2.2 (i + 1))
    simp only [cStmtK]; nb
  | .forEach e (some q) v b, h, i => by
    simp only [StmtK.All, allOpt, allBody] at h
    have := nb_expr e h.1 i
    have := nb_expr q h.2.1 i
    have := nb_expr v h.2.2.1 i
    have := NB_block (i := i) (nb_stmts b h.2.2.2 (i + 1))
    simp only [cStmtK]; nb
  | .try b cs none, h, i => by
    simp only [StmtK.All, allOpt, allBody] at h
    have := NB_block (i := i) (nb_stmts b h.1 (i + 1))
    have := nb_catches cs h.2.1 i
    simp only [cStmtK]; nb
  | .try b cs (some f), h, i => by
    simp only [StmtK.All, allOpt, allBody] at h
    have := NB_block (i := i) (nb_stmts b h.1 (i + 1))
    have := nb_catches cs h.2.1 i
    have := NB_block (i := i) (nb_stmts f h.2.2 (i + 1))
    simp only [cStmtK]; nb
  | .throw e, h, i => by
    simp only [StmtK.All, allOpt, allBody] at h
    have := nb_expr e h i
    simp only [cStmtK]; nb
  | .switch e cs, h, i => by
    simp only [StmtK.All, allOpt, allBody] at h
    have := nb_expr e h.1 i
    have := nb_cases cs h.2 (i + 1)
    simp only [cStmtK]; nb

theorem nb_stmts : (x : List Stmt) → allStmts ok x → (i : Nat) → NB (cStmts dbl i x)
  | [], h, i => by
    simp only [cStmts]; nb
  | s :: ss, h, i => by
    simp only [allStmts] at h
    have := nb_stmt s h.1 i
    have := nb_stmts ss h.2 i
    simp only [cStmts]; nb

theorem nb_catches : (x : List Catch) → allCatches ok x → (i : Nat) → NB (cCatches dbl i x)
  | [], h, i => by
    simp only [cCatches]; nb
  | s :: ss, h, i => by
    simp only [allCatches] at h
    have := nb_catch s h.1 i
    have := nb_catches ss h.2 i
    simp only [cCatches]; nb

theorem nb_catch : (x : Catch) → Catch.All ok x → (i : Nat) → NB (cCatch dbl i x)
  | .mk ty v b, h, i => by
    simp only [Catch.All] at h
    have := NB_path ty
    have := NB_block (i := i) (nb_stmts b h (i + 1))
    simp only [cCatch]; nb

theorem nb_cases : (x : List Case) → allCases ok x → (i : Nat) → NB (cCases dbl i x)
  | [], h, i => by
    simp only [cCases]; nb
  | s :: ss, h, i => by
    simp only [allCases] at h
    have := nb_case s h.1 i
    have := nb_cases ss h.2 i
    simp only [cCases]; nb

theorem nb_case : (x : Case) → Case.All ok x → (i : Nat) → NB (cCase dbl i x)
  | .mk conds d b, h, i => by
    simp only [Case.All] at h
    have := nb_conds conds h.1 i
    have := nb_stmts b h.2 (i + 1)
    simp only [cCase]; nb

theorem nb_conds : (x : List Expr) → allExprs ok x → (i : Nat) → NB (cConds dbl i x)
  | [], h, i => by
    simp only [cConds]; nb
  | e :: es, h, i => by
    simp only [allExprs] at h
    have := nb_expr e h.1 i
    have := nb_conds es h.2 i
    simp only [cConds]; nb

theorem nb_decl : (x : Decl) → Decl.All ok x → (i : Nat) → NB (cDecl dbl i x)
  | .namespace p, h, i => by
    simp only [Decl.All] at h
    have := NB_path p
    simp only [cDecl]; nb
  | .globalFunction n f, h, i => by
    simp only [Decl.All] at h
    have := nb_fn f h i (some n)
    simp only [cDecl]; nb
  | .cls m n b is ms, h, i => by
    simp only [Decl.All] at h
    have := NB_classModifiers m
    have := NB_paths true is
    have := NB_memberBody (i := i) (nb_members ms h (i + 1))
    simp only [cDecl]; refine (NB_append _ _).2 ⟨NB_ind _ _, (NB_append _ _).2 ⟨by assumption, (NB_append _ _).2 ⟨NB_w _, (NB_append _ _).2 ⟨NB_w _, (NB_append _ _).2 ⟨NB_w _, (NB_append _ _).2 ⟨NB_opt _ fun b => (NB_append _ _).2 ⟨NB_w _, (NB_append _ _).2 ⟨NB_path b, NB_w _⟩⟩, ?_⟩⟩⟩⟩⟩⟩; nb
  | .interface n es ms, h, i => by
    simp only [Decl.All] at h
    have := NB_paths true es
    have := NB_memberBody (i := i) (nb_members ms h (i + 1))
    simp only [cDecl]; nb
  | .trait n ms, h, i => by
    simp only [Decl.All] at h
    have := NB_memberBody (i := i) (nb_members ms h (i + 1))
    simp only [cDecl]; nb
  | .staticVars vs, h, i => by
    simp only [Decl.All] at h
    have := nb_staticVars vs h i true
    simp only [cDecl]; nb
  | .globalVars vs, h, i => by
    simp only [Decl.All] at h
    have := nb_globalVars vs h i true
    simp only [cDecl]; nb

theorem nb_staticVars : (x : List (Text × Option Expr)) → allStaticVars ok x → (i : Nat) → (b : Bool) → NB (cStaticVars dbl i b x)
  | [], h, i, b => by
    simp only [cStaticVars]; nb
  | (n, none) :: vs, h, i, b => by
    simp only [allStaticVars, allOpt] at h
    have := nb_staticVars vs h.2 i false
    simp only [cStaticVars]; nb
  | (n, some e) :: vs, h, i, b => by
    simp only [allStaticVars, allOpt] at h
    have := nb_expr e h.1 i
    have := nb_staticVars vs h.2 i false
    simp only [cStaticVars]; nb

theorem nb_globalVars : (x : List Variable) → allVariables ok x → (i : Nat) → (b : Bool) → NB (cGlobalVars dbl i b x)
  | [], h, i, b => by
    simp only [cGlobalVars]; nb
  | v :: vs, h, i, b => by
    simp only [allVariables] at h
    have := nb_variable v h.1 i
    have := nb_globalVars vs h.2 i false
    simp only [cGlobalVars]; nb

theorem nb_members : (x : List Member) → allMembers ok x → (i : Nat) → NB (cMembers dbl i x)
  | [], h, i => by
    simp only [cMembers]; nb
  | m :: ms, h, i => by
    simp only [allMembers] at h
    have := nb_member m h.1 i
    have := nb_members ms h.2 i
    simp only [cMembers]; nb

theorem nb_member : (x : Member) → Member.All ok x → (i : Nat) → NB (cMember dbl i x)
  | .constant m n e, h, i => by
    simp only [Member.All, allOpt] at h
    have := NB_memberModifiers m
    have := nb_expr e h i
    simp only [cMember]; nb
  | .property m n none, h, i => by
    have := NB_memberModifiers m
    simp only [cMember]; nb
  | .property m n (some e), h, i => by
    simp only [Member.All, allOpt] at h
    have := NB_memberModifiers m
    have := nb_expr e h i
    simp only [cMember]; nb
  | .method m n f, h, i => by
    simp only [Member.All, allOpt] at h
    have := NB_memberModifiers m
    have := nb_fn f h i (some n)
    simp only [cMember]; nb
  | .traitUse ps us, h, i => by
    have := NB_paths true ps
    have := NB_traitUses (i + 1) us
    simp only [cMember]; refine (NB_append _ _).2 ⟨NB_ind _ _, (NB_append _ _).2 ⟨NB_w _, (NB_append _ _).2 ⟨by assumption, ?_⟩⟩⟩; split <;> nb

end

end

end Pico
