import Verif.Lemmas.PrinterText
/-! # The printer makes the writes of `Verif.Lemmas.PrinterText` -/
namespace Pico

/-- Result of handing chunks to a target one by one. -/
inductive FR (σ : Type)
  | ok (s : σ)
  | err (s : σ)
  | panic (p : Panic)

/-- Hand the chunks to the target until one is refused. -/
def feed {σ : Type} (tg : Target σ) : List Chunk → σ → FR σ
  | [], s => .ok s
  | .boom p :: _, _ => .panic p
  | .text t :: cs, s =>
    match tg.write s t with
    | (s', true) => feed tg cs s'
    | (s', false) => .err s'

theorem feed_append {σ : Type} (tg : Target σ) (a b : List Chunk) (s : σ) :
    feed tg (a ++ b) s = (match feed tg a s with
      | .ok s' => feed tg b s'
      | .err s' => .err s'
      | .panic p => .panic p) := by
  induction a generalizing s with
  | nil => rfl
  | cons c a ih =>
    cases c with
    | boom p => rfl
    | text t =>
      simp only [List.cons_append, feed]
      rcases tg.write s t with ⟨s', _ | _⟩
      · rfl
      · exact ih s'

/-- `m`, started with indentation `i`, makes the writes `cs` and leaves the indentation unchanged. -/
def Runs {σ : Type} (tg : Target σ) (m : W σ) (i : Nat) (cs : List Chunk) : Prop :=
  ∀ s, match feed tg cs s with
    | .ok s' => m ⟨i, s⟩ = .ok ⟨i, s'⟩
    | .err s' => ∃ j, m ⟨i, s⟩ = .err ⟨j, s'⟩
    | .panic p => m ⟨i, s⟩ = .panic p

section
variable {σ : Type} {tg : Target σ} {i : Nat}

theorem Runs.seq {a b : W σ} {ca cb : List Chunk} (ha : Runs tg a i ca) (hb : Runs tg b i cb) :
    Runs tg (a ;; b) i (ca ++ cb) := by
  intro s
  have h1 := ha s
  rw [feed_append]
  cases h : feed tg ca s with
  | ok s' =>
    simp only [h] at h1 ⊢
    have h2 := hb s'
    cases h3 : feed tg cb s' with
    | ok s'' => simp only [h3] at h2 ⊢; simp only [W.seq, h1, h2]
    | err s'' =>
      simp only [h3] at h2 ⊢
      obtain ⟨j, h2⟩ := h2
      exact ⟨j, by simp only [W.seq, h1, h2]⟩
    | panic p => simp only [h3] at h2 ⊢; simp only [W.seq, h1, h2]
  | err s' =>
    simp only [h] at h1 ⊢
    obtain ⟨j, h1⟩ := h1
    exact ⟨j, by simp only [W.seq, h1]⟩
  | panic p => simp only [h] at h1 ⊢; simp only [W.seq, h1]

theorem Runs.skip : Runs tg W.skip i [] := fun _ => rfl

theorem Runs.boom {p : Panic} : Runs tg (W.boom p) i [.boom p] := fun _ => rfl

theorem Runs.wr {t : Text} : Runs tg (wr tg t) i (w t) := by
  intro s
  simp only [w, feed, Pico.wr]
  rcases tg.write s t with ⟨s', _ | _⟩
  · exact ⟨i, rfl⟩
  · rfl

theorem Runs.cond {b : Bool} {m : W σ} {cs : List Chunk} (h : Runs tg m i cs) :
    Runs tg (W.cond b m) i (cnd b cs) := by
  cases b
  · exact Runs.skip
  · exact h

theorem Runs.opt {α : Type} {o : Option α} {f : α → W σ} {g : α → List Chunk}
    (h : ∀ x, Runs tg (f x) i (g x)) : Runs tg (W.opt o f) i (Pico.opt o g) := by
  cases o
  · exact Runs.skip
  · exact h _

theorem Runs.times {n : Nat} {m : W σ} {c : Chunk} (h : Runs tg m i [c]) :
    Runs tg (W.times n m) i (List.replicate n c) := by
  induction n with
  | zero => exact Runs.skip
  | succ n ih => exact Runs.seq h ih

theorem Runs.indented {t : Text} : Runs tg (wrIndented tg t) i (ind i t) := by
  intro s
  exact Runs.seq (Runs.times Runs.wr) Runs.wr s

theorem Runs.line {t : Text} : Runs tg (wrLn tg t) i (ln i t) := Runs.seq Runs.indented Runs.wr

theorem Runs.nest {m rest : W σ} {cs cr : List Chunk} (h : Runs tg m (i + 1) cs)
    (hr : Runs tg rest i cr) : Runs tg (W.inc ;; m ;; W.dec ;; rest) i (cs ++ cr) := by
  intro s
  have h1 := h s
  rw [feed_append]
  cases hf : feed tg cs s with
  | ok s' =>
    simp only [hf] at h1 ⊢
    have h2 := hr s'
    cases h3 : feed tg cr s' with
    | ok s'' => simp only [h3] at h2 ⊢; simp only [W.seq, W.inc, W.dec, h1, h2]
    | err s'' =>
      simp only [h3] at h2 ⊢
      obtain ⟨j, h2⟩ := h2
      exact ⟨j, by simp only [W.seq, W.inc, W.dec, h1, h2]⟩
    | panic p => simp only [h3] at h2 ⊢; simp only [W.seq, W.inc, W.dec, h1, h2]
  | err s' =>
    simp only [hf] at h1 ⊢
    obtain ⟨j, h1⟩ := h1
    exact ⟨j, by simp only [W.seq, W.inc, h1]⟩
  | panic p => simp only [hf] at h1 ⊢; simp only [W.seq, W.inc, h1]

theorem Runs.nestEnd {m : W σ} {cs : List Chunk} (h : Runs tg m (i + 1) cs) :
    Runs tg (W.inc ;; m ;; W.dec) i cs := by
  intro s
  have h1 := h s
  cases hf : feed tg cs s with
  | ok s' => simp only [hf] at h1 ⊢; simp only [W.seq, W.inc, W.dec, h1]
  | err s' =>
    simp only [hf] at h1 ⊢
    obtain ⟨j, h1⟩ := h1
    exact ⟨j, by simp only [W.seq, W.inc, h1]⟩
  | panic p => simp only [hf] at h1 ⊢; simp only [W.seq, W.inc, h1]

/-- Decompose a goal `Runs tg m i cs` along the sequencing operators. -/
macro "runs" : tactic => `(tactic|
  with_reducible repeat' first
    | assumption
    | exact Runs.wr | exact Runs.skip | exact Runs.boom | exact Runs.indented | exact Runs.line
    | refine Runs.nest ?_ ?_ | refine Runs.nestEnd ?_ | refine Runs.seq ?_ ?_
    | refine Runs.cond ?_ | refine Runs.opt (fun _ => ?_))

theorem runs_classModifiers {m : ClassModifiers} :
    Runs tg (wrClassModifiers tg m) i (cClassModifiers m) := by
  unfold wrClassModifiers cClassModifiers; runs

theorem runs_memberModifiers {m : MemberModifiers} :
    Runs tg (wrMemberModifiers tg m) i (cMemberModifiers m) := by
  unfold wrMemberModifiers cMemberModifiers; runs

theorem runs_path {p : Path} : Runs tg (wrPath tg p) i (cPath p) := by
  obtain ⟨a, ns, id⟩ := p
  unfold wrPath cPath
  cases ns <;> runs

theorem runs_ty {t : Ty} : Runs tg (wrTy tg t) i (cTy t) := by
  cases t with
  | Object p => cases p <;> first | exact runs_path | exact Runs.wr
  | _ => exact Runs.wr

theorem runs_str {s : Text} : Runs tg (wrStr tg s) i (cStr s) := by
  unfold wrStr cStr; runs

theorem runs_parens {c : Bool} {e : Expr} {m : W σ} {cs : List Chunk} (h : Runs tg m i cs) :
    Runs tg (wrapParens tg c e m) i (cParens c e cs) := by
  unfold wrapParens cParens; runs

theorem runs_postfix {op : UnaryOp} : Runs tg (wrPostfix tg op) i (cPostfix op) := by
  cases op <;> first | exact Runs.wr | exact Runs.skip

theorem runs_castTy {t : Ty} : Runs tg (wrCastTy tg t) i (cCastTy t) := by
  cases t with
  | Object p => cases p <;> first | exact Runs.boom | exact Runs.wr
  | _ => exact Runs.wr

theorem runs_paths {b : Bool} {ps : List Path} : Runs tg (wrPaths tg b ps) i (cPaths b ps) := by
  induction ps generalizing b with
  | nil => exact Runs.skip
  | cons p ps ih =>
    have := @runs_path σ tg i p
    have := @ih false
    unfold wrPaths cPaths; runs

theorem runs_useVars {b : Bool} {vs : List (Bool × Text)} :
    Runs tg (wrUseVars tg b vs) i (cUseVars b vs) := by
  induction vs generalizing b with
  | nil => exact Runs.skip
  | cons p ps ih =>
    have := @ih false
    unfold wrUseVars cUseVars; runs

theorem runs_traitUse {u : TraitUse} : Runs tg (wrTraitUse tg u) i (cTraitUse u) := by
  cases u with
  | insteadOf p n ns =>
    have := @runs_path σ tg i p
    have := @runs_paths σ tg i true ns
    unfold wrTraitUse cTraitUse; runs
  | asAlias p n m a =>
    have := @runs_memberModifiers σ tg i m
    unfold wrTraitUse cTraitUse
    refine Runs.seq (Runs.opt fun p => ?_) ?_
    · exact Runs.seq runs_path Runs.wr
    · runs

theorem runs_traitUses {us : List TraitUse} : Runs tg (wrTraitUses tg us) i (cTraitUses i us) := by
  induction us with
  | nil => exact Runs.skip
  | cons u us ih =>
    have := @runs_traitUse σ tg i u
    unfold wrTraitUses cTraitUses; runs

theorem runs_use {cs : List UseClause} : Runs tg (wrUse tg cs) i (cUse i cs) := by
  induction cs with
  | nil => exact Runs.skip
  | cons c cs ih =>
    have := @runs_path σ tg i c.path
    unfold wrUse cUse; runs

theorem runs_block {m : W σ} {cs : List Chunk} (h : Runs tg m (i + 1) cs) :
    Runs tg (wrBlock tg m) i (cBlock i cs) := by
  unfold wrBlock cBlock; runs

theorem runs_memberBody {m : W σ} {cs : List Chunk} (h : Runs tg m (i + 1) cs) :
    Runs tg (wrMemberBody tg m) i (cMemberBody i cs) := by
  unfold wrMemberBody cMemberBody; runs

theorem runs_function {r : Bool} {n : Option Text} {ps b : W σ} {cps cb : List Chunk}
    {usev : List (Bool × Text)} (hp : Runs tg ps i cps) (hb : Runs tg b i cb) :
    Runs tg (wrFunction tg r n ps usev b) i (cFunction r n cps usev cb) := by
  have := @runs_useVars σ tg i true usev
  unfold wrFunction cFunction; runs

end

section
variable {σ : Type} (tg : Target σ)

mutual

theorem runs_expr : (e : Expr) → (i : Nat) → Runs tg (pExpr tg e) i (cExpr tg.dbl i e)
  | .mk k _, i => by
    have := runs_exprK k i
    simpa only [pExpr, cExpr] using this

theorem runs_exprK : (k : ExprK) → (i : Nat) → Runs tg (pExprK tg k) i (cExprK tg.dbl i k)
  | .path p, i => by simp only [pExprK, cExprK]; exact runs_path
  | .const c, i => by simp only [pExprK, cExprK]; runs
  | .str s, i => by simp only [pExprK, cExprK]; exact runs_str
  | .binStr _, i => by simp only [pExprK, cExprK]; runs
  | .int _, i => by simp only [pExprK, cExprK]; runs
  | .double _, i => by simp only [pExprK, cExprK]; runs
  | .array items, i => by
    have := runs_items items i true
    simp only [pExprK, cExprK]; runs
  | .var v, i => by
    have := runs_variable v i
    simp only [pExprK, cExprK]; runs
  | .reference e, i => by
    have := runs_expr e i
    simp only [pExprK, cExprK]; runs
  | .clone e, i => by
    have := runs_expr e i
    simp only [pExprK, cExprK]; runs
  | .isset es, i => by
    have := runs_args es i true
    simp only [pExprK, cExprK]; runs
  | .empty e, i => by
    have := runs_expr e i
    simp only [pExprK, cExprK]; runs
  | .exit e, i => by
    have := runs_optExpr e i
    simp only [pExprK, cExprK]; runs
  | .include t e, i => by
    have := runs_expr e i
    simp only [pExprK, cExprK]; runs
  | .arrayIdx e idxs, i => by
    have := @runs_parens σ tg i false e _ _ (runs_expr e i)
    have := runs_idxs idxs i
    simp only [pExprK, cExprK]; runs
  | .objMember e ms, i => by
    have := @runs_parens σ tg i false e _ _ (runs_expr e i)
    have := runs_memberNames ms i c!"->" true
    simp only [pExprK, cExprK]; runs
  | .staticMember e ms, i => by
    have := @runs_parens σ tg i false e _ _ (runs_expr e i)
    have := runs_memberNames ms i c!"::" false
    simp only [pExprK, cExprK]; runs
  | .call e args, i => by
    have := runs_expr e i
    have := runs_args args i true
    simp only [pExprK, cExprK]; runs
  | .new e args, i => by
    have := runs_expr e i
    have := runs_args args i true
    simp only [pExprK, cExprK]; runs
  | .unpack e, i => by
    have := runs_expr e i
    simp only [pExprK, cExprK]; runs
  | .unary op e, i => by
    have h := runs_expr e i
    have := @runs_parens σ tg i false e _ _ h
    have := @runs_postfix σ tg i op
    simp only [pExprK, cExprK]
    refine Runs.seq Runs.wr (Runs.seq ?_ this)
    split <;> assumption
  | .binary op l r, i => by
    have := @runs_parens σ tg i false l _ _ (runs_expr l i)
    have := @runs_parens σ tg i false r _ _ (runs_expr r i)
    simp only [pExprK, cExprK]; runs
  | .instanceOf l r, i => by
    have := runs_expr l i
    have := runs_expr r i
    simp only [pExprK, cExprK]; runs
  | .cast t e, i => by
    have := runs_expr e i
    have := @runs_castTy σ tg i t
    simp only [pExprK, cExprK]; runs
  | .yield e, i => by
    have := runs_optExpr e i
    simp only [pExprK, cExprK]; runs
  | .function f, i => by
    have := runs_fn f i none
    simp only [pExprK, cExprK]; runs
  | .assign l r, i => by
    have := runs_expr l i
    have := runs_expr r i
    simp only [pExprK, cExprK]; runs
  | .compoundAssign l op r, i => by
    have := runs_expr l i
    have := runs_expr r i
    simp only [pExprK, cExprK]; runs
  | .assignRef l r, i => by
    have := runs_expr l i
    have := runs_expr r i
    simp only [pExprK, cExprK]; runs
  | .list items, i => by
    have := runs_items items i true
    simp only [pExprK, cExprK]; runs
  | .ternary c none e, i => by
    have := @runs_parens σ tg i false c _ _ (runs_expr c i)
    have := @runs_parens σ tg i false e _ _ (runs_expr e i)
    simp only [pExprK, cExprK]; runs
  | .ternary c (some t) e, i => by
    have := @runs_parens σ tg i false c _ _ (runs_expr c i)
    have := @runs_parens σ tg i false t _ _ (runs_expr t i)
    have := @runs_parens σ tg i false e _ _ (runs_expr e i)
    simp only [pExprK, cExprK]; runs

theorem runs_variable : (v : Variable) → (i : Nat) → Runs tg (pVariable tg v) i (cVariable tg.dbl i v)
  | .name n, i => by simp only [pVariable, cVariable]; runs
  | .fetch e, i => by
    have := @runs_parens σ tg i true e _ _ (runs_expr e i)
    simp only [pVariable, cVariable]; runs

theorem runs_optExpr : (e : Option Expr) → (i : Nat) → Runs tg (pOptExpr tg e) i (cOptExpr tg.dbl i e)
  | none, i => by simp only [pOptExpr, cOptExpr]; runs
  | some e, i => by
    have := runs_expr e i
    simp only [pOptExpr, cOptExpr]; runs

theorem runs_args : (es : List Expr) → (i : Nat) → (b : Bool) →
    Runs tg (pArgs tg b es) i (cArgs tg.dbl i b es)
  | [], i, b => by simp only [pArgs, cArgs]; runs
  | e :: es, i, b => by
    have := runs_expr e i
    have := runs_args es i false
    simp only [pArgs, cArgs]; runs

theorem runs_items : (es : List (Option Expr × Expr)) → (i : Nat) → (b : Bool) →
    Runs tg (pItems tg b es) i (cItems tg.dbl i b es)
  | [], i, b => by simp only [pItems, cItems]; runs
  | (none, e) :: es, i, b => by
    have := runs_expr e i
    have := runs_items es i false
    simp only [pItems, cItems]; runs
  | (some k, e) :: es, i, b => by
    have := runs_expr k i
    have := runs_expr e i
    have := runs_items es i false
    simp only [pItems, cItems]; runs

theorem runs_idxs : (es : List (Option Expr)) → (i : Nat) → Runs tg (pIdxs tg es) i (cIdxs tg.dbl i es)
  | [], i => by simp only [pIdxs, cIdxs]; runs
  | none :: es, i => by
    have := runs_idxs es i
    simp only [pIdxs, cIdxs]; runs
  | some e :: es, i => by
    have := runs_expr e i
    have := runs_idxs es i
    simp only [pIdxs, cIdxs]; runs

theorem runs_memberNames : (es : List Expr) → (i : Nat) → (sep : Text) → (c : Bool) →
    Runs tg (pMemberNames tg sep c es) i (cMemberNames tg.dbl i sep c es)
  | [], i, sep, c => by simp only [pMemberNames, cMemberNames]; runs
  | e :: es, i, sep, c => by
    have := @runs_parens σ tg i c e _ _ (runs_expr e i)
    have := runs_memberNames es i sep c
    simp only [pMemberNames, cMemberNames]; runs

theorem runs_fn : (f : FnDecl) → (i : Nat) → (n : Option Text) → Runs tg (pFn tg n f) i (cFn tg.dbl i n f)
  | .mk ps none usev rr, i, n => by
    have := runs_params ps i true
    simp only [pFn, cFn]
    exact runs_function this Runs.wr
  | .mk ps (some b) usev rr, i, n => by
    have := runs_params ps i true
    have hb := runs_stmts b (i + 1)
    simp only [pFn, cFn]
    exact runs_function this (runs_block hb)

theorem runs_params : (ps : List Param) → (i : Nat) → (b : Bool) →
    Runs tg (pParams tg b ps) i (cParams tg.dbl i b ps)
  | [], i, b => by simp only [pParams, cParams]; runs
  | p :: ps, i, b => by
    have := runs_param p i
    have := runs_params ps i false
    simp only [pParams, cParams]; runs

theorem runs_param : (p : Param) → (i : Nat) → Runs tg (pParam tg p) i (cParam tg.dbl i p)
  | .mk n r v ty none, i => by
    have := fun t => @runs_ty σ tg i t
    simp only [pParam, cParam]
    refine Runs.seq (Runs.opt fun t => Runs.seq (this t) Runs.wr) ?_
    runs
  | .mk n r v ty (some e), i => by
    have := fun t => @runs_ty σ tg i t
    have he := runs_expr e i
    simp only [pParam, cParam]
    refine Runs.seq (Runs.opt fun t => Runs.seq (this t) Runs.wr) ?_
    runs

theorem runs_stmt : (s : Stmt) → (i : Nat) → Runs tg (pStmt tg s) i (cStmt tg.dbl i s)
  | .mk k _, i => by
    have := runs_stmtK k i
    simpa only [pStmt, cStmt] using this

theorem runs_stmtK : (k : StmtK) → (i : Nat) → Runs tg (pStmtK tg k) i (cStmtK tg.dbl i k)
  | .none, i => by simp only [pStmtK, cStmtK]; runs
  | .block b, i => by
    have := runs_stmts b (i + 1)
    simp only [pStmtK, cStmtK]; runs
  | .decl d, i => by
    have := runs_decl d i
    simp only [pStmtK, cStmtK]; runs
  | .use cs, i => by simp only [pStmtK, cStmtK]; exact runs_use
  | .expr e, i => by
    have := runs_expr e i
    simp only [pStmtK, cStmtK]; runs
  | .echo es, i => by
    have := runs_args es i true
    simp only [pStmtK, cStmtK]; runs
  | .ret none, i => by simp only [pStmtK, cStmtK]; runs
  | .ret (some e), i => by
    have := runs_expr e i
    simp only [pStmtK, cStmtK]; runs
  | .brk none, i => by simp only [pStmtK, cStmtK]; runs
  | .brk (some e), i => by
    have := runs_expr e i
    simp only [pStmtK, cStmtK]; runs
  | .cont none, i => by simp only [pStmtK, cStmtK]; runs
  | .cont (some e), i => by
    have := runs_expr e i
    simp only [pStmtK, cStmtK]; runs
  | .unset es, i => by
    have := runs_args es i true
    simp only [pStmtK, cStmtK]; runs
  | .ite c t e, i => by
    have := runs_expr c i
    have := runs_block (runs_stmts t (i + 1))
    have := runs_block (runs_stmts e (i + 1))
    simp only [pStmtK, cStmtK]; runs
  | .while c b, i => by
    have := runs_expr c i
    have := runs_block (runs_stmts b (i + 1))
    simp only [pStmtK, cStmtK]; runs
  | .doWhile b c, i => by
    have := runs_expr c i
    have := runs_block (runs_stmts b (i + 1))
    simp only [pStmtK, cStmtK]; runs
  | .for s c l b, i => by
    have := runs_optExpr s i
    have := runs_optExpr c i
    have := runs_optExpr l i
    have := runs_block (runs_stmts b (i + 1))
    simp only [pStmtK, cStmtK]; runs
  | .forEach e none v b, i => by
    have := runs_expr e i
    have := runs_expr v i
    have := runs_block (runs_stmts b (i + 1))
    simp only [pStmtK, cStmtK]; runs
  | .forEach e (some k) v b, i => by
    have := runs_expr e i
    have := runs_expr k i
    have := runs_expr v i
    have := runs_block (runs_stmts b (i + 1))
    simp only [pStmtK, cStmtK]; runs
  | .try b cs none, i => by
    have := runs_block (runs_stmts b (i + 1))
    have := runs_catches cs i
    simp only [pStmtK, cStmtK]; runs
  | .try b cs (some f), i => by
    have := runs_block (runs_stmts b (i + 1))
    have := runs_catches cs i
    have := runs_block (runs_stmts f (i + 1))
    simp only [pStmtK, cStmtK]; runs
  | .throw e, i => by
    have := runs_expr e i
    simp only [pStmtK, cStmtK]; runs
  | .switch e cs, i => by
    have := runs_expr e i
    have := runs_cases cs (i + 1)
    simp only [pStmtK, cStmtK]; runs

theorem runs_stmts : (ss : List Stmt) → (i : Nat) → Runs tg (pStmts tg ss) i (cStmts tg.dbl i ss)
  | [], i => by simp only [pStmts, cStmts]; runs
  | s :: ss, i => by
    have := runs_stmt s i
    have := runs_stmts ss i
    simp only [pStmts, cStmts]; runs

theorem runs_catches : (cs : List Catch) → (i : Nat) → Runs tg (pCatches tg cs) i (cCatches tg.dbl i cs)
  | [], i => by simp only [pCatches, cCatches]; runs
  | c :: cs, i => by
    have := runs_catch c i
    have := runs_catches cs i
    simp only [pCatches, cCatches]; runs

theorem runs_catch : (c : Catch) → (i : Nat) → Runs tg (pCatch tg c) i (cCatch tg.dbl i c)
  | .mk ty v b, i => by
    have := @runs_path σ tg i ty
    have := runs_block (runs_stmts b (i + 1))
    simp only [pCatch, cCatch]; runs

theorem runs_cases : (cs : List Case) → (i : Nat) → Runs tg (pCases tg cs) i (cCases tg.dbl i cs)
  | [], i => by simp only [pCases, cCases]; runs
  | c :: cs, i => by
    have := runs_case c i
    have := runs_cases cs i
    simp only [pCases, cCases]; runs

theorem runs_case : (c : Case) → (i : Nat) → Runs tg (pCase tg c) i (cCase tg.dbl i c)
  | .mk conds d b, i => by
    have := runs_conds conds i
    have := runs_stmts b (i + 1)
    simp only [pCase, cCase]; runs

theorem runs_conds : (es : List Expr) → (i : Nat) → Runs tg (pConds tg es) i (cConds tg.dbl i es)
  | [], i => by simp only [pConds, cConds]; runs
  | e :: es, i => by
    have := runs_expr e i
    have := runs_conds es i
    simp only [pConds, cConds]; runs

theorem runs_decl : (d : Decl) → (i : Nat) → Runs tg (pDecl tg d) i (cDecl tg.dbl i d)
  | .namespace p, i => by
    have := @runs_path σ tg i p
    simp only [pDecl, cDecl]; runs
  | .globalFunction n f, i => by
    have := runs_fn f i (some n)
    simp only [pDecl, cDecl]; runs
  | .cls m n b is ms, i => by
    have := @runs_classModifiers σ tg i m
    have hp := fun p => @runs_path σ tg i p
    have := @runs_paths σ tg i true is
    have hm := runs_memberBody (runs_members ms (i + 1))
    simp only [pDecl, cDecl]
    refine Runs.seq Runs.indented (Runs.seq (by assumption) (Runs.seq Runs.wr (Runs.seq Runs.wr
      (Runs.seq Runs.wr (Runs.seq (Runs.opt fun b => Runs.seq Runs.wr (Runs.seq (hp b) Runs.wr)) ?_)))))
    runs
  | .interface n es ms, i => by
    have := @runs_paths σ tg i true es
    have := runs_memberBody (runs_members ms (i + 1))
    simp only [pDecl, cDecl]; runs
  | .trait n ms, i => by
    have := runs_memberBody (runs_members ms (i + 1))
    simp only [pDecl, cDecl]; runs
  | .staticVars vs, i => by
    have := runs_staticVars vs i true
    simp only [pDecl, cDecl]; runs
  | .globalVars vs, i => by
    have := runs_globalVars vs i true
    simp only [pDecl, cDecl]; runs

theorem runs_staticVars : (vs : List (Text × Option Expr)) → (i : Nat) → (b : Bool) →
    Runs tg (pStaticVars tg b vs) i (cStaticVars tg.dbl i b vs)
  | [], i, b => by simp only [pStaticVars, cStaticVars]; runs
  | (n, none) :: vs, i, b => by
    have := runs_staticVars vs i false
    simp only [pStaticVars, cStaticVars]; runs
  | (n, some e) :: vs, i, b => by
    have := runs_expr e i
    have := runs_staticVars vs i false
    simp only [pStaticVars, cStaticVars]; runs

theorem runs_globalVars : (vs : List Variable) → (i : Nat) → (b : Bool) →
    Runs tg (pGlobalVars tg b vs) i (cGlobalVars tg.dbl i b vs)
  | [], i, b => by simp only [pGlobalVars, cGlobalVars]; runs
  | v :: vs, i, b => by
    have := runs_variable v i
    have := runs_globalVars vs i false
    simp only [pGlobalVars, cGlobalVars]; runs

theorem runs_members : (ms : List Member) → (i : Nat) → Runs tg (pMembers tg ms) i (cMembers tg.dbl i ms)
  | [], i => by simp only [pMembers, cMembers]; runs
  | m :: ms, i => by
    have := runs_member m i
    have := runs_members ms i
    simp only [pMembers, cMembers]; runs

theorem runs_member : (m : Member) → (i : Nat) → Runs tg (pMember tg m) i (cMember tg.dbl i m)
  | .constant m n e, i => by
    have := @runs_memberModifiers σ tg i m
    have := runs_expr e i
    simp only [pMember, cMember]; runs
  | .property m n none, i => by
    have := @runs_memberModifiers σ tg i m
    simp only [pMember, cMember]; runs
  | .property m n (some e), i => by
    have := @runs_memberModifiers σ tg i m
    have := runs_expr e i
    simp only [pMember, cMember]; runs
  | .method m n f, i => by
    have := @runs_memberModifiers σ tg i m
    have := runs_fn f i (some n)
    simp only [pMember, cMember]; runs
  | .traitUse ps us, i => by
    have := @runs_paths σ tg i true ps
    have hu := @runs_traitUses σ tg (i + 1) us
    simp only [pMember, cMember]
    refine Runs.seq Runs.indented (Runs.seq Runs.wr (Runs.seq this ?_))
    split <;> runs

end

end

end Pico
