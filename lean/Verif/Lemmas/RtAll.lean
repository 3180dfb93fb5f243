import Verif.Lemmas.RtClass
/-!
# Every tree of `Spec/RoundTrip` is printed as a text with a derivation
-/
namespace Pico

variable {dbl : Text → Text}

/-- What is shown of an expression in any place. -/
def PClaim (dbl : Text → Text) : ExprK → Prop
  | .unpack e => EClaim dbl e
  | .list items => ∀ e ∈ items, ItemC dbl e
  | .reference e => EClaim dbl e ∧ crefOk e = true ∧ e.isVar = true
  | k => ∀ sp, EClaim dbl (.mk k sp)

theorem PClaim.plain {e : Expr} (hp : PClaim dbl e.kind) (h : rtExpr dbl .plain e = true) : EClaim dbl e := by
  obtain ⟨k, sp⟩ := e
  cases k <;> first | exact hp sp | (simp [rtExpr, rtExprK] at h; done)

theorem PClaim.arg {e : Expr} (hp : PClaim dbl e.kind) (h : rtExpr dbl .arg e = true) : ArgC dbl e := by
  obtain ⟨k, sp⟩ := e
  cases k <;> first | exact .inl (hp sp) | exact .inr ⟨_, _, rfl, hp⟩ | (simp [rtExpr, rtExprK] at h; done)

theorem PClaim.var {e : Expr} (hp : PClaim dbl e.kind) (h : e.isVar = true) : EClaim dbl e := by
  obtain ⟨k, sp⟩ := e
  cases k <;> first | exact hp sp | (cases h; done)

theorem PClaim.each {e : Expr} (hp : PClaim dbl e.kind) (h : eachOk e = true) : FvC dbl e := by
  obtain ⟨k, sp⟩ := e
  refine fv_claim ?_
  cases k <;> first | exact .inl ⟨hp sp, (by simpa [eachOk, Expr.isRef] using h)⟩ | exact .inr ⟨_, _, rfl, hp⟩ | (cases h; done)

local macro "destr" h:ident : tactic => `(tactic| simp only [Bool.and_eq_true, Bool.or_eq_true, Bool.not_eq_true', List.isEmpty_eq_false_iff, decide_eq_true_eq, beq_iff_eq] at $h:ident)

theorem rtCases_ok : ∀ cs : List Case, rtCases dbl cs = true → casesOk cs = true
  | [], _ => rfl
  | .mk conds d b :: cs, h => by
    rw [rtCases, Bool.and_eq_true, Bool.and_eq_true] at h
    rw [casesOk, Bool.and_eq_true]
    exact ⟨h.1.2, rtCases_ok cs h.2⟩

mutual

theorem rt_expr (c : Place) : ∀ e : Expr, rtExpr dbl c e = true → PClaim dbl e.kind
  | .mk k _, h => rt_exprK c k h

theorem rt_exprK (c : Place) : ∀ k : ExprK, rtExprK dbl c k = true → PClaim dbl k
  | .path p, h => by rw [rtExprK] at h; destr h; exact ec_path h.1 h.2
  | .const x, h => by rw [rtExprK] at h; exact ec_const h
  | .str s, h => by rw [rtExprK] at h; exact ec_str h
  | .binStr _, h => by rw [rtExprK] at h; cases h
  | .int v, h => by rw [rtExprK] at h; destr h; exact ec_int h.1 h.2
  | .double l, h => by rw [rtExprK] at h; exact ec_double h
  | .array items, h => by rw [rtExprK] at h; exact ec_array (rt_items items h)
  | .var (.name n), h => by rw [rtExprK] at h; exact ec_var h
  | .var (.fetch _), h => by rw [rtExprK] at h; cases h
  | .reference e, h => by rw [rtExprK] at h; destr h; exact ⟨(rt_expr .plain e h.1.1.2).plain h.1.1.2, h.1.2, h.2⟩
  | .clone e, h => by rw [rtExprK] at h; exact ec_clone ((rt_expr .plain e h).plain h)
  | .isset es, h => by rw [rtExprK] at h; destr h; exact ec_isset h.1 (rt_exprs es h.2)
  | .empty e, h => by rw [rtExprK] at h; exact ec_empty ((rt_expr .plain e h).plain h)
  | .exit none, h => by rw [rtExprK] at h; cases h
  | .exit (some e), h => by
    rw [rtExprK, rtOpt] at h
    exact ec_exit ((rt_expr .plain e h).plain h)
  | .include _ e, h => by rw [rtExprK] at h; exact ec_include ((rt_expr .plain e h).plain h)
  | .arrayIdx b idxs, h => by
    rw [rtExprK] at h; destr h
    obtain ⟨⟨⟨⟨h1, h2⟩, h3⟩, h4⟩, h5⟩ := h
    exact ec_arrayIdx ((rt_expr .plain b h1).plain h1) h2 h3 h4 (rt_opts idxs h5)
  | .objMember b ms, h => by
    rw [rtExprK] at h; destr h
    obtain ⟨⟨⟨⟨h1, h2⟩, h3⟩, h4⟩, h5⟩ := h
    exact ec_objMember ((rt_expr .plain b h1).plain h1) h2 h3 h4 (rt_members ms h5)
  | .staticMember b ms, h => by
    rw [rtExprK] at h; destr h
    obtain ⟨hne, ⟨h1, h2 | h2⟩ | ⟨⟨⟨h1, h2⟩, h3⟩, h4⟩⟩ := h
    · exact ec_scope h1 hne h2
    · exact ec_classConst h1 h2
    · exact ec_static ((rt_expr .plain b h1).plain h1) h2 h3 hne h4
  | .call t args, h => by
    rw [rtExprK] at h; destr h
    obtain ⟨h1 | ⟨h1, h2⟩, h3⟩ := h
    · exact ec_callName h1 (rt_args args h3)
    · exact ec_call ((rt_expr .plain t h1).plain h1) h2 (rt_args args h3)
  | .new t args, h => by
    rw [rtExprK] at h; destr h
    obtain ⟨h1 | ⟨h1, h2⟩, h3⟩ := h
    · exact ec_new (cref_claim (.inl h1)) (rt_args args h3)
    · exact ec_new (cref_claim (.inr ⟨(rt_expr .plain t h1).plain h1, h2⟩)) (rt_args args h3)
  | .unpack e, h => by rw [rtExprK] at h; destr h; exact (rt_expr .plain e h.2).plain h.2
  | .unary op e, h => by
    have h : (rtExpr dbl .plain e && _) = true := h
    rw [Bool.and_eq_true] at h
    exact ec_unary ((rt_expr .plain e h.1).plain h.1) h.2
  | .binary op l r, h => by
    rw [rtExprK, Bool.and_eq_true, Bool.and_eq_true, Bool.and_eq_true, Bool.and_eq_true] at h
    obtain ⟨⟨⟨⟨h1, h2⟩, h3⟩, h4⟩, h5⟩ := h
    exact ec_binary ((rt_expr .plain l h1).plain h1) ((rt_expr .plain r h2).plain h2) h3 h4 h5
  | .instanceOf l r, h => by
    rw [rtExprK] at h; destr h
    obtain ⟨⟨h1, h2⟩, h3 | ⟨h3, h4⟩⟩ := h
    · exact ec_instanceOf ((rt_expr .plain l h1).plain h1) h2 (cref_claim (.inl h3))
    · exact ec_instanceOf ((rt_expr .plain l h1).plain h1) h2 (cref_claim (.inr ⟨(rt_expr .plain r h3).plain h3, h4⟩))
  | .cast t e, h => by rw [rtExprK] at h; destr h; exact ec_cast h.1 ((rt_expr .plain e h.2).plain h.2)
  | .yield none, h => by exact ec_yield nofun rfl
  | .yield (some e), h => by
    rw [rtExprK, Bool.and_eq_true, rtOpt] at h
    refine ec_yield ?_ h.2
    intro e' he
    cases he
    exact (rt_expr .plain e h.1).plain h.1
  | .function f, h => by rw [rtExprK] at h; exact ec_function (rt_fn true false f (by decide) h)
  | .assign (.mk l sp) r, h => by
    rw [rtExprK] at h; destr h
    obtain ⟨⟨h1, h2⟩, h3⟩ := h
    have hl := rt_exprK .lhs l h1
    have hr := (rt_expr .plain r h3).plain h3
    rcases h2 with h2 | h2
    · exact ec_assign (PClaim.var (e := .mk l sp) hl h2) h2 hr
    · cases l <;> first | (cases h2; done) | exact fun sp' => ec_list hl hr sp' sp
  | .compoundAssign l op r, h => by
    rw [rtExprK] at h; destr h
    obtain ⟨⟨⟨h1, h2⟩, h3⟩, h4⟩ := h
    exact ec_compound ((rt_expr .plain l h1).plain h1) h2 h3 ((rt_expr .plain r h4).plain h4)
  | .assignRef (.mk l sp) r, h => by
    rw [rtExprK] at h; destr h
    obtain ⟨⟨h1, h2⟩, h3⟩ := h
    have hl := rt_exprK .lhs l h1
    have hr := (rt_expr .plain r h3).plain h3
    rcases h2 with h2 | h2
    · exact ec_assignRef (PClaim.var (e := .mk l sp) hl h2) h2 hr
    · cases l <;> first | (cases h2; done) | exact fun sp' => ec_listRef hl hr sp' sp
  | .list items, h => by rw [rtExprK] at h; destr h; exact rt_items items h.2
  | .ternary c none e, h => by
    rw [rtExprK] at h; destr h
    obtain ⟨⟨⟨h1, h2⟩, h3⟩, h4⟩ := h
    exact ec_ternary ((rt_expr .plain c h1).plain h1) h2 nofun ((rt_expr .plain e h4).plain h4)
  | .ternary c (some t) e, h => by
    rw [rtExprK, rtOpt] at h; destr h
    obtain ⟨⟨⟨h1, h2⟩, h3⟩, h4⟩ := h
    refine ec_ternary ((rt_expr .plain c h1).plain h1) h2 ?_ ((rt_expr .plain e h4).plain h4)
    intro t' ht
    cases ht
    exact (rt_expr .plain t h3).plain h3

theorem rt_opt : ∀ e : Option Expr, rtOpt dbl e = true → OptC dbl e
  | none, _ => nofun
  | some e, h => by
    rw [rtOpt] at h
    intro e' he
    cases he
    exact (rt_expr .plain e h).plain h

theorem rt_exprs : ∀ es : List Expr, rtExprs dbl .plain es = true → ∀ e ∈ es, EClaim dbl e
  | [], _ => nofun
  | e :: es, h => by
    rw [rtExprs, Bool.and_eq_true] at h
    exact List.forall_mem_cons.2 ⟨(rt_expr .plain e h.1).plain h.1, rt_exprs es h.2⟩

theorem rt_args : ∀ es : List Expr, rtExprs dbl .arg es = true → ∀ e ∈ es, ArgC dbl e
  | [], _ => nofun
  | e :: es, h => by
    rw [rtExprs, Bool.and_eq_true] at h
    exact List.forall_mem_cons.2 ⟨(rt_expr .arg e h.1).arg h.1, rt_args es h.2⟩

theorem rt_items : ∀ es : List (Option Expr × Expr), rtItems dbl es = true → ∀ e ∈ es, ItemC dbl e
  | [], _ => nofun
  | (k, e) :: es, h => by
    rw [rtItems] at h; destr h
    exact List.forall_mem_cons.2 ⟨⟨rt_opt k h.1.1, (rt_expr .plain e h.1.2).plain h.1.2⟩, rt_items es h.2⟩

theorem rt_opts : ∀ es : List (Option Expr), rtOpts dbl es = true → ∀ e ∈ es, OptC dbl e
  | [], _ => nofun
  | e :: es, h => by
    rw [rtOpts] at h; destr h
    exact List.forall_mem_cons.2 ⟨rt_opt e h.1, rt_opts es h.2⟩

theorem rt_members : ∀ es : List Expr, rtMembers dbl es = true → ∀ e ∈ es, MemC dbl e
  | [], _ => nofun
  | e :: es, h => by
    rw [rtMembers] at h; destr h
    refine List.forall_mem_cons.2 ⟨?_, rt_members es h.2⟩
    obtain ⟨(h1 | h1) | ⟨h1, h2⟩, -⟩ := h
    · exact .inl h1
    · exact .inr (.inl h1)
    · exact .inr (.inr ⟨h1, (rt_expr .plain e h2).plain h2⟩)

theorem rt_fn (closure abs : Bool) : ∀ f : FnDecl, (closure && abs) = false → rtFn dbl closure abs f = true → FnC dbl closure abs f
  | .mk params none usev _, hca, h => by
    rw [rtFn] at h; destr h
    obtain ⟨⟨h1, h2⟩, h3, h4⟩ := h
    subst h3
    exact ⟨rt_params params h1, h2, rfl, by simpa using hca, List.isEmpty_iff.1 h4⟩
  | .mk params (some b) usev _, hca, h => by
    rw [rtFn] at h; destr h
    obtain ⟨⟨h1, h2⟩, h3, h4⟩ := h
    exact ⟨rt_params params h1, h2, rt_stmts b h3, h4.imp id List.isEmpty_iff.1⟩

theorem rt_params : ∀ qs : List Param, rtParams dbl qs = true → ∀ q ∈ qs, ParamC dbl q
  | [], _ => nofun
  | q :: qs, h => by
    rw [rtParams] at h; destr h
    exact List.forall_mem_cons.2 ⟨rt_param q h.1, rt_params qs h.2⟩

theorem rt_param : ∀ q : Param, rtParam dbl q = true → ParamC dbl q
  | .mk n _ _ t d, h => by
    rw [rtParam] at h; destr h
    exact ⟨h.1.1, h.1.2, rt_opt d h.2⟩

theorem rt_stmt : ∀ s : Stmt, rtStmt dbl s = true → StmtC dbl s
  | .mk k sp, h => rt_stmtK k h sp

theorem rt_stmtK : ∀ k : StmtK, rtStmtK dbl k = true → ∀ sp, StmtC dbl (.mk k sp)
  | .none, _ => rs_none
  | .block b, h => by rw [rtStmtK] at h; exact rs_block (rt_stmts b h)
  | .decl d, h => by rw [rtStmtK] at h; exact rt_decl d h
  | .use _, h => by rw [rtStmtK] at h; cases h
  | .expr e, h => by rw [rtStmtK] at h; exact rs_expr ((rt_expr .plain e h).plain h)
  | .echo es, h => by rw [rtStmtK] at h; destr h; exact rs_echo h.1 (rt_exprs es h.2)
  | .ret e, h => by rw [rtStmtK] at h; exact rs_ret (rt_opt e h)
  | .brk e, h => by rw [rtStmtK] at h; exact rs_brk (rt_opt e h)
  | .cont e, h => by rw [rtStmtK] at h; exact rs_cont (rt_opt e h)
  | .unset es, h => by rw [rtStmtK] at h; destr h; exact rs_unset h.1.1 (rt_exprs es h.1.2) h.2
  | .ite c t e, h => by
    rw [rtStmtK] at h; destr h
    exact rs_ite ((rt_expr .plain c h.1.1).plain h.1.1) (rt_stmts t h.1.2) (rt_stmts e h.2)
  | .while c b, h => by
    rw [rtStmtK] at h; destr h
    exact rs_while ((rt_expr .plain c h.1).plain h.1) (rt_stmts b h.2)
  | .doWhile b c, h => by
    rw [rtStmtK] at h; destr h
    exact rs_do ((rt_expr .plain c h.2).plain h.2) (rt_stmts b h.1)
  | .for i c l b, h => by
    rw [rtStmtK] at h; destr h
    exact rs_for (rt_opt i h.1.1.1) (rt_opt c h.1.1.2) (rt_opt l h.1.2) (rt_stmts b h.2)
  | .forEach e none v b, h => by
    rw [rtStmtK] at h; destr h
    obtain ⟨⟨⟨⟨h1, h2⟩, h3⟩, h4⟩, h5⟩ := h
    exact rs_forEach ((rt_expr .plain e h1).plain h1) nofun ((rt_expr .each v h3).each h4) (rt_stmts b h5)
  | .forEach e (some k) v b, h => by
    rw [rtStmtK] at h; destr h
    obtain ⟨⟨⟨⟨h1, h2⟩, h3⟩, h4⟩, h5⟩ := h
    refine rs_forEach ((rt_expr .plain e h1).plain h1) ?_ ((rt_expr .each v h3).each h4) (rt_stmts b h5)
    intro k' hk
    cases hk
    exact (rt_expr .each k h2.1).each h2.2
  | .try b cs none, h => by
    rw [rtStmtK] at h; destr h
    exact rs_try (rt_stmts b h.1.1) (rt_catches cs h.1.2) nofun
  | .try b cs (some f), h => by
    rw [rtStmtK] at h; destr h
    refine rs_try (rt_stmts b h.1.1) (rt_catches cs h.1.2) ?_
    intro f' hf
    cases hf
    exact rt_stmts f h.2
  | .throw e, h => by rw [rtStmtK] at h; exact rs_throw ((rt_expr .plain e h).plain h)
  | .switch e cs, h => by
    rw [rtStmtK] at h; destr h
    exact rs_switch ((rt_expr .plain e h.1).plain h.1) (rt_cases cs h.2) (rtCases_ok cs h.2)

theorem rt_stmts : ∀ ss : List Stmt, rtStmts dbl ss = true → BlockC dbl ss
  | [], _ => blockC_nil
  | s :: ss, h => by
    rw [rtStmts] at h; destr h
    exact blockC_cons (rt_stmt s h.1) (rt_stmts ss h.2)

theorem rt_catches : ∀ cs : List Catch, rtCatches dbl cs = true → ∀ c ∈ cs, CatchC dbl c
  | [], _ => nofun
  | .mk ty v b :: cs, h => by
    rw [rtCatches] at h; destr h
    exact List.forall_mem_cons.2 ⟨⟨h.1.1.1, h.1.1.2, rt_stmts b h.1.2⟩, rt_catches cs h.2⟩

theorem rt_cases : ∀ cs : List Case, rtCases dbl cs = true →
    ∀ c ∈ cs, match c with | .mk conds _ b => (∀ e ∈ conds, EClaim dbl e) ∧ BlockC dbl b
  | [], _ => nofun
  | .mk conds d b :: cs, h => by
    rw [rtCases, Bool.and_eq_true, Bool.and_eq_true, Bool.and_eq_true] at h
    exact List.forall_mem_cons.2 ⟨⟨rt_exprs conds h.1.1.1, rt_stmts b h.1.1.2⟩, rt_cases cs h.2⟩

theorem rt_decl : ∀ d : Decl, rtDecl dbl d = true → ∀ sp, StmtC dbl (.mk (.decl d) sp)
  | .namespace _, h => by rw [rtDecl] at h; cases h
  | .globalFunction n f, h => by rw [rtDecl] at h; destr h; exact rs_function h.1 (rt_fn false false f rfl h.2)
  | .cls m n b xs ms, h => by
    unfold rtDecl at h; destr h
    obtain ⟨⟨⟨⟨h1, h2⟩, h3⟩, h4⟩, h5⟩ := h
    refine rs_class h1 h2 ?_ h4 (rt_memberDecls ms h5)
    intro p hp
    subst hp
    exact h3
  | .interface n xs ms, h => by
    rw [rtDecl] at h; destr h
    exact rs_interface h.1.1 h.1.2 (rt_memberDecls ms h.2)
  | .trait n ms, h => by
    rw [rtDecl] at h; destr h
    exact rs_trait h.1 (rt_memberDecls ms h.2)
  | .staticVars vs, h => by
    rw [rtDecl] at h; destr h
    exact rs_static h.1 (rt_staticVars vs h.2)
  | .globalVars _, h => by rw [rtDecl] at h; cases h

theorem rt_staticVars : ∀ vs : List (Text × Option Expr), rtStaticVars dbl vs = true → ∀ v ∈ vs, isIdentifier v.1 = true ∧ OptC dbl v.2
  | [], _ => nofun
  | (n, e) :: vs, h => by
    rw [rtStaticVars] at h; destr h
    exact List.forall_mem_cons.2 ⟨⟨h.1.1, rt_opt e h.1.2⟩, rt_staticVars vs h.2⟩

theorem rt_member : ∀ m : Member, rtMember dbl m = true → MemberC dbl m
  | .constant m n e, h => by
    rw [rtMember] at h; destr h
    exact member_constant h.1.1 h.1.2 ((rt_expr .plain e h.2).plain h.2)
  | .property m n e, h => by
    rw [rtMember] at h; destr h
    exact member_property h.1.1 h.1.2 (rt_opt e h.2)
  | .method m n f, h => by
    rw [rtMember] at h; destr h
    exact member_method h.1.1 h.1.2 (rt_fn false true f rfl h.2)
  | .traitUse ps us, h => by
    rw [rtMember] at h; destr h
    exact member_traitUse h.1.1 h.1.2 h.2

theorem rt_memberDecls : ∀ ms : List Member, rtMemberDecls dbl ms = true → ∀ m ∈ ms, MemberC dbl m
  | [], _ => nofun
  | m :: ms, h => by
    rw [rtMemberDecls] at h; destr h
    exact List.forall_mem_cons.2 ⟨rt_member m h.1, rt_memberDecls ms h.2⟩

end

/-! ### Whole files -/

theorem top_namespace {p : Path} (ha : p.isAbsolute = false) (hp : pathOk p = true) (sp : Span) :
    ∃ is ts, Piece 0 0 Any (cStmt dbl 0 (.mk (.decl (.namespace p)) sp)) is ts ∧ Derives .top ts (Stmt.mk (.decl (.namespace p)) sp).erase := by
  obtain ⟨is, h, -⟩ := piece_path (a := 0) hp
  have := ((litA c!"namespace " [.k .Namespace] 0 0 (by decide) rfl).ind 0).free (h.then (litA c!";\n" [.k .SemiColon] 0 0 (by decide) rfl) (by decide))
  rw [ha] at this
  have e := qualPath_self p
  rw [ha] at e
  refine ⟨_, _, this, ?_⟩
  have := DerivesX.t_namespace (lax := false) (nsSegs p) p.ident
  rw [e] at this
  exact this

theorem top_use {c : UseClause} (hp : pathOk c.path = true) (ha : ∀ a, c.alias_ = some a → nameOk a = true) (sp : Span) :
    ∃ is ts, Piece 0 0 Any (cStmt dbl 0 (.mk (.use [c]) sp)) is ts ∧ Derives .top ts (Stmt.mk (.use [c]) sp).erase := by
  obtain ⟨p, a⟩ := c
  obtain ⟨is, h, -⟩ := piece_path (a := 0) hp
  have hs := litA c!";\n" [.k .SemiColon] 0 0 (by decide) rfl
  have hu := (litA c!"use " [.k .Use] 0 0 (by decide) rfl).ind 0
  cases a with
  | none =>
    refine ⟨_, _, (hu.free (h.then hs (by decide))).text ?_, ?_⟩
    · rfl
    · have := DerivesX.t_use (lax := false) (UseList.one p.isAbsolute (nsSegs p) p.ident)
      rw [qualPath_self] at this
      exact this
  | some a =>
    refine ⟨_, _, (hu.free (h.thenB ((litA c!" as " [.k .As] 0 0 (by decide) rfl).free ((piece_word (ha a rfl)).then hs (by decide))) (by decide))).text ?_, ?_⟩
    · show chunkText (ind 0 c!"use " ⧺ cPath p ⧺ (w c!" as " ⧺ w a) ⧺ w c!";\n") = _
      simp [List.append_assoc, w]
    · have := DerivesX.t_use (lax := false) (UseList.oneAs p.isAbsolute (nsSegs p) p.ident a)
      rw [qualPath_self] at this
      simpa [Stmt.erase, StmtK.erase, bareS] using this

theorem rt_top : ∀ s : Stmt, rtTop dbl s = true → ∃ is ts, Piece 0 0 Any (cStmt dbl 0 s) is ts ∧ Derives .top ts s.erase := by
  intro s h
  unfold rtTop at h
  split at h
  · destr h
    exact top_namespace h.1 h.2 _
  · destr h
    refine top_use h.1 ?_ _
    intro a ha
    have := h.2
    rw [ha] at this
    exact this
  · obtain ⟨is, ts, o, hp, hd⟩ := rt_stmt s h 0
    exact ⟨is, ts, hp, .t_stmt hd⟩

/-- The statements of a file. -/
theorem rt_tops : ∀ ss : List Stmt, rtTops dbl ss = true → ∃ is ts, Piece 0 0 Any (cStmts dbl 0 ss) is ts ∧ Derives .tops ts (eraseStmts ss)
  | [], _ => ⟨_, _, .nil _, .tops_nil⟩
  | s :: ss, h => by
    rw [rtTops, List.all_cons, Bool.and_eq_true] at h
    obtain ⟨is, ts, hp, hd⟩ := rt_top s h.1
    obtain ⟨js, us, hp', hd'⟩ := rt_tops ss h.2
    exact ⟨_, _, hp.free hp', .tops_cons hd hd'⟩

theorem codeToks_of : ∀ (is : List Item) (p : Bool), is.all Item.isCode = true → (toks p is).filter (fun t => !isComment t) = toks p is
  | [], _, _ => rfl
  | i :: is, p, h => by
    rw [List.all_cons, Bool.and_eq_true] at h
    cases i with
    | gap w => exact codeToks_of is p h.2
    | lex l =>
      have : isComment (l.tok p) = false := by
        cases l with
        | word w =>
          simp only [Lexeme.tok]
          split
          · rfl
          · unfold identifierToken; split <;> rfl
        | _ => rfl
      show List.filter _ (l.tok p :: toks l.isArrow is) = _
      rw [List.filter_cons_of_pos (by rw [this]; rfl), codeToks_of is _ h.2]
      rfl
    | dq its => cases h.1
    | block b => cases h.1
    | line o b => cases h.1

def Cat.isStmt : Cat → Bool
  | .stmt _ => true
  | _ => false

theorem rs_ne {c : Cat} {ts : List Token} {v : c.Tree} (h : Derives c ts v) : c.isStmt = true → ts ≠ [] := by
  cases h <;> first | (intro h; cases h; done) | simp

theorem top_ne {c : Cat} {ts : List Token} {v : c.Tree} (h : Derives c ts v) : c = .top → ts ≠ [] := by
  cases h <;> first | (intro h; cases h; done) | exact fun _ => rs_ne (by assumption) rfl | simp

theorem tops_ne {c : Cat} {ts : List Token} {v : c.Tree} (h : Derives c ts v) : c = .tops → ts = [] → HEq v ([] : List Stmt) := by
  cases h <;> first | (intro h; cases h; done) | exact fun _ _ => HEq.rfl | (intro _ h; exact absurd (List.append_eq_nil_iff.1 h).1 (top_ne (by assumption) rfl))

theorem tops_nonempty {ts : List Token} {ss : List Stmt} (h : Derives .tops ts ss) (hne : ss ≠ []) : ts ≠ [] := by
  intro h0
  subst h0
  exact hne (eq_of_heq (tops_ne h rfl rfl))

end Pico
