import Verif.Props.Heads
import Verif.Props.Template
/-!
# Close tags that should end a statement (C57)
-/
namespace Pico
open P

variable {toks : List TokSpan}

/-- Nothing follows, or the token of a text outside of the tags and of `<?=`. -/
private def OverOut (r : List Token) : Prop := r = [] ∨ ∃ q, r = .k .Echo :: q

private theorem OverOut.noKw {r : List Token} (h : OverOut r) {k : Kw} (hk : k ≠ .Echo) : NoKw k r := by
  rcases h with rfl | ⟨q, rfl⟩
  · simp [NoKw]
  · intro e
    cases e
    exact hk rfl

private theorem over_stop {r : List Token} (h : OverOut r) (e : Expr) : Step toks (exprStep theRec .None e) r (.inr e) r := by
  unfold exprStep
  refine Step.bind (a := .ok none) (l' := r) (Step.attempt ?_) Step.pure
  unfold parseBinaryExpression
  stepc peekTok_step
  rcases h with rfl | ⟨q, rfl⟩ <;> exact Step.pure

private theorem over_expr {vs : List Token} {v : Expr} (h : VarOK toks vs v) {r : List Token} (hr : OverOut r) :
    ∃ v', Step toks (theRec.expr .None) (vs ++ r) v' r := by
  obtain ⟨v', -, hs, -⟩ := h.2 r (by rcases hr with rfl | ⟨q, rfl⟩ <;> rfl)
  obtain ⟨t, us, rfl, ht⟩ := h.1
  refine ⟨v', ?_⟩
  rw [theRec_expr, parseExpression_eq]
  stepc (operand_other (otherHead_prefix ht) (hr.noKw nofun) (hr.noKw nofun) (otherExpression_varOrScalar ht
    (varOrScalar_var hs (by rcases hr with rfl | ⟨q, rfl⟩ <;> rfl))))
  exact (Loops.done (over_stop hr v')).loop

private theorem echo_fails {vs : List Token} {v : Expr} (h : VarOK toks vs v) {r : List Token} (hr : OverOut r) :
    Fails toks theRec.stmt (.k .Echo :: (vs ++ r)) r := by
  obtain ⟨v', hv⟩ := over_expr h hr
  rw [theRec_stmt]
  unfold parseStatement
  failc peek_step
  failc getPos_step
  try dsimp only [reduceCtorEq, ↓reduceIte]
  unfold parseOtherStmt
  failc (ooDeclaration_fails (by nokw) (by nokw) (by nokw) (by nokw) (by nokw)).attempt
  failc peek_step
  dsimp only [simpleStmt]
  failc getPos_step
  failc setPos_next
  refine Fails.bind (a := .echo [v']) (l' := r) ?_ (Fails.bind_left (expect_miss (hr.noKw nofun)))
  refine Step.bind (a := [v']) (l' := r) ?_ Step.pure
  unfold parseExpressionList
  refine (Loops.done ?_).loop
  stepc hv
  stepc (eats_miss (hr.noKw nofun))
  exact Step.pure

/-- **C57** fails for every template in which a variable, with or without indices, members and calls, is written out with `<?=` or `echo` and ended by the close tag instead of
a semicolon: it is rejected, whatever stands in front of it (a program), if it is the end of the template, or a text outside of the tags or another `<?=` follows. -/
theorem C57_fails_class (src : Text) (pre vs post : List Token) (ss : List Stmt) (v : Expr) (hp : Derives .tops pre ss) (hv : Derives .var vs v)
    (hpost : post = [] ∨ ∃ q, post = .k .Echo :: q) (h : Template 0 src (pre ++ .k .Echo :: (vs ++ post))) : ∃ e, Ends src (.err e) := by
  obtain ⟨n, toks, h1, h2⟩ := template_visible h
  exact program_rejected h1 hp h2 nofun nofun ⟨by nokw, by nokw, fun _ => ⟨by nokw, by nokw⟩⟩ fun hP =>
    ⟨_, echo_fails (derives_claim hP hv : VarOK _ vs v) hpost⟩

/-- `a<?= $x?>b` meets the hypotheses. -/
example : Template 0 c!"a<?= $x?>b" ([.k .Echo, .encaps c!"a", .k .SemiColon] ++ .k .Echo :: ([.variable c!"x"] ++ [.k .Echo, .encaps c!"b", .k .SemiColon])) ∧
    (∃ s, Derives .tops [.k .Echo, .encaps c!"a", .k .SemiColon] s) ∧ ∃ v, Derives .var [.variable c!"x"] v :=
  ⟨.text c!"a" nofun (by decide) (.inr (by decide)) (.echo (vr c!"x") (rest := c!"b") (apartB_ok (by decide)) rfl
    (.text c!"b" nofun (by decide) (.inl rfl) (.nil 0))),
   ⟨_, .tops_cons (us := []) (.t_stmt (.s_echo (ts := [.encaps c!"a"]) (.exprs_one (.e_var (p := 0) (.v_str _ (.a_nil false _)))))) .tops_nil⟩,
   ⟨_, .v_name _ (.a_nil _ _)⟩⟩

end Pico
