import Verif.Props.Dangling
import Verif.Spec.Unclosed
/-!
# Variables with an unfinished index or member (C22, C50)
-/
namespace Pico
open P

variable {toks : List TokSpan}

/-- Behind a variable an unfinished appendix is dropped. -/
private theorem unfinished_step (hP : Placed toks) {d : List Token} (h : BadAppendix d) (b : Expr) (r : List Token) :
    Step toks (appendixStep theRec false b) (d ++ .k .SemiColon :: r) (.inr b) (.k .SemiColon :: r) := by
  have hcall : Step toks (appendixCall theRec false b) (.k .SemiColon :: r) none (.k .SemiColon :: r) := by
    unfold appendixCall
    try dsimp only [Bool.false_eq_true, ↓reduceIte]
    stepc (nextIs_miss (by nokw))
    exact Step.pure
  have hstatic : Step toks (appendixStatic b) (.k .SemiColon :: r) none (.k .SemiColon :: r) := by
    unfold appendixStatic
    stepc (eats_miss (by nokw))
    exact Step.pure
  have hmember : Step toks (appendixMember theRec b) (.k .SemiColon :: r) none (.k .SemiColon :: r) := by
    unfold appendixMember
    stepc (eats_miss (by nokw))
    exact Step.pure
  have hvar : Fails toks parseSimpleVariableExpr (.k .SemiColon :: r) (.k .SemiColon :: r) :=
    parseSimpleVariableExpr_fails ⟨by simp [NoKw], by simp⟩
  unfold appendixStep
  cases h with
  | @index ts i hi =>
    have hi' : OptOK toks ts i := derives_claim hP hi
    obtain ⟨i', -, hs⟩ := hi' (.k .SemiColon :: r) rfl
    refine Step.bind (a := none) (l' := .k .SemiColon :: r) ?_ ?_
    · unfold appendixIndex
      norml
      stepc eats_hit
      stepc hs
      stepc (eats_miss (by nokw))
      exact Step.pure
    stepc hmember
    stepc hstatic
    stepc hcall
    exact Step.pure
  | member =>
    refine Step.bind (a := none) (l' := .k .ObjectOp :: .k .SemiColon :: r) ?_ ?_
    · unfold appendixIndex
      norml
      stepc (eats_miss (by nokw))
      exact Step.pure
    refine Step.bind (a := none) (l' := .k .SemiColon :: r) ?_ ?_
    · unfold appendixMember
      stepc eats_hit
      have : Fails toks (parsePropertyName theRec) (.k .SemiColon :: r) (.k .SemiColon :: r) := by
        refine Fails.with fun ht => ?_
        unfold parsePropertyName
        failc getPos_step
        failc hvar.attempt
        failc (rewind_step ht)
        failc (eatString_miss (by simp))
        failc (eat_miss (by nokw))
        exact Fails.errHere
      stepc this.attempt
      exact Step.pure
    stepc hstatic
    stepc hcall
    exact Step.pure
  | static =>
    refine Step.bind (a := none) (l' := .k .ScopeOp :: .k .SemiColon :: r) ?_ ?_
    · unfold appendixIndex
      norml
      stepc (eats_miss (by nokw))
      exact Step.pure
    refine Step.bind (a := none) (l' := .k .ScopeOp :: .k .SemiColon :: r) ?_ ?_
    · unfold appendixMember
      stepc (eats_miss (by nokw))
      exact Step.pure
    refine Step.bind (a := none) (l' := .k .SemiColon :: r) ?_ ?_
    · unfold appendixStatic
      stepc eats_hit
      stepc hvar.attempt
      exact Step.pure
    stepc hcall
    exact Step.pure

private theorem unfinished_stmt (hP : Placed toks) {d : List Token} (h : BadAppendix d) (n : Text) :
    StmtOK toks false (.k .Return :: (.variable n :: d ++ [.k .SemiColon])) (bareS (.ret (some (bare (.var (.name n)))))) := by
  refine ⟨⟨_, _, rfl, rfl⟩, fun r _ => ?_⟩
  have hv : Step toks (parseVariable theRec false none) (.variable n :: (d ++ .k .SemiColon :: r))
      (.mk (.var (.name n)) (spanBefore toks (d ++ .k .SemiColon :: r))) (.k .SemiColon :: r) :=
    variable_step (base_base ⟨by simp [NoKw], by simp⟩ (by simp [NoKw]) (baseVariable_name false n _))
      (Loops.done (unfinished_step hP h _ r))
  have he : Step toks (theRec.expr .None) (.variable n :: (d ++ .k .SemiColon :: r))
      (.mk (.var (.name n)) (spanBefore toks (d ++ .k .SemiColon :: r))) (.k .SemiColon :: r) := by
    rw [theRec_expr, parseExpression_eq]
    stepc (operand_other (t := .variable n) rfl (by nokw) (by nokw) (otherExpression_varOrScalar rfl (varOrScalar_var hv (noAssign_of_ends (s := 0) rfl))))
    exact (Loops.done (exprStep_stop rfl)).loop
  have ho : Step toks (parseOptExpression theRec .None) (.variable n :: (d ++ .k .SemiColon :: r))
      (some (.mk (.var (.name n)) (spanBefore toks (d ++ .k .SemiColon :: r)))) (.k .SemiColon :: r) := by
    unfold parseOptExpression
    stepc he.attempt
    exact Step.pure
  obtain ⟨sp, hst⟩ := simple_stmt (kw := .Return) (fun _ => rfl) rfl (by rintro k' (rfl | rfl | rfl | rfl | rfl) <;> decide)
    (Step.bind ho Step.pure) (by simp; omega)
  refine ⟨.mk (.ret (some (.mk (.var (.name n)) (spanBefore toks (d ++ .k .SemiColon :: r))))) sp,
    by simp [Stmt.erase, StmtK.erase, eraseOpt, Expr.erase, ExprK.erase, Variable.erase, bareS, bare], ?_⟩
  norml
  exact hst

/-- **C50** and **C22** fail for every variable: an index whose bracket is not closed, an arrow without a name and two colons without a variable are accepted behind it, and
dropped together with the index, whatever expression it is. -/
theorem C50_fails_class (src : Text) (n : Nat) (toks : List TokSpan) (hl : spansOf n src = some toks) (x : Text) (d post : List Token) (ss : List Stmt)
    (h : BadAppendix d) (hp : Derives .tops post ss) (hv : visible toks = .k .Return :: .variable x :: (d ++ .k .SemiColon :: post)) :
    ∃ ss', Ends src (.ok ss') ∧ eraseStmts ss' = bareS (.ret (some (bare (.var (.name x))))) :: ss := by
  suffices hx : ∀ m, Sourced toks → ParsesTo m toks (bareS (.ret (some (bare (.var (.name x))))) :: ss) by
    obtain ⟨ss', h1, h2⟩ := source_of_tokens src n toks _ hl hx
    exact ⟨ss', h2, h1⟩
  intro m hS
  have hP := hS.placed
  rw [visible_strip] at hv
  have hne : stripTokens toks ≠ [] := fun h => by rw [h] at hv; cases hv
  have ht : TopsOK (stripTokens toks) ((stripTokens toks).map TokSpan.tok) (bareS (.ret (some (bare (.var (.name x))))) :: ss) := by
    have := tops_cons (t_stmt (unfinished_stmt (toks := stripTokens toks) hP h x)) (derives_claim hP hp)
    rw [hv]
    simpa using this
  obtain ⟨ss', hss, hloop⟩ := ht.2 hne
  refine ⟨ss', hss, fun k hk => ?_⟩
  have hlen := stripTokens_length toks
  have hstep : Step (stripTokens toks) (parseTopStatementList theRec) ((stripTokens toks).map TokSpan.tok) ss' [] := by
    have h1 : 1 ≤ (stripTokens toks).length := List.length_pos_iff.2 hne
    rw [parseTopStatementList_eq]
    stepc tokCount_step
    stepc (subP_step h1)
    exact (hloop []).loop
  have h3 := (hstep ⟨[], rfl⟩).1
  have h4 : parseTopStatementList (recN k) (stripTokens toks) 0 = .ok ss' (stripTokens toks).length := by
    rw [top_theRec k _ (by omega)]
    simpa [posOf] using h3
  unfold parseTokensN
  dsimp only
  rw [h4]

/-- `<?php return $a[$b;` meets the hypotheses. -/
example : ∃ n toks, spansOf n c!"<?php return $a[$b;" = some toks ∧ BadAppendix [.k .SquareBracketOpen, .variable c!"b"] ∧ Derives .tops [] [] ∧
    visible toks = .k .Return :: .variable c!"a" :: ([.k .SquareBracketOpen, .variable c!"b"] ++ .k .SemiColon :: []) := by
  have h : (spansOf 20 c!"<?php return $a[$b;").any
      (fun toks => visible toks == [.k .Return, .variable c!"a", .k .SquareBracketOpen, .variable c!"b", .k .SemiColon]) = true := by decide +kernel
  obtain ⟨h0, h2⟩ := (Option.any_eq_true_iff_get _ _).1 h
  exact ⟨20, _, (Option.some_get h0).symm, .index (.o_some (.e_var (.v_name _ (.a_nil _ _)))), .tops_nil, eq_of_beq h2⟩

end Pico
