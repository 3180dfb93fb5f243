import Verif.Lemmas.Count
import Verif.Lemmas.GramMain
/-!
# Parentheses that are not closed, as an operand that is dropped
-/
namespace Pico
open P

section
variable {toks : List TokSpan} {l l' r : List Token}

private theorem noName_paren : NoName (.k .ParenthesesOpen :: l) := ⟨by simp [NoKw], by simp⟩

/-- Both readings of a parenthesis fail behind it. -/
theorem expr_open (h : ∀ t : TokSpan, Fails toks (do
      let e ← theRec.expr .None
      let c ← expect .ParenthesesClose
      return Expr.mk e.kind (mkSpan t.span.start c.span.stop)) l r) (q : Prec) :
    Fails toks (theRec.expr q) (.k .ParenthesesOpen :: l) r := by
  refine Fails.with fun ht => ?_
  have hb : Fails toks (parseBaseVariable theRec false) (.k .ParenthesesOpen :: l) r := by
    unfold parseBaseVariable
    exact Fails.bind eat_hit (h _)
  have hv : Fails toks (parseVariable theRec false none) (.k .ParenthesesOpen :: l) (.k .ParenthesesOpen :: l) := by
    refine variable_fails ?_
    unfold parseVariableBase
    failc getPos_step
    failc (constScoped_none noName_paren (by simp [NoKw])).attempt
    failc (fnCall_none noName_paren).attempt
    failc hb.attempt
    failc (rewind_step ht)
    exact Fails.fail
  have hs : Fails toks (parseVariableOrScalar theRec) (.k .ParenthesesOpen :: l) r := by
    unfold parseVariableOrScalar
    failc hv.attempt
    failc (eat_miss (k := .List) (by simp [NoKw]))
    unfold parseNonVariable
    exact Fails.bind eat_hit (h _)
  rw [theRec_expr]
  unfold parseExpression parseOperand
  refine Fails.bind_left (Fails.bind peek_step ?_)
  show Fails toks (parsePostfixExpression theRec) _ _
  unfold parsePostfixExpression
  refine Fails.bind_left ?_
  unfold parseOtherExpression
  exact Fails.bind peek_step (Fails.bind getPos_step hs)

theorem expr_opens {e : Expr} (h : Step toks (theRec.expr .None) l e r) (hr : NoKw .ParenthesesClose r) (d : Nat) :
    ∀ q, Fails toks (theRec.expr q) (.k .ParenthesesOpen :: (List.replicate d (.k .ParenthesesOpen) ++ l)) r := by
  induction d with
  | zero => exact fun q => expr_open (fun t => Fails.bind h (Fails.bind_left (expect_miss hr))) q
  | succ d ih => exact fun q => expr_open (fun t => Fails.bind_left (ih .None)) q

/-- The tokens of `1 + (((1;` -/
def dropped (d : Nat) : List Token :=
  .int 1 :: .k .Plus :: .k .ParenthesesOpen :: (List.replicate d (.k .ParenthesesOpen) ++ [.int 1, .k .SemiColon])

/-- The operand in parentheses is dropped. -/
theorem dropped_stmt (d : Nat) : StmtOK toks false (dropped d) (bareS (.expr (bare (.int 1)))) := by
  refine ⟨⟨_, _, rfl, rfl⟩, fun r _ => ?_⟩
  have h1 : ∃ e, Step toks (theRec.expr .None) (.int 1 :: .k .SemiColon :: r) e (.k .SemiColon :: r) := by
    obtain ⟨e, -, h⟩ := (expr_int (toks := toks) (p := 0) 1).run0 (r := .k .SemiColon :: r) rfl
    exact ⟨e, h⟩
  obtain ⟨e1, h1⟩ := h1
  have h2 := expr_opens h1 (by simp [NoKw]) d
  obtain ⟨e', he, h3⟩ := (expr_int (toks := toks) (p := 0) 1).2
    (.k .Plus :: .k .ParenthesesOpen :: (List.replicate d (.k .ParenthesesOpen) ++ .int 1 :: .k .SemiColon :: r)) rfl
  have h4 := h3 .None (Nat.le_refl _) e' (.k .SemiColon :: r) (by
    refine Loops.done ?_
    unfold exprStep
    have hb : Fails toks (parseBinaryExpression theRec e' .None)
        (.k .Plus :: .k .ParenthesesOpen :: (List.replicate d (.k .ParenthesesOpen) ++ .int 1 :: .k .SemiColon :: r)) (.k .SemiColon :: r) := by
      unfold parseBinaryExpression
      refine Fails.bind peekTok_step ?_
      refine Fails.bind getPos_step (Fails.bind setPos_next (Fails.bind_left ?_))
      exact Fails.bind_left (h2 _)
    exact Step.bind hb.attempt Step.pure)
  refine ⟨.mk (.expr e') (mkSpan e'.span.start (spanBefore toks r).stop), by simp [Stmt.erase, StmtK.erase, he], ?_⟩
  have hd : dropped d ++ r = .int 1 :: .k .Plus :: .k .ParenthesesOpen ::
      (List.replicate d (.k .ParenthesesOpen) ++ .int 1 :: .k .SemiColon :: r) := by simp [dropped]
  rw [hd]
  refine other_stmt (fun k hk => by cases hk) ?_
  unfold parseOtherStmt
  stepc (ooDeclaration_fails (by simp [NoKw]) (by simp [NoKw]) (by simp [NoKw]) (by simp [NoKw]) (by simp [NoKw])).attempt
  refine Step.bind peek_step ?_
  show Step toks (P.getPos >>= fun p => parseExprStmt theRec _) _ _ _
  refine Step.bind getPos_step ?_
  unfold parseExprStmt
  stepc h4.attempt
  stepc expect_hit
  exact Step.pure

theorem dropped_parses (d : Nat) (h : toks.map TokSpan.tok = dropped d) :
    ∃ ss, eraseStmts ss = [bareS (.expr (bare (.int 1)))] ∧ ∀ n, 2 * toks.length + 2 ≤ n → parseTopStatementList (recN n) toks 0 = .ok ss toks.length := by
  have hne : toks ≠ [] := by rintro rfl; cases h
  have hT : TopsOK toks (dropped d ++ []) [bareS (.expr (bare (.int 1)))] := tops_cons (t_stmt (dropped_stmt d)) tops_nil
  rw [List.append_nil, ← h] at hT
  obtain ⟨ss', hss, hl⟩ := hT.2 hne
  refine ⟨ss', hss, fun n hn => ?_⟩
  rw [top_theRec n toks hn]
  have hs : Step toks (parseTopStatementList theRec) (toks.map TokSpan.tok) ss' [] := by
    have h1 : 1 ≤ toks.length := by
      cases toks with
      | nil => exact absurd rfl hne
      | cons => simp
    rw [parseTopStatementList_eq]
    stepc tokCount_step
    stepc (subP_step h1)
    exact (hl []).loop
  have := (hs ⟨[], rfl⟩).1
  simpa [posOf] using this

/-- Two to the power of the number of parentheses calls are made for the operand. -/
theorem dropped_costs (d n : Nat) (h : toks.map TokSpan.tok = dropped d) (hne : parseTopStatementList (recN n) toks 0 ≠ .oof) :
    2 ^ (d + 1) ≤ (parseTopStatementListQ (exprQ n) (recN n) toks 0).2 := by
  refine top_costs h (by simp [NoKw]) n hne (statement_costs rfl (fun k hk => by cases hk) (fun k _ hk => by cases hk) ?_)
  obtain ⟨e1, -, h1⟩ := (expr_int (toks := toks) (p := 0) 1).run0 (r := [.k .SemiColon]) rfl
  cases n with
  | zero => exact ⟨fun _ => .inl rfl⟩
  | succ n =>
    have h2 : ∀ q, Costs toks (exprQ n q) (.k .ParenthesesOpen :: (List.replicate d (.k .ParenthesesOpen) ++ [.int 1, .k .SemiColon])) (2 ^ (d + 1)) :=
      fun q => (exprQ_dear (fun n t => parenQ_open h1 (by simp [NoKw]) n t) d n q).costs
    have h3 : Costs toks (parseExpressionQ (exprQ n) (recN n) .None) (dropped d) (2 ^ (d + 1)) := by
      unfold parseExpressionQ dropped
      refine .after (operand_er (exprQ_er n)) (parseOperand_mono (recN_theRec n)) 
        (l' := .k .Plus :: .k .ParenthesesOpen :: (List.replicate d (.k .ParenthesesOpen) ++ [.int 1, .k .SemiColon]))
        (a := .mk (.int 1) (spanBefore toks (.k .Plus :: .k .ParenthesesOpen :: (List.replicate d (.k .ParenthesesOpen) ++ [.int 1, .k .SemiColon])))) ?_ ?_
      · refine operand_other rfl (by simp [NoKw]) (by simp [NoKw]) (otherExpression_varOrScalar rfl ?_)
        refine varOrScalar_scalar (variable_noStart ⟨by simp [NoKw], by simp⟩ (by simp [NoKw]) (by simp [NoKw]) ⟨by simp [NoKw], by simp⟩
          ⟨by simp [NoKw], by simp [NoKw], by simp⟩) (by simp [NoKw]) (by simp [NoKw]) ?_
        unfold parseScalar
        stepc peek_step
        stepc getPos_step
        stepc setPos_next
        exact Step.pure
      · have h4 : ∀ e : Expr, ∀ f : Except PErr (Option Expr) → Q (Expr ⊕ Expr), Costs toks (Q.attempt (parseBinaryExpressionQ (exprQ n) (recN n) e .None) >>= f)
            (.k .Plus :: .k .ParenthesesOpen :: (List.replicate d (.k .ParenthesesOpen) ++ [.int 1, .k .SemiColon])) (2 ^ (d + 1)) := by
          intro e f
          refine .bind_left (.attempt ?_)
          unfold parseBinaryExpressionQ
          refine .step peekTok_step ?_
          exact .step getPos_step (.step setPos_next (.bind_left (.bind_left (h2 _))))
        have h5 : ∀ (e : Expr) (N : Nat), Costs toks (Q.loopN (fun (left : Expr) => do
            match ← Q.attempt (parseBinaryExpressionQ (exprQ n) (recN n) left .None) with
            | .ok (some l) => return .inl l
            | .ok none => return .inr left
            | .error _ => return .inr left) (N + 1) e)
            (.k .Plus :: .k .ParenthesesOpen :: (List.replicate d (.k .ParenthesesOpen) ++ [.int 1, .k .SemiColon])) (2 ^ (d + 1)) :=
          fun e N => .bind_left (h4 e _)
        exact ⟨(h5 _ (toks.length + 1)).run⟩
    refine ⟨fun ht => (h3.run ht).imp_right fun h => ?_⟩
    exact Nat.le_trans h (Nat.le_succ _)

end

end Pico
