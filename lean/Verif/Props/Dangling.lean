import Verif.Props.Grammatical
import Verif.Props.Agree
/-!
# Operators without right operand (C22)
-/
namespace Pico
open P

variable {toks : List TokSpan}

private theorem rest_fails {kw : Kw} {np : Prec} (hp : kw.precedence = some np) (h1 : kw ≠ .QuestionMark) (h2 : kw ≠ .InstanceOf)
    {r : List Token} (hr : Stops r) (left : Expr) : Fails toks (parseBinaryRest theRec left kw np) r r := by
  cases kw <;> first
    | (cases hp; exact Fails.bind_left (expression_stops hr))
    | exact absurd rfl h1
    | exact absurd rfl h2
    | cases hp

/-- An operator without right operand is dropped. -/
private theorem dangling_opt {s : Nat} {ts : List Token} {e : Expr} (h : ExprOK toks 0 s ts e) {kw : Kw} {lv : Nat} (hk : infixLevel kw = some lv)
    (hs : lv ≤ s) (h1 : kw ≠ .QuestionMark) (h2 : kw ≠ .InstanceOf) : OptOK toks (ts ++ [.k kw]) (some e) := by
  intro r hr
  have hst := endsExpr_zero hr
  have hpl := precedence_level kw
  rw [hk] at hpl
  cases hp : kw.precedence with
  | none => rw [hp] at hpl; cases hpl
  | some np =>
    rw [hp] at hpl
    have hnp : np.toNat = lv := by simpa using hpl
    have hpos : 0 < np.toNat := by
      clear hpl hnp
      cases kw <;> first | (cases hp; decide) | cases hp
    have hends : endsExpr s (.k kw :: r) = true := by
      unfold endsExpr
      simp [hk, hs]
    obtain ⟨e', he, hrun⟩ := h.2 (.k kw :: r) hends
    refine ⟨some e', by simp [eraseOpt, he], ?_⟩
    rw [List.append_assoc, List.singleton_append]
    unfold parseOptExpression
    have hf : Fails toks (parseBinaryExpression theRec e' .None) (.k kw :: r) r := by
      unfold parseBinaryExpression
      failc peekTok_step
      simp only [List.head?_cons, Option.bind_some, Token.kw?]
      rw [hp]
      dsimp only
      rw [if_neg (by show ¬ (0 ≥ np.toNat); omega)]
      failc getPos_step
      failc setPos_next
      rw [if_neg h1, if_neg h2]
      exact Fails.bind_left (rest_fails hp h1 h2 hst e')
    have hl : Loops toks (exprStep theRec .None) e' (.k kw :: r) e' r := by
      refine Loops.done ?_
      unfold exprStep
      stepc hf.attempt
      exact Step.pure
    stepc (hrun .None (Nat.zero_le _) e' r hl).attempt
    exact Step.pure

/-- **C22** fails for every binary operator (but `instanceof`) behind every expression that may stand on its left: if its right operand is missing, the source is
accepted, and the tree is the one without the operator. -/
theorem C22_fails_class (src : Text) (n : Nat) (toks : List TokSpan) (hl : spansOf n src = some toks) (ts post : List Token) (e : Expr) (ss : List Stmt)
    (s lv : Nat) (kw : Kw) (h : Derives (.expr 0 s) ts e) (hk : infixLevel kw = some lv) (hs : lv ≤ s) (h1 : kw ≠ .QuestionMark) (h2 : kw ≠ .InstanceOf)
    (hp : Derives .tops post ss) (hv : visible toks = .k .Return :: (ts ++ .k kw :: .k .SemiColon :: post)) :
    ∃ ss', Ends src (.ok ss') ∧ eraseStmts ss' = bareS (.ret (some e)) :: ss := by
  suffices hx : ∀ m, Sourced toks → ParsesTo m toks (bareS (.ret (some e)) :: ss) by
    obtain ⟨ss', h1, h2⟩ := source_of_tokens src n toks _ hl hx
    exact ⟨ss', h2, h1⟩
  intro m hS
  have hP := hS.placed
  rw [visible_strip] at hv
  have hne : stripTokens toks ≠ [] := fun h => by rw [h] at hv; cases hv
  have ht : TopsOK (stripTokens toks) ((stripTokens toks).map TokSpan.tok) (bareS (.ret (some e)) :: ss) := by
    have := tops_cons (t_stmt (s_return (dangling_opt (toks := stripTokens toks) (derives_claim hP h) hk hs h1 h2))) (derives_claim hP hp)
    rw [hv]
    simpa using this
  obtain ⟨ss', hss, hloop⟩ := ht.2 hne
  refine ⟨ss', hss, fun k hk => ?_⟩
  have hlen := stripTokens_length toks
  have hstep : Step (stripTokens toks) (parseTopStatementList theRec) ((stripTokens toks).map TokSpan.tok) ss' [] := by
    have h1 : 1 ≤ (stripTokens toks).length := List.length_pos_iff.2 hne
    rw [parseTopStatementList_eq]
    stepc tokCount_step
    stepc (subP_step h1)
    exact (hloop []).loop
  have h3 := (hstep ⟨[], rfl⟩).1
  have h4 : parseTopStatementList (recN k) (stripTokens toks) 0 = .ok ss' (stripTokens toks).length := by
    rw [top_theRec k _ (by omega)]
    simpa [posOf] using h3
  unfold parseTokensN
  dsimp only
  rw [h4]

/-- `<?php return $a+;` meets the hypotheses. -/
example : ∃ n toks, spansOf n c!"<?php return $a+;" = some toks ∧ Derives (.expr 0 prefixLevel) [.variable c!"a"] (bare (.var (.name c!"a"))) ∧
    infixLevel .Plus = some 13 ∧ 13 ≤ prefixLevel ∧ Derives .tops [] [] ∧
    visible toks = .k .Return :: ([.variable c!"a"] ++ .k .Plus :: .k .SemiColon :: []) := by
  have h : (spansOf 20 c!"<?php return $a+;").any (fun toks => visible toks == [.k .Return, .variable c!"a", .k .Plus, .k .SemiColon]) = true := by decide +kernel
  obtain ⟨h0, h2⟩ := (Option.any_eq_true_iff_get _ _).1 h
  exact ⟨20, _, (Option.some_get h0).symm, .e_var (.v_name _ (.a_nil _ _)), rfl, by decide, .tops_nil, eq_of_beq h2⟩

end Pico
