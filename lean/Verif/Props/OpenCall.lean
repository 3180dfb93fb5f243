import Verif.Props.Unclosed
/-!
# Calls whose parenthesis is not closed (C22, C50)
-/
namespace Pico
open P

variable {toks : List TokSpan}

/-- Arguments in front of a semicolon: the list is not closed. -/
private theorem arguments_open (hP : Placed toks) (r : List Token) : ∀ args : List (List Token), (∀ a ∈ args, ∃ s e, Derives (.expr 0 s) a e) → args ≠ [] → ∀ acc, ∃ es,
    Loops toks (argStep theRec) acc ([Token.k .Comma].intercalate args ++ .k .SemiColon :: r) es (.k .SemiColon :: r) := by
  intro args
  induction args with
  | nil => intro _ h; exact absurd rfl h
  | cons a args ih =>
    intro ha _ acc
    obtain ⟨s, e, hd⟩ := ha a (by simp)
    have he : ExprOK toks 0 s a e := derives_claim hP hd
    obtain ⟨t, us, hx, ht⟩ := he.1
    cases args with
    | nil =>
      obtain ⟨e', -, hs⟩ := he.run0 (r := .k .SemiColon :: r) rfl
      refine ⟨acc ++ [e'], ?_⟩
      have : [Token.k .Comma].intercalate [a] = a := by simp [List.intercalate]
      rw [this]
      subst hx
      refine Loops.done ?_
      unfold argStep
      stepc (eat_miss (by intro hk; simp at hk; subst hk; simp [exprHead, otherHead, prefixOf, castOf, includeOf] at ht))
      stepc hs
      stepc (eats_miss (by nokw))
      exact Step.pure
    | cons b args =>
      obtain ⟨e', -, hs⟩ := he.run0 (r := .k .Comma :: ([Token.k .Comma].intercalate (b :: args) ++ .k .SemiColon :: r)) rfl
      obtain ⟨es, hl⟩ := ih (fun x hx => ha x (by simp [hx])) (by simp) (acc ++ [e'])
      refine ⟨es, ?_⟩
      have : [Token.k .Comma].intercalate (a :: b :: args) = a ++ .k .Comma :: [Token.k .Comma].intercalate (b :: args) := by
        simp [List.intercalate]
      rw [this]
      norml
      refine Loops.more (l' := [Token.k .Comma].intercalate (b :: args) ++ .k .SemiColon :: r) ?_ (by simp; omega) hl
      subst hx
      unfold argStep
      stepc (eat_miss (by intro hk; simp at hk; subst hk; simp [exprHead, otherHead, prefixOf, castOf, includeOf] at ht))
      stepc hs
      stepc eats_hit
      exact Step.pure

private theorem arguments_head (hP : Placed toks) (r : List Token) {args : List (List Token)} (ha : ∀ a ∈ args, ∃ s e, Derives (.expr 0 s) a e) :
    NoKw .ParenthesesClose ([Token.k .Comma].intercalate args ++ .k .SemiColon :: r) := by
  cases args with
  | nil => simp [List.intercalate, NoKw]
  | cons a args =>
    obtain ⟨s, e, hd⟩ := ha a (by simp)
    have he : ExprOK toks 0 s a e := derives_claim hP hd
    obtain ⟨t, us, rfl, ht⟩ := he.1
    have : ∃ vs, [Token.k .Comma].intercalate ((t :: us) :: args) = t :: vs := by
      cases args with
      | nil => exact ⟨us, by simp [List.intercalate]⟩
      | cons b args => exact ⟨us ++ .k .Comma :: [Token.k .Comma].intercalate (b :: args), by simp [List.intercalate]⟩
    obtain ⟨vs, hv⟩ := this
    rw [hv]
    intro hk
    simp at hk
    subst hk
    simp [exprHead, otherHead, prefixOf, castOf, includeOf] at ht

private theorem argumentList_open (hP : Placed toks) (r : List Token) {args : List (List Token)} (ha : ∀ a ∈ args, ∃ s e, Derives (.expr 0 s) a e) :
    Fails toks (parseArgumentList theRec) (.k .ParenthesesOpen :: ([Token.k .Comma].intercalate args ++ .k .SemiColon :: r)) (.k .SemiColon :: r) := by
  rw [parseArgumentList_eq]
  failc expect_hit
  failc (eats_miss (arguments_head hP r ha))
  by_cases hn : args = []
  · subst hn
    refine Fails.bind_left (Loops.fails ?_)
    unfold argStep
    simp only [List.intercalate, List.intersperse, List.flatten_nil, List.nil_append]
    failc (eat_miss (by nokw))
    exact Fails.bind_left (expression_stops (.inr ⟨_, _, rfl, rfl⟩))
  · obtain ⟨es, hl⟩ := arguments_open hP r args ha hn []
    failc hl.loop
    exact Fails.bind_left (expect_miss (by nokw))

private theorem call_open (hP : Placed toks) {c : List Token} (hc : Called c) (r : List Token) {args : List (List Token)}
    (ha : ∀ a ∈ args, ∃ s e, Derives (.expr 0 s) a e) :
    Step toks (parseOptExpression theRec .None) (c ++ .k .ParenthesesOpen :: ([Token.k .Comma].intercalate args ++ .k .SemiColon :: r)) none (.k .SemiColon :: r) := by
  have hargs := argumentList_open hP r ha
  generalize [Token.k .Comma].intercalate args ++ .k .SemiColon :: r = l at hargs
  have happ : ∀ b, Fails toks (appendixStep theRec false b) (.k .ParenthesesOpen :: l) (.k .SemiColon :: r) := by
    intro b
    unfold appendixStep
    refine Fails.bind (a := none) (l' := .k .ParenthesesOpen :: l) ?_ ?_
    · unfold appendixIndex
      stepc (eats_miss (by nokw))
      exact Step.pure
    refine Fails.bind (a := none) (l' := .k .ParenthesesOpen :: l) ?_ ?_
    · unfold appendixMember
      stepc (eats_miss (by nokw))
      exact Step.pure
    refine Fails.bind (a := none) (l' := .k .ParenthesesOpen :: l) ?_ ?_
    · unfold appendixStatic
      stepc (eats_miss (by nokw))
      exact Step.pure
    refine Fails.bind_left ?_
    unfold appendixCall
    try dsimp only [Bool.false_eq_true, ↓reduceIte]
    failc nextIs_hit
    exact Fails.bind_left hargs
  have hbase : ∃ b, Step toks (parseVariableBase theRec false) (c ++ .k .ParenthesesOpen :: l) b (.k .ParenthesesOpen :: l) := by
    cases hc with
    | var x => exact ⟨_, base_base ⟨by simp [NoKw], by simp⟩ (by simp [NoKw]) (baseVariable_name false x _)⟩
    | name abs ns id =>
      obtain ⟨sp, hs⟩ := fnCall_step hP abs ns id l
      exact ⟨_, base_fnCall (constScoped_name hP (ClassName.qual abs ns id) false _ (by nokw) (by nokw)) hs⟩
  obtain ⟨t, us, rfl, ht⟩ : StartsWith otherHead c := by
    cases hc with
    | var x => exact ⟨_, _, rfl, rfl⟩
    | name abs ns id =>
      obtain ⟨t', us, hcs, ho, -⟩ := (ClassName.qual abs ns id).head
      exact ⟨t', us, hcs, ho⟩
  obtain ⟨b, hb⟩ := hbase
  have hv : Fails toks (parseVariable theRec false none) (t :: us ++ .k .ParenthesesOpen :: l) (.k .SemiColon :: r) := by
    unfold parseVariable
    failc hb
    exact Loops.fails (happ b)
  have hvs : Fails toks (parseVariableOrScalar theRec) (t :: us ++ .k .ParenthesesOpen :: l) (.k .SemiColon :: r) := by
    unfold parseVariableOrScalar
    failc hv.attempt
    failc (eat_miss (by nokw))
    unfold parseNonVariable
    failc (eat_miss (by nokw))
    failc (scalar_stops rfl).attempt
    exact Fails.unpack
  have ho : Fails toks (parseOtherExpression theRec) (t :: us ++ .k .ParenthesesOpen :: l) (.k .SemiColon :: r) := by
    unfold parseOtherExpression
    failc peek_step
    cases t with
    | k k =>
      have hne : ∀ k', otherHead (.k k') = false → k ≠ k' := by rintro k' hk rfl; rw [ht] at hk; cases hk
      have hi : ∀ sp, parseInternal theRec k sp = none := by
        intro sp
        unfold parseInternal
        rw [if_neg (hne _ rfl), if_neg (hne _ rfl), if_neg (hne _ rfl)]
        have h1 : k.castTy = none := by cases k <;> first | rfl | cases ht
        have h2 : k.includeTy = none := by cases k <;> first | rfl | cases ht
        rw [h1, h2]
      dsimp only
      failc getPos_step
      rw [if_neg (hne _ rfl), if_neg (hne _ rfl), if_neg (hne _ rfl), if_neg (hne _ rfl), if_neg (hne _ rfl), hi]
      exact hvs
    | _ => exact hvs
  have he : Fails toks (theRec.expr .None) (t :: us ++ .k .ParenthesesOpen :: l) (.k .SemiColon :: r) := by
    rw [theRec_expr]
    unfold parseExpression
    refine Fails.bind_left ?_
    unfold parseOperand
    failc peek_step
    have : t.kw?.bind Kw.prefixOp = none := otherHead_prefix ht
    rw [this]
    dsimp only
    unfold parsePostfixExpression
    exact Fails.bind_left ho
  unfold parseOptExpression
  stepc he.attempt
  exact Step.pure

private theorem open_stmt (hP : Placed toks) {c : List Token} (hc : Called c) {args : List (List Token)}
    (ha : ∀ a ∈ args, ∃ s e, Derives (.expr 0 s) a e) :
    StmtOK toks false (.k .Return :: (c ++ .k .ParenthesesOpen :: ([Token.k .Comma].intercalate args ++ [.k .SemiColon]))) (bareS (.ret none)) := by
  refine ⟨⟨_, _, rfl, rfl⟩, fun r _ => ?_⟩
  obtain ⟨sp, hst⟩ := simple_stmt (kw := .Return) (fun _ => rfl) rfl (by rintro k' (rfl | rfl | rfl | rfl | rfl) <;> decide)
    (Step.bind (call_open hP hc r ha) Step.pure) (by simp; omega)
  refine ⟨.mk (.ret none) sp, by simp [Stmt.erase, StmtK.erase, eraseOpt, bareS], ?_⟩
  norml
  exact hst

/-- **C22** and **C50** fail for every call of a function by its name or by a variable: if the parenthesis is not closed, `return` with the call is accepted and read as
`return` without a value, whatever the arguments are. -/
theorem C22_fails_calls (src : Text) (n : Nat) (toks : List TokSpan) (hl : spansOf n src = some toks) (c : List Token) (args : List (List Token))
    (post : List Token) (ss : List Stmt) (hc : Called c) (ha : ∀ a ∈ args, ∃ s e, Derives (.expr 0 s) a e) (hp : Derives .tops post ss)
    (hv : visible toks = .k .Return :: (c ++ .k .ParenthesesOpen :: ([Token.k .Comma].intercalate args ++ .k .SemiColon :: post))) :
    ∃ ss', Ends src (.ok ss') ∧ eraseStmts ss' = bareS (.ret none) :: ss := by
  suffices hx : ∀ m, Sourced toks → ParsesTo m toks (bareS (.ret none) :: ss) by
    obtain ⟨ss', h1, h2⟩ := source_of_tokens src n toks _ hl hx
    exact ⟨ss', h2, h1⟩
  intro m hS
  have hP := hS.placed
  rw [visible_strip] at hv
  have hne : stripTokens toks ≠ [] := fun h => by rw [h] at hv; cases hv
  have ht : TopsOK (stripTokens toks) ((stripTokens toks).map TokSpan.tok) (bareS (.ret none) :: ss) := by
    have := tops_cons (t_stmt (open_stmt (toks := stripTokens toks) hP hc ha)) (derives_claim hP hp)
    rw [hv]
    simpa using this
  obtain ⟨ss', hss, hloop⟩ := ht.2 hne
  refine ⟨ss', hss, fun k hk => ?_⟩
  have hlen := stripTokens_length toks
  have hstep : Step (stripTokens toks) (parseTopStatementList theRec) ((stripTokens toks).map TokSpan.tok) ss' [] := by
    have h1 : 1 ≤ (stripTokens toks).length := List.length_pos_iff.2 hne
    rw [parseTopStatementList_eq]
    stepc tokCount_step
    stepc (subP_step h1)
    exact (hloop []).loop
  have h3 := (hstep ⟨[], rfl⟩).1
  have h4 : parseTopStatementList (recN k) (stripTokens toks) 0 = .ok ss' (stripTokens toks).length := by
    rw [top_theRec k _ (by omega)]
    simpa [posOf] using h3
  unfold parseTokensN
  dsimp only
  rw [h4]

/-- `<?php return f($a,$b;` meets the hypotheses. -/
example : ∃ n toks, spansOf n c!"<?php return f($a,$b;" = some toks ∧ Called [.string c!"f"] ∧
    (∀ a ∈ [[.variable c!"a"], [.variable c!"b"]], ∃ s e, Derives (.expr 0 s) a e) ∧ Derives .tops [] [] ∧
    visible toks = .k .Return :: ([.string c!"f"] ++ .k .ParenthesesOpen ::
      ([Token.k .Comma].intercalate [[.variable c!"a"], [.variable c!"b"]] ++ .k .SemiColon :: [])) := by
  have h : (spansOf 30 c!"<?php return f($a,$b;").any (fun toks => visible toks ==
      [.k .Return, .string c!"f", .k .ParenthesesOpen, .variable c!"a", .k .Comma, .variable c!"b", .k .SemiColon]) = true := by decide +kernel
  obtain ⟨h0, h2⟩ := (Option.any_eq_true_iff_get _ _).1 h
  refine ⟨30, _, (Option.some_get h0).symm, .name false [] c!"f", ?_, .tops_nil, eq_of_beq h2⟩
  intro a ha
  simp only [List.mem_cons, List.not_mem_nil, or_false] at ha
  rcases ha with rfl | rfl <;> exact ⟨_, _, .e_var (.v_name _ (.a_nil _ _))⟩

end Pico
