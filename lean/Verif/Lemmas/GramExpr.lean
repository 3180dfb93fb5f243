import Verif.Lemmas.GramVar
/-!
# Strings with interpolation, operands and operators
-/
namespace Pico
open P

variable {toks : List TokSpan}

/-! ## Parts of strings -/

theorem encaps_flush {s : Encaps} (hs : s.str ≠ [] → s.startPos.isSome = true) (l : List Token) :
    ∃ s' : Encaps, s'.str = [] ∧ s'.startPos = s.startPos ∧
      eraseExprs s'.parts = eraseExprs s.parts ++ (if s.str = [] then [] else [bare (.str s.str)]) ∧
      Step toks s.flush l s' l := by
  obtain ⟨str, parts, sp, ep⟩ := s
  cases str with
  | nil => exact ⟨⟨[], parts, sp, ep⟩, rfl, rfl, by simp, Step.ret⟩
  | cons c str =>
    cases sp with
    | none => simp at hs
    | some st =>
      refine ⟨⟨[], parts ++ [.mk (.str (c :: str)) (mkSpan st ep)], some st, ep⟩, rfl, rfl, ?_, Step.ret⟩
      simp [eraseExprs_append, eraseExprs, Expr.erase, ExprK.erase]

theorem parts_nil : PartsOK toks [] [] := by
  refine ⟨by simp [NoKw], fun r hr s hs => ⟨s, hs, by simp [leaves], ?_⟩⟩
  norml
  refine Loops.done ?_
  have hk : ∃ k r', r = .k k :: r' ∧ (k = .DoubleQuote ∨ k = .HereDocEnd) := by
    obtain ⟨r', rfl | rfl⟩ := hr
    · exact ⟨_, _, rfl, .inl rfl⟩
    · exact ⟨_, _, rfl, .inr rfl⟩
  obtain ⟨k, r', rfl, hk⟩ := hk
  have hn : ∀ k', k' ≠ .DoubleQuote → k' ≠ .HereDocEnd → NoKw k' (.k k :: r') := by
    intro k' h1 h2 h
    simp at h
    subst h
    rcases hk with h | h
    · exact h1 h
    · exact h2 h
  unfold encapsStep
  stepc (eatEncaps_miss (by simp))
  stepc (eat_miss (hn _ (by decide) (by decide)))
  stepc (eat_miss (hn _ (by decide) (by decide)))
  have hN : NoName (.k k :: r') := ⟨hn _ (by decide) (by decide), by simp⟩
  have hv : Fails toks (parseVariable theRec false none) (.k k :: r') (.k k :: r') :=
    variable_fails (variableBase_fails (constScoped_none hN (hn _ (by decide) (by decide))) (fnCall_none hN)
      (baseVariable_fails (hn _ (by decide) (by decide)) ⟨hn _ (by decide) (by decide), by simp⟩
        ⟨hn _ (by decide) (by decide), hn _ (by decide) (by decide), by simp⟩))
  stepc hv.attempt
  exact Step.pure

theorem parts_text (x : Text) {ts : List Token} {ps : List Part} (h : PartsOK toks ts ps) :
    PartsOK toks (.encaps x :: ts) (.inl x :: ps) := by
  refine ⟨by simp [NoKw], fun r hr s hs => ?_⟩
  obtain ⟨s', hs', he, hl⟩ := h.2 r hr
    { s with
      startPos := some (s.startPos.getD (spanBefore toks (ts ++ r)).start)
      endPos := if s.endPos < (spanBefore toks (ts ++ r)).stop then (spanBefore toks (ts ++ r)).stop else s.endPos
      str := s.str ++ x } (by simp)
  refine ⟨s', hs', by simpa [leaves] using he, ?_⟩
  norml
  refine Loops.more ?_ (by simp) hl
  unfold encapsStep
  stepc eatEncaps_hit
  exact Step.pure

theorem endsVar_append {ts r : List Token} (h : endsVar ts = true) (hr : endsParts r) : endsVar (ts ++ r) = true := by
  cases ts with
  | nil => obtain ⟨r', rfl | rfl⟩ := hr <;> rfl
  | cons t ts =>
    revert h
    cases t with
    | k k => cases k <;> exact id
    | _ => exact id

theorem parts_var (n : Text) {us ts : List Token} {e : Expr} {ps : List Part} (h : VarOK toks (.variable n :: us) e)
    (hs : endsVar ts = true) (h' : PartsOK toks ts ps) :
    PartsOK toks (.variable n :: (us ++ ts)) (.inr e :: ps) := by
  refine ⟨by simp [NoKw], fun r hr s hstr => ?_⟩
  obtain ⟨e', he, hstep, -⟩ := h.2 (ts ++ r) (endsVar_append hs hr)
  simp only [List.append_assoc, List.cons_append, List.nil_append] at hstep
  obtain ⟨s1, h1, h2, h3, h4⟩ := encaps_flush (toks := toks) hstr (ts ++ r)
  obtain ⟨s', hs', hee, hl⟩ := h'.2 r hr
    { s1 with startPos := some e'.span.stop, endPos := e'.span.stop, parts := s1.parts ++ [e'] } (by simp)
  refine ⟨s', hs', ?_, ?_⟩
  · rw [hee]
    simp [leaves, h1, h3, eraseExprs_append, eraseExprs, he]
  norml
  refine Loops.more (l' := ts ++ r) ?_ (by simp; omega) hl
  unfold encapsStep
  stepc (eatEncaps_miss (by simp))
  stepc (eat_miss (by nokw))
  stepc (eat_miss (by nokw))
  stepc hstep.attempt
  stepc h4
  exact Step.pure

theorem parts_brace {s : Nat} {us ts : List Token} {e : Expr} {ps : List Part} (h : ExprOK toks 0 s us e)
    (h' : PartsOK toks ts ps) :
    PartsOK toks (.k .CurlyBracesOpen :: (us ++ .k .CurlyBracesClose :: ts)) (.inr e :: ps) := by
  refine ⟨by simp [NoKw], fun r hr s hstr => ?_⟩
  obtain ⟨e', he, hstep⟩ := h.run0 (r := .k .CurlyBracesClose :: (ts ++ r)) rfl
  obtain ⟨s1, h1, h2, h3, h4⟩ := encaps_flush (toks := toks) hstr (us ++ .k .CurlyBracesClose :: (ts ++ r))
  obtain ⟨s', hs', hee, hl⟩ := h'.2 r hr
    { s1 with
      startPos := some (spanBefore toks (ts ++ r)).stop, endPos := (spanBefore toks (ts ++ r)).stop
      parts := s1.parts ++ [e'] } (by simp)
  refine ⟨s', hs', ?_, ?_⟩
  · rw [hee]
    simp [leaves, h1, h3, eraseExprs_append, eraseExprs, he]
  norml
  refine Loops.more (l' := ts ++ r) ?_ (by simp; omega) hl
  unfold encapsStep
  stepc (eatEncaps_miss (by simp))
  stepc (eat_miss (by nokw))
  stepc eat_hit
  stepc h4
  stepc hstep
  stepc expect_hit
  exact Step.pure

theorem parts_dollar {t : Token} {n : Text} {us ts : List Token} {e : Expr} {ps : List Part} (hn : Ident t n)
    (h : AppsOK toks false (bare (.var (.name n))) us e) (h' : PartsOK toks ts ps) :
    PartsOK toks (.k .DollarCurlyBracesOpen :: t :: (us ++ .k .CurlyBracesClose :: ts)) (.inr e :: ps) := by
  refine ⟨by simp [NoKw], fun r hr s hstr => ?_⟩
  obtain ⟨e', he, -, hstep⟩ := h (.k .CurlyBracesClose :: (ts ++ r))
    ⟨by nokw, by nokw, by nokw, fun _ => by nokw⟩
    (.mk (.var (.name n)) (spanBefore toks (us ++ .k .CurlyBracesClose :: (ts ++ r)))) rfl
  obtain ⟨s1, h1, h2, h3, h4⟩ := encaps_flush (toks := toks) hstr (t :: (us ++ .k .CurlyBracesClose :: (ts ++ r)))
  obtain ⟨s', hs', hee, hl⟩ := h'.2 r hr
    { s1 with parts := s1.parts ++ [.mk e'.kind { e'.span with
        start := (spanBefore toks (t :: (us ++ .k .CurlyBracesClose :: (ts ++ r)))).start
        stop := (spanBefore toks (ts ++ r)).stop }] } (by simp [h1])
  refine ⟨s', hs', ?_, ?_⟩
  · rw [hee]
    simp [leaves, h1, h3, eraseExprs_append, eraseExprs, erase_kind, he]
  norml
  refine Loops.more (l' := ts ++ r) ?_ (by simp; omega) hl
  unfold encapsStep
  stepc (eatEncaps_miss (by simp))
  stepc eat_hit
  stepc h4
  unfold encapsDollar
  refine Step.bind (l' := ts ++ r) (a := ?_) ?_ ?_
  case refine_3 => exact Step.pure
  stepc (parseIdentifier_step hn _).attempt
  refine Step.bind (l' := .k .CurlyBracesClose :: (ts ++ r)) (a := e') ?_ ?_
  · unfold parseVariable
    refine Step.bind Step.pure ?_
    exact hstep.loop
  stepc expect_hit
  exact Step.pure

theorem erase_concatParts (parts : List Expr) (x : Expr) (e : Expr) (es : List Expr)
    (h : eraseExprs (parts ++ [x]) = e :: es) : (concatParts parts x).erase = concatAll e es := by
  induction parts generalizing e es with
  | nil =>
    simp [eraseExprs] at h
    obtain ⟨rfl, rfl⟩ := h
    rfl
  | cons p ps ih =>
    simp [eraseExprs] at h
    obtain ⟨rfl, h⟩ := h
    cases es with
    | nil => cases ps <;> simp [eraseExprs] at h
    | cons e' es =>
      have := ih e' es h
      simp only [concatAll, ← this, concatParts, List.reverse_cons, List.foldl_append, List.foldl_cons,
        List.foldl_nil, Expr.erase, ExprK.erase]

theorem encapsList_step {ts r : List Token} {ps : List Part} {e : Expr} {es : List Expr} (h : PartsOK toks ts ps)
    (hr : endsParts r) (hp : leaves [] ps = e :: es) :
    ∃ e', e'.erase = concatAll e es ∧ Step toks (parseEncapsList theRec) (ts ++ r) e' r := by
  obtain ⟨s', hs', he, hl⟩ := h.2 r hr ⟨[], [], none, 0⟩ (by simp)
  simp only [eraseExprs, List.nil_append, hp] at he
  obtain ⟨str, parts, sp, ep⟩ := s'
  cases str with
  | nil =>
    simp only [↓reduceIte, List.append_nil] at he
    obtain ⟨init, x, rfl⟩ : ∃ init x, parts = init ++ [x] := by
      rcases List.eq_nil_or_concat parts with h0 | ⟨i, z, h0⟩
      · subst h0; cases he
      · exact ⟨i, z, by simp [h0]⟩
    refine ⟨concatParts init x, erase_concatParts _ _ _ _ he, ?_⟩
    unfold parseEncapsList
    stepc hl.loop
    simp only [List.isEmpty_nil, ↓reduceIte, List.getLast?_append, List.getLast?_singleton, Option.some_or,
      List.dropLast_concat]
    exact Step.pure
  | cons c str =>
    cases sp with
    | none => simp at hs'
    | some st =>
      refine ⟨concatParts parts (.mk (.str (c :: str)) (mkSpan st ep)), erase_concatParts _ _ _ _ ?_, ?_⟩
      · simpa [eraseExprs_append, eraseExprs, Expr.erase, ExprK.erase] using he
      · unfold parseEncapsList
        stepc hl.loop
        exact Step.pure

/-! ## Operands that start like a variable -/

theorem endsExpr_any {s : Nat} {r : List Token} (h : endsExpr s r = true) : endsExpr 17 r = true := by
  unfold endsExpr at *
  split at h
  · rfl
  · rename_i k l
    simp only [Bool.or_eq_true] at *
    rcases h with h | h
    · exact .inl h
    · right
      revert h
      cases hi : infixLevel k with
      | none => simp
      | some lv =>
        have := infixLevel_pos hi
        simp; omega
  · cases h

theorem closes_prec {k : Kw} (h : closesExpr k = true ∨ (infixLevel k).isSome = true) : k.assignOp = none := by
  revert h
  cases k <;> simp [closesExpr, infixLevel, Kw.assignOp]

theorem endsExpr_head {s : Nat} {k : Kw} {r : List Token} (h : endsExpr s (.k k :: r) = true) :
    closesExpr k = true ∨ (infixLevel k).isSome = true := by
  unfold endsExpr at h
  simp only [Bool.or_eq_true] at h
  rcases h with h | h
  · exact .inl h
  · right
    cases hi : infixLevel k with
    | none => rw [hi] at h; cases h
    | some _ => rfl

/-- No assignment operator follows. -/
def NoAssign (r : List Token) : Prop := r.head?.bind (fun t => t.kw?.bind Kw.assignOp) = none

theorem noAssign_of_ends {s : Nat} {r : List Token} (h : endsExpr s r = true) : NoAssign r := by
  unfold NoAssign
  cases r with
  | nil => rfl
  | cons t r =>
    cases t with
    | k k => exact closes_prec (endsExpr_head h)
    | _ => rfl

theorem assign_none {r : List Token} (h : NoAssign r) (e : Expr) : Step toks (parseAssign theRec e) r e r := by
  unfold parseAssign
  stepc peekTok_step
  unfold NoAssign at h
  rw [h]
  exact Step.pure

theorem varOrScalar_var {l r : List Token} {e : Expr} (h : Step toks (parseVariable theRec false none) l e r)
    (hr : NoAssign r) : Step toks (parseVariableOrScalar theRec) l e r := by
  unfold parseVariableOrScalar
  stepc h.attempt
  exact assign_none hr e

theorem expr_var {p : Nat} {ts : List Token} {e : Expr} (h : VarOK toks ts e) : ExprOK toks p prefixLevel ts e := by
  refine ExprOK.varOrScalar h.1 fun r hr => ?_
  obtain ⟨e', he, hs, -⟩ := h.2 r (endsVar_of_endsExpr hr)
  exact ⟨e', he, varOrScalar_var hs (noAssign_of_ends hr)⟩

theorem expr_postInc {p : Nat} {ts : List Token} {e : Expr} (h : VarOK toks ts e) :
    ExprOK toks p prefixLevel (ts ++ [.k .Increment]) (bare (.unary .PostInc e)) := by
  obtain ⟨t, us, rfl, ht⟩ := h.1
  refine ExprOK.operand ⟨t, us ++ [.k .Increment], rfl, by simp [exprHead, ht]⟩ fun r hr => ?_
  obtain ⟨e', he, hs, -⟩ := h.2 (.k .Increment :: r) rfl
  refine ⟨.mk (.unary .PostInc e') (mkSpan e'.span.start (spanBefore toks r).stop),
    by simp [Expr.erase, ExprK.erase, he], ?_⟩
  norml
  simp only [List.append_assoc, List.cons_append, List.nil_append] at hs
  unfold parseOperand
  stepc peek_step
  rw [otherHead_prefix ht]
  dsimp only
  unfold parsePostfixExpression
  stepc (otherExpression_varOrScalar ht (varOrScalar_var hs rfl))
  stepc eat_hit
  exact Step.pure

theorem expr_postDec {p : Nat} {ts : List Token} {e : Expr} (h : VarOK toks ts e) :
    ExprOK toks p prefixLevel (ts ++ [.k .Decrement]) (bare (.unary .PostDec e)) := by
  obtain ⟨t, us, rfl, ht⟩ := h.1
  refine ExprOK.operand ⟨t, us ++ [.k .Decrement], rfl, by simp [exprHead, ht]⟩ fun r hr => ?_
  obtain ⟨e', he, hs, -⟩ := h.2 (.k .Decrement :: r) rfl
  refine ⟨.mk (.unary .PostDec e') (mkSpan e'.span.start (spanBefore toks r).stop),
    by simp [Expr.erase, ExprK.erase, he], ?_⟩
  norml
  simp only [List.append_assoc, List.cons_append, List.nil_append] at hs
  unfold parseOperand
  stepc peek_step
  rw [otherHead_prefix ht]
  dsimp only
  unfold parsePostfixExpression
  stepc (otherExpression_varOrScalar ht (varOrScalar_var hs rfl))
  stepc (eat_miss (by nokw))
  stepc eat_hit
  exact Step.pure

theorem noAmp_of_head {ts r : List Token} (h : StartsWith exprHead ts) : NoKw .Ampersand (ts ++ r) := by
  obtain ⟨t, us, rfl, ht⟩ := h
  intro hk
  simp at hk
  subst hk
  simp [exprHead, otherHead, prefixOf, castOf, includeOf] at ht

theorem assign_step {kw : Kw} {op : Op} {us r : List Token} {target e' : Expr} (hk : kw.assignOp = some op)
    (h : Step toks (theRec.expr .None) (us ++ r) e' r) (ha : NoKw .Ampersand (us ++ r)) (hu : us ≠ []) :
    ∃ sp, Step toks (parseAssign theRec target) (.k kw :: (us ++ r)) (.mk (assignKind op false target e') sp) r := by
  refine ⟨mkSpan target.span.start (spanBefore toks r).stop, ?_⟩
  refine Step.with fun ht => ?_
  unfold parseAssign
  stepc peekTok_step
  simp only [List.head?_cons, Option.bind_some, Token.kw?, hk]
  stepc getPos_step
  stepc setPos_next
  refine Step.bind (a := false) (l' := us ++ r) ?_ ?_
  · split
    · exact eats_miss ha
    · exact Step.pure
  stepc h
  stepc (lastEnd_step ht (by simp; omega))
  exact Step.pure

theorem expr_assign {p s : Nat} {ts us : List Token} {v e : Expr} (h : VarOK toks ts v) (h' : ExprOK toks 0 s us e) :
    ExprOK toks p 0 (ts ++ .k .Equal :: us) (bare (.assign v e)) := by
  obtain ⟨t, xs, hx, ht⟩ := h.1
  refine ExprOK.varOrScalar ⟨t, xs ++ .k .Equal :: us, by simp [hx], ht⟩ fun r hr => ?_
  obtain ⟨e', he, hs⟩ := h'.run0 hr
  obtain ⟨v', hv, hvs, -⟩ := h.2 (.k .Equal :: (us ++ r)) rfl
  obtain ⟨sp, ha⟩ := assign_step (target := v') (kw := .Equal) rfl hs (noAmp_of_head h'.1)
    (by obtain ⟨_, _, rfl, _⟩ := h'.1; simp)
  refine ⟨.mk (assignKind .Eq false v' e') sp, ?_, ?_⟩
  rotate_left
  · norml
    unfold parseVariableOrScalar
    stepc hvs.attempt
    exact ha
  · simp [assignKind, Expr.erase, ExprK.erase, hv, he]

theorem expr_compound {p s : Nat} {kw : Kw} {op : Op} {ts us : List Token} {v e : Expr}
    (hk : compoundOf kw = some op) (h : VarOK toks ts v) (h' : ExprOK toks 0 s us e) :
    ExprOK toks p 0 (ts ++ .k kw :: us) (bare (.compoundAssign v op e)) := by
  have hka : kw.assignOp = some op ∧ op ≠ .Eq := by
    revert hk
    cases kw <;> simp [compoundOf, Kw.assignOp] <;> rintro rfl <;> decide
  have hke : ∀ l, endsVar (.k kw :: l) = true := by
    intro l
    revert hk
    cases kw <;> simp [compoundOf, endsVar]
  obtain ⟨t, xs, hx, ht⟩ := h.1
  refine ExprOK.varOrScalar ⟨t, xs ++ .k kw :: us, by simp [hx], ht⟩ fun r hr => ?_
  obtain ⟨e', he, hs⟩ := h'.run0 hr
  obtain ⟨v', hv, hvs, -⟩ := h.2 (.k kw :: (us ++ r)) (hke _)
  obtain ⟨sp, ha⟩ := assign_step (target := v') hka.1 hs (noAmp_of_head h'.1)
    (by obtain ⟨_, _, rfl, _⟩ := h'.1; simp)
  refine ⟨.mk (assignKind op false v' e') sp, ?_, ?_⟩
  rotate_left
  · norml
    unfold parseVariableOrScalar
    stepc hvs.attempt
    exact ha
  · have := hka.2
    cases op <;> first | exact absurd rfl this | simp [assignKind, Expr.erase, ExprK.erase, hv, he]

theorem expr_assignRef {p s : Nat} {ts us : List Token} {v e : Expr} (h : VarOK toks ts v)
    (h' : ExprOK toks 0 s us e) :
    ExprOK toks p 0 (ts ++ .k .Equal :: .k .Ampersand :: us) (bare (.assignRef v e)) := by
  obtain ⟨t, xs, hx, ht⟩ := h.1
  refine ExprOK.varOrScalar ⟨t, xs ++ .k .Equal :: .k .Ampersand :: us, by simp [hx], ht⟩ fun r hr => ?_
  obtain ⟨e', he, hs⟩ := h'.run0 hr
  obtain ⟨v', hv, hvs, -⟩ := h.2 (.k .Equal :: .k .Ampersand :: (us ++ r)) rfl
  refine ⟨.mk (.assignRef v' e') (mkSpan v'.span.start (spanBefore toks r).stop),
    by simp [Expr.erase, ExprK.erase, hv, he], ?_⟩
  norml
  unfold parseVariableOrScalar
  stepc hvs.attempt
  refine Step.with fun htl => ?_
  unfold parseAssign
  stepc peekTok_step
  simp only [List.head?_cons, Option.bind_some, Token.kw?, Kw.assignOp]
  stepc getPos_step
  stepc setPos_next
  stepc eats_hit
  stepc hs
  stepc (lastEnd_step htl (by simp; omega))
  exact Step.pure

theorem variable_noStart {l : List Token} (hN : NoName l) (hs : NoKw .Static l) (hp : NoKw .ParenthesesOpen l)
    (hv : NoVar l) (hd : NoDeref l) : Fails toks (parseVariable theRec false none) l l :=
  variable_fails (variableBase_fails (constScoped_none hN hs) (fnCall_none hN) (baseVariable_fails hp hv hd))

theorem expr_list {p s : Nat} {ts us : List Token} {its : List (Option Expr × Expr)} {e : Expr}
    (h : ItemsOK toks ts its) (h' : ExprOK toks 0 s us e) :
    ExprOK toks p 0 (.k .List :: .k .ParenthesesOpen :: (ts ++ .k .ParenthesesClose :: .k .Equal :: us))
      (bare (.assign (bare (.list its)) e)) := by
  refine ExprOK.varOrScalar ⟨_, _, rfl, rfl⟩ fun r hr => ?_
  obtain ⟨e', he, hs⟩ := h'.run0 hr
  obtain ⟨its', hi, his⟩ := items_run h (r := .k .ParenthesesClose :: .k .Equal :: (us ++ r)) rfl (by nokw) (by nokw)
  generalize hsp : mkSpan (spanBefore toks (.k .ParenthesesOpen :: (ts ++ .k .ParenthesesClose ::
      .k .Equal :: (us ++ r)))).start (spanBefore toks (.k .Equal :: (us ++ r))).stop = lsp
  obtain ⟨sp, ha⟩ := assign_step (kw := .Equal) (target := .mk (.list its') lsp) rfl hs (noAmp_of_head h'.1)
    (by obtain ⟨_, _, rfl, _⟩ := h'.1; simp)
  subst hsp
  refine ⟨.mk (assignKind .Eq false (.mk (.list its') (mkSpan (spanBefore toks (.k .ParenthesesOpen ::
      (ts ++ .k .ParenthesesClose :: .k .Equal :: (us ++ r)))).start
      (spanBefore toks (.k .Equal :: (us ++ r))).stop)) e') sp, ?_, ?_⟩
  rotate_left
  · norml
    unfold parseVariableOrScalar
    stepc (variable_noStart ⟨by nokw, by simp⟩ (by nokw) (by nokw) ⟨by nokw, by simp⟩ ⟨by nokw, by nokw, by simp⟩).attempt
    stepc eat_hit
    refine Step.bind ?_ ha
    unfold parseListTarget
    stepc expect_hit
    stepc his
    stepc expect_hit
    stepc nextIs_hit
    exact Step.pure
  · simp [assignKind, Expr.erase, ExprK.erase, hi, he]

theorem expr_listRef {p s : Nat} {ts us : List Token} {its : List (Option Expr × Expr)} {e : Expr}
    (h : ItemsOK toks ts its) (h' : ExprOK toks 0 s us e) :
    ExprOK toks p 0 (.k .List :: .k .ParenthesesOpen :: (ts ++ .k .ParenthesesClose :: .k .Equal :: .k .Ampersand :: us))
      (bare (.assignRef (bare (.list its)) e)) := by
  refine ExprOK.varOrScalar ⟨_, _, rfl, rfl⟩ fun r hr => ?_
  obtain ⟨e', he, hs⟩ := h'.run0 hr
  obtain ⟨its', hi, his⟩ := items_run h (r := .k .ParenthesesClose :: .k .Equal :: .k .Ampersand :: (us ++ r)) rfl (by nokw) (by nokw)
  refine ⟨.mk (.assignRef (.mk (.list its') (mkSpan (spanBefore toks (.k .ParenthesesOpen ::
      (ts ++ .k .ParenthesesClose :: .k .Equal :: .k .Ampersand :: (us ++ r)))).start
      (spanBefore toks (.k .Equal :: .k .Ampersand :: (us ++ r))).stop)) e') (mkSpan (spanBefore toks (.k .ParenthesesOpen ::
      (ts ++ .k .ParenthesesClose :: .k .Equal :: .k .Ampersand :: (us ++ r)))).start (spanBefore toks r).stop),
    by simp [Expr.erase, ExprK.erase, hi, he], ?_⟩
  norml
  unfold parseVariableOrScalar
  stepc (variable_noStart ⟨by nokw, by simp⟩ (by nokw) (by nokw) ⟨by nokw, by simp⟩ ⟨by nokw, by nokw, by simp⟩).attempt
  stepc eat_hit
  refine Step.bind (a := .mk (.list its') (mkSpan (spanBefore toks (.k .ParenthesesOpen ::
      (ts ++ .k .ParenthesesClose :: .k .Equal :: .k .Ampersand :: (us ++ r)))).start
      (spanBefore toks (.k .Equal :: .k .Ampersand :: (us ++ r))).stop)) (l' := .k .Equal :: .k .Ampersand :: (us ++ r)) ?_ ?_
  · unfold parseListTarget
    stepc expect_hit
    stepc his
    stepc expect_hit
    stepc nextIs_hit
    exact Step.pure
  · refine Step.with fun htl => ?_
    unfold parseAssign
    stepc peekTok_step
    simp only [List.head?_cons, Option.bind_some, Token.kw?, Kw.assignOp]
    stepc getPos_step
    stepc setPos_next
    stepc eats_hit
    stepc hs
    stepc (lastEnd_step htl (by simp; omega))
    exact Step.pure

/-! ## Scalars -/

/-- Operands that only `parse_scalar` accepts. -/
theorem varOrScalar_scalar {l r : List Token} {e : Expr} (hv : Fails toks (parseVariable theRec false none) l l)
    (hl : NoKw .List l) (hp : NoKw .ParenthesesOpen l) (h : Step toks (parseScalar theRec) l e r) :
    Step toks (parseVariableOrScalar theRec) l e r := by
  unfold parseVariableOrScalar
  stepc hv.attempt
  stepc (eat_miss hl)
  unfold parseNonVariable
  stepc (eat_miss hp)
  stepc h.attempt
  exact Step.pure

theorem expr_int {p : Nat} (v : Nat) : ExprOK toks p prefixLevel [.int v] (bare (.int v)) := by
  refine ExprOK.varOrScalar ⟨_, _, rfl, rfl⟩ fun r hr => ⟨.mk (.int v) (spanBefore toks r), rfl, ?_⟩
  norml
  refine varOrScalar_scalar (variable_noStart ⟨by nokw, by simp⟩ (by nokw) (by nokw) ⟨by nokw, by simp⟩
    ⟨by nokw, by nokw, by simp⟩) (by nokw) (by nokw) ?_
  unfold parseScalar
  stepc peek_step
  stepc getPos_step
  stepc setPos_next
  exact Step.pure

theorem expr_double {p : Nat} (v : Text) : ExprOK toks p prefixLevel [.double v] (bare (.double v)) := by
  refine ExprOK.varOrScalar ⟨_, _, rfl, rfl⟩ fun r hr => ⟨.mk (.double v) (spanBefore toks r), rfl, ?_⟩
  norml
  refine varOrScalar_scalar (variable_noStart ⟨by nokw, by simp⟩ (by nokw) (by nokw) ⟨by nokw, by simp⟩
    ⟨by nokw, by nokw, by simp⟩) (by nokw) (by nokw) ?_
  unfold parseScalar
  stepc peek_step
  stepc getPos_step
  stepc setPos_next
  exact Step.pure

theorem expr_magic {p : Nat} {kw : Kw} {c : Const} (h : magicOf kw = some c) :
    ExprOK toks p prefixLevel [.k kw] (bare (.const c)) := by
  have ho : otherHead (.k kw) = true := by revert h; cases kw <;> simp [magicOf, otherHead]
  refine ExprOK.varOrScalar ⟨_, _, rfl, ho⟩ fun r hr => ⟨.mk (.const c) (spanBefore toks r), rfl, ?_⟩
  norml
  have hn : ∀ k', magicOf k' = none → NoKw k' (.k kw :: r) := by
    intro k' hk' he
    simp at he
    subst he
    rw [h] at hk'
    cases hk'
  refine varOrScalar_scalar (variable_noStart ⟨hn _ rfl, by simp⟩ (hn _ rfl) (hn _ rfl) ⟨hn _ rfl, by simp⟩
    ⟨hn _ rfl, hn _ rfl, by simp⟩) (hn _ rfl) (hn _ rfl) ?_
  unfold parseScalar
  stepc peek_step
  stepc getPos_step
  stepc setPos_next
  revert h
  cases kw <;> simp only [magicOf, reduceCtorEq, false_implies] <;> (intro h; cases h; exact Step.pure)

theorem erase_resolveConst {p : Path} {sp : Span} :
    (resolveConst (.mk (.path p) sp)).erase = bare (constOf p) := by
  obtain ⟨a, ns, id⟩ := p
  cases ns with
  | some n => simp [resolveConst, constOf, Expr.erase, ExprK.erase]
  | none =>
    unfold resolveConst constOf builtinConst
    simp only [Option.isNone_none, ↓reduceIte, beq_iff_eq, true_and]
    split
    · rename_i c h
      split at h
      · rename_i h1; cases h; rw [if_pos h1]; rfl
      · rename_i h1
        rw [if_neg h1]
        split at h
        · rename_i h2; cases h; rw [if_pos h2]; rfl
        · rename_i h2
          rw [if_neg h2]
          split at h
          · rename_i h3; cases h; rw [if_pos h3]; rfl
          · cases h
    · rename_i h
      split at h
      · cases h
      · rename_i h1
        rw [if_neg h1]
        split at h
        · cases h
        · rename_i h2
          rw [if_neg h2]
          split at h
          · cases h
          · rename_i h3
            rw [if_neg h3]
            rfl

theorem className_scalar {cts r r' : List Token} {p : Path} {e : Expr} (hc : ClassName cts p)
    (h : Step toks parseConstant (cts ++ r) e r') : Step toks (parseScalar theRec) (cts ++ r) e r' := by
  obtain ⟨t, us, rfl, -, ht⟩ := hc.head
  have hd : NoDeref (t :: (us ++ r)) := by
    rcases ht with rfl | rfl | ⟨x, rfl⟩ <;> exact ⟨by simp [NoKw], by simp [NoKw], by simp⟩
  refine Step.with fun htl => ?_
  unfold parseScalar
  rw [List.cons_append] at h htl ⊢
  stepc peek_step
  stepc getPos_step
  stepc setPos_next
  rcases ht with rfl | rfl | ⟨x, rfl⟩ <;>
  · dsimp only
    stepc (rewind_step htl)
    stepc (deref_fails hd).attempt
    exact h

theorem ClassName.noOther {cts r : List Token} {p : Path} (hc : ClassName cts p) :
    NoVar (cts ++ r) ∧ NoDeref (cts ++ r) ∧ NoKw .ParenthesesOpen (cts ++ r) ∧ NoKw .List (cts ++ r) := by
  obtain ⟨t, us, rfl, -, ht⟩ := hc.head
  rcases ht with rfl | rfl | ⟨x, rfl⟩ <;>
    exact ⟨⟨by simp [NoKw], by simp⟩, ⟨by simp [NoKw], by simp [NoKw], by simp⟩, by simp [NoKw], by simp [NoKw]⟩

theorem expr_name (hP : Placed toks) {p : Nat} {ts : List Token} {q : Path} (h : ClassName ts q) :
    ExprOK toks p prefixLevel ts (bare (constOf q)) := by
  obtain ⟨t, us, hts, ho, -⟩ := h.head
  refine ExprOK.varOrScalar ⟨t, us, hts, ho⟩ fun r hr => ?_
  obtain ⟨sp, hs⟩ := parseClassName_step hP h r (by nokw)
  refine ⟨_, erase_resolveConst (p := q) (sp := sp), ?_⟩
  obtain ⟨hv, hd, hp, hl⟩ := h.noOther (r := r)
  refine varOrScalar_scalar (variable_fails (variableBase_fails (constScoped_name hP h false r (by nokw) (by nokw))
    (h.fnCall_fails hP r (by nokw) (by nokw)) (baseVariable_fails hp hv hd))) hl hp (className_scalar h ?_)
  unfold parseConstant
  stepc hs
  stepc (eat_miss (by nokw))
  exact Step.pure

theorem expr_classConst (hP : Placed toks) {p : Nat} {cts : List Token} {q : Path} {t : Token} {m : Text}
    (hc : ClassName cts q) (hm : Ident t m) :
    ExprOK toks p prefixLevel (cts ++ [.k .ScopeOp, t])
      (bare (.staticMember (bare (constOf q)) [bare (.path ⟨false, none, m⟩)])) := by
  obtain ⟨t', us, hts, ho, -⟩ := hc.head
  refine ExprOK.varOrScalar ⟨t', us ++ [.k .ScopeOp, t], by simp [hts], ho⟩ fun r hr => ?_
  obtain ⟨sp, hs⟩ := parseClassName_step hP hc (.k .ScopeOp :: t :: r) (by nokw)
  refine ⟨.mk (.staticMember (resolveConst (.mk (.path q) sp)) [.mk (.path ⟨false, none, m⟩) (spanBefore toks r)])
    (mkSpan (resolveConst (.mk (.path q) sp)).span.start (spanBefore toks r).stop), ?_, ?_⟩
  · have := erase_resolveConst (p := q) (sp := sp)
    simp [Expr.erase, ExprK.erase, eraseExprs, this]
  norml
  obtain ⟨hv, hd, hp, hl⟩ := hc.noOther (r := .k .ScopeOp :: t :: r)
  refine varOrScalar_scalar (variable_fails (variableBase_fails (constScoped_const hP hc hm r (by nokw))
    (hc.fnCall_fails hP _ (by nokw) (by nokw)) (baseVariable_fails hp hv hd))) hl hp (className_scalar hc ?_)
  unfold parseConstant
  stepc hs
  stepc eat_hit
  stepc (parseIdentifierAsExpr_step hm r)
  exact Step.pure

theorem expr_emptyString {p : Nat} :
    ExprOK toks p prefixLevel [.k .DoubleQuote, .k .DoubleQuote] (bare (.str [])) := by
  refine ExprOK.varOrScalar ⟨_, _, rfl, rfl⟩ fun r hr =>
    ⟨.mk (.str []) (mkSpan (spanBefore toks (.k .DoubleQuote :: r)).start (spanBefore toks r).stop), rfl, ?_⟩
  norml
  refine varOrScalar_scalar (variable_noStart ⟨by nokw, by simp⟩ (by nokw) (by nokw) ⟨by nokw, by simp⟩
    ⟨by nokw, by nokw, by simp⟩) (by nokw) (by nokw) ?_
  unfold parseScalar
  stepc peek_step
  stepc getPos_step
  stepc setPos_next
  stepc eat_hit
  exact Step.pure

theorem expr_string {p : Nat} {ts : List Token} {ps : List Part} {e : Expr} {es : List Expr}
    (h : PartsOK toks ts ps) (hp : leaves [] ps = e :: es) (hne : ts ≠ []) :
    ExprOK toks p prefixLevel (.k .DoubleQuote :: (ts ++ [.k .DoubleQuote])) (concatAll e es) := by
  refine ExprOK.varOrScalar ⟨_, _, rfl, rfl⟩ fun r hr => ?_
  obtain ⟨e', he, hs⟩ := encapsList_step h (r := .k .DoubleQuote :: r) ⟨r, .inl rfl⟩ hp
  have hq : NoKw .DoubleQuote (ts ++ .k .DoubleQuote :: r) := by
    cases ts with
    | nil => exact absurd rfl hne
    | cons t ts => simpa [NoKw] using h.1
  refine ⟨.mk e'.kind { e'.span with
      start := (spanBefore toks (ts ++ .k .DoubleQuote :: r)).start
      stop := (spanBefore toks r).stop }, (erase_kind _ _).trans he, ?_⟩
  norml
  refine varOrScalar_scalar (variable_noStart ⟨by nokw, by simp⟩ (by nokw) (by nokw) ⟨by nokw, by simp⟩
    ⟨by nokw, by nokw, by simp⟩) (by nokw) (by nokw) ?_
  unfold parseScalar
  stepc peek_step
  stepc getPos_step
  stepc setPos_next
  stepc (eat_miss hq)
  stepc hs
  stepc expect_hit
  exact Step.pure

theorem expr_heredoc {p : Nat} {ts : List Token} {ps : List Part} {e : Expr} {es : List Expr}
    (h : PartsOK toks ts ps) (hp : leaves [] ps = e :: es) :
    ExprOK toks p prefixLevel (.k .HereDocStart :: (ts ++ [.k .HereDocEnd])) (concatAll e es) := by
  refine ExprOK.varOrScalar ⟨_, _, rfl, rfl⟩ fun r hr => ?_
  obtain ⟨e', he, hs⟩ := encapsList_step h (r := .k .HereDocEnd :: r) ⟨r, .inr rfl⟩ hp
  refine ⟨.mk e'.kind { e'.span with
      start := (spanBefore toks (ts ++ .k .HereDocEnd :: r)).start
      stop := (spanBefore toks r).stop }, (erase_kind _ _).trans he, ?_⟩
  norml
  refine varOrScalar_scalar (variable_noStart ⟨by nokw, by simp⟩ (by nokw) (by nokw) ⟨by nokw, by simp⟩
    ⟨by nokw, by nokw, by simp⟩) (by nokw) (by nokw) ?_
  unfold parseScalar
  stepc peek_step
  stepc getPos_step
  stepc setPos_next
  stepc hs
  stepc expect_hit
  exact Step.pure

/-! ## Operands with a keyword -/

/-- An operand that starts with a keyword which is not a prefix operator. -/
theorem ExprOK.kw {p s : Nat} {kw : Kw} {ts : List Token} {e : Expr} (hk : exprHead (.k kw) = true)
    (hp : kw.prefixOp = none)
    (h : ∀ r, endsExpr s r = true → ∃ e', e'.erase = e ∧
      Step toks (parseOtherExpression theRec) (.k kw :: (ts ++ r)) e' r) :
    ExprOK toks p s (.k kw :: ts) e := by
  refine ExprOK.operand ⟨_, _, rfl, hk⟩ fun r hr => ?_
  obtain ⟨e', he, hs⟩ := h r hr
  exact ⟨e', he, operand_other hp (by nokw) (by nokw) hs⟩

theorem expr_new {p : Nat} {ts : List Token} {e : Expr} (h : CrefOK toks ts e) :
    ExprOK toks p prefixLevel (.k .New :: ts) (bare (.new e [])) := by
  refine ExprOK.kw rfl rfl fun r hr => ?_
  obtain ⟨e', he, hs⟩ := h r (by nokw) (EndsApps.of_endsVar (endsVar_of_endsExpr hr))
  refine ⟨.mk (.new e' []) { spanBefore toks (ts ++ r) with stop := (spanBefore toks r).stop },
    by simp [Expr.erase, ExprK.erase, eraseExprs, he], ?_⟩
  refine Step.with fun ht => ?_
  unfold parseOtherExpression
  stepc peek_step
  stepc getPos_step
  stepc setPos_next
  unfold parseNew
  stepc hs
  refine Step.bind (a := []) (l' := r) ?_ ?_
  · stepc (nextIs_miss (by nokw))
    exact Step.pure
  stepc (lastEnd_step ht (by simp; omega))
  exact Step.pure

theorem expr_newArgs {p : Nat} {ts as : List Token} {e : Expr} {es : List Expr} (h : CrefOK toks ts e)
    (h' : ArgsOK toks as es) : ExprOK toks p prefixLevel (.k .New :: (ts ++ as)) (bare (.new e es)) := by
  refine ExprOK.kw rfl rfl fun r hr => ?_
  obtain ⟨⟨us, rfl⟩, h'⟩ := h'
  obtain ⟨es', hes, has⟩ := h' r
  obtain ⟨e', he, hs⟩ := h (.k .ParenthesesOpen :: (us ++ r)) (by nokw)
    ⟨by nokw, by nokw, by nokw, fun h => by cases h⟩
  refine ⟨.mk (.new e' es') { spanBefore toks (ts ++ .k .ParenthesesOpen :: (us ++ r)) with
    stop := (spanBefore toks r).stop }, by simp [Expr.erase, ExprK.erase, hes, he], ?_⟩
  norml
  simp only [List.append_assoc, List.cons_append, List.nil_append] at has
  refine Step.with fun ht => ?_
  unfold parseOtherExpression
  stepc peek_step
  stepc getPos_step
  stepc setPos_next
  unfold parseNew
  stepc hs
  refine Step.bind (a := es') (l' := r) ?_ ?_
  · stepc nextIs_hit
    exact has
  stepc (lastEnd_step ht (by simp; omega))
  exact Step.pure

theorem expr_exit {p : Nat} : ExprOK toks p prefixLevel [.k .Exit] (bare (.exit none)) := by
  refine ExprOK.kw rfl rfl fun r hr => ⟨.mk (.exit none) (spanBefore toks r), rfl, ?_⟩
  norml
  unfold parseOtherExpression
  stepc peek_step
  stepc getPos_step
  stepc setPos_next
  unfold parseExit
  stepc (eats_miss (by nokw))
  exact Step.pure

theorem expr_exitValue {p s : Nat} {ts : List Token} {e : Expr} (h : ExprOK toks 0 s ts e) :
    ExprOK toks p prefixLevel (.k .Exit :: .k .ParenthesesOpen :: (ts ++ [.k .ParenthesesClose]))
      (bare (.exit (some e))) := by
  refine ExprOK.kw rfl rfl fun r hr => ?_
  obtain ⟨e', he, hs⟩ := h.run0 (r := .k .ParenthesesClose :: r) rfl
  refine ⟨.mk (.exit (some e')) { spanBefore toks (.k .ParenthesesOpen :: (ts ++ .k .ParenthesesClose :: r)) with
    stop := (spanBefore toks r).stop }, by simp [Expr.erase, ExprK.erase, eraseOpt, he], ?_⟩
  norml
  unfold parseOtherExpression
  stepc peek_step
  stepc getPos_step
  stepc setPos_next
  unfold parseExit
  stepc eats_hit
  stepc hs
  stepc expect_hit
  exact Step.pure

theorem exprs_run {ts r : List Token} {es : List Expr} (h : ExprsOK toks ts es) (hr : endsExpr 0 r = true)
    (hc : NoKw .Comma r) : ∃ es', eraseExprs es' = es ∧ Step toks (parseExpressionList theRec) (ts ++ r) es' r := by
  obtain ⟨es', he, hl⟩ := h r hr hc
  exact ⟨es', he, by rw [parseExpressionList_eq]; exact (hl []).loop⟩

theorem expr_isset {p : Nat} {ts : List Token} {es : List Expr} (h : ExprsOK toks ts es) :
    ExprOK toks p prefixLevel (.k .Isset :: .k .ParenthesesOpen :: (ts ++ [.k .ParenthesesClose]))
      (bare (.isset es)) := by
  refine ExprOK.kw rfl rfl fun r hr => ?_
  obtain ⟨es', he, hs⟩ := exprs_run h (r := .k .ParenthesesClose :: r) rfl (by nokw)
  refine ⟨.mk (.isset es') { spanBefore toks (.k .ParenthesesOpen :: (ts ++ .k .ParenthesesClose :: r)) with
    stop := (spanBefore toks r).stop }, by simp [Expr.erase, ExprK.erase, he], ?_⟩
  norml
  unfold parseOtherExpression
  stepc peek_step
  stepc getPos_step
  dsimp only [parseInternal, reduceCtorEq, ↓reduceIte]
  stepc setPos_next
  unfold parseIsset
  stepc expect_hit
  stepc hs
  stepc expect_hit
  exact Step.pure

theorem expr_empty {p s : Nat} {ts : List Token} {e : Expr} (h : ExprOK toks 0 s ts e) :
    ExprOK toks p prefixLevel (.k .Empty :: .k .ParenthesesOpen :: (ts ++ [.k .ParenthesesClose]))
      (bare (.empty e)) := by
  refine ExprOK.kw rfl rfl fun r hr => ?_
  obtain ⟨e', he, hs⟩ := h.run0 (r := .k .ParenthesesClose :: r) rfl
  refine ⟨.mk (.empty e') { spanBefore toks (.k .ParenthesesOpen :: (ts ++ .k .ParenthesesClose :: r)) with
    stop := (spanBefore toks r).stop }, by simp [Expr.erase, ExprK.erase, he], ?_⟩
  norml
  unfold parseOtherExpression
  stepc peek_step
  stepc getPos_step
  dsimp only [parseInternal, reduceCtorEq, ↓reduceIte]
  stepc setPos_next
  unfold parseEmpty
  stepc expect_hit
  stepc hs
  stepc expect_hit
  exact Step.pure

/-- What is claimed of functions, from the parameter list on. -/
def FnOK (toks : List TokSpan) (closure abs ref : Bool) (ts : List Token) (f : FnDecl) : Prop :=
  (∃ us, ts = .k .ParenthesesOpen :: us) ∧
  ∀ r, ∃ f' stop, FnDecl.erase f' = f ∧ Step toks (parseFunctionTail theRec closure abs ref) (ts ++ r) (f', stop) r

theorem ref_step {r : Bool} {ts : List Token} (h : NoKw .Ampersand ts) :
    Step toks (eats .Ampersand) (refToks r ++ ts) r ts := by
  cases r with
  | true => exact eats_hit
  | false => exact eats_miss h

theorem expr_closure {p : Nat} {ref : Bool} {ts : List Token} {f : FnDecl} (h : FnOK toks true false ref ts f) :
    ExprOK toks p prefixLevel (.k .Function :: (refToks ref ++ ts)) (bare (.function f)) := by
  refine ExprOK.kw rfl rfl fun r hr => ?_
  obtain ⟨⟨us, rfl⟩, h⟩ := h
  obtain ⟨f', stop, hf, hs⟩ := h r
  refine ⟨.mk (.function f') (mkSpan (spanBefore toks (refToks ref ++ (.k .ParenthesesOpen :: us ++ r))).start stop),
    by simp [Expr.erase, ExprK.erase, hf], ?_⟩
  norml
  simp only [List.append_assoc, List.cons_append, List.nil_append] at hs
  unfold parseOtherExpression
  stepc peek_step
  stepc getPos_step
  stepc setPos_next
  unfold parseClosure
  stepc (ref_step (by nokw))
  stepc hs
  exact Step.pure

theorem expr_clone {p s : Nat} {ts : List Token} {e : Expr} (h : ExprOK toks 0 s ts e) :
    ExprOK toks p 0 (.k .Clone :: ts) (bare (.clone e)) := by
  refine ExprOK.kw rfl rfl fun r hr => ?_
  obtain ⟨e', he, hs⟩ := h.run0 hr
  refine ⟨.mk (.clone e') (spanBefore toks (ts ++ r)), by simp [Expr.erase, ExprK.erase, he], ?_⟩
  unfold parseOtherExpression
  stepc peek_step
  stepc getPos_step
  stepc setPos_next
  stepc hs
  exact Step.pure

theorem expr_yield {p : Nat} {ts : List Token} {o : Option Expr} (h : OptOK toks ts o) :
    ExprOK toks p 0 (.k .Yield :: ts) (bare (.yield o)) := by
  refine ExprOK.kw rfl rfl fun r hr => ?_
  obtain ⟨e', he, hs⟩ := h r hr
  refine ⟨.mk (.yield e') (mkSpan (spanBefore toks (ts ++ r)).start (spanBefore toks r).stop),
    by simp [Expr.erase, ExprK.erase, he], ?_⟩
  refine Step.with fun ht => ?_
  unfold parseOtherExpression
  stepc peek_step
  stepc getPos_step
  stepc setPos_next
  unfold parseYield
  stepc hs
  stepc (lastEnd_step ht (by simp; omega))
  exact Step.pure

theorem expr_include {p s : Nat} {kw : Kw} {ty : IncludeTy} {ts : List Token} {e : Expr}
    (hk : includeOf kw = some ty) (h : ExprOK toks 0 s ts e) :
    ExprOK toks p 0 (.k kw :: ts) (bare (.include ty e)) := by
  have hh : exprHead (.k kw) = true ∧ kw.prefixOp = none ∧ kw.includeTy = some ty ∧ kw.castTy = none := by
    revert hk
    cases kw <;> simp [includeOf, exprHead, Kw.prefixOp, Kw.includeTy, Kw.castTy]
  refine ExprOK.kw hh.1 hh.2.1 fun r hr => ?_
  obtain ⟨e', he, hs⟩ := h.run0 hr
  refine ⟨.mk (.include ty e') (mkSpan (spanBefore toks (ts ++ r)).start (spanBefore toks r).stop),
    by simp [Expr.erase, ExprK.erase, he], ?_⟩
  have hne : ∀ k', includeOf k' = none → kw ≠ k' := by rintro k' h' rfl; rw [hk] at h'; cases h'
  refine Step.with fun ht => ?_
  unfold parseOtherExpression
  stepc peek_step
  stepc getPos_step
  rw [if_neg (hne _ rfl), if_neg (hne _ rfl), if_neg (hne _ rfl), if_neg (hne _ rfl), if_neg (hne _ rfl)]
  unfold parseInternal
  rw [if_neg (hne _ rfl), if_neg (hne _ rfl), if_neg (hne _ rfl), hh.2.2.2, hh.2.2.1]
  dsimp only
  stepc setPos_next
  stepc hs
  stepc (lastEnd_step ht (by simp; omega))
  exact Step.pure

/-! ## Operators -/

theorem expr_cast {p s : Nat} {kw : Kw} {ty : Ty} {ts : List Token} {e : Expr} (hk : castOf kw = some ty)
    (h : ExprOK toks prefixLevel s ts e) : ExprOK toks p s (.k kw :: ts) (bare (.cast ty e)) := by
  have hh : exprHead (.k kw) = true ∧ kw.prefixOp = none ∧ kw.castTy = some ty := by
    revert hk
    cases kw <;> simp [castOf, exprHead, Kw.prefixOp, Kw.castTy]
  refine ExprOK.kw hh.1 hh.2.1 fun r hr => ?_
  obtain ⟨e', he, hs⟩ := h.run (q := .Unary) (Nat.le_refl _) hr (endsExpr_any hr)
  refine ⟨.mk (.cast ty e') { spanBefore toks (ts ++ r) with stop := e'.span.stop },
    by simp [Expr.erase, ExprK.erase, he], ?_⟩
  have hne : ∀ k', castOf k' = none → kw ≠ k' := by rintro k' h' rfl; rw [hk] at h'; cases h'
  unfold parseOtherExpression
  stepc peek_step
  stepc getPos_step
  rw [if_neg (hne _ rfl), if_neg (hne _ rfl), if_neg (hne _ rfl), if_neg (hne _ rfl), if_neg (hne _ rfl)]
  unfold parseInternal
  rw [if_neg (hne _ rfl), if_neg (hne _ rfl), if_neg (hne _ rfl), hh.2.2]
  dsimp only
  stepc setPos_next
  stepc hs
  exact Step.pure

theorem expr_prefix {p s : Nat} {kw : Kw} {op : UnaryOp} {ts : List Token} {e : Expr} (hk : prefixOf kw = some op)
    (h : ExprOK toks prefixLevel s ts e) : ExprOK toks p s (.k kw :: ts) (bare (.unary op e)) := by
  have hh : exprHead (.k kw) = true ∧ kw.prefixOp = some op := by
    revert hk
    cases kw <;> simp [prefixOf, exprHead, Kw.prefixOp]
  refine ExprOK.operand ⟨_, _, rfl, hh.1⟩ fun r hr => ?_
  obtain ⟨e', he, hs⟩ := h.run (q := .Unary) (Nat.le_refl _) hr (endsExpr_any hr)
  refine ⟨.mk (.unary op e') (mkSpan (spanBefore toks (ts ++ r)).start e'.span.stop),
    by simp [Expr.erase, ExprK.erase, he], ?_⟩
  norml
  unfold parseOperand
  stepc peek_step
  have : (Token.k kw).kw?.bind Kw.prefixOp = some op := hh.2
  rw [this]
  dsimp only
  stepc getPos_step
  stepc setPos_next
  stepc hs
  exact Step.pure

theorem prec_of_level {k : Kw} {lv : Nat} (h : infixLevel k = some lv) :
    ∃ np : Prec, k.precedence = some np ∧ np.toNat = lv := by
  have := precedence_level k
  rw [h] at this
  cases hk : k.precedence with
  | none => rw [hk] at this; cases this
  | some np =>
    rw [hk] at this
    simp at this
    exact ⟨np, rfl, this⟩

/-- One round of the loop of `parse_expression`, at an operator that binds tighter than the requested level. -/
theorem exprStep_infix {q np : Prec} {kw : Kw} {us r : List Token} {l' e' : Expr} (hk : kw.precedence = some np)
    (hq : q.toNat < np.toNat)
    (h : Step toks (if kw = .QuestionMark then parseTernary theRec l' np
      else if kw = .InstanceOf then parseInstanceOf theRec l' else parseBinaryRest theRec l' kw np) us e' r) :
    Step toks (exprStep theRec q l') (.k kw :: us) (.inl e') r := by
  unfold exprStep
  refine Step.bind (a := .ok (some e')) (l' := r) (Step.attempt ?_) Step.pure
  unfold parseBinaryExpression
  stepc peekTok_step
  simp only [List.head?_cons, Option.bind_some, Token.kw?, hk]
  rw [if_neg (by omega)]
  stepc getPos_step
  stepc setPos_next
  stepc h
  exact Step.pure

/-- An operation: the left operand, an operator, and what the parser does after it. -/
theorem ExprOK.infix {p pl sl s lv : Nat} {kw : Kw} {ts us : List Token} {l e : Expr}
    (h : ExprOK toks pl sl ts l) (hl : infixLevel kw = some lv) (hs : lv ≤ sl) (hp : p < lv) (hpl : p ≤ pl)
    (hr : ∀ (np : Prec) (r : List Token) (l' : Expr), kw.precedence = some np → np.toNat = lv →
      endsExpr s r = true → l'.erase = l → ∃ e', e'.erase = e ∧
      Step toks (if kw = .QuestionMark then parseTernary theRec l' np
        else if kw = .InstanceOf then parseInstanceOf theRec l' else parseBinaryRest theRec l' kw np)
        (us ++ r) e' r) :
    ExprOK toks p s (ts ++ .k kw :: us) e := by
  obtain ⟨np, hnp, hlv⟩ := prec_of_level hl
  refine ⟨?_, fun r hrr => ?_⟩
  · obtain ⟨t, xs, rfl, ht⟩ := h.1
    exact ⟨t, _, rfl, ht⟩
  obtain ⟨l', hle, hls⟩ := h.2 (.k kw :: (us ++ r)) (by simp [endsExpr, hl, hs])
  obtain ⟨e', he, hes⟩ := hr np r l' hnp hlv hrr hle
  refine ⟨e', he, fun q hq a r' hloop => ?_⟩
  norml
  refine hls q (by omega) a r' (Loops.more (l' := r) (exprStep_infix hnp (by omega) hes) (by simp; omega) hloop)

theorem expr_left {p lv sl sr : Nat} {kw : Kw} {op : Op} {ts us : List Token} {l r : Expr}
    (hk : leftOp kw = some op) (hl : infixLevel kw = some lv) (hp : p < lv)
    (h : ExprOK toks (lv - 1) sl ts l) (hs : lv ≤ sl) (h' : ExprOK toks lv sr us r) :
    ExprOK toks p (min lv sr) (ts ++ .k kw :: us) (bare (.binary op l r)) := by
  refine ExprOK.infix h hl hs hp (by omega) fun np rr l' hnp hlv hr hle => ?_
  obtain ⟨r', hre, hrs⟩ := h'.run (q := np) (r := rr) (by omega) (endsExpr_mono hr (by omega))
    (endsExpr_mono hr (by omega))
  refine ⟨.mk (.binary op l' r') (mkSpan l'.span.start r'.span.stop), by simp [Expr.erase, ExprK.erase, hle, hre], ?_⟩
  have hb : kw.binaryOp = some op ∧ kw.associativity = some .left ∧ kw ≠ .QuestionMark ∧ kw ≠ .InstanceOf := by
    clear hl hnp
    revert hk
    cases kw <;> simp [leftOp, Kw.binaryOp, Kw.associativity]
  rw [if_neg hb.2.2.1, if_neg hb.2.2.2]
  unfold parseBinaryRest
  rw [hb.1, hb.2.1]
  dsimp only
  stepc hrs
  exact Step.pure

theorem expr_pow {p sl sr : Nat} {ts us : List Token} {l r : Expr} (hp : p < 15)
    (h : ExprOK toks 15 sl ts l) (hs : 15 ≤ sl) (h' : ExprOK toks 14 sr us r) :
    ExprOK toks p (min 14 sr) (ts ++ .k .Pow :: us) (bare (.binary .Pow l r)) := by
  refine ExprOK.infix (lv := 15) h rfl hs hp (by omega) fun np rr l' hnp hlv hr hle => ?_
  obtain ⟨r', hre, hrs⟩ := h'.run (q := .Mul) (r := rr) (Nat.le_refl _) (endsExpr_mono hr (by omega))
    (endsExpr_mono hr (Nat.min_le_left _ _))
  refine ⟨.mk (.binary .Pow l' r') (mkSpan l'.span.start r'.span.stop), by simp [Expr.erase, ExprK.erase, hle, hre], ?_⟩
  cases hnp
  rw [if_neg (by decide), if_neg (by decide)]
  unfold parseBinaryRest
  dsimp only [Kw.binaryOp, Kw.associativity, Prec.toNat, Prec.fromNat?]
  exact Step.bind hrs Step.pure

theorem expr_ternary {p sc sm se : Nat} {ts us vs : List Token} {c m e : Expr} (hp : p < 4)
    (h : ExprOK toks 3 sc ts c) (hs : 4 ≤ sc) (h' : ExprOK toks 4 sm us m) (h'' : ExprOK toks 4 se vs e) :
    ExprOK toks p (min 4 se) (ts ++ .k .QuestionMark :: (us ++ .k .Colon :: vs)) (bare (.ternary c (some m) e)) := by
  refine ExprOK.infix (lv := 4) h rfl hs hp (by omega) fun np rr l' hnp hlv hr hle => ?_
  cases hnp
  obtain ⟨m', hme, hms⟩ := h'.run (q := .Conditional) (r := .k .Colon :: (vs ++ rr)) (Nat.le_refl _) rfl rfl
  obtain ⟨r', hre, hrs⟩ := h''.run (q := .Conditional) (r := rr) (Nat.le_refl _) (endsExpr_mono hr (by omega))
    (endsExpr_mono hr (Nat.min_le_left _ _))
  refine ⟨.mk (.ternary l' (some m') r') (mkSpan l'.span.start r'.span.stop),
    by simp [Expr.erase, ExprK.erase, eraseOpt, hle, hme, hre], ?_⟩
  norml
  rw [if_pos trivial]
  unfold parseTernary
  refine Step.bind (a := some m') (l' := .k .Colon :: (vs ++ rr)) ?_ ?_
  · unfold parseOptExpression
    stepc hms.attempt
    exact Step.pure
  stepc expect_hit
  stepc hrs
  exact Step.pure

theorem expr_elvis {p sc se : Nat} {ts vs : List Token} {c e : Expr} (hp : p < 4)
    (h : ExprOK toks 3 sc ts c) (hs : 4 ≤ sc) (h'' : ExprOK toks 4 se vs e) :
    ExprOK toks p (min 4 se) (ts ++ .k .QuestionMark :: .k .Colon :: vs) (bare (.ternary c none e)) := by
  refine ExprOK.infix (lv := 4) h rfl hs hp (by omega) fun np rr l' hnp hlv hr hle => ?_
  cases hnp
  obtain ⟨r', hre, hrs⟩ := h''.run (q := .Conditional) (r := rr) (Nat.le_refl _) (endsExpr_mono hr (by omega))
    (endsExpr_mono hr (Nat.min_le_left _ _))
  refine ⟨.mk (.ternary l' none r') (mkSpan l'.span.start r'.span.stop),
    by simp [Expr.erase, ExprK.erase, eraseOpt, hle, hre], ?_⟩
  norml
  rw [if_pos trivial]
  unfold parseTernary
  stepc (optExpression_none (.inr ⟨_, _, rfl, rfl⟩))
  stepc expect_hit
  stepc hrs
  exact Step.pure

theorem expr_instance {p sl : Nat} {ts us : List Token} {l r : Expr} (hp : p < 16) (h : ExprOK toks 16 sl ts l)
    (hs : 16 ≤ sl) (hi : isInstance l = false) (h' : CrefOK toks us r) :
    ExprOK toks p prefixLevel (ts ++ .k .InstanceOf :: us) (bare (.instanceOf l r)) := by
  refine ExprOK.infix (lv := 16) h rfl hs hp (by omega) fun np rr l' hnp hlv hr hle => ?_
  obtain ⟨r', hre, hrs⟩ := h' rr (by nokw) (EndsApps.of_endsVar (endsVar_of_endsExpr hr))
  refine ⟨.mk (.instanceOf l' r') (mkSpan l'.span.start r'.span.stop),
    by simp [Expr.erase, ExprK.erase, hle, hre], ?_⟩
  rw [if_neg (by decide), if_pos rfl]
  unfold parseInstanceOf
  have : l'.isInstanceOf = false := by
    subst hle
    obtain ⟨k, sp⟩ := l'
    cases k <;> first | rfl | (simp [Expr.erase, ExprK.erase, isInstance] at hi)
  rw [this]
  try dsimp only [Bool.false_eq_true, ↓reduceIte]
  stepc hrs
  exact Step.pure

end Pico
