import Verif.Lemmas.GramBase
/-!
# Where no expression and no statement starts
-/
namespace Pico
open P

variable {toks : List TokSpan}

/-- Tokens at which neither an expression nor a statement starts. -/
def stopKw (k : Kw) : Bool := closesExpr k || k == .Case || k == .Default

/-- Nothing starts here. -/
def Stops (l : List Token) : Prop := l = [] ∨ ∃ k l', l = .k k :: l' ∧ stopKw k = true

theorem Stops.noKw {l : List Token} {k : Kw} (h : Stops l) (hk : stopKw k = false) : NoKw k l := by
  rcases h with rfl | ⟨k', l', rfl, h⟩
  · simp [NoKw]
  · intro he
    simp at he
    subst he
    rw [h] at hk
    cases hk

theorem Stops.noString {l : List Token} (h : Stops l) : ∀ s, l.head? ≠ some (.string s) := by
  rcases h with rfl | ⟨k', l', rfl, h⟩ <;> simp

theorem Stops.noVariable {l : List Token} (h : Stops l) : ∀ s, l.head? ≠ some (.variable s) := by
  rcases h with rfl | ⟨k', l', rfl, h⟩ <;> simp

theorem Stops.noEncaps {l : List Token} (h : Stops l) : ∀ s, l.head? ≠ some (.encaps s) := by
  rcases h with rfl | ⟨k', l', rfl, h⟩ <;> simp

theorem Stops.noName {l : List Token} (h : Stops l) : NoName l := ⟨h.noKw rfl, h.noString⟩
theorem Stops.noVar {l : List Token} (h : Stops l) : NoVar l := ⟨h.noKw rfl, h.noVariable⟩
theorem Stops.noDeref {l : List Token} (h : Stops l) : NoDeref l := ⟨h.noKw rfl, h.noKw rfl, h.noEncaps⟩

theorem infixLevel_pos {k : Kw} {lv : Nat} (h : infixLevel k = some lv) : 1 ≤ lv ∧ lv ≤ 16 := by
  unfold infixLevel at h
  split at h <;> first | (cases h; omega) | simp at h

theorem endsExpr_zero {r : List Token} (h : endsExpr 0 r = true) : Stops r := by
  unfold endsExpr at h
  split at h
  · exact .inl rfl
  · rename_i k l
    refine .inr ⟨k, l, rfl, ?_⟩
    simp only [Bool.or_eq_true] at h
    rcases h with h | h
    · simp [stopKw, h]
    · cases hi : infixLevel k with
      | none => rw [hi] at h; cases h
      | some lv =>
        rw [hi] at h
        have := infixLevel_pos hi
        simp at h
        omega
  · cases h

theorem variable_stops {R : Rec} {l : List Token} (h : Stops l) : Fails toks (parseVariable R false none) l l :=
  variable_fails (variableBase_fails (constScoped_none h.noName (h.noKw rfl)) (fnCall_none h.noName)
    (baseVariable_fails (h.noKw rfl) h.noVar h.noDeref))

theorem scalar_stops {R : Rec} {k : Kw} {l : List Token} (h : stopKw k = true) :
    Fails toks (parseScalar R) (.k k :: l) (.k k :: l) := by
  have hs : Stops (.k k :: l) := .inr ⟨k, l, rfl, h⟩
  refine Fails.with fun ht => ?_
  unfold parseScalar
  failc peek_step
  failc getPos_step
  failc setPos_next
  have hend : Fails toks (do
      P.setPos (posOf toks (.k k :: l))
      match ← attempt (parseDereferencableScalar R) with
      | .ok e => return e
      | .error _ => parseConstant : P Expr) l (.k k :: l) := by
    failc (rewind_step ht)
    failc (deref_fails hs.noDeref).attempt
    unfold parseConstant
    exact Fails.bind_left (parseClassName_fails hs.noName (hs.noKw rfl))
  split
  case h_1 => rename_i heq; cases heq
  case h_2 => rename_i heq; cases heq
  case h_12 => exact hend
  all_goals (rename_i heq; cases heq; cases h)

theorem otherExpression_stops {R : Rec} {k : Kw} {l : List Token} (h : stopKw k = true) :
    Fails toks (parseOtherExpression R) (.k k :: l) (.k k :: l) := by
  have hs : Stops (.k k :: l) := .inr ⟨k, l, rfl, h⟩
  have hne : ∀ k', stopKw k' = false → k ≠ k' := by rintro k' hk rfl; rw [h] at hk; cases hk
  have hi : ∀ sp, parseInternal R k sp = none := by
    intro sp
    unfold parseInternal
    rw [if_neg (hne _ rfl), if_neg (hne _ rfl), if_neg (hne _ rfl)]
    have h1 : k.castTy = none := by cases k <;> first | rfl | cases h
    have h2 : k.includeTy = none := by cases k <;> first | rfl | cases h
    rw [h1, h2]
  unfold parseOtherExpression
  failc peek_step
  failc getPos_step
  rw [if_neg (hne _ rfl), if_neg (hne _ rfl), if_neg (hne _ rfl), if_neg (hne _ rfl), if_neg (hne _ rfl), hi]
  dsimp only
  unfold parseVariableOrScalar
  failc (variable_stops hs).attempt
  failc (eat_miss (hs.noKw rfl))
  unfold parseNonVariable
  failc (eat_miss (hs.noKw rfl))
  failc (scalar_stops h).attempt
  exact Fails.unpack

theorem expression_stops {q : Prec} {l : List Token} (h : Stops l) : Fails toks (theRec.expr q) l l := by
  rw [theRec_expr]
  unfold parseExpression
  refine Fails.bind_left ?_
  unfold parseOperand
  rcases h with rfl | ⟨k, l, rfl, h⟩
  · failc peek_nil
    exact Fails.errHere
  · failc peek_step
    have : (Token.k k).kw?.bind Kw.prefixOp = none := by
      show k.prefixOp = none
      cases k <;> first | rfl | cases h
    rw [this]
    dsimp only
    unfold parsePostfixExpression
    exact Fails.bind_left (otherExpression_stops h)

theorem optExpression_none {r : List Token} (h : Stops r) {q : Prec} :
    Step toks (parseOptExpression theRec q) r none r := by
  unfold parseOptExpression
  stepc (expression_stops h).attempt
  exact Step.pure

theorem classModifiers_none {l : List Token} (h1 : NoKw .Abstract l) (h2 : NoKw .Final l) :
    Step toks parseClassModifiers l [] l := by
  unfold parseClassModifiers
  refine Loops.loop (Loops.done ?_)
  stepc (eats_miss h1)
  stepc (eats_miss h2)
  exact Step.pure

theorem ooDeclaration_fails {R : Rec} {l : List Token} (h1 : NoKw .Trait l) (h2 : NoKw .Interface l)
    (h3 : NoKw .Abstract l) (h4 : NoKw .Final l) (h5 : NoKw .Class l) :
    Fails toks (parseOoDeclaration R) l l := by
  unfold parseOoDeclaration
  failc (eats_miss h1)
  failc (eats_miss h2)
  failc (classModifiers_none h3 h4)
  exact Fails.bind_left (expect_miss h5)

theorem statement_stops {k : Kw} {l : List Token} (h : stopKw k = true) (hs : k ≠ .SemiColon) :
    Fails toks theRec.stmt (.k k :: l) (.k k :: l) := by
  have hS : Stops (.k k :: l) := .inr ⟨k, l, rfl, h⟩
  have hne : ∀ k', stopKw k' = false → k ≠ k' := by rintro k' hk rfl; rw [h] at hk; cases hk
  rw [theRec_stmt]
  unfold parseStatement
  failc peek_step
  failc getPos_step
  rw [if_neg hs, if_neg (hne _ rfl), if_neg (hne _ rfl), if_neg (hne _ rfl), if_neg (hne _ rfl),
    if_neg (hne _ rfl), if_neg (hne _ rfl), if_neg (hne _ rfl), if_neg (hne _ rfl), if_neg (hne _ rfl),
    if_neg (hne _ rfl), if_neg (hne _ rfl), if_neg (hne _ rfl)]
  unfold parseOtherStmt
  failc (ooDeclaration_fails (hS.noKw rfl) (hS.noKw rfl) (hS.noKw rfl) (hS.noKw rfl) (hS.noKw rfl)).attempt
  failc peek_step
  have : ∀ sp, simpleStmt theRec ⟨.k k, sp⟩ = none := by
    intro sp
    cases k <;> first | rfl | cases h
  rw [this]
  dsimp only
  failc getPos_step
  unfold parseExprStmt
  failc (expression_stops hS).attempt
  exact Fails.unpack

end Pico
