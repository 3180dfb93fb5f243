import Verif.Lemmas.ParserRelExpr

/-!
# Functions, assignments, operators: parsing does not look at positions
-/

namespace Pico
open P

variable [Lo]

theorem parseTypeHint_rel : PRel Eq parseTypeHint parseTypeHint := by
  unfold parseTypeHint
  refine PRel.bind PRel.eats ?_
  relv
  refine PRel.bind PRel.eats ?_
  relv
  refine PRel.ite (PRel.pure rfl) ?_
  refine PRel.bind PRel.eats ?_
  relv
  refine PRel.ite (PRel.pure rfl) ?_
  refine PRel.bind (PRel.attempt parseName_rel) ?_
  intro x y hxy
  cases hxy with
  | error e => rel
  | ok h => cases h; rel

theorem parseUseVars_rel : PRel Eq parseUseVars parseUseVars := by
  unfold parseUseVars
  refine PRel.bind PRel.eats ?_
  relv
  refine PRel.ite ?_ (PRel.pure rfl)
  refine PRel.bind PRel.expect ?_
  relv
  refine PRel.bind (R := Eq) (PRel.loop (T := Eq) ?_ rfl) ?_
  · rel
  · rel

theorem expectOr_rel {k : Kw} {err : Option PErr} (hk : k ≠ .Echo := by decide) : PRel KRel (expectOr k err) (expectOr k err) := by
  unfold expectOr
  refine PRel.bind (PRel.eat hk) ?_
  relv
  · cases err <;> rel
  · rel

macro_rules | `(tactic| rel_call) => `(tactic| first
  | with_reducible exact parseTypeHint_rel
  | with_reducible exact parseUseVars_rel
  | with_reducible exact expectOr_rel)

section
variable {r : Rec} (hr : RecRel r)
include hr

theorem parseDefault_rel : PRel (ExcRel (Alike eraseOpt)) (parseDefault r) (parseDefault r) := by
  unfold parseDefault
  rel

theorem parseParameterList_rel :
    PRel (PairRel (Alike eraseParams) Eq) (parseParameterList r) (parseParameterList r) := by
  have hd := parseDefault_rel hr
  unfold parseParameterList
  refine PRel.loop (T := Alike eraseParams) ?_ ⟨rfl⟩
  relv
  refine PRel.bind parseTypeHint_rel ?_
  intro x y hxy
  cases hxy
  cases x with
  | error e => rel
  | ok ty =>
    dsimp only
    refine PRel.bind PRel.eats ?_
    relv
    refine PRel.bind PRel.eats ?_
    relv
    refine PRel.bind PRel.eatVariable ?_
    relv
    · rel
    · refine PRel.bind hd ?_
      rel

theorem parseInnerStatementList_rel :
    PRel (PairRel (Alike eraseStmts) Eq) (parseInnerStatementList r) (parseInnerStatementList r) := by
  unfold parseInnerStatementList
  refine PRel.bind PRel.tokCount ?_
  relv
  refine PRel.bind PRel.subP ?_
  relv
  refine PRel.loop (T := Alike eraseStmts) ?_ ⟨rfl⟩
  rel

theorem parseBraced_rel : PRel (Alike eraseStmts) (parseBraced r) (parseBraced r) := by
  have hi := parseInnerStatementList_rel hr
  unfold parseBraced
  refine PRel.bind PRel.expect ?_
  relv
  refine PRel.bind hi ?_
  rel

/-- The same function up to positions. -/
theorem parseFunctionTail_rel (c a b : Bool) :
    PRel (PairRel (Alike FnDecl.erase) Anyhow) (parseFunctionTail r c a b) (parseFunctionTail r c a b) := by
  have hp := parseParameterList_rel hr
  have hb := parseBraced_rel hr
  unfold parseFunctionTail
  refine PRel.bind PRel.expect ?_
  relv
  refine PRel.bind hp ?_
  relv
  rename_i e _
  refine PRel.bind PRel.eat ?_
  relv
  · cases e <;> rel
  · refine PRel.bind (R := Eq) (by rel) ?_
    relv
    refine PRel.bind (R := Eq) (by rel) ?_
    relv
    refine PRel.bind (R := Alike eraseBody) ?_ ?_
    · refine PRel.ite (PRel.pure ⟨rfl⟩) ?_
      refine PRel.bind hb ?_
      rel
    · rel

inductive NamedRel : Text × FnDecl × Span → Text × FnDecl × Span → Prop
  | mk (n : Text) {f f' : FnDecl} {sp sp' : Span} (h : f.erase = f'.erase) : NamedRel (n, f, sp) (n, f', sp')

theorem parseFunctionNamed_rel (sp sp' : Span) (a : Bool) :
    PRel NamedRel (parseFunctionNamed r sp a) (parseFunctionNamed r sp' a) := by
  unfold parseFunctionNamed
  refine PRel.bind PRel.eats ?_
  relv
  refine PRel.bind PRel.expectString ?_
  relv
  refine PRel.bind (parseFunctionTail_rel hr _ _ _) ?_
  relv
  exact PRel.pure (.mk _ (by assumption))

theorem parseClosure_rel (sp sp' : Span) : PRel EEq (parseClosure r sp) (parseClosure r sp') := by
  unfold parseClosure
  refine PRel.bind PRel.eats ?_
  relv
  refine PRel.bind (parseFunctionTail_rel hr _ _ _) ?_
  rel

theorem parseNew_rel (t t' : TokSpan) : PRel EEq (parseNew r t) (parseNew r t') := by
  unfold parseNew
  refine PRel.bind (parseClassNameReference_rel hr) ?_
  relv
  refine PRel.bind (R := Alike eraseExprs) (by rel) ?_
  rel

theorem parseExit_rel (t t' : TokSpan) : PRel EEq (parseExit r t) (parseExit r t') := by
  unfold parseExit
  rel

theorem parseYield_rel (t t' : TokSpan) : PRel EEq (parseYield r t) (parseYield r t') := by
  unfold parseYield
  rel

theorem parseIsset_rel (t t' : Span) : PRel EEq (parseIsset r t) (parseIsset r t') := by
  unfold parseIsset
  rel

theorem parseEmpty_rel (t t' : Span) : PRel EEq (parseEmpty r t) (parseEmpty r t') := by
  unfold parseEmpty
  rel

theorem parseInternal_rel (k : Kw) (sp sp' : Span) :
    OptRel (PRel EEq) (parseInternal r k sp) (parseInternal r k sp') := by
  unfold parseInternal
  split
  · exact .some PRel.abort
  split
  · exact .some (parseIsset_rel hr _ _)
  split
  · exact .some (parseEmpty_rel hr _ _)
  cases k.castTy with
  | some ty => exact .some (by rel)
  | none =>
    cases k.includeTy with
    | some ty => exact .some (by rel)
    | none => exact .none

theorem parseListTarget_rel (t t' : TokSpan) : PRel EEq (parseListTarget r t) (parseListTarget r t') := by
  have := parseArrayPairList_rel hr
  unfold parseListTarget
  refine PRel.bind PRel.expect ?_
  relv
  refine PRel.bind this ?_
  rel

omit hr in
theorem assignKind_erase (op : Op) (b : Bool) (l r : Expr) :
    (assignKind op b l r).erase = assignKind op b l.erase r.erase := by
  unfold assignKind
  split <;> rfl

theorem parseAssign_rel {t t' : Expr} (h : t.erase = t'.erase) : PRel EEq (parseAssign r t) (parseAssign r t') := by
  unfold parseAssign
  refine PRel.bind PRel.peekTok ?_
  intro x y hxy
  cases hxy
  dsimp only
  cases (x.bind fun t => t.kw?.bind Kw.assignOp) with
  | none => rel
  | some op =>
    dsimp only
    refine PRel.bind PRel.getPos ?_
    relv
    refine PRel.bind (PRel.setPos (by omega)) ?_
    relv
    refine PRel.bind (R := Eq) (by rel) ?_
    relv
    refine PRel.bind hr.expr ?_
    relv
    refine PRel.bind PRel.lastEnd ?_
    relv
    refine PRel.pure ⟨?_⟩
    simp only [Expr.erase, assignKind_erase, *]

theorem parseNonVariable_rel (e : PErr) : PRel EEq (parseNonVariable r e) (parseNonVariable r e) := by
  have := parseScalar_rel hr
  unfold parseNonVariable
  refine PRel.bind PRel.eat ?_
  relv
  · refine PRel.bind (PRel.attempt this) ?_
    rel
  · rel

theorem parseVariableOrScalar_rel : PRel EEq (parseVariableOrScalar r) (parseVariableOrScalar r) := by
  unfold parseVariableOrScalar
  refine PRel.bind (PRel.attempt (parseVariable_rel hr false .none)) ?_
  intro x y hxy
  cases hxy with
  | ok h => exact parseAssign_rel hr h.eq
  | error e =>
    refine PRel.bind PRel.eat ?_
    relv
    · exact parseNonVariable_rel hr e
    · refine PRel.bind (parseListTarget_rel hr _ _) ?_
      relv
      exact parseAssign_rel hr (by assumption)

theorem parseOtherExpression_rel : PRel EEq (parseOtherExpression r) (parseOtherExpression r) := by
  unfold parseOtherExpression
  have h0 := parseVariableOrScalar_rel hr
  refine PRel.bind PRel.peek ?_
  intro x y hxy
  cases hxy with
  | none => exact h0
  | some h =>
    cases h with
    | mk tok l l' =>
      cases tok with
      | k k =>
        dsimp only
        refine PRel.bind PRel.getPos ?_
        intro _ _ hp
        obtain ⟨rfl, hp⟩ := hp
        refine PRel.ite (PRel.bind (PRel.setPos (by omega)) fun _ _ _ => parseNew_rel hr _ _) ?_
        refine PRel.ite ?_ ?_
        · rel
        refine PRel.ite (PRel.bind (PRel.setPos (by omega)) fun _ _ _ => parseExit_rel hr _ _) ?_
        refine PRel.ite (PRel.bind (PRel.setPos (by omega)) fun _ _ _ => parseYield_rel hr _ _) ?_
        refine PRel.ite (PRel.bind (PRel.setPos (by omega)) fun _ _ _ => parseClosure_rel hr _ _) ?_
        have := parseInternal_rel hr k
        rename_i sp sp' _
        have := this sp sp'
        revert this
        generalize parseInternal r k sp = a
        generalize parseInternal r k sp' = b
        intro h
        cases h with
        | none => exact h0
        | some h => exact PRel.bind (PRel.setPos (by omega)) fun _ _ _ => h
      | _ => exact h0

theorem parsePostfixExpression_rel : PRel EEq (parsePostfixExpression r) (parsePostfixExpression r) := by
  unfold parsePostfixExpression
  refine PRel.bind (parseOtherExpression_rel hr) ?_
  rel

theorem parseTernary_rel {l l' : Expr} (h : l.erase = l'.erase) (p : Prec) :
    PRel EEq (parseTernary r l p) (parseTernary r l' p) := by
  unfold parseTernary
  rel

omit hr in
theorem isInstanceOf_erase (e : Expr) : e.erase.isInstanceOf = e.isInstanceOf := by
  obtain ⟨k, sp⟩ := e
  cases k <;> rfl

theorem parseInstanceOf_rel {l l' : Expr} (h : l.erase = l'.erase) :
    PRel EEq (parseInstanceOf r l) (parseInstanceOf r l') := by
  unfold parseInstanceOf
  rw [← isInstanceOf_erase l, ← isInstanceOf_erase l', h]
  refine PRel.ite PRel.abort ?_
  refine PRel.bind (parseClassNameReference_rel hr) ?_
  rel

theorem parseBinaryRest_rel {l l' : Expr} (h : l.erase = l'.erase) (k : Kw) (p : Prec) :
    PRel EEq (parseBinaryRest r l k p) (parseBinaryRest r l' k p) := by
  unfold parseBinaryRest
  cases k.binaryOp with
  | none => exact PRel.abort
  | some op =>
    cases k.associativity with
    | none => exact PRel.abort
    | some a =>
      cases a with
      | left => rel
      | right =>
        dsimp only
        cases Prec.fromNat? (p.toNat - 1) with
        | none => exact PRel.abort
        | some np => rel

theorem parseBinaryExpression_rel {l l' : Expr} (h : l.erase = l'.erase) (p : Prec) :
    PRel (OptRel EEq) (parseBinaryExpression r l p) (parseBinaryExpression r l' p) := by
  unfold parseBinaryExpression
  refine PRel.bind PRel.peekTok ?_
  intro x y hxy
  cases hxy
  dsimp only
  cases x.bind Token.kw? with
  | none => rel
  | some k =>
    dsimp only
    cases k.precedence with
    | none => rel
    | some np =>
      dsimp only
      refine PRel.ite (PRel.pure .none) ?_
      refine PRel.bind PRel.getPos ?_
      relv
      refine PRel.bind (PRel.setPos (by omega)) ?_
      relv
      refine PRel.bind (R := EEq) ?_ ?_
      · exact PRel.ite (parseTernary_rel hr h _) (PRel.ite (parseInstanceOf_rel hr h) (parseBinaryRest_rel hr h _ _))
      · rel

theorem parseOperand_rel : PRel EEq (parseOperand r) (parseOperand r) := by
  unfold parseOperand
  refine PRel.bind PRel.peek ?_
  relv
  · rel
  · rename_i tok _ _ _ _
    cases tok.kw?.bind Kw.prefixOp with
    | none => exact parsePostfixExpression_rel hr
    | some op => rel

theorem parseExpression_rel (p : Prec) : PRel EEq (parseExpression r p) (parseExpression r p) := by
  unfold parseExpression
  refine PRel.bind (parseOperand_rel hr) ?_
  intro x y hxy
  refine PRel.loop (T := EEq) ?_ hxy
  intro x y hxy
  refine PRel.bind (PRel.attempt (parseBinaryExpression_rel hr hxy.eq p)) ?_
  rel

end

end Pico
