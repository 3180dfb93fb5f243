import Verif.Model.Api
/-!
# More fuel never changes a result

`PLe m m'`: whenever `m` does not run out of fuel, `m'` gives the same result.
-/
namespace Pico
open P

section
variable {α β σ : Type}

def PLe (m m' : P α) : Prop := ∀ toks pos, m toks pos = .oof ∨ m toks pos = m' toks pos

def RLe (r r' : Rec) : Prop := (∀ prec, PLe (r.expr prec) (r'.expr prec)) ∧ PLe r.stmt r'.stmt

theorem PLe.refl (m : P α) : PLe m m := fun _ _ => .inr rfl

theorem PLe.bind {m m' : P α} {f f' : α → P β} (h : PLe m m') (hf : ∀ a, PLe (f a) (f' a)) :
    PLe (m >>= f) (m' >>= f') := by
  intro toks pos
  show P.bnd m f toks pos = .oof ∨ P.bnd m f toks pos = P.bnd m' f' toks pos
  unfold P.bnd
  rcases h toks pos with h | h
  · rw [h]; exact .inl rfl
  · rw [← h]
    cases m toks pos with
    | ok a p => exact hf a toks p
    | err e p => exact .inr rfl
    | panic p => exact .inr rfl
    | oof => exact .inl rfl

theorem PLe.attempt {m m' : P α} (h : PLe m m') : PLe (P.attempt m) (P.attempt m') := by
  intro toks pos
  unfold P.attempt
  rcases h toks pos with h | h
  · rw [h]; exact .inl rfl
  · rw [← h]; exact .inr rfl

theorem PLe.loop {f f' : σ → P (σ ⊕ α)} {s : σ} (h : ∀ s, PLe (f s) (f' s)) :
    PLe (P.loop f s) (P.loop f' s) := by
  have key : ∀ n s, PLe (P.loopN f n s) (P.loopN f' n s) := by
    intro n
    induction n with
    | zero => intro s; exact PLe.refl _
    | succ n ih =>
      intro s
      refine PLe.bind (h s) ?_
      intro x
      cases x with
      | inl s' => exact ih s'
      | inr a => exact PLe.refl _
  intro toks pos
  exact key _ s toks pos

theorem PLe.ite {c : Prop} [Decidable c] {m m' n n' : P α} (h : PLe m m') (h' : PLe n n') :
    PLe (if c then m else n) (if c then m' else n') := by
  by_cases hc : c
  · rw [if_pos hc, if_pos hc]; exact h
  · rw [if_neg hc, if_neg hc]; exact h'

end

syntax "mono_call" : tactic
syntax "mono1" : tactic
macro_rules | `(tactic| mono1) => `(tactic| first
  | with_reducible exact PLe.refl _
  | with_reducible refine PLe.bind ?_ ?_
  | with_reducible refine PLe.attempt ?_
  | with_reducible refine PLe.loop ?_
  | with_reducible refine PLe.ite ?_ ?_
  | with_reducible intro _
  | mono_call
  | dsimp only
  | split)
/-- Compare two runs of the same method. -/
macro "mono" : tactic => `(tactic| repeat' mono1)

theorem RLe.expr {r r' : Rec} (h : RLe r r') {prec : Prec} : PLe (r.expr prec) (r'.expr prec) := h.1 prec
theorem RLe.stmt {r r' : Rec} (h : RLe r r') : PLe r.stmt r'.stmt := h.2
macro_rules | `(tactic| mono_call) => `(tactic| with_reducible exact RLe.expr (by assumption))
macro_rules | `(tactic| mono_call) => `(tactic| with_reducible exact RLe.stmt (by assumption))

variable {r r' : Rec}

theorem parseOptExpression_mono {prec : Prec} (h : RLe r r') :
    PLe (parseOptExpression r prec) (parseOptExpression r' prec) := by
  unfold parseOptExpression
  mono
macro_rules | `(tactic| mono_call) => `(tactic| with_reducible exact parseOptExpression_mono (by assumption))

theorem parseExpressionList_mono (h : RLe r r') :
    PLe (parseExpressionList r) (parseExpressionList r') := by
  unfold parseExpressionList
  mono
macro_rules | `(tactic| mono_call) => `(tactic| with_reducible exact parseExpressionList_mono (by assumption))

theorem parseArgumentList_mono (h : RLe r r') :
    PLe (parseArgumentList r) (parseArgumentList r') := by
  unfold parseArgumentList
  mono
macro_rules | `(tactic| mono_call) => `(tactic| with_reducible exact parseArgumentList_mono (by assumption))

theorem parsePropertyName_mono (h : RLe r r') :
    PLe (parsePropertyName r) (parsePropertyName r') := by
  unfold parsePropertyName
  mono
macro_rules | `(tactic| mono_call) => `(tactic| with_reducible exact parsePropertyName_mono (by assumption))

theorem parseArrayPairList_mono (h : RLe r r') :
    PLe (parseArrayPairList r) (parseArrayPairList r') := by
  unfold parseArrayPairList
  mono
macro_rules | `(tactic| mono_call) => `(tactic| with_reducible exact parseArrayPairList_mono (by assumption))

theorem parseDereferencableScalar_mono (h : RLe r r') :
    PLe (parseDereferencableScalar r) (parseDereferencableScalar r') := by
  unfold parseDereferencableScalar
  mono
macro_rules | `(tactic| mono_call) => `(tactic| with_reducible exact parseDereferencableScalar_mono (by assumption))

theorem parseBaseVariable_mono {simpleOnly : Bool} (h : RLe r r') :
    PLe (parseBaseVariable r simpleOnly) (parseBaseVariable r' simpleOnly) := by
  unfold parseBaseVariable
  mono
macro_rules | `(tactic| mono_call) => `(tactic| with_reducible exact parseBaseVariable_mono (by assumption))

theorem parseVariableBase_mono {simpleOnly : Bool} (h : RLe r r') :
    PLe (parseVariableBase r simpleOnly) (parseVariableBase r' simpleOnly) := by
  unfold parseVariableBase
  mono
macro_rules | `(tactic| mono_call) => `(tactic| with_reducible exact parseVariableBase_mono (by assumption))

theorem appendixIndex_mono {e : Expr} (h : RLe r r') :
    PLe (appendixIndex r e) (appendixIndex r' e) := by
  unfold appendixIndex
  mono
macro_rules | `(tactic| mono_call) => `(tactic| with_reducible exact appendixIndex_mono (by assumption))

theorem appendixMember_mono {e : Expr} (h : RLe r r') :
    PLe (appendixMember r e) (appendixMember r' e) := by
  unfold appendixMember
  mono
macro_rules | `(tactic| mono_call) => `(tactic| with_reducible exact appendixMember_mono (by assumption))

theorem appendixCall_mono {simpleOnly : Bool} {e : Expr} (h : RLe r r') :
    PLe (appendixCall r simpleOnly e) (appendixCall r' simpleOnly e) := by
  unfold appendixCall
  mono
macro_rules | `(tactic| mono_call) => `(tactic| with_reducible exact appendixCall_mono (by assumption))

theorem appendixStep_mono {simpleOnly : Bool} {e : Expr} (h : RLe r r') :
    PLe (appendixStep r simpleOnly e) (appendixStep r' simpleOnly e) := by
  unfold appendixStep
  mono
macro_rules | `(tactic| mono_call) => `(tactic| with_reducible exact appendixStep_mono (by assumption))

theorem parseVariable_mono {simpleOnly : Bool} {base : Option Expr} (h : RLe r r') :
    PLe (parseVariable r simpleOnly base) (parseVariable r' simpleOnly base) := by
  unfold parseVariable
  mono
macro_rules | `(tactic| mono_call) => `(tactic| with_reducible exact parseVariable_mono (by assumption))

theorem parseClassNameReference_mono (h : RLe r r') :
    PLe (parseClassNameReference r) (parseClassNameReference r') := by
  unfold parseClassNameReference
  mono
macro_rules | `(tactic| mono_call) => `(tactic| with_reducible exact parseClassNameReference_mono (by assumption))

theorem encapsDollar_mono {s : Encaps} {t : TokSpan} (h : RLe r r') :
    PLe (encapsDollar r s t) (encapsDollar r' s t) := by
  unfold encapsDollar
  mono
macro_rules | `(tactic| mono_call) => `(tactic| with_reducible exact encapsDollar_mono (by assumption))

theorem encapsStep_mono {s : Encaps} (h : RLe r r') :
    PLe (encapsStep r s) (encapsStep r' s) := by
  unfold encapsStep
  mono
macro_rules | `(tactic| mono_call) => `(tactic| with_reducible exact encapsStep_mono (by assumption))

theorem parseEncapsList_mono (h : RLe r r') :
    PLe (parseEncapsList r) (parseEncapsList r') := by
  unfold parseEncapsList
  mono
macro_rules | `(tactic| mono_call) => `(tactic| with_reducible exact parseEncapsList_mono (by assumption))

theorem parseScalar_mono (h : RLe r r') :
    PLe (parseScalar r) (parseScalar r') := by
  unfold parseScalar
  mono
macro_rules | `(tactic| mono_call) => `(tactic| with_reducible exact parseScalar_mono (by assumption))

theorem parseDefault_mono (h : RLe r r') :
    PLe (parseDefault r) (parseDefault r') := by
  unfold parseDefault
  mono
macro_rules | `(tactic| mono_call) => `(tactic| with_reducible exact parseDefault_mono (by assumption))

theorem parseParameterList_mono (h : RLe r r') :
    PLe (parseParameterList r) (parseParameterList r') := by
  unfold parseParameterList
  mono
macro_rules | `(tactic| mono_call) => `(tactic| with_reducible exact parseParameterList_mono (by assumption))

theorem parseInnerStatementList_mono (h : RLe r r') :
    PLe (parseInnerStatementList r) (parseInnerStatementList r') := by
  unfold parseInnerStatementList
  mono
macro_rules | `(tactic| mono_call) => `(tactic| with_reducible exact parseInnerStatementList_mono (by assumption))

theorem parseBraced_mono (h : RLe r r') :
    PLe (parseBraced r) (parseBraced r') := by
  unfold parseBraced
  mono
macro_rules | `(tactic| mono_call) => `(tactic| with_reducible exact parseBraced_mono (by assumption))

theorem parseFunctionTail_mono {closure allowAbstract returnsRef : Bool} (h : RLe r r') :
    PLe (parseFunctionTail r closure allowAbstract returnsRef) (parseFunctionTail r' closure allowAbstract returnsRef) := by
  unfold parseFunctionTail
  mono
macro_rules | `(tactic| mono_call) => `(tactic| with_reducible exact parseFunctionTail_mono (by assumption))

theorem parseFunctionNamed_mono {start : Span} {allowAbstract : Bool} (h : RLe r r') :
    PLe (parseFunctionNamed r start allowAbstract) (parseFunctionNamed r' start allowAbstract) := by
  unfold parseFunctionNamed
  mono
macro_rules | `(tactic| mono_call) => `(tactic| with_reducible exact parseFunctionNamed_mono (by assumption))

theorem parseClosure_mono {start : Span} (h : RLe r r') :
    PLe (parseClosure r start) (parseClosure r' start) := by
  unfold parseClosure
  mono
macro_rules | `(tactic| mono_call) => `(tactic| with_reducible exact parseClosure_mono (by assumption))

theorem parseNew_mono {t : TokSpan} (h : RLe r r') :
    PLe (parseNew r t) (parseNew r' t) := by
  unfold parseNew
  mono
macro_rules | `(tactic| mono_call) => `(tactic| with_reducible exact parseNew_mono (by assumption))

theorem parseExit_mono {t : TokSpan} (h : RLe r r') :
    PLe (parseExit r t) (parseExit r' t) := by
  unfold parseExit
  mono
macro_rules | `(tactic| mono_call) => `(tactic| with_reducible exact parseExit_mono (by assumption))

theorem parseYield_mono {t : TokSpan} (h : RLe r r') :
    PLe (parseYield r t) (parseYield r' t) := by
  unfold parseYield
  mono
macro_rules | `(tactic| mono_call) => `(tactic| with_reducible exact parseYield_mono (by assumption))

theorem parseIsset_mono {sp : Span} (h : RLe r r') :
    PLe (parseIsset r sp) (parseIsset r' sp) := by
  unfold parseIsset
  mono
macro_rules | `(tactic| mono_call) => `(tactic| with_reducible exact parseIsset_mono (by assumption))

theorem parseEmpty_mono {sp : Span} (h : RLe r r') :
    PLe (parseEmpty r sp) (parseEmpty r' sp) := by
  unfold parseEmpty
  mono
macro_rules | `(tactic| mono_call) => `(tactic| with_reducible exact parseEmpty_mono (by assumption))

theorem parseInternal_mono {k : Kw} {sp : Span} (h : RLe r r') :
    (parseInternal r k sp = none ∧ parseInternal r' k sp = none) ∨
    ∃ m m', parseInternal r k sp = some m ∧ parseInternal r' k sp = some m' ∧ PLe m m' := by
  unfold parseInternal
  split
  · exact .inr ⟨_, _, rfl, rfl, by mono⟩
  split
  · exact .inr ⟨_, _, rfl, rfl, by mono⟩
  split
  · exact .inr ⟨_, _, rfl, rfl, by mono⟩
  split
  · exact .inr ⟨_, _, rfl, rfl, by mono⟩
  split
  · exact .inr ⟨_, _, rfl, rfl, by mono⟩
  · exact .inl ⟨rfl, rfl⟩

theorem parseListTarget_mono {t : TokSpan} (h : RLe r r') :
    PLe (parseListTarget r t) (parseListTarget r' t) := by
  unfold parseListTarget
  mono
macro_rules | `(tactic| mono_call) => `(tactic| with_reducible exact parseListTarget_mono (by assumption))

theorem parseAssign_mono {target : Expr} (h : RLe r r') :
    PLe (parseAssign r target) (parseAssign r' target) := by
  unfold parseAssign
  mono
macro_rules | `(tactic| mono_call) => `(tactic| with_reducible exact parseAssign_mono (by assumption))

theorem parseNonVariable_mono {err : PErr} (h : RLe r r') :
    PLe (parseNonVariable r err) (parseNonVariable r' err) := by
  unfold parseNonVariable
  mono
macro_rules | `(tactic| mono_call) => `(tactic| with_reducible exact parseNonVariable_mono (by assumption))

theorem parseVariableOrScalar_mono (h : RLe r r') :
    PLe (parseVariableOrScalar r) (parseVariableOrScalar r') := by
  unfold parseVariableOrScalar
  mono
macro_rules | `(tactic| mono_call) => `(tactic| with_reducible exact parseVariableOrScalar_mono (by assumption))

theorem parseOtherExpression_mono (h : RLe r r') :
    PLe (parseOtherExpression r) (parseOtherExpression r') := by
  unfold parseOtherExpression
  refine PLe.bind (PLe.refl _) ?_
  intro o
  split
  · refine PLe.bind (PLe.refl _) ?_
    intro p
    rename_i k sp
    rcases parseInternal_mono (k := k) (sp := sp) h with ⟨h1, h2⟩ | ⟨m, m', h1, h2, hm⟩
    · simp only [h1, h2]; mono
    · simp only [h1, h2]; mono; exact hm
  · mono
macro_rules | `(tactic| mono_call) => `(tactic| with_reducible exact parseOtherExpression_mono (by assumption))

theorem parsePostfixExpression_mono (h : RLe r r') :
    PLe (parsePostfixExpression r) (parsePostfixExpression r') := by
  unfold parsePostfixExpression
  mono
macro_rules | `(tactic| mono_call) => `(tactic| with_reducible exact parsePostfixExpression_mono (by assumption))

theorem parseTernary_mono {left : Expr} {prec : Prec} (h : RLe r r') :
    PLe (parseTernary r left prec) (parseTernary r' left prec) := by
  unfold parseTernary
  mono
macro_rules | `(tactic| mono_call) => `(tactic| with_reducible exact parseTernary_mono (by assumption))

theorem parseInstanceOf_mono {left : Expr} (h : RLe r r') :
    PLe (parseInstanceOf r left) (parseInstanceOf r' left) := by
  unfold parseInstanceOf
  mono
macro_rules | `(tactic| mono_call) => `(tactic| with_reducible exact parseInstanceOf_mono (by assumption))

theorem parseBinaryRest_mono {left : Expr} {k : Kw} {prec : Prec} (h : RLe r r') :
    PLe (parseBinaryRest r left k prec) (parseBinaryRest r' left k prec) := by
  unfold parseBinaryRest
  mono
macro_rules | `(tactic| mono_call) => `(tactic| with_reducible exact parseBinaryRest_mono (by assumption))

theorem parseBinaryExpression_mono {left : Expr} {prec : Prec} (h : RLe r r') :
    PLe (parseBinaryExpression r left prec) (parseBinaryExpression r' left prec) := by
  unfold parseBinaryExpression
  mono
macro_rules | `(tactic| mono_call) => `(tactic| with_reducible exact parseBinaryExpression_mono (by assumption))

theorem parseOperand_mono (h : RLe r r') :
    PLe (parseOperand r) (parseOperand r') := by
  unfold parseOperand
  mono
macro_rules | `(tactic| mono_call) => `(tactic| with_reducible exact parseOperand_mono (by assumption))

theorem parseExpression_mono {prec : Prec} (h : RLe r r') :
    PLe (parseExpression r prec) (parseExpression r' prec) := by
  unfold parseExpression
  mono
macro_rules | `(tactic| mono_call) => `(tactic| with_reducible exact parseExpression_mono (by assumption))

theorem parseForeachVariable_mono (h : RLe r r') :
    PLe (parseForeachVariable r) (parseForeachVariable r') := by
  unfold parseForeachVariable
  mono
macro_rules | `(tactic| mono_call) => `(tactic| with_reducible exact parseForeachVariable_mono (by assumption))

theorem parseStatementExtractBlock_mono (h : RLe r r') :
    PLe (parseStatementExtractBlock r) (parseStatementExtractBlock r') := by
  unfold parseStatementExtractBlock
  mono
macro_rules | `(tactic| mono_call) => `(tactic| with_reducible exact parseStatementExtractBlock_mono (by assumption))

theorem parseStaticVarDecl_mono {start : Span} (h : RLe r r') :
    PLe (parseStaticVarDecl r start) (parseStaticVarDecl r' start) := by
  unfold parseStaticVarDecl
  mono
macro_rules | `(tactic| mono_call) => `(tactic| with_reducible exact parseStaticVarDecl_mono (by assumption))

theorem parseClassConsts_mono {ms : MemberModifiers} (h : RLe r r') :
    PLe (parseClassConsts r ms) (parseClassConsts r' ms) := by
  unfold parseClassConsts
  mono
macro_rules | `(tactic| mono_call) => `(tactic| with_reducible exact parseClassConsts_mono (by assumption))

theorem parseProperties_mono {ms : MemberModifiers} (h : RLe r r') :
    PLe (parseProperties r ms) (parseProperties r' ms) := by
  unfold parseProperties
  mono
macro_rules | `(tactic| mono_call) => `(tactic| with_reducible exact parseProperties_mono (by assumption))

theorem parseClassStatement_mono (h : RLe r r') :
    PLe (parseClassStatement r) (parseClassStatement r') := by
  unfold parseClassStatement
  mono
macro_rules | `(tactic| mono_call) => `(tactic| with_reducible exact parseClassStatement_mono (by assumption))

theorem parseClassStatementList_mono (h : RLe r r') :
    PLe (parseClassStatementList r) (parseClassStatementList r') := by
  unfold parseClassStatementList
  mono
macro_rules | `(tactic| mono_call) => `(tactic| with_reducible exact parseClassStatementList_mono (by assumption))

theorem parseMembers_mono (h : RLe r r') :
    PLe (parseMembers r) (parseMembers r') := by
  unfold parseMembers
  mono
macro_rules | `(tactic| mono_call) => `(tactic| with_reducible exact parseMembers_mono (by assumption))

theorem parseOoDeclaration_mono (h : RLe r r') :
    PLe (parseOoDeclaration r) (parseOoDeclaration r') := by
  unfold parseOoDeclaration
  mono
macro_rules | `(tactic| mono_call) => `(tactic| with_reducible exact parseOoDeclaration_mono (by assumption))

theorem parseCatches_mono (h : RLe r r') :
    PLe (parseCatches r) (parseCatches r') := by
  unfold parseCatches
  mono
macro_rules | `(tactic| mono_call) => `(tactic| with_reducible exact parseCatches_mono (by assumption))

theorem parseTry_mono {t : TokSpan} (h : RLe r r') :
    PLe (parseTry r t) (parseTry r' t) := by
  unfold parseTry
  mono
macro_rules | `(tactic| mono_call) => `(tactic| with_reducible exact parseTry_mono (by assumption))

theorem parseUnset_mono {t : TokSpan} (h : RLe r r') :
    PLe (parseUnset r t) (parseUnset r' t) := by
  unfold parseUnset
  mono
macro_rules | `(tactic| mono_call) => `(tactic| with_reducible exact parseUnset_mono (by assumption))

theorem parseForeach_mono {t : TokSpan} (h : RLe r r') :
    PLe (parseForeach r t) (parseForeach r' t) := by
  unfold parseForeach
  mono
macro_rules | `(tactic| mono_call) => `(tactic| with_reducible exact parseForeach_mono (by assumption))

theorem parseFor_mono {t : TokSpan} (h : RLe r r') :
    PLe (parseFor r t) (parseFor r' t) := by
  unfold parseFor
  mono
macro_rules | `(tactic| mono_call) => `(tactic| with_reducible exact parseFor_mono (by assumption))

theorem parseCaseHead_mono (h : RLe r r') :
    PLe (parseCaseHead r) (parseCaseHead r') := by
  unfold parseCaseHead
  mono
macro_rules | `(tactic| mono_call) => `(tactic| with_reducible exact parseCaseHead_mono (by assumption))

theorem switchStep_mono {s : List Case × List Expr} (h : RLe r r') :
    PLe (switchStep r s) (switchStep r' s) := by
  unfold switchStep
  mono
macro_rules | `(tactic| mono_call) => `(tactic| with_reducible exact switchStep_mono (by assumption))

theorem parseSwitch_mono {t : TokSpan} (h : RLe r r') :
    PLe (parseSwitch r t) (parseSwitch r' t) := by
  unfold parseSwitch
  mono
macro_rules | `(tactic| mono_call) => `(tactic| with_reducible exact parseSwitch_mono (by assumption))

theorem parseParenExpr_mono (h : RLe r r') :
    PLe (parseParenExpr r) (parseParenExpr r') := by
  unfold parseParenExpr
  mono
macro_rules | `(tactic| mono_call) => `(tactic| with_reducible exact parseParenExpr_mono (by assumption))

theorem parseDo_mono {t : TokSpan} (h : RLe r r') :
    PLe (parseDo r t) (parseDo r' t) := by
  unfold parseDo
  mono
macro_rules | `(tactic| mono_call) => `(tactic| with_reducible exact parseDo_mono (by assumption))

theorem parseWhile_mono {t : TokSpan} (h : RLe r r') :
    PLe (parseWhile r t) (parseWhile r' t) := by
  unfold parseWhile
  mono
macro_rules | `(tactic| mono_call) => `(tactic| with_reducible exact parseWhile_mono (by assumption))

theorem parseIfBranch_mono {start : Nat} (h : RLe r r') :
    PLe (parseIfBranch r start) (parseIfBranch r' start) := by
  unfold parseIfBranch
  mono
macro_rules | `(tactic| mono_call) => `(tactic| with_reducible exact parseIfBranch_mono (by assumption))

theorem ifStep_mono {stmts : List Stmt} (h : RLe r r') :
    PLe (ifStep r stmts) (ifStep r' stmts) := by
  unfold ifStep
  mono
macro_rules | `(tactic| mono_call) => `(tactic| with_reducible exact ifStep_mono (by assumption))

theorem parseIf_mono {t : TokSpan} (h : RLe r r') :
    PLe (parseIf r t) (parseIf r' t) := by
  unfold parseIf
  mono
macro_rules | `(tactic| mono_call) => `(tactic| with_reducible exact parseIf_mono (by assumption))

theorem parseBlock_mono {t : TokSpan} (h : RLe r r') :
    PLe (parseBlock r t) (parseBlock r' t) := by
  unfold parseBlock
  mono
macro_rules | `(tactic| mono_call) => `(tactic| with_reducible exact parseBlock_mono (by assumption))

theorem simpleStmt_mono {t : TokSpan} (h : RLe r r') :
    (simpleStmt r t = none ∧ simpleStmt r' t = none) ∨
    ∃ m m', simpleStmt r t = some m ∧ simpleStmt r' t = some m' ∧ PLe m m' := by
  unfold simpleStmt
  split
  all_goals first
    | exact .inl ⟨rfl, rfl⟩
    | exact .inr ⟨_, _, rfl, rfl, by mono⟩

theorem parseExprStmt_mono {store : Option PErr} (h : RLe r r') :
    PLe (parseExprStmt r store) (parseExprStmt r' store) := by
  unfold parseExprStmt
  mono
macro_rules | `(tactic| mono_call) => `(tactic| with_reducible exact parseExprStmt_mono (by assumption))

theorem parseOtherStmt_mono {store : Option PErr} (h : RLe r r') :
    PLe (parseOtherStmt r store) (parseOtherStmt r' store) := by
  unfold parseOtherStmt
  refine PLe.bind ?_ ?_
  · mono
  intro o
  split
  · mono
  refine PLe.bind (PLe.refl _) ?_
  intro o
  split
  · mono
  rename_i t
  rcases simpleStmt_mono (t := t) h with ⟨h1, h2⟩ | ⟨m, m', h1, h2, hm⟩
  · rw [h1, h2]; mono
  · rw [h1, h2]; mono; exact hm
macro_rules | `(tactic| mono_call) => `(tactic| with_reducible exact parseOtherStmt_mono (by assumption))

theorem tryDecl_mono {m m' : P Stmt} (h : RLe r r') (hm : PLe m m') :
    PLe (tryDecl r m) (tryDecl r' m') := by
  unfold tryDecl
  mono
  exact hm

theorem parseStatement_mono (h : RLe r r') :
    PLe (parseStatement r) (parseStatement r') := by
  unfold parseStatement
  mono
  all_goals
    refine tryDecl_mono h ?_
    mono
macro_rules | `(tactic| mono_call) => `(tactic| with_reducible exact parseStatement_mono (by assumption))

theorem parseTopStatement_mono (h : RLe r r') :
    PLe (parseTopStatement r) (parseTopStatement r') := by
  unfold parseTopStatement
  mono
macro_rules | `(tactic| mono_call) => `(tactic| with_reducible exact parseTopStatement_mono (by assumption))

theorem parseTopStatementList_mono (h : RLe r r') :
    PLe (parseTopStatementList r) (parseTopStatementList r') := by
  unfold parseTopStatementList
  mono
macro_rules | `(tactic| mono_call) => `(tactic| with_reducible exact parseTopStatementList_mono (by assumption))

theorem recN_mono (n : Nat) : RLe (recN n) (recN (n + 1)) := by
  induction n with
  | zero => exact ⟨fun _ _ _ => .inl rfl, fun _ _ => .inl rfl⟩
  | succ n ih => exact ⟨fun prec => parseExpression_mono ih, parseStatement_mono ih⟩

theorem PLe.trans {α : Type} {a b c : P α} (h : PLe a b) (h' : PLe b c) : PLe a c := by
  intro toks pos
  rcases h toks pos with h | h
  · exact .inl h
  · rw [h]; exact h' toks pos

theorem RLe.trans {a b c : Rec} (h : RLe a b) (h' : RLe b c) : RLe a c :=
  ⟨fun prec => (h.1 prec).trans (h'.1 prec), h.2.trans h'.2⟩

theorem recN_le {n n' : Nat} (h : n ≤ n') : RLe (recN n) (recN n') := by
  induction h with
  | refl => exact ⟨fun _ => PLe.refl _, PLe.refl _⟩
  | step _ ih => exact ih.trans (recN_mono _)

/-- More fuel never changes the result of the parser. -/
theorem parseTokensN_le {n n' : Nat} (h : n ≤ n') (m : LineMap) (toks : List TokSpan)
    (hn : parseTokensN n m toks ≠ .oof) : parseTokensN n' m toks = parseTokensN n m toks := by
  unfold parseTokensN at *
  rcases parseTopStatementList_mono (recN_le h) (stripTokens toks) 0 with h | h
  · simp only [h] at hn
    exact absurd rfl hn
  · simp only [h]

end Pico
