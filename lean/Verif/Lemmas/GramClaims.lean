import Verif.Lemmas.GramFail
/-!
# What is claimed of each category of the grammar, and how claims are used
-/
namespace Pico
open P

variable {toks : List TokSpan}

/-! ## Erasure of lists -/

theorem eraseExprs_append (a b : List Expr) : eraseExprs (a ++ b) = eraseExprs a ++ eraseExprs b := by
  induction a with
  | nil => rfl
  | cons x xs ih => simp [eraseExprs, ih]

theorem eraseOpts_append (a b : List (Option Expr)) : eraseOpts (a ++ b) = eraseOpts a ++ eraseOpts b := by
  induction a with
  | nil => rfl
  | cons x xs ih => simp [eraseOpts, ih]

theorem eraseItems_append (a b : List (Option Expr × Expr)) :
    eraseItems (a ++ b) = eraseItems a ++ eraseItems b := by
  induction a with
  | nil => rfl
  | cons x xs ih => obtain ⟨k, e⟩ := x; simp [eraseItems, ih]

theorem eraseStmts_append (a b : List Stmt) : eraseStmts (a ++ b) = eraseStmts a ++ eraseStmts b := by
  induction a with
  | nil => rfl
  | cons x xs ih => simp [eraseStmts, ih]

theorem eraseCases_append (a b : List Case) : eraseCases (a ++ b) = eraseCases a ++ eraseCases b := by
  induction a with
  | nil => rfl
  | cons x xs ih => simp [eraseCases, ih]

theorem eraseCatches_append (a b : List Catch) : eraseCatches (a ++ b) = eraseCatches a ++ eraseCatches b := by
  induction a with
  | nil => rfl
  | cons x xs ih => simp [eraseCatches, ih]

theorem eraseParams_append (a b : List Param) : eraseParams (a ++ b) = eraseParams a ++ eraseParams b := by
  induction a with
  | nil => rfl
  | cons x xs ih => simp [eraseParams, ih]

theorem eraseMembers_append (a b : List Member) : eraseMembers (a ++ b) = eraseMembers a ++ eraseMembers b := by
  induction a with
  | nil => rfl
  | cons x xs ih => simp [eraseMembers, ih]

theorem eraseStaticVars_append (a b : List (Text × Option Expr)) :
    eraseStaticVars (a ++ b) = eraseStaticVars a ++ eraseStaticVars b := by
  induction a with
  | nil => rfl
  | cons x xs ih => obtain ⟨k, e⟩ := x; simp [eraseStaticVars, ih]

theorem erase_kind (e : Expr) (sp : Span) : (Expr.mk e.kind sp).erase = e.erase := by
  cases e; rfl

/-! ## Loop bodies -/

/-- The body of the loop of `parseExpression`. -/
def exprStep (R : Rec) (q : Prec) (left : Expr) : P (Expr ⊕ Expr) := do
  match ← attempt (parseBinaryExpression R left q) with
  | .ok (some l) => return .inl l
  | .ok none => return .inr left
  | .error _ => return .inr left

theorem parseExpression_eq (R : Rec) (q : Prec) :
    parseExpression R q = (do let left ← parseOperand R; loop (exprStep R q) left) := rfl

/-- The body of the loop of `parseExpressionList`. -/
def exprListStep (R : Rec) (args : List Expr) : P (List Expr ⊕ List Expr) := do
  let e ← R.expr .None
  if ← eats .Comma then return .inl (args ++ [e]) else return .inr (args ++ [e])

theorem parseExpressionList_eq (R : Rec) : parseExpressionList R = loop (exprListStep R) [] := rfl

/-- The body of the loop of `parseArgumentList`. -/
def argStep (R : Rec) (args : List Expr) : P (List Expr ⊕ List Expr) := do
  let start ← eat .Ellipsis
  let arg ← R.expr .None
  let arg : Expr :=
    match start with
    | some t => .mk (.unpack arg) { arg.span with start := t.span.start }
    | none => arg
  if ← eats .Comma then return .inl (args ++ [arg]) else return .inr (args ++ [arg])

theorem parseArgumentList_eq (R : Rec) : parseArgumentList R = (do
    let _ ← expect .ParenthesesOpen
    if ← eats .ParenthesesClose then return []
    else
      let args ← loop (argStep R) []
      let _ ← expect .ParenthesesClose
      return args) := rfl

/-- The body of the loop of `parseArrayPairList`. -/
def pairStep (R : Rec) (pairs : List (Option Expr × Expr)) :
    P (List (Option Expr × Expr) ⊕ List (Option Expr × Expr)) := do
  match ← attempt (R.expr .None) with
  | .error _ => return .inr pairs
  | .ok e =>
    let pair : Option Expr × Expr ← (do
      if ← eats .DoubleArrow then
        let v ← R.expr .None
        return (some e, v)
      else return (none, e))
    if ← eats .Comma then return .inl (pairs ++ [pair]) else return .inr (pairs ++ [pair])

theorem parseArrayPairList_eq (R : Rec) : parseArrayPairList R = loop (pairStep R) [] := rfl

/-! ## Claims -/

/-- Tokens that start a variable, a name, a literal or a parenthesis. -/
def otherHead : Token → Bool
  | .k k => [Kw.ParenthesesOpen, .Array, .SquareBracketOpen, .Static, .NsSeparator, .List, .DoubleQuote,
      .HereDocStart, .MagicLine, .MagicFile, .MagicDir, .MagicTrait, .MagicMethod, .MagicFunction,
      .MagicClass].contains k
  | .variable _ => true
  | .int _ => true
  | .double _ => true
  | .string _ => true
  | .encaps _ => true
  | _ => false

/-- Tokens that start an expression. -/
def exprHead (t : Token) : Bool :=
  otherHead t ||
  (match t with
  | .k k => (prefixOf k).isSome || (castOf k).isSome || (includeOf k).isSome ||
      [Kw.New, .Clone, .Exit, .Yield, .Function, .Isset, .Empty].contains k
  | _ => false)

def StartsWith (f : Token → Bool) (ts : List Token) : Prop := ∃ t us, ts = t :: us ∧ f t = true

/-- What may follow appended indices, members and calls. -/
def EndsApps (simple : Bool) (r : List Token) : Prop :=
  NoKw .SquareBracketOpen r ∧ NoKw .ObjectOp r ∧ NoKw .ScopeOp r ∧ (simple = false → NoKw .ParenthesesOpen r)

theorem EndsApps.of_endsVar {simple : Bool} {r : List Token} (h : endsVar r = true) : EndsApps simple r :=
  ⟨noKw_endsVar h rfl, noKw_endsVar h rfl, noKw_endsVar h rfl, fun _ => noKw_endsVar h rfl⟩

section
variable (toks)

def ExprOK (p s : Nat) (ts : List Token) (e : Expr) : Prop :=
  StartsWith exprHead ts ∧ ∀ r, endsExpr s r = true → ∃ e', e'.erase = e ∧
    ∀ q : Prec, q.toNat ≤ p → ∀ a r', Loops toks (exprStep theRec q) e' r a r' →
      Step toks (theRec.expr q) (ts ++ r) a r'

def VarOK (ts : List Token) (e : Expr) : Prop :=
  StartsWith otherHead ts ∧ ∀ r, endsVar r = true → ∃ e', e'.erase = e ∧
    Step toks (parseVariable theRec false none) (ts ++ r) e' r ∧
    (∀ n us, ts = .variable n :: us → Placed toks → Tail toks (ts ++ r) → 1 ≤ e'.span.start)

def AppsOK (simple : Bool) (b : Expr) (ts : List Token) (e : Expr) : Prop :=
  ∀ r, EndsApps simple r → ∀ b', b'.erase = b → ∃ e', e'.erase = e ∧ e'.span.start = b'.span.start ∧
    Loops toks (appendixStep theRec simple) b' (ts ++ r) e' r

def OptOK (ts : List Token) (o : Option Expr) : Prop :=
  ∀ r, endsExpr 0 r = true → ∃ o', eraseOpt o' = o ∧ Step toks (parseOptExpression theRec .None) (ts ++ r) o' r

def PropOK (ts : List Token) (e : Expr) : Prop :=
  ∀ r, ∃ e', e'.erase = e ∧ Step toks (parsePropertyName theRec) (ts ++ r) e' r

def CrefOK (ts : List Token) (e : Expr) : Prop :=
  ∀ r, NoKw .NsSeparator r → EndsApps true r → ∃ e', e'.erase = e ∧
    Step toks (parseClassNameReference theRec) (ts ++ r) e' r

def ArgsOK (ts : List Token) (es : List Expr) : Prop :=
  (∃ us, ts = .k .ParenthesesOpen :: us) ∧
  ∀ r, ∃ es', eraseExprs es' = es ∧ Step toks (parseArgumentList theRec) (ts ++ r) es' r

def ArglOK (ts : List Token) (es : List Expr) : Prop :=
  StartsWith (fun t => exprHead t || t == .k .Ellipsis) ts ∧
  ∀ r, ∃ es', eraseExprs es' = es ∧ ∀ acc, Loops toks (argStep theRec) acc
    (ts ++ .k .ParenthesesClose :: r) (acc ++ es') (.k .ParenthesesClose :: r)

def ExprsOK (ts : List Token) (es : List Expr) : Prop :=
  ∀ r, endsExpr 0 r = true → NoKw .Comma r → ∃ es', eraseExprs es' = es ∧
    ∀ acc, Loops toks (exprListStep theRec) acc (ts ++ r) (acc ++ es') r

def ItemsOK (ts : List Token) (its : List (Option Expr × Expr)) : Prop :=
  ∀ r, endsExpr 0 r = true → NoKw .Comma r → NoKw .DoubleArrow r → ∃ its', eraseItems its' = its ∧
    ∀ acc, Loops toks (pairStep theRec) acc (ts ++ r) (acc ++ its') r

/-- What ends the parts of a string. -/
def endsParts (r : List Token) : Prop := ∃ r', r = .k .DoubleQuote :: r' ∨ r = .k .HereDocEnd :: r'

def PartsOK (ts : List Token) (ps : List Part) : Prop :=
  NoKw .DoubleQuote ts ∧ ∀ r, endsParts r → ∀ s : Encaps, (s.str ≠ [] → s.startPos.isSome = true) →
    ∃ s' : Encaps, (s'.str ≠ [] → s'.startPos.isSome = true) ∧
      eraseExprs s'.parts ++ (if s'.str = [] then [] else [bare (.str s'.str)]) =
        eraseExprs s.parts ++ leaves s.str ps ∧
      Loops toks (encapsStep theRec) s (ts ++ r) s' r

end

/-! ## Using a claim about an expression -/

theorem precedence_level (k : Kw) : k.precedence.map Prec.toNat = infixLevel k := by
  cases k <;> rfl

theorem exprStep_stop {q : Prec} {r : List Token} {e : Expr} (h : endsExpr q.toNat r = true) :
    Step toks (exprStep theRec q e) r (.inr e) r := by
  unfold exprStep
  refine Step.bind (a := .ok none) (l' := r) (Step.attempt ?_) Step.pure
  unfold parseBinaryExpression
  stepc peekTok_step
  cases r with
  | nil => exact Step.pure
  | cons t r =>
    cases t with
    | k k =>
      have hp := precedence_level k
      simp only [List.head?_cons, Option.bind_some, Token.kw?]
      cases hk : k.precedence with
      | none => exact Step.pure
      | some np =>
        rw [hk] at hp
        simp only [Option.map_some] at hp
        dsimp only
        unfold endsExpr at h
        dsimp only at h
        rw [← hp] at h
        have : ¬ closesExpr k = true := by
          intro hc
          revert hk
          cases k <;> first | (simp [closesExpr] at hc; done) | simp [Kw.precedence]
        simp [this] at h
        rw [if_pos h]
        exact Step.pure
    | _ => exact Step.pure

theorem ExprOK.run {p s : Nat} {ts : List Token} {e : Expr} (h : ExprOK toks p s ts e) {q : Prec}
    {r : List Token} (hq : q.toNat ≤ p) (hs : endsExpr s r = true) (hr : endsExpr q.toNat r = true) :
    ∃ e', e'.erase = e ∧ Step toks (theRec.expr q) (ts ++ r) e' r := by
  obtain ⟨e', he, h'⟩ := h.2 r hs
  exact ⟨e', he, h' q hq e' r (Loops.done (exprStep_stop hr))⟩

/-- A whole expression in front of a closing token. -/
theorem ExprOK.run0 {p s : Nat} {ts : List Token} {e : Expr} (h : ExprOK toks p s ts e) {r : List Token}
    (hr : endsExpr 0 r = true) : ∃ e', e'.erase = e ∧ Step toks (theRec.expr .None) (ts ++ r) e' r :=
  h.run (Nat.zero_le _) (endsExpr_mono hr (Nat.zero_le _)) hr

/-- An operand is an expression of every level. -/
theorem ExprOK.operand {p s : Nat} {ts : List Token} {e : Expr} (hst : StartsWith exprHead ts)
    (h : ∀ r, endsExpr s r = true → ∃ e', e'.erase = e ∧ Step toks (parseOperand theRec) (ts ++ r) e' r) :
    ExprOK toks p s ts e := by
  refine ⟨hst, fun r hr => ?_⟩
  obtain ⟨e', he, h'⟩ := h r hr
  refine ⟨e', he, fun q hq a r' hl => ?_⟩
  rw [theRec_expr, parseExpression_eq]
  stepc h'
  exact hl.loop

theorem operand_other {t : Token} {l r : List Token} {e : Expr} (ht : t.kw?.bind Kw.prefixOp = none)
    (h1 : NoKw .Increment r) (h2 : NoKw .Decrement r) (h : Step toks (parseOtherExpression theRec) (t :: l) e r) :
    Step toks (parseOperand theRec) (t :: l) e r := by
  unfold parseOperand
  stepc peek_step
  rw [ht]
  dsimp only
  unfold parsePostfixExpression
  stepc h
  stepc (eat_miss h1)
  stepc (eat_miss h2)
  exact Step.pure

theorem otherHead_prefix {t : Token} (h : otherHead t = true) : t.kw?.bind Kw.prefixOp = none := by
  cases t with
  | k k =>
    show k.prefixOp = none
    cases k <;> first | rfl | cases h
  | _ => rfl

theorem otherExpression_varOrScalar {t : Token} {l r : List Token} {e : Expr} (ht : otherHead t = true)
    (h : Step toks (parseVariableOrScalar theRec) (t :: l) e r) :
    Step toks (parseOtherExpression theRec) (t :: l) e r := by
  unfold parseOtherExpression
  stepc peek_step
  cases t with
  | k k =>
    have hne : ∀ k', otherHead (.k k') = false → k ≠ k' := by rintro k' hk rfl; rw [ht] at hk; cases hk
    have hi : ∀ sp, parseInternal theRec k sp = none := by
      intro sp
      unfold parseInternal
      rw [if_neg (hne _ rfl), if_neg (hne _ rfl), if_neg (hne _ rfl)]
      have h1 : k.castTy = none := by cases k <;> first | rfl | cases ht
      have h2 : k.includeTy = none := by cases k <;> first | rfl | cases ht
      rw [h1, h2]
    dsimp only
    stepc getPos_step
    rw [if_neg (hne _ rfl), if_neg (hne _ rfl), if_neg (hne _ rfl), if_neg (hne _ rfl), if_neg (hne _ rfl), hi]
    exact h
  | _ => exact h

theorem exprHead_of_other {ts : List Token} (h : StartsWith otherHead ts) : StartsWith exprHead ts := by
  obtain ⟨t, us, rfl, ht⟩ := h
  exact ⟨t, us, rfl, by simp [exprHead, ht]⟩

/-- Operands recognised by `parse_variable` or as a scalar. -/
theorem ExprOK.varOrScalar {p s : Nat} {ts : List Token} {e : Expr} (hst : StartsWith otherHead ts)
    (h : ∀ r, endsExpr s r = true → ∃ e', e'.erase = e ∧ Step toks (parseVariableOrScalar theRec) (ts ++ r) e' r) :
    ExprOK toks p s ts e := by
  refine ExprOK.operand (exprHead_of_other hst) fun r hr => ?_
  obtain ⟨e', he, h'⟩ := h r hr
  refine ⟨e', he, ?_⟩
  obtain ⟨t, us, rfl, ht⟩ := hst
  exact operand_other (otherHead_prefix ht) (by nokw) (by nokw) (otherExpression_varOrScalar ht h')

end Pico
