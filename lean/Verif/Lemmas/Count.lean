import Verif.Model.Count
import Verif.Lemmas.GramFail
/-!
# The counter leaves the outcome of the parser alone, and open parentheses double it
-/
namespace Pico
open P

/-- The outcome without the counter. -/
structure Era {α : Type} (q : Q α) (m : P α) : Prop where
  eq : ∀ toks pos, (q toks pos).1 = m toks pos

section
variable {α β σ : Type}

theorem Era.of (m : P α) : Era (Q.of m) m := ⟨fun _ _ => rfl⟩

theorem Era.pure (a : α) : Era (Pure.pure a : Q α) (Pure.pure a : P α) := ⟨fun _ _ => rfl⟩

theorem Era.bind {q : Q α} {m : P α} {f : α → Q β} {g : α → P β} (h : Era q m) (hf : ∀ a, Era (f a) (g a)) :
    Era (q >>= f) (m >>= g) := by
  refine ⟨fun toks pos => ?_⟩
  show (Q.bnd q f toks pos).1 = P.bnd m g toks pos
  unfold Q.bnd P.bnd
  rw [h.eq]
  cases m toks pos with
  | ok a p => exact (hf a).eq toks p
  | _ => rfl

theorem Era.attempt {q : Q α} {m : P α} (h : Era q m) : Era (Q.attempt q) (P.attempt m) := by
  refine ⟨fun toks pos => ?_⟩
  unfold Q.attempt P.attempt
  rw [h.eq]
  cases m toks pos <;> rfl

theorem Era.loopN {f : σ → Q (σ ⊕ α)} {g : σ → P (σ ⊕ α)} (h : ∀ s, Era (f s) (g s)) (n : Nat) :
    ∀ s, Era (Q.loopN f n s) (P.loopN g n s) := by
  induction n with
  | zero => exact fun s => .of _
  | succ n ih =>
    intro s
    unfold Q.loopN P.loopN
    refine .bind (h s) fun x => ?_
    cases x with
    | inl s' => exact ih s'
    | inr a => exact .pure a

theorem Era.loop {f : σ → Q (σ ⊕ α)} {g : σ → P (σ ⊕ α)} (h : ∀ s, Era (f s) (g s)) (s : σ) :
    Era (Q.loop f s) (P.loop g s) := ⟨fun toks pos => (Era.loopN h _ s).eq toks pos⟩

theorem Era.call {q : Q α} {m : P α} (h : Era q m) : Era (Q.call q) m := ⟨fun toks pos => h.eq toks pos⟩

end

section
variable {c : Prec → Q Expr} {r : Rec} (hc : ∀ p, Era (c p) (r.expr p))
include hc

theorem baseVariable_er (b : Bool) : Era (parseBaseVariableQ c r b) (parseBaseVariable r b) := by
  unfold parseBaseVariableQ parseBaseVariable
  refine .bind (.of _) fun x => ?_
  cases x with
  | none => exact .of _
  | some t => exact .bind (hc _) fun e => .bind (.of _) fun p => .pure _

theorem variableBase_er (b : Bool) : Era (parseVariableBaseQ c r b) (parseVariableBase r b) := by
  unfold parseVariableBaseQ parseVariableBase
  refine .bind (.of _) fun old => .bind (.of _) fun x => ?_
  cases x with
  | ok x => exact .pure _
  | error _ =>
    refine .bind (.of _) fun x => ?_
    cases x with
    | ok x => exact .pure _
    | error _ =>
      refine .bind (.attempt (baseVariable_er hc b)) fun x => ?_
      cases x with
      | ok x => exact .pure _
      | error _ => exact .of _

theorem variable_er (b : Bool) : Era (parseVariableQ c r b) (parseVariable r b none) := by
  unfold parseVariableQ parseVariable
  exact .bind (variableBase_er hc b) fun e => .of _

theorem nonVariable_er (e : PErr) : Era (parseNonVariableQ c r e) (parseNonVariable r e) := by
  unfold parseNonVariableQ parseNonVariable
  refine .bind (.of _) fun x => ?_
  cases x with
  | none => exact .of _
  | some t => exact .bind (hc _) fun e => .bind (.of _) fun p => .pure _

theorem variableOrScalar_er : Era (parseVariableOrScalarQ c r) (parseVariableOrScalar r) := by
  unfold parseVariableOrScalarQ parseVariableOrScalar
  refine .bind (.attempt (variable_er hc false)) fun x => ?_
  cases x with
  | ok x => exact .of _
  | error e =>
    refine .bind (.of _) fun x => ?_
    cases x with
    | none => exact nonVariable_er hc e
    | some t => exact .of _

theorem otherExpression_er : Era (parseOtherExpressionQ c r) (parseOtherExpression r) := by
  unfold parseOtherExpressionQ parseOtherExpression
  refine .bind (.of _) fun x => ?_
  rcases x with _ | ⟨_ | _, sp⟩
  case some.k k =>
    refine .bind (.of _) fun p => ?_
    repeat' split
    all_goals first | exact .of _ | exact variableOrScalar_er hc | (simp_all; done) | (simp_all; exact .of _)
  all_goals exact variableOrScalar_er hc

theorem postfix_er : Era (parsePostfixExpressionQ c r) (parsePostfixExpression r) := by
  unfold parsePostfixExpressionQ parsePostfixExpression
  exact .bind (otherExpression_er hc) fun e => .of _

theorem operand_er : Era (parseOperandQ c r) (parseOperand r) := by
  unfold parseOperandQ parseOperand
  refine .bind (.of _) fun x => ?_
  rcases x with _ | ⟨tok, sp⟩
  · exact .of _
  · dsimp only
    cases tok.kw?.bind Kw.prefixOp with
    | none => exact postfix_er hc
    | some op => exact .bind (.of _) fun p => .bind (.of _) fun _ => .bind (hc _) fun e => .pure _

theorem binaryRest_er (left : Expr) (k : Kw) (p : Prec) : Era (parseBinaryRestQ c left k p) (parseBinaryRest r left k p) := by
  unfold parseBinaryRestQ parseBinaryRest
  cases k.binaryOp with
  | none => exact .of _
  | some op =>
    cases k.associativity with
    | none => exact .of _
    | some assoc =>
      cases assoc with
      | left => exact .bind (hc _) fun e => .pure _
      | right =>
        dsimp only
        cases Prec.fromNat? (p.toNat - 1) with
        | none => exact .of _
        | some np => exact .bind (hc _) fun e => .pure _

theorem binary_er (left : Expr) (p : Prec) : Era (parseBinaryExpressionQ c r left p) (parseBinaryExpression r left p) := by
  unfold parseBinaryExpressionQ parseBinaryExpression
  refine .bind (.of _) fun t => ?_
  dsimp only
  cases t.bind Token.kw? with
  | none => exact .pure _
  | some k =>
    dsimp only
    cases k.precedence with
    | none => exact .pure _
    | some np =>
      dsimp only
      split
      · exact .pure _
      · refine .bind (.of _) fun p => .bind (.of _) fun _ => .bind ?_ fun e => .pure _
        split
        · exact .of _
        · split
          · exact .of _
          · exact binaryRest_er hc left k np

theorem expression_er (p : Prec) : Era (parseExpressionQ c r p) (parseExpression r p) := by
  unfold parseExpressionQ parseExpression
  refine .bind (operand_er hc) fun e => .loop (fun l => .bind (.attempt (binary_er hc l p)) fun x => ?_) _
  rcases x with _ | _ | _ <;> exact .pure _

theorem exprStmt_er (s : Option PErr) : Era (parseExprStmtQ c s) (parseExprStmt r s) := by
  unfold parseExprStmtQ parseExprStmt
  refine .bind (.attempt (hc _)) fun x => ?_
  cases x with
  | ok e => exact .bind (.of _) fun p => .pure _
  | error e => exact .of _

theorem otherStmt_er (s : Option PErr) : Era (parseOtherStmtQ c r s) (parseOtherStmt r s) := by
  unfold parseOtherStmtQ parseOtherStmt
  refine .bind (.of _) fun x => ?_
  cases x with
  | ok e => exact .pure _
  | error e =>
    refine .bind (.of _) fun x => ?_
    cases x with
    | none => exact .of _
    | some t =>
      dsimp only
      cases simpleStmt r t with
      | none => exact .bind (.of _) fun p => exprStmt_er hc _
      | some m => exact .of _

theorem statement_er : Era (parseStatementQ c r) (parseStatement r) := by
  refine ⟨fun toks pos => ?_⟩
  have ho := (otherStmt_er hc none).eq toks pos
  show (Q.bnd (Q.of P.peek) _ toks pos).1 = _
  unfold Q.bnd Q.of P.peek
  dsimp only
  rcases ht : toks[pos]? with _ | ⟨_ | _, sp⟩
  case some.k k =>
    dsimp only
    split
    · rfl
    · rename_i hk
      rw [ho]
      unfold parseStatement
      show _ = P.bnd P.peek _ toks pos
      unfold P.bnd P.peek
      rw [ht]
      simp only [heads, List.mem_cons, not_or, List.not_mem_nil, not_false_eq_true, and_true] at hk
      obtain ⟨h1, h2, h3, h4, h5, h6, h7, h8, h9, h10, h11, h12, h13⟩ := hk
      show _ = (P.bnd P.getPos _) toks pos
      unfold P.bnd P.getPos
      simp only [h1, h2, h3, h4, h5, h6, h7, h8, h9, h10, h11, h12, h13, if_false]
  all_goals
    rw [ho]
    unfold parseStatement
    show _ = P.bnd P.peek _ toks pos
    unfold P.bnd P.peek
    rw [ht]

theorem topStatement_er : Era (parseTopStatementQ c r) (parseTopStatement r) := by
  unfold parseTopStatementQ parseTopStatement
  refine .bind (.of _) fun x => ?_
  cases x with
  | some t => exact .of _
  | none =>
    refine .bind (.of _) fun x => ?_
    cases x with
    | some t => exact .of _
    | none => exact statement_er hc

theorem topStatementList_er : Era (parseTopStatementListQ c r) (parseTopStatementList r) := by
  unfold parseTopStatementListQ parseTopStatementList
  refine .bind (.of _) fun n => .bind (.of _) fun l => .loop (fun s => .bind (.of _) fun p => ?_) _
  split
  · exact .bind (topStatement_er hc) fun s => .pure _
  · exact .pure _

end

theorem exprQ_er (n : Nat) : ∀ p, Era (exprQ n p) ((recN n).expr p) := by
  induction n with
  | zero => exact fun p => .of _
  | succ n ih => exact fun p => .call (expression_er ih p)

/-- The counter leaves the outcome alone. -/
theorem counted_outcome (n : Nat) (toks : List TokSpan) (pos : Nat) :
    (parseTopStatementListQ (exprQ n) (recN n) toks pos).1 = parseTopStatementList (recN n) toks pos :=
  (topStatementList_er (exprQ_er n)).eq toks pos

/-! ## Lower bounds -/

section
variable {α β : Type} {toks : List TokSpan}

/-- In front of the tokens `l`, `q` fails after at least `c` calls and stops where `E` holds (or runs out of fuel). -/
structure Dear (toks : List TokSpan) (q : Q α) (l : List Token) (c : Nat) (E : Nat → Prop) : Prop where
  run : Tail toks l → (q toks (posOf toks l)).1 = .oof ∨ ((∃ e p, (q toks (posOf toks l)).1 = .err e p ∧ E p) ∧ c ≤ (q toks (posOf toks l)).2)

theorem Dear.step {m : P α} {f : α → Q β} {l l' : List Token} {a : α} {c : Nat} {E : Nat → Prop} (h : Step toks m l a l')
    (hf : Dear toks (f a) l' c E) : Dear toks (Q.of m >>= f) l c E := by
  refine ⟨fun ht => ?_⟩
  obtain ⟨h1, h2⟩ := h ht
  have := hf.run h2
  have he : (Q.of m >>= f) toks (posOf toks l) = f a toks (posOf toks l') := by
    show Q.bnd _ _ _ _ = _
    unfold Q.bnd Q.of
    dsimp only
    rw [h1]
    simp
  rw [he]
  exact this

theorem Dear.bind_left {q : Q α} {f : α → Q β} {l : List Token} {c : Nat} {E : Nat → Prop} (h : Dear toks q l c E) :
    Dear toks (q >>= f) l c E := by
  refine ⟨fun ht => ?_⟩
  show (Q.bnd q f _ _).1 = _ ∨ (∃ e p, (Q.bnd q f _ _).1 = _ ∧ _) ∧ c ≤ (Q.bnd q f _ _).2
  unfold Q.bnd
  rcases h.run ht with h | ⟨⟨e, p, h, hE⟩, hc⟩
  · rw [h]; exact .inl rfl
  · rw [h]; exact .inr ⟨⟨e, p, rfl, hE⟩, hc⟩

/-- A failed attempt is paid for. -/
theorem Dear.attempt {q : Q α} {f : Except PErr α → Q β} {l l' : List Token} {c c' : Nat} {E : Nat → Prop}
    (h : Dear toks q l c (· = posOf toks l')) (ht' : Tail toks l → Tail toks l') (hf : ∀ e, Dear toks (f (.error e)) l' c' E) :
    Dear toks (Q.attempt q >>= f) l (c + c') E := by
  refine ⟨fun ht => ?_⟩
  show (Q.bnd (Q.attempt q) f _ _).1 = _ ∨ (∃ e p, (Q.bnd (Q.attempt q) f _ _).1 = _ ∧ _) ∧ _ ≤ (Q.bnd (Q.attempt q) f _ _).2
  unfold Q.bnd Q.attempt
  rcases h.run ht with h | ⟨⟨e, p, h, hE⟩, hc⟩
  · rw [h]; exact .inl rfl
  · rw [h]
    dsimp only at hE ⊢
    subst hE
    rcases (hf e).run (ht' ht) with h | ⟨h, hc'⟩
    · exact .inl h
    · exact .inr ⟨h, by omega⟩

theorem Dear.attempt_any {q : Q α} {f : Except PErr α → Q β} {l : List Token} {c : Nat} {E E' : Nat → Prop}
    (h : Dear toks q l c E') (hf : ∀ e p, ∃ e' p', (f (.error e) toks p).1 = .err e' p' ∧ E p') :
    Dear toks (Q.attempt q >>= f) l c E := by
  refine ⟨fun ht => ?_⟩
  show (Q.bnd (Q.attempt q) f _ _).1 = _ ∨ (∃ e p, (Q.bnd (Q.attempt q) f _ _).1 = _ ∧ _) ∧ _ ≤ (Q.bnd (Q.attempt q) f _ _).2
  unfold Q.bnd Q.attempt
  rcases h.run ht with h | ⟨⟨e, p, h, hE⟩, hc⟩
  · rw [h]; exact .inl rfl
  · rw [h]
    dsimp only
    exact .inr ⟨hf e p, by omega⟩

/-- `q` makes at least `c` calls in front of the tokens `l` (or runs out of fuel). -/
structure Costs (toks : List TokSpan) (q : Q α) (l : List Token) (c : Nat) : Prop where
  run : Tail toks l → (q toks (posOf toks l)).1 = .oof ∨ c ≤ (q toks (posOf toks l)).2

theorem Dear.costs {q : Q α} {l : List Token} {c : Nat} {E : Nat → Prop} (h : Dear toks q l c E) : Costs toks q l c :=
  ⟨fun ht => (h.run ht).imp_right And.right⟩

theorem Costs.bind_left {q : Q α} {f : α → Q β} {l : List Token} {c : Nat} (h : Costs toks q l c) : Costs toks (q >>= f) l c := by
  refine ⟨fun ht => ?_⟩
  show (Q.bnd q f _ _).1 = _ ∨ c ≤ (Q.bnd q f _ _).2
  unfold Q.bnd
  rcases h.run ht with h | h
  · rw [h]; exact .inl rfl
  · split
    · exact .inr (Nat.le_trans h (Nat.le_add_right _ _))
    all_goals exact .inr h

theorem Costs.attempt {q : Q α} {l : List Token} {c : Nat} (h : Costs toks q l c) : Costs toks (Q.attempt q) l c := by
  refine ⟨fun ht => ?_⟩
  unfold Q.attempt
  rcases h.run ht with h | h
  · rw [h]; exact .inl rfl
  · split <;> exact .inr h

/-- The calls made after a method whose outcome is known. -/
theorem Costs.after {q : Q α} {m m' : P α} {f : α → Q β} {l l' : List Token} {a : α} {c : Nat} (he : Era q m) (hm : PLe m m')
    (h : Step toks m' l a l') (hf : Costs toks (f a) l' c) : Costs toks (q >>= f) l c := by
  refine ⟨fun ht => ?_⟩
  obtain ⟨h1, h2⟩ := h ht
  show (Q.bnd q f _ _).1 = _ ∨ c ≤ (Q.bnd q f _ _).2
  unfold Q.bnd
  rw [he.eq]
  rcases hm toks (posOf toks l) with h' | h'
  · rw [h']; exact .inl rfl
  · rw [h', h1]
    rcases hf.run h2 with h | h
    · exact .inl h
    · exact .inr (Nat.le_trans h (Nat.le_add_left _ _))

theorem Costs.step {m : P α} {f : α → Q β} {l l' : List Token} {a : α} {c : Nat} (h : Step toks m l a l')
    (hf : Costs toks (f a) l' c) : Costs toks (Q.of m >>= f) l c := .after (.of m) (.refl m) h hf

variable {c : Prec → Q Expr} {r : Rec} {l : List Token} {k : Nat}

private theorem noName_open : NoName (.k .ParenthesesOpen :: l) := ⟨by simp [NoKw], by simp⟩

/-- What both readings of a parenthesis do behind it. -/
def parenQ (c : Prec → Q Expr) (t : TokSpan) : Q Expr := do
  let e ← c .None
  let p ← Q.of (expect .ParenthesesClose)
  return .mk e.kind (mkSpan t.span.start p.span.stop)

theorem variable_dear (h : ∀ t, Dear toks (parenQ c t) l k (fun _ => True)) :
    Dear toks (parseVariableQ c r false) (.k .ParenthesesOpen :: l) k (· = posOf toks (.k .ParenthesesOpen :: l)) := by
  have hb : Dear toks (parseBaseVariableQ c r false) (.k .ParenthesesOpen :: l) k (fun _ => True) :=
    .step (l' := l) eat_hit (h _)
  refine .bind_left ?_
  refine .step getPos_step ?_
  refine .step (constScoped_none noName_open (by simp [NoKw])).attempt ?_
  refine .step (fnCall_none noName_open).attempt ?_
  exact .attempt_any hb fun e p => ⟨e, _, rfl, rfl⟩

theorem variableOrScalar_dear (h : ∀ t, Dear toks (parenQ c t) l k (fun _ => True)) :
    Dear toks (parseVariableOrScalarQ c r) (.k .ParenthesesOpen :: l) (k + k) (fun _ => True) := by
  refine .attempt (variable_dear h) id fun e => ?_
  refine .step (eat_miss (by simp [NoKw])) ?_
  exact .step eat_hit (h _)

theorem operand_dear (h : ∀ t, Dear toks (parenQ c t) l k (fun _ => True)) :
    Dear toks (parseOperandQ c r) (.k .ParenthesesOpen :: l) (k + k) (fun _ => True) :=
  .step peek_step (.bind_left (.step peek_step (.step getPos_step (variableOrScalar_dear h))))

/-- A parenthesis with a mistake behind it, for which `k` calls are needed, needs twice as many. -/
theorem exprQ_open (h : ∀ n t, Dear toks (parenQ (exprQ n) t) l k (fun _ => True)) (n : Nat) (p : Prec) :
    Dear toks (exprQ n p) (.k .ParenthesesOpen :: l) (k + k) (fun _ => True) := by
  cases n with
  | zero => exact ⟨fun _ => .inl rfl⟩
  | succ n =>
    refine ⟨fun ht => ?_⟩
    have h : Dear toks (parseExpressionQ (exprQ n) (recN n) p) (.k .ParenthesesOpen :: l) (k + k) (fun _ => True) :=
      .bind_left (operand_dear (h n))
    rcases h.run ht with h | ⟨h, hc⟩
    · exact .inl h
    · exact .inr ⟨h, Nat.le_trans hc (Nat.le_succ _)⟩

/-- Every parenthesis doubles the number of calls, if there is a mistake behind the last one. -/
theorem exprQ_dear (h : ∀ n t, Dear toks (parenQ (exprQ n) t) l 1 (fun _ => True)) (d : Nat) :
    ∀ (n : Nat) (p : Prec), Dear toks (exprQ n p) (.k .ParenthesesOpen :: (List.replicate d (.k .ParenthesesOpen) ++ l)) (2 ^ (d + 1)) (fun _ => True) := by
  induction d with
  | zero => exact fun n p => exprQ_open h n p
  | succ d ih =>
    intro n p
    have h2 := exprQ_open (k := 2 ^ (d + 1)) (fun n t => Dear.bind_left (ih n .None)) n p
    rw [Nat.pow_succ 2 (d + 1), Nat.mul_two]
    exact h2

/-- Nothing follows the parenthesis. -/
theorem parenQ_end (n : Nat) (t : TokSpan) : Dear toks (parenQ (exprQ n) t) [] 1 (fun _ => True) := by
  refine .bind_left ⟨fun ht => ?_⟩
  cases n with
  | zero => exact .inl rfl
  | succ n =>
    have hg := Tail.get_nil ht
    have he : parseOperandQ (exprQ n) (recN n) toks (posOf toks []) = (.err ⟨[], posOf toks []⟩ (posOf toks []), 0) := by
      unfold parseOperandQ
      show Q.bnd (Q.of P.peek) _ _ _ = _
      unfold Q.bnd Q.of P.peek
      dsimp only
      rw [hg]
      rfl
    have he' : parseExpressionQ (exprQ n) (recN n) .None toks (posOf toks []) = (.err ⟨[], posOf toks []⟩ (posOf toks []), 0) := by
      unfold parseExpressionQ
      show Q.bnd _ _ _ _ = _
      unfold Q.bnd
      rw [he]
    show (Q.call _ _ _).1 = _ ∨ (∃ e q, (Q.call _ _ _).1 = _ ∧ True) ∧ _ ≤ (Q.call _ _ _).2
    unfold Q.call
    rw [he']
    exact .inr ⟨⟨_, _, rfl, trivial⟩, Nat.le_refl _⟩

/-- An expression follows the parenthesis, but no closing one. -/
theorem parenQ_open {l' : List Token} {e : Expr} (h : Step toks (theRec.expr .None) l e l') (hl : NoKw .ParenthesesClose l') (n : Nat)
    (t : TokSpan) : Dear toks (parenQ (exprQ n) t) l 1 (fun _ => True) := by
  refine ⟨fun ht => ?_⟩
  obtain ⟨h1, h2⟩ := h ht
  show (Q.bnd _ _ _ _).1 = _ ∨ (∃ e q, (Q.bnd _ _ _ _).1 = _ ∧ True) ∧ _ ≤ (Q.bnd _ _ _ _).2
  unfold Q.bnd
  rw [(exprQ_er n .None).eq]
  rcases (recN_theRec n).1 .None toks (posOf toks l) with h' | h'
  · rw [h']; exact .inl rfl
  · rw [h', h1]
    obtain ⟨⟨e', he⟩, -⟩ := expect_miss (k := .ParenthesesClose) hl h2
    refine .inr ⟨⟨e', posOf toks l', ?_, trivial⟩, ?_⟩
    · show (Q.bnd (Q.of (expect .ParenthesesClose)) _ _ _).1 = _
      unfold Q.bnd Q.of
      dsimp only
      rw [he]
    · refine Nat.le_trans ?_ (Nat.le_add_right _ _)
      cases n with
      | zero =>
        exfalso
        rw [h1] at h'
        cases h'
      | succ n => exact Nat.le_add_left _ _

/-! ## From the expression to the program -/

theorem statement_costs {t : Token} (hs : simpleStmt r ⟨t, spanBefore toks l⟩ = none) (hh : ∀ k, t = .k k → k ∉ heads)
    (ho : ∀ k, k = .Trait ∨ k = .Interface ∨ k = .Abstract ∨ k = .Final ∨ k = .Class → t ≠ .k k)
    (h : Costs toks (c .None) (t :: l) k) : Costs toks (parseStatementQ c r) (t :: l) k := by
  have hn : ∀ k', k' = .Trait ∨ k' = .Interface ∨ k' = .Abstract ∨ k' = .Final ∨ k' = .Class → NoKw k' (t :: l) := by
    intro k' hk
    simp [NoKw, ho k' hk]
  have key : Costs toks (parseOtherStmtQ c r none) (t :: l) k := by
    unfold parseOtherStmtQ
    refine .step (ooDeclaration_fails (hn _ (by simp)) (hn _ (by simp)) (hn _ (by simp)) (hn _ (by simp)) (hn _ (by simp))).attempt ?_
    refine .step peek_step ?_
    dsimp only
    rw [hs]
    dsimp only
    exact .step getPos_step (.bind_left (.attempt h))
  refine .step peek_step ?_
  split
  · rename_i k' _ he
    cases he
    rw [if_neg (hh k' rfl)]
    exact key
  · exact key

theorem top_costs {t : Token} (ht : toks.map TokSpan.tok = t :: l) (hnu : NoKw .Namespace (t :: l) ∧ NoKw .Use (t :: l)) (n : Nat)
    (hne : parseTopStatementList (recN n) toks 0 ≠ .oof) (h : Costs toks (parseStatementQ (exprQ n) (recN n)) (t :: l) k) :
    k ≤ (parseTopStatementListQ (exprQ n) (recN n) toks 0).2 := by
  have hlen : toks.length = l.length + 1 := by simpa using congrArg List.length ht
  have hpos : posOf toks (t :: l) = 0 := by simp [posOf, hlen]
  have h1 : Costs toks (parseTopStatementListQ (exprQ n) (recN n)) (t :: l) k := by
    refine .step (a := l.length + 1) (l' := t :: l) (fun h => ⟨by unfold P.tokCount; rw [hlen], h⟩) ?_
    refine .step (a := l.length) (l' := t :: l) (fun h => ⟨rfl, h⟩) ?_
    have h2 : Costs toks (Q.loopN (fun (stmts : List Stmt) => do
        let p ← Q.of getPos
        if p ≤ l.length then
          let s ← parseTopStatementQ (exprQ n) (recN n)
          return .inl (stmts ++ [s])
        else return .inr stmts) (toks.length + 2) []) (t :: l) k := by
      refine .bind_left (.step getPos_step ?_)
      rw [hpos, if_pos (Nat.zero_le _)]
      exact .bind_left (.step (eat_miss hnu.1) (.step (eat_miss hnu.2) h))
    exact ⟨h2.run⟩
  have h2 := h1.run ⟨[], ht⟩
  rw [hpos, counted_outcome] at h2
  exact h2.resolve_left hne

end

end Pico
