import Verif.Lemmas.RelBase

/-!
# Expressions: parsing does not look at positions
-/

namespace Pico
open P

variable [Lo]

theorem eraseParams_append' (a b : List Param) : eraseParams (a ++ b) = eraseParams a ++ eraseParams b :=
  eraseParams_append a b
theorem eraseExprs_map (es : List Expr) : eraseExprs es = es.map Expr.erase := by
  induction es with
  | nil => rfl
  | cons e es ih => rw [eraseExprs, ih]; rfl

theorem kind_erase (e : Expr) : ExprK.erase e.kind = e.erase.kind := by cases e; rfl

/-- Close a goal about the values of two runs. -/
syntax "rel_eq" : tactic
macro_rules | `(tactic| rel_eq) => `(tactic| simp only [Expr.erase, ExprK.erase, Variable.erase, eraseOpt, eraseExprs,
  eraseItems, eraseOpts, eraseExprs_append, eraseItems_append, eraseOpts_append, kind_erase, FnDecl.erase, eraseParams,
  Param.erase, eraseParams_append, eraseBody, eraseStmts, eraseStmts_append, Stmt.erase, StmtK.erase, *])

macro_rules | `(tactic| rel_leaf) => `(tactic| first
  | rfl
  | assumption
  | with_reducible exact Anyhow.mk
  | ((with_reducible refine OptRel.some ?_); rel_leaf)
  | with_reducible exact OptRel.none
  | ((with_reducible refine SumRel.inl ?_); rel_leaf)
  | ((with_reducible refine SumRel.inr ?_); rel_leaf)
  | with_reducible exact ExcRel.error _
  | ((with_reducible refine ExcRel.ok ?_); rel_leaf)
  | ((with_reducible refine PairRel.mk ?_ ?_) <;> rel_leaf)
  | ((with_reducible refine KRel.mk _ ?_ ?_) <;> assumption)
  | ((with_reducible refine NRel.mk _ ?_ ?_) <;> assumption)
  | ((with_reducible refine VRel.mk ?_ ?_ ?_)
     · rel_eq
     · first | assumption | (simp only [Expr.span, mkSpan]; first | assumption | omega)
     · first | assumption | (simp only [Expr.span, mkSpan]; first | assumption | omega))
  | ((with_reducible refine Alike.mk ?_); rel_eq))

/-- Compare two runs of the same method as far as no choice of relation is needed. -/
syntax "rel" : tactic
macro_rules | `(tactic| rel) => `(tactic| repeat' first | rel1 | relv | rel_leaf)

section
variable {r : Rec} (hr : RecRel r)
include hr

theorem parseOptExpression_rel (prec : Prec) :
    PRel (Alike eraseOpt) (parseOptExpression r prec) (parseOptExpression r prec) := by
  unfold parseOptExpression
  rel

end

theorem deepestUnpack_rel {α β : Type} {R : α → β → Prop} (s : Option PErr) :
    PRel R (deepestUnpack s : P α) (deepestUnpack s : P β) := by
  cases s <;> unfold deepestUnpack <;> rel

theorem parseSimpleVariable_rel :
    PRel (fun x y => ∃ n sp sp', x = (Variable.name n, sp) ∧ y = (Variable.name n, sp') ∧ 2 ≤ sp.start ∧ 2 ≤ sp'.start)
      parseSimpleVariable parseSimpleVariable := by
  unfold parseSimpleVariable
  rel
  exact ⟨_, _, _, rfl, rfl, by assumption, by assumption⟩

theorem parseSimpleVariableExpr_rel : PRel VRel parseSimpleVariableExpr parseSimpleVariableExpr := by
  unfold parseSimpleVariableExpr
  refine PRel.bind parseSimpleVariable_rel ?_
  rintro _ _ ⟨n, sp, sp', rfl, rfl, h, h'⟩
  dsimp only
  rel

macro_rules | `(tactic| rel_call) => `(tactic| first
  | with_reducible exact parseOptExpression_rel (by assumption) _
  | with_reducible exact deepestUnpack_rel _
  | with_reducible exact parseSimpleVariableExpr_rel)

section
variable {r : Rec} (hr : RecRel r)
include hr

theorem parseExpressionList_rel :
    PRel (Alike eraseExprs) (parseExpressionList r) (parseExpressionList r) := by
  unfold parseExpressionList
  refine PRel.loop (T := Alike eraseExprs) ?_ ⟨rfl⟩
  relv
  rel

theorem parseArgumentList_rel :
    PRel (Alike eraseExprs) (parseArgumentList r) (parseArgumentList r) := by
  unfold parseArgumentList
  refine PRel.bind PRel.expect ?_
  relv
  refine PRel.bind PRel.eats ?_
  relv
  refine PRel.ite (PRel.pure ⟨rfl⟩) ?_
  refine PRel.bind (R := Alike eraseExprs) ?_ ?_
  · refine PRel.loop (T := Alike eraseExprs) ?_ ⟨rfl⟩
    relv
    rel
  · rel

theorem parsePropertyName_rel : PRel EEq (parsePropertyName r) (parsePropertyName r) := by
  unfold parsePropertyName
  rel

end

inductive FragsRel : List (Text × Span) → List (Text × Span) → Prop
  | nil : FragsRel [] []
  | cons {x y : Text × Span} {xs ys : List (Text × Span)} (h : NRel x y) (t : FragsRel xs ys) : FragsRel (x :: xs) (y :: ys)

theorem FragsRel.snoc {xs ys : List (Text × Span)} (h : FragsRel xs ys) {x y : Text × Span} (hx : NRel x y) :
    FragsRel (xs ++ [x]) (ys ++ [y]) := by
  induction h with
  | nil => exact .cons hx .nil
  | cons h _ ih => exact .cons h ih

theorem FragsRel.fst {xs ys : List (Text × Span)} (h : FragsRel xs ys) : xs.map Prod.fst = ys.map Prod.fst := by
  induction h with
  | nil => rfl
  | cons h _ ih => cases h; simp [ih]

theorem FragsRel.head {xs ys : List (Text × Span)} (h : FragsRel xs ys) : OptRel NRel xs.head? ys.head? := by
  cases h with
  | nil => exact .none
  | cons h _ => exact .some h

theorem FragsRel.last {xs ys : List (Text × Span)} (h : FragsRel xs ys) : OptRel NRel xs.getLast? ys.getLast? := by
  induction h with
  | nil => exact .none
  | @cons x y xs ys h t ih =>
    cases t with
    | nil => exact .some h
    | cons h' t => simpa [List.getLast?_cons_cons] using ih

theorem lookString_rel {α β : Type} {R : α → β → Prop} {a c : α} {b d : β} {old : Nat} (h : R a b) (h' : R c d) (hl : Lo.val ≤ old) :
    PRel R (do
        match ← eatString with
        | some _ =>
          let p ← getPos
          P.setPos (p - 1)
          return a
        | none =>
          P.setPos old
          return c)
      (do
        match ← eatString with
        | some _ =>
          let p ← getPos
          P.setPos (p - 1)
          return b
        | none =>
          P.setPos old
          return d) := by
  constructor
  intro toks toks' hE p l
  have h1 : ∀ (toks : List TokSpan) (x : α) (y : α), (do
        match ← eatString with
        | some _ =>
          let p ← getPos
          P.setPos (p - 1)
          return x
        | none =>
          P.setPos old
          return y : P α) toks p = if (match toks[p]?.map TokSpan.tok with | some (.string _) => true | _ => false) then .ok x p else .ok y old := by
    intro toks x y
    show P.bnd P.eatString _ toks p = _
    unfold P.bnd P.eatString
    cases toks[p]? with
    | none => rfl
    | some t => obtain ⟨tok, sp⟩ := t; cases tok <;> rfl
  have h2 : ∀ (toks : List TokSpan) (x : β) (y : β), (do
        match ← eatString with
        | some _ =>
          let p ← getPos
          P.setPos (p - 1)
          return x
        | none =>
          P.setPos old
          return y : P β) toks p = if (match toks[p]?.map TokSpan.tok with | some (.string _) => true | _ => false) then .ok x p else .ok y old := by
    intro toks x y
    show P.bnd P.eatString _ toks p = _
    unfold P.bnd P.eatString
    cases toks[p]? with
    | none => rfl
    | some t => obtain ⟨tok, sp⟩ := t; cases tok <;> rfl
  rw [h1, h2, hE.tok p]
  split
  · exact .ok _ l h
  · exact .ok _ hl h'

theorem namespaceFragments_rel : PRel FragsRel namespaceFragments namespaceFragments := by
  unfold namespaceFragments
  refine PRel.loop (T := FragsRel) ?_ .nil
  intro xs ys h
  refine PRel.bind PRel.eatString ?_
  intro a b hab
  cases hab with
  | none => rel
  | some hn =>
    have := h.snoc hn
    dsimp only
    refine PRel.bind PRel.getPos ?_
    intro p q hp
    obtain ⟨rfl, hp⟩ := hp
    refine PRel.bind PRel.eat ?_
    intro a b hab
    cases hab with
    | none => rel
    | some hk => exact lookString_rel (.inl this) (.inr this) hp

/-- A path and a position behind an open tag. -/
inductive PathRel : Path × Span → Path × Span → Prop
  | mk (x : Path) {sp sp' : Span} (left : 1 ≤ sp.start) (right : 1 ≤ sp'.start) : PathRel (x, sp) (x, sp')

inductive PathRel2 : Path × Span → Path × Span → Prop
  | mk (x : Path) {sp sp' : Span} (left : 2 ≤ sp.start) (right : 2 ≤ sp'.start) : PathRel2 (x, sp) (x, sp')

theorem parseNamespaceName_rel : PRel PathRel2 parseNamespaceName parseNamespaceName := by
  unfold parseNamespaceName
  refine PRel.bind namespaceFragments_rel ?_
  intro xs ys h
  have h1 := h.head
  have h2 := h.last
  have h3 := h.fst
  dsimp only
  rw [List.map_dropLast, List.map_dropLast, h3]
  revert h1 h2
  generalize xs.head? = a
  generalize ys.head? = b
  generalize xs.getLast? = c
  generalize ys.getLast? = d
  intro h1 h2
  cases h1 with
  | none => exact PRel.abort
  | some h1 =>
    cases h2 with
    | none => exact PRel.abort
    | some h2 =>
      cases h1
      cases h2
      dsimp only
      exact PRel.pure (.mk _ (by assumption) (by assumption))

theorem parseName_rel : PRel PathRel parseName parseName := by
  unfold parseName
  refine PRel.bind PRel.eats ?_
  relv
  refine PRel.bind parseNamespaceName_rel ?_
  intro a b h
  cases h with
  | mk x l l' =>
    dsimp only
    refine PRel.ite ?_ (PRel.pure (.mk _ (by omega) (by omega)))
    refine PRel.bind (PRel.subP' (by omega) (by omega)) ?_
    rintro a b ⟨h, h'⟩
    exact PRel.pure (.mk _ (by show 1 ≤ a; omega) (by show 1 ≤ b; omega))

theorem parseNameAsExpr_rel : PRel VRel parseNameAsExpr parseNameAsExpr := by
  unfold parseNameAsExpr
  refine PRel.bind parseName_rel ?_
  intro a b h
  cases h
  dsimp only
  rel

theorem parseNameList_rel : PRel Eq parseNameList parseNameList := by
  unfold parseNameList
  refine PRel.loop (T := Eq) ?_ rfl
  relv
  refine PRel.bind parseName_rel ?_
  intro a b h
  cases h
  dsimp only
  rel

macro_rules | `(tactic| rel_call) => `(tactic| first
  | with_reducible exact parseExpressionList_rel (by assumption)
  | with_reducible exact parseArgumentList_rel (by assumption)
  | with_reducible exact parsePropertyName_rel (by assumption)
  | with_reducible exact parseNameAsExpr_rel
  | with_reducible exact parseNameList_rel)

theorem parseClassName_rel : PRel VRel parseClassName parseClassName := by
  unfold parseClassName
  rel

theorem parseIdentifier_rel : PRel (PairRel Eq Anyhow) parseIdentifier parseIdentifier := by
  unfold parseIdentifier
  refine PRel.bind PRel.peek ?_
  intro a b h
  cases h with
  | none => rel
  | some h =>
    cases h with
    | mk tok l l' =>
      cases tok with
      | string s => rel
      | k k =>
        dsimp only
        refine PRel.ite ?_ PRel.errHere
        refine PRel.bind PRel.getPos ?_
        relv
        refine PRel.bind (PRel.setPos (by omega)) ?_
        relv
        cases k.repr? <;> rel
      | _ => exact PRel.errHere

macro_rules | `(tactic| rel_call) => `(tactic| first
  | with_reducible exact parseClassName_rel
  | with_reducible exact parseIdentifier_rel)

theorem parseIdentifierAsExpr_rel : PRel EEq parseIdentifierAsExpr parseIdentifierAsExpr := by
  unfold parseIdentifierAsExpr
  rel

macro_rules | `(tactic| rel_call) => `(tactic| with_reducible exact parseIdentifierAsExpr_rel)

theorem resolveConst_erase (e : Expr) : (resolveConst e).erase = resolveConst e.erase := by
  obtain ⟨k, sp⟩ := e
  cases k <;> try rfl
  rename_i p
  unfold resolveConst
  simp only [Expr.erase, ExprK.erase]
  split
  · split <;> rfl
  · rfl

theorem parseConstant_rel : PRel EEq parseConstant parseConstant := by
  unfold parseConstant
  refine PRel.bind parseClassName_rel ?_
  relv
  rename_i h _ _
  have := congrArg resolveConst h
  rw [← resolveConst_erase, ← resolveConst_erase] at this
  rel

end Pico
