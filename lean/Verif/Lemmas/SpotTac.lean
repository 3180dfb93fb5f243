import Verif.Lemmas.SpotBase
import Verif.Lemmas.ReadTac
/-!
# Automation for "the tree with its ranges is a reading of the tokens"
-/
namespace Pico
open P

theorem expr_spots (e : Expr) : e.spots = .start e.span.start :: (e.kind.spots ++ [.stop e.span.stop]) := by cases e; rfl

theorem expr_piece (e : Expr) : e.piece = e.kind.pieceStart e.span.start :: (e.kind.spots ++ [.stop e.span.stop]) := by cases e; rfl

theorem Expr.kind_mk (k : ExprK) (sp : Span) : (Expr.mk k sp).kind = k := rfl

theorem Expr.span_mk (k : ExprK) (sp : Span) : (Expr.mk k sp).span = sp := rfl

theorem its_nil : its [] = [] := rfl

theorem its_cons (m : Mark) (ms : List Mark) : its (m :: ms) = .item m :: its ms := rfl

theorem its_append (a b : List Mark) : its (a ++ b) = its a ++ its b := List.map_append ..

theorem exprsSpots_append (a b : List Expr) : exprsSpots (a ++ b) = exprsSpots a ++ exprsSpots b := by
  induction a with
  | nil => rfl
  | cons x a ih => simp [exprsSpots, ih]

theorem itemsSpots_append (a b : List (Option Expr × Expr)) : itemsSpots (a ++ b) = itemsSpots a ++ itemsSpots b := by
  induction a with
  | nil => rfl
  | cons x a ih => obtain ⟨k, v⟩ := x; cases k <;> simp [itemsSpots, ih]

theorem indicesSpots_append (a b : List (Option Expr)) : indicesSpots (a ++ b) = indicesSpots a ++ indicesSpots b := by
  induction a with
  | nil => rfl
  | cons x a ih => simp [indicesSpots, ih]

theorem membersSpots_append (k : Kw) (a b : List Expr) : membersSpots k (a ++ b) = membersSpots k a ++ membersSpots k b := by
  induction a with
  | nil => rfl
  | cons x a ih => simp [membersSpots, ih]

theorem paramsSpots_append (a b : List Param) : paramsSpots (a ++ b) = paramsSpots a ++ paramsSpots b := by
  induction a with
  | nil => rfl
  | cons x a ih => simp [paramsSpots, ih]

theorem stmtsSpots_append (a b : List Stmt) : stmtsSpots (a ++ b) = stmtsSpots a ++ stmtsSpots b := by
  induction a with
  | nil => rfl
  | cons x a ih => simp [stmtsSpots, ih]

theorem catchesSpots_append (a b : List Catch) : catchesSpots (a ++ b) = catchesSpots a ++ catchesSpots b := by
  induction a with
  | nil => rfl
  | cons x a ih => simp [catchesSpots, ih]

theorem casesSpots_append (a b : List Case) : casesSpots (a ++ b) = casesSpots a ++ casesSpots b := by
  induction a with
  | nil => rfl
  | cons x a ih => simp [casesSpots, ih]

theorem declsSpots_append (a b : List Member) : declsSpots (a ++ b) = declsSpots a ++ declsSpots b := by
  induction a with
  | nil => rfl
  | cons x a ih => simp [declsSpots, ih]

theorem staticsSpots_append (a b : List (Text × Option Expr)) : staticsSpots (a ++ b) = staticsSpots a ++ staticsSpots b := by
  induction a with
  | nil => rfl
  | cons x a ih => obtain ⟨n, d⟩ := x; simp [staticsSpots, ih]

theorem variablesSpots_append (a b : List Variable) : variablesSpots (a ++ b) = variablesSpots a ++ variablesSpots b := by
  induction a with
  | nil => rfl
  | cons x a ih => simp [variablesSpots, ih]

theorem Cov.left (a b : List Spot) : Cov a (a ++ b) := Cov.of_sub (List.sublist_append_left _ _)

theorem Cov.edgeStart {x : Nat} {a b : List Spot} (h : Cov a b) : Cov (.edge x :: a) (.start x :: b) := .keep1 (.start_edge x) h

theorem Cov.edgeStop {x : Nat} {a b : List Spot} (h : Cov a b) : Cov (.edge x :: a) (.stop x :: b) := .keep1 (.stop_edge x) h

theorem Cov.pieceStart {k : ExprK} {x : Nat} {a b : List Spot} (h : Cov a b) : Cov (k.pieceStart x :: a) (.start x :: b) :=
  .keep1 (.piece k x) h

theorem Cov.dupPiece {k : ExprK} {x : Nat} {a b : List Spot} (h : Cov (.start x :: a) b) :
    Cov (.start x :: k.pieceStart x :: a) b := by
  intro toks i j hl
  obtain ⟨c, d, hc, hr, ha⟩ := h _ _ _ hl
  have hcd : c = d := by cases hr; rfl
  subst hcd
  exact ⟨c, c, hc, hr, c, c, Nat.le_refl _, Cov1.piece k x _ _ _ hr, ha⟩

/-- Spots of a result. -/
def okSpots {α : Type} (f : α → List Spot) : Except PErr α → List Spot
  | .ok a => f a
  | .error _ => []

/-- Normal form of lists of spots. -/
syntax "pl_norm" : tactic
macro_rules | `(tactic| pl_norm) => `(tactic| simp only [List.append_assoc, List.cons_append, List.nil_append, List.append_nil,
  Sum.elim_inl, Sum.elim_inr, okSpots, mkSpan, Expr.kind_mk, Expr.span_mk, its_nil, its_cons, its_append, reduceCtorEq,
  expr_spots, expr_piece, ExprK.spots, Variable.spots, optSpots, exprsSpots, itemsSpots, indicesSpots, membersSpots, FnDecl.refSpots,
  FnDecl.spots, paramsSpots, Param.spots, defaultSpots, optBlockSpots, Stmt.spots, stmtsSpots, StmtK.spots, finallySpots,
  catchesSpots, Catch.spots, casesSpots, Case.spots, Decl.spots, staticsSpots, variablesSpots, declsSpots, Member.spots,
  pathsMarks, headedMarks, optPathMarks, aliasMarks, clausesMarks, adaptMarks, captureMarks, flagMarks, hintMarks,
  exprsSpots_append, itemsSpots_append, indicesSpots_append, membersSpots_append, paramsSpots_append,
  stmtsSpots_append, catchesSpots_append, casesSpots_append, declsSpots_append, staticsSpots_append,
  variablesSpots_append, pathsMarks_append, clausesMarks_append, adaptMarks_append, captureMarks_append,
  beforeMarks, behindMarks, Option.toList, Path.identifier, ite_true, ite_false, Bool.false_eq_true, reduceIte])

/-- One list of spots is found where another one is. -/
syntax "pl_cov" : tactic
macro_rules | `(tactic| pl_cov) => `(tactic| (
  (try pl_norm)
  <;> (with_reducible repeat first
    | exact Cov.refl _
    | exact Cov.left _ _
    | exact Cov.nil _
    | apply Cov.dupStart
    | apply Cov.dupStop
    | apply Cov.dupPiece
    | apply Cov.keep
    | apply Cov.app
    | apply Cov.edgeStart
    | apply Cov.edgeStop
    | apply Cov.pieceStart
    | apply Cov.drop
    | apply Cov.skip)))

/-- The readings of the methods known so far. -/
syntax "pl_call" : tactic
macro_rules | `(tactic| pl_call) => `(tactic| first
  | with_reducible exact RecZ.expr (by assumption) _
  | with_reducible exact RecZ.stmt (by assumption))

/-- One step of a method. -/
syntax "pl1" : tactic
macro_rules | `(tactic| pl1) => `(tactic| first
  | with_reducible refine Lz.bind ?_
  | with_reducible refine Lz.pureB ?_
  | with_reducible refine Lz.retB ?_
  | (with_reducible refine Lz.eatsB (by decide) ?_ ?_; intro _ _)
  | (with_reducible refine Lz.expectB (by decide) ?_; intro _)
  | (with_reducible refine Lz.eatB _ (Fits.kw (List.mem_singleton.2 rfl)) (by decide) ?_ ?_; intro _ _)
  | (with_reducible refine Lz.eatVariableB ?_ ?_; intro _ _)
  | (with_reducible refine Lz.eatStringB ?_ ?_; intro _ _ _)
  | (with_reducible refine Lz.eatEncapsB ?_ ?_; intro _ _ _)
  | (with_reducible refine Lz.expectStringB ?_; intro _ _)
  | (with_reducible refine Lz.expectVariableB ?_; intro _ _)
  | (with_reducible refine Lz.getPosB ?_; intro _ _)
  | (with_reducible refine Lz.lastEndB ?_; intro _)
  | (with_reducible refine Lz.tokBackB ?_; intro _ _ _)
  | (with_reducible refine Lz.tokCountB ?_; intro _)
  | (with_reducible refine Lz.nextIsB ?_; intro _)
  | (with_reducible refine Lz.subPB ?_; intro _ _)
  | (with_reducible refine Lz.backB (by assumption) (by assumption) ?_)
  | with_reducible exact Lz.errHere _
  | with_reducible exact Lz.fail _
  | with_reducible exact Lz.abort _
  | with_reducible exact Lz.noFuel
  | with_reducible exact Lz.deepestUnpack _
  | ((with_reducible refine Lz.callB (f := ?_) ?_ ?_); rotate_left; pl_call; intro _ _)
  | ((with_reducible refine Lz.attemptB (f := ?_) ?_ ?_ ?_); rotate_left; pl_call; intro _ _; rotate_left; intro _ _; rotate_right)
  | simp only [reduceIte, Bool.false_eq_true, Bool.not_true, Bool.not_false]
  | dsimp only
  | split)

/-- The end of a method. -/
syntax "pl_end" : tactic
macro_rules | `(tactic| pl_end) => `(tactic| first
  | ((with_reducible refine Lz.pure ?_); intro h _; refine Located.cov h ?_; pl_cov; done)
  | ((with_reducible refine Lz.ret ?_); intro h _; refine Located.cov h ?_; pl_cov; done)
  | ((with_reducible refine Lz.call (f := ?_) ?_ ?_); rotate_left; pl_call; intro _ _ h _; refine Located.cov h ?_; pl_cov; done))

/-- Everything. -/
syntax "pl" : tactic
macro_rules | `(tactic| pl) => `(tactic| repeat' first | pl_end | pl1)

end Pico
