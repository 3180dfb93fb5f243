import Verif.Lemmas.ReadBase
/-!
# Automation for "the tree is a reading of the tokens"
-/
namespace Pico
open P

theorem kind_marks (e : Expr) : e.kind.marks = e.marks := by cases e; rfl

theorem exprsMarks_append (a b : List Expr) : exprsMarks (a ++ b) = exprsMarks a ++ exprsMarks b := by
  induction a with
  | nil => rfl
  | cons x a ih => simp [exprsMarks, ih]

theorem itemsMarks_append (a b : List (Option Expr × Expr)) : itemsMarks (a ++ b) = itemsMarks a ++ itemsMarks b := by
  induction a with
  | nil => rfl
  | cons x a ih => obtain ⟨k, v⟩ := x; cases k <;> simp [itemsMarks, ih]

theorem indicesMarks_append (a b : List (Option Expr)) : indicesMarks (a ++ b) = indicesMarks a ++ indicesMarks b := by
  induction a with
  | nil => rfl
  | cons x a ih => simp [indicesMarks, ih]

theorem membersMarks_append (k : Kw) (a b : List Expr) : membersMarks k (a ++ b) = membersMarks k a ++ membersMarks k b := by
  induction a with
  | nil => rfl
  | cons x a ih => simp [membersMarks, ih]

theorem paramsMarks_append (a b : List Param) : paramsMarks (a ++ b) = paramsMarks a ++ paramsMarks b := by
  induction a with
  | nil => rfl
  | cons x a ih => simp [paramsMarks, ih]

theorem stmtsMarks_append (a b : List Stmt) : stmtsMarks (a ++ b) = stmtsMarks a ++ stmtsMarks b := by
  induction a with
  | nil => rfl
  | cons x a ih => simp [stmtsMarks, ih]

theorem catchesMarks_append (a b : List Catch) : catchesMarks (a ++ b) = catchesMarks a ++ catchesMarks b := by
  induction a with
  | nil => rfl
  | cons x a ih => simp [catchesMarks, ih]

theorem casesMarks_append (a b : List Case) : casesMarks (a ++ b) = casesMarks a ++ casesMarks b := by
  induction a with
  | nil => rfl
  | cons x a ih => simp [casesMarks, ih]

theorem declsMarks_append (a b : List Member) : declsMarks (a ++ b) = declsMarks a ++ declsMarks b := by
  induction a with
  | nil => rfl
  | cons x a ih => simp [declsMarks, ih]

theorem staticsMarks_append (a b : List (Text × Option Expr)) : staticsMarks (a ++ b) = staticsMarks a ++ staticsMarks b := by
  induction a with
  | nil => rfl
  | cons x a ih => obtain ⟨n, d⟩ := x; simp [staticsMarks, ih]

theorem variablesMarks_append (a b : List Variable) : variablesMarks (a ++ b) = variablesMarks a ++ variablesMarks b := by
  induction a with
  | nil => rfl
  | cons x a ih => simp [variablesMarks, ih]

theorem pathsMarks_append (a b : List Path) : pathsMarks (a ++ b) = pathsMarks a ++ pathsMarks b := by
  induction a with
  | nil => rfl
  | cons x a ih => simp [pathsMarks, ih]

theorem clausesMarks_append (a b : List UseClause) : clausesMarks (a ++ b) = clausesMarks a ++ clausesMarks b := by
  induction a with
  | nil => rfl
  | cons x a ih => simp [clausesMarks, ih]

theorem adaptMarks_append (a b : List TraitUse) : adaptMarks (a ++ b) = adaptMarks a ++ adaptMarks b := by
  induction a with
  | nil => rfl
  | cons x a ih => cases x <;> simp [adaptMarks, ih]

theorem captureMarks_append (a b : List (Bool × Text)) : captureMarks (a ++ b) = captureMarks a ++ captureMarks b := by
  induction a with
  | nil => rfl
  | cons x a ih => obtain ⟨r, v⟩ := x; simp [captureMarks, ih]

/-- Normal form of lists of marks. -/
syntax "rd_norm" : tactic
macro_rules | `(tactic| rd_norm) => `(tactic| simp only [List.append_assoc, List.cons_append, List.nil_append, List.append_nil,
  Sum.elim_inl, Sum.elim_inr,
  Expr.marks, ExprK.marks, Variable.marks, optMarks, exprsMarks, itemsMarks, indicesMarks, membersMarks, FnDecl.refMarks,
  FnDecl.marks, paramsMarks, Param.marks, defaultMarks, optBlockMarks, Stmt.marks, stmtsMarks, StmtK.marks, finallyMarks,
  catchesMarks, Catch.marks, casesMarks, Case.marks, Decl.marks, staticsMarks, variablesMarks, declsMarks, Member.marks,
  pathsMarks, headedMarks, optPathMarks, aliasMarks, clausesMarks, adaptMarks, captureMarks, flagMarks, hintMarks,
  kind_marks, exprsMarks_append, itemsMarks_append, indicesMarks_append, membersMarks_append, paramsMarks_append,
  stmtsMarks_append, catchesMarks_append, casesMarks_append, declsMarks_append, staticsMarks_append,
  variablesMarks_append, pathsMarks_append, clausesMarks_append, adaptMarks_append, captureMarks_append,
  beforeMarks, behindMarks, Option.toList, Path.identifier, ite_true, ite_false, Bool.false_eq_true, reduceIte])

/-- One list of marks is contained in another one. -/
syntax "rd_sub" : tactic
macro_rules | `(tactic| rd_sub) => `(tactic| (
  (try rd_norm)
  <;> (with_reducible repeat first
    | exact List.Sublist.refl _
    | exact List.sublist_append_left _ _
    | exact List.nil_sublist _
    | apply List.Sublist.cons_cons
    | apply (List.append_sublist_append_left _).2
    | apply List.Sublist.cons
    | apply List.sublist_append_of_sublist_right)))

/-- The readings of the methods known so far. -/
syntax "rd_call" : tactic
macro_rules | `(tactic| rd_call) => `(tactic| first
  | with_reducible exact RecY.expr (by assumption) _
  | with_reducible exact RecY.stmt (by assumption))

/-- One step of a method. -/
syntax "rd1" : tactic
macro_rules | `(tactic| rd1) => `(tactic| first
  | with_reducible refine Tr.bind ?_
  | with_reducible refine Tr.pureB ?_
  | with_reducible refine Tr.retB ?_
  | with_reducible refine Tr.eatsB ?_ ?_
  | (with_reducible refine Tr.expectB ?_; intro _)
  | (with_reducible refine Tr.eatB _ (Fits.kw (List.mem_singleton.2 rfl)) ?_ ?_; intro _)
  | (with_reducible refine Tr.eatVariableB ?_ ?_; intro _ _)
  | (with_reducible refine Tr.eatStringB ?_ ?_; intro _ _ _)
  | (with_reducible refine Tr.eatEncapsB ?_ ?_; intro _ _ _)
  | (with_reducible refine Tr.expectStringB ?_; intro _ _)
  | (with_reducible refine Tr.expectVariableB ?_; intro _ _)
  | (with_reducible refine Tr.getPosB ?_; intro _ _)
  | (with_reducible refine Tr.lastEndB ?_; intro _)
  | (with_reducible refine Tr.tokBackB ?_; intro _)
  | (with_reducible refine Tr.tokCountB ?_; intro _)
  | (with_reducible refine Tr.nextIsB ?_; intro _)
  | (with_reducible refine Tr.subPB ?_; intro _)
  | (with_reducible refine Tr.backB (by assumption) (by assumption) ?_)
  | with_reducible exact Tr.errHere _
  | with_reducible exact Tr.fail _
  | with_reducible exact Tr.abort _
  | with_reducible exact Tr.noFuel
  | with_reducible exact Tr.deepestUnpack _
  | ((with_reducible refine Tr.callB (f := ?_) ?_ ?_); rotate_left; rd_call; intro _ _)
  | ((with_reducible refine Tr.attemptB (f := ?_) ?_ ?_ ?_); rotate_left; rd_call; intro _ _; rotate_left; intro _ _; rotate_right)
  | simp only [reduceIte, Bool.false_eq_true, Bool.not_true, Bool.not_false]
  | dsimp only
  | split)

/-- The end of a method. -/
syntax "rd_end" : tactic
macro_rules | `(tactic| rd_end) => `(tactic| first
  | ((with_reducible refine Tr.pure ?_); intro h _; refine ReadOff.sub h ?_; rd_sub; done)
  | ((with_reducible refine Tr.ret ?_); intro h _; refine ReadOff.sub h ?_; rd_sub; done)
  | ((with_reducible refine Tr.call (f := ?_) ?_ ?_); rotate_left; rd_call; intro _ _ h _; refine ReadOff.sub h ?_; rd_sub; done))

/-- Everything. -/
syntax "rd" : tactic
macro_rules | `(tactic| rd) => `(tactic| repeat' first | rd_end | rd1)

end Pico
