import Verif.Lemmas.ParserWp
import Verif.Spec.Tree
/-!
# The parser always makes progress and builds printable trees

For every parser method: it never runs out of fuel (given that the recursive calls it makes do not), it
consumes at least one token when it succeeds (`Eats`; `Keeps` for methods that may consume nothing), it never
moves backwards, and the tree it returns only contains nodes the printer can print.
-/
namespace Pico
open P

abbrev PE := Expr.All ExprK.hasPrinter
abbrev PS := Stmt.All ExprK.hasPrinter
abbrev PEs := allExprs ExprK.hasPrinter
abbrev PSs := allStmts ExprK.hasPrinter
abbrev PO := allOpt ExprK.hasPrinter
abbrev PIs := allItems ExprK.hasPrinter
abbrev PF := FnDecl.All ExprK.hasPrinter
abbrev PPs := allParams ExprK.hasPrinter
abbrev PMs := allMembers ExprK.hasPrinter

section
variable {α : Type}

def Eats (m : P α) (toks : List TokSpan) (pos : Nat) (A : α → Prop) : Prop :=
  ∀ (Q : α → Nat → Prop) (E : PErr → Nat → Prop),
    (∀ a p, pos < toks.length → pos < p → A a → Q a p) → (∀ e p, pos ≤ p → E e p) → Wp m toks pos Q E

def Keeps (m : P α) (toks : List TokSpan) (pos : Nat) (A : α → Prop) : Prop :=
  ∀ (Q : α → Nat → Prop) (E : PErr → Nat → Prop),
    (∀ a p, pos ≤ p → A a → Q a p) → (∀ e p, pos ≤ p → E e p) → Wp m toks pos Q E

/-- `some` consumes, `none` may consume. -/
def Opts (m : P (Option α)) (toks : List TokSpan) (pos : Nat) (A : α → Prop) : Prop :=
  ∀ (Q : Option α → Nat → Prop) (E : PErr → Nat → Prop),
    (∀ a p, pos < toks.length → pos < p → A a → Q (some a) p) → (∀ p, pos ≤ p → Q none p) →
    (∀ e p, pos ≤ p → E e p) → Wp m toks pos Q E

variable {toks : List TokSpan} {pos : Nat}

theorem Eats.use {m : P α} {A : α → Prop} {Q : α → Nat → Prop} {E : PErr → Nat → Prop}
    (h : Eats m toks pos A) (h1 : ∀ a p, pos < toks.length → pos < p → A a → Q a p)
    (h2 : ∀ e p, pos ≤ p → E e p) : Wp m toks pos Q E := h Q E h1 h2

theorem Keeps.use {m : P α} {A : α → Prop} {Q : α → Nat → Prop} {E : PErr → Nat → Prop}
    (h : Keeps m toks pos A) (h1 : ∀ a p, pos ≤ p → A a → Q a p)
    (h2 : ∀ e p, pos ≤ p → E e p) : Wp m toks pos Q E := h Q E h1 h2

theorem Opts.use {m : P (Option α)} {A : α → Prop} {Q : Option α → Nat → Prop}
    {E : PErr → Nat → Prop}
    (h : Opts m toks pos A) (h1 : ∀ a p, pos < toks.length → pos < p → A a → Q (some a) p)
    (h3 : ∀ p, pos ≤ p → Q none p) (h2 : ∀ e p, pos ≤ p → E e p) : Wp m toks pos Q E := h Q E h1 h3 h2

end

/-- `parse_expression` behaves at all positions from `lo` on. -/
def RecE (r : Rec) (toks : List TokSpan) (lo : Nat) : Prop :=
  ∀ q, lo ≤ q → ∀ prec, Eats (r.expr prec) toks q PE

/-- `parse_statement` behaves at all positions from `lo` on. -/
def RecS (r : Rec) (toks : List TokSpan) (lo : Nat) : Prop :=
  ∀ q, lo ≤ q → Eats r.stmt toks q PS

theorem RecE.use {r : Rec} {toks : List TokSpan} {lo q : Nat} (h : RecE r toks lo) (hq : lo ≤ q)
    {prec : Prec} : Eats (r.expr prec) toks q PE := h q hq prec

theorem RecS.use {r : Rec} {toks : List TokSpan} {lo q : Nat} (h : RecS r toks lo) (hq : lo ≤ q) :
    Eats r.stmt toks q PS := h q hq

/-! ### Printability of built trees -/

theorem allExprs_append {p : ExprK → Prop} (a b : List Expr) :
    allExprs p (a ++ b) ↔ allExprs p a ∧ allExprs p b := by
  induction a with
  | nil => simp [allExprs]
  | cons x a ih => simp [allExprs, ih, and_assoc]

theorem allItems_append {p : ExprK → Prop} (a b : List (Option Expr × Expr)) :
    allItems p (a ++ b) ↔ allItems p a ∧ allItems p b := by
  induction a with
  | nil => simp [allItems]
  | cons x a ih => obtain ⟨k, v⟩ := x; simp [allItems, ih, and_assoc]

theorem allOpts_append {p : ExprK → Prop} (a b : List (Option Expr)) :
    allOpts p (a ++ b) ↔ allOpts p a ∧ allOpts p b := by
  induction a with
  | nil => simp [allOpts]
  | cons x a ih => simp [allOpts, ih, and_assoc]

theorem allStmts_append {p : ExprK → Prop} (a b : List Stmt) :
    allStmts p (a ++ b) ↔ allStmts p a ∧ allStmts p b := by
  induction a with
  | nil => simp [allStmts]
  | cons x a ih => simp [allStmts, ih, and_assoc]

theorem allParams_append {p : ExprK → Prop} (a b : List Param) :
    allParams p (a ++ b) ↔ allParams p a ∧ allParams p b := by
  induction a with
  | nil => simp [allParams]
  | cons x a ih => simp [allParams, ih, and_assoc]

theorem allMembers_append {p : ExprK → Prop} (a b : List Member) :
    allMembers p (a ++ b) ↔ allMembers p a ∧ allMembers p b := by
  induction a with
  | nil => simp [allMembers]
  | cons x a ih => simp [allMembers, ih, and_assoc]

theorem allCatches_append {p : ExprK → Prop} (a b : List Catch) :
    allCatches p (a ++ b) ↔ allCatches p a ∧ allCatches p b := by
  induction a with
  | nil => simp [allCatches]
  | cons x a ih => simp [allCatches, ih, and_assoc]

theorem allCases_append {p : ExprK → Prop} (a b : List Case) :
    allCases p (a ++ b) ↔ allCases p a ∧ allCases p b := by
  induction a with
  | nil => simp [allCases]
  | cons x a ih => simp [allCases, ih, and_assoc]

theorem allStaticVars_append {p : ExprK → Prop} (a b : List (Text × Option Expr)) :
    allStaticVars p (a ++ b) ↔ allStaticVars p a ∧ allStaticVars p b := by
  induction a with
  | nil => simp [allStaticVars]
  | cons x a ih => obtain ⟨k, v⟩ := x; simp [allStaticVars, ih, and_assoc]

theorem allVariables_append {p : ExprK → Prop} (a b : List Variable) :
    allVariables p (a ++ b) ↔ allVariables p a ∧ allVariables p b := by
  induction a with
  | nil => simp [allVariables]
  | cons x a ih => simp [allVariables, ih, and_assoc]

theorem All_kind_iff {p : ExprK → Prop} {e : Expr} {sp : Span} :
    Expr.All p (.mk e.kind sp) ↔ Expr.All p e := by
  cases e; exact Iff.rfl

theorem All_kind {p : ExprK → Prop} {e : Expr} (sp : Span) (h : Expr.All p e) :
    Expr.All p (.mk e.kind sp) := by
  cases e; exact h

/-- Close goals saying that a tree is printable. -/
macro "pr" : tactic => `(tactic| first
  | assumption
  | exact All_kind _ (by assumption)
  | (simp [↓All_kind_iff, Expr.All, ExprK.Children, ExprK.hasPrinter, Variable.All, allOpt, allExprs, allItems, allOpts,
      FnDecl.All, allParams, Param.All, allBody, Stmt.All, StmtK.All, allStmts, Catch.All, allCatches,
      Case.All, allCases, Decl.All, allStaticVars, allVariables, Member.All, allMembers,
      allExprs_append, allItems_append, allOpts_append, allStmts_append, allParams_append,
      allMembers_append, allCatches_append, allCases_append, allStaticVars_append, allVariables_append, *]
     done)
  | (simp_all [↓All_kind_iff, Expr.All, ExprK.Children, ExprK.hasPrinter, Variable.All, allOpt, allExprs, allItems, allOpts,
      FnDecl.All, allParams, Param.All, allBody, Stmt.All, StmtK.All, allStmts, Catch.All, allCatches,
      Case.All, allCases, Decl.All, allStaticVars, allVariables, Member.All, allMembers,
      allExprs_append, allItems_append, allOpts_append, allStmts_append, allParams_append,
      allMembers_append, allCatches_append, allCases_append, allStaticVars_append, allVariables_append]
     done))

/-- Calls of methods with a known specification; extended below. -/
syntax "wp_call" : tactic

/-- One step of symbolic execution. -/
syntax "wp1" : tactic
set_option hygiene false in
macro_rules | `(tactic| wp1) => `(tactic| first
  | with_reducible exact h2 _ _ (by omega)
  | with_reducible refine h1 _ _ (by omega) (by omega) ?_
  | with_reducible refine h1 _ _ (by omega) ?_
  | with_reducible exact h3 _ (by omega)
  | intro _
  | with_reducible refine Wp.bind ?_
  | with_reducible refine Wp.iteTrue ?_
  | with_reducible refine Wp.iteFalse ?_
  | with_reducible refine Wp.ite ?_ ?_
  | with_reducible refine Wp.pure ?_
  | with_reducible refine Wp.ret ?_
  | with_reducible refine Wp.fail ?_
  | with_reducible refine Wp.errHere ?_
  | with_reducible exact Wp.abort
  | with_reducible refine Wp.getPos ?_
  | with_reducible refine Wp.setPos ?_
  | with_reducible refine Wp.tokCount ?_
  | with_reducible refine Wp.attempt ?_
  | with_reducible refine Wp.peek ?_ ?_
  | with_reducible refine Wp.peekTok ?_ ?_
  | with_reducible refine Wp.eat ?_ ?_
  | with_reducible refine Wp.eats ?_ ?_
  | with_reducible refine Wp.nextIs ?_ ?_
  | with_reducible refine Wp.expect ?_ ?_
  | with_reducible refine Wp.eatString ?_ ?_
  | with_reducible refine Wp.eatVariable ?_ ?_
  | with_reducible refine Wp.eatEncaps ?_ ?_
  | with_reducible refine Wp.expectString ?_ ?_
  | with_reducible refine Wp.expectVariable ?_ ?_
  | with_reducible refine Wp.tokBack ?_
  | with_reducible refine Wp.lastEnd ?_
  | with_reducible refine Wp.subP ?_
  | wp_call
  | dsimp only
  | with_reducible refine And.intro (by omega) ?_
  | omega
  | split)

/-- Symbolic execution up to loops and printability goals. -/
macro "wp" : tactic => `(tactic| repeat' wp1)

macro_rules | `(tactic| wp_call) => `(tactic|
  with_reducible refine Eats.use (RecE.use (by assumption) (by omega)) ?_ ?_)
macro_rules | `(tactic| wp_call) => `(tactic|
  with_reducible refine Eats.use (RecS.use (by assumption) (by omega)) ?_ ?_)

variable {r : Rec} {toks : List TokSpan} {pos lo los : Nat}

theorem parseOptExpression_ok {prec : Prec} (hE : RecE r toks lo) (hl : lo ≤ pos) :
    Keeps (parseOptExpression r prec) toks pos PO := by
  intro Q E h1 h2
  unfold parseOptExpression
  wp <;> pr
macro_rules | `(tactic| wp_call) => `(tactic|
  with_reducible refine Keeps.use (parseOptExpression_ok (by assumption) (by omega)) ?_ ?_)

theorem parseSimpleVariable_ok :
    Eats parseSimpleVariable toks pos (fun x => Variable.All ExprK.hasPrinter x.1) := by
  intro Q E h1 h2
  unfold parseSimpleVariable
  wp <;> pr
macro_rules | `(tactic| wp_call) => `(tactic|
  with_reducible refine Eats.use parseSimpleVariable_ok ?_ ?_)

theorem parseSimpleVariableExpr_ok : Eats parseSimpleVariableExpr toks pos PE := by
  intro Q E h1 h2
  unfold parseSimpleVariableExpr
  wp <;> pr
macro_rules | `(tactic| wp_call) => `(tactic|
  with_reducible refine Eats.use parseSimpleVariableExpr_ok ?_ ?_)

theorem parseExpressionList_ok (hE : RecE r toks lo) (hl : lo ≤ pos) :
    Eats (parseExpressionList r) toks pos PEs := by
  intro Q E h1 h2
  unfold parseExpressionList
  refine Wp.loop (fun s q => pos ≤ q ∧ PEs s) ⟨by omega, trivial⟩ ?_
  rintro s q ⟨hq, hs⟩
  wp <;> pr
macro_rules | `(tactic| wp_call) => `(tactic|
  with_reducible refine Eats.use (parseExpressionList_ok (by assumption) (by omega)) ?_ ?_)

theorem parseArgumentList_ok (hE : RecE r toks lo) (hl : lo ≤ pos + 1):
    Eats (parseArgumentList r) toks pos PEs := by
  intro Q E h1 h2
  unfold parseArgumentList
  wp
  · pr
  · refine Wp.loop (fun s q => pos + 1 ≤ q ∧ PEs s) ⟨by omega, trivial⟩ ?_
    rintro s q ⟨hq, hs⟩
    wp <;> pr

macro_rules | `(tactic| wp_call) => `(tactic|
  with_reducible refine Eats.use (parseArgumentList_ok (by assumption) (by omega)) ?_ ?_)

theorem parsePropertyName_ok (hE : RecE r toks lo) (hl : lo ≤ pos + 1):
    Eats (parsePropertyName r) toks pos PE := by
  intro Q E h1 h2
  unfold parsePropertyName
  wp <;> pr

macro_rules | `(tactic| wp_call) => `(tactic|
  with_reducible refine Eats.use (parsePropertyName_ok (by assumption) (by omega)) ?_ ?_)

theorem namespaceFragments_ok :
    Eats namespaceFragments toks pos (fun _ => True) := by
  intro Q E h1 h2
  unfold namespaceFragments
  refine Wp.loop (fun s q => pos ≤ q ∧ True) ⟨by omega, trivial⟩ ?_
  rintro s q ⟨hq, hs⟩
  wp <;> pr

macro_rules | `(tactic| wp_call) => `(tactic|
  with_reducible refine Eats.use namespaceFragments_ok ?_ ?_)

theorem parseNamespaceName_ok :
    Eats parseNamespaceName toks pos (fun _ => True) := by
  intro Q E h1 h2
  unfold parseNamespaceName
  wp <;> pr

macro_rules | `(tactic| wp_call) => `(tactic|
  with_reducible refine Eats.use parseNamespaceName_ok ?_ ?_)

theorem parseName_ok :
    Eats parseName toks pos (fun _ => True) := by
  intro Q E h1 h2
  unfold parseName
  wp <;> pr

macro_rules | `(tactic| wp_call) => `(tactic|
  with_reducible refine Eats.use parseName_ok ?_ ?_)

theorem parseNameAsExpr_ok :
    Eats parseNameAsExpr toks pos PE := by
  intro Q E h1 h2
  unfold parseNameAsExpr
  wp <;> pr

macro_rules | `(tactic| wp_call) => `(tactic|
  with_reducible refine Eats.use parseNameAsExpr_ok ?_ ?_)

theorem parseNameList_ok :
    Eats parseNameList toks pos (fun _ => True) := by
  intro Q E h1 h2
  unfold parseNameList
  refine Wp.loop (fun s q => pos ≤ q ∧ True) ⟨by omega, trivial⟩ ?_
  rintro s q ⟨hq, hs⟩
  wp <;> pr

macro_rules | `(tactic| wp_call) => `(tactic|
  with_reducible refine Eats.use parseNameList_ok ?_ ?_)

theorem parseClassName_ok :
    Eats parseClassName toks pos PE := by
  intro Q E h1 h2
  unfold parseClassName
  wp <;> pr

macro_rules | `(tactic| wp_call) => `(tactic|
  with_reducible refine Eats.use parseClassName_ok ?_ ?_)

theorem parseIdentifier_ok :
    Eats parseIdentifier toks pos (fun _ => True) := by
  intro Q E h1 h2
  unfold parseIdentifier
  wp <;> pr

macro_rules | `(tactic| wp_call) => `(tactic|
  with_reducible refine Eats.use parseIdentifier_ok ?_ ?_)

theorem parseIdentifierAsExpr_ok :
    Eats parseIdentifierAsExpr toks pos PE := by
  intro Q E h1 h2
  unfold parseIdentifierAsExpr
  wp <;> pr

macro_rules | `(tactic| wp_call) => `(tactic|
  with_reducible refine Eats.use parseIdentifierAsExpr_ok ?_ ?_)

theorem resolveConst_ok {e : Expr} (h : PE e) : PE (resolveConst e) := by
  unfold resolveConst
  split
  · split
    · split
      · pr
      · exact h
    · exact h
  · exact h

theorem parseConstant_ok :
    Eats parseConstant toks pos PE := by
  intro Q E h1 h2
  unfold parseConstant
  wp
  · refine ⟨trivial, resolveConst_ok (by assumption), ?_⟩
    pr
  · exact resolveConst_ok (by assumption)

macro_rules | `(tactic| wp_call) => `(tactic|
  with_reducible refine Eats.use parseConstant_ok ?_ ?_)

theorem parseArrayPairList_ok (hE : RecE r toks lo) (hl : lo ≤ pos):
    Keeps (parseArrayPairList r) toks pos PIs := by
  intro Q E h1 h2
  unfold parseArrayPairList
  refine Wp.loop (fun s q => pos ≤ q ∧ PIs s) ⟨by omega, trivial⟩ ?_
  rintro s q ⟨hq, hs⟩
  wp <;> pr

macro_rules | `(tactic| wp_call) => `(tactic|
  with_reducible refine Keeps.use (parseArrayPairList_ok (by assumption) (by omega)) ?_ ?_)

theorem parseDereferencableScalar_ok (hE : RecE r toks lo) (hl : lo ≤ pos + 1):
    Eats (parseDereferencableScalar r) toks pos PE := by
  intro Q E h1 h2
  unfold parseDereferencableScalar
  wp <;> pr

macro_rules | `(tactic| wp_call) => `(tactic|
  with_reducible refine Eats.use (parseDereferencableScalar_ok (by assumption) (by omega)) ?_ ?_)

theorem deepestUnpack_ok {α : Type} {store : Option PErr} :
    Keeps (deepestUnpack (α := α) store) toks pos (fun _ => False) := by
  intro Q E h1 h2
  unfold deepestUnpack
  wp

macro_rules | `(tactic| wp_call) => `(tactic|
  with_reducible refine Keeps.use deepestUnpack_ok ?_ ?_)
macro_rules | `(tactic| wp_call) => `(tactic| with_reducible contradiction)

theorem parseBaseVariable_ok {simpleOnly : Bool} (hE : RecE r toks lo) (hl : lo ≤ pos + 1):
    Eats (parseBaseVariable r simpleOnly) toks pos PE := by
  intro Q E h1 h2
  unfold parseBaseVariable
  wp <;> pr

macro_rules | `(tactic| wp_call) => `(tactic|
  with_reducible refine Eats.use (parseBaseVariable_ok (by assumption) (by omega)) ?_ ?_)

theorem constScopedTail_ok {simpleOnly : Bool} {cls : Expr} (hc : PE cls):
    Opts (constScopedTail simpleOnly cls) toks pos (fun x => PE x.1 ∧ PE x.2.1) := by
  intro Q E h1 h3 h2
  unfold constScopedTail
  wp <;> first | exact ⟨by assumption, by assumption⟩ | pr

macro_rules | `(tactic| wp_call) => `(tactic|
  with_reducible refine Opts.use (constScopedTail_ok (by assumption)) ?_ ?_ ?_)

theorem parseConstScoped_ok {simpleOnly : Bool}:
    Eats (parseConstScoped simpleOnly) toks pos (fun x => PE x.1 ∧ PE x.2.1) := by
  intro Q E h1 h2
  unfold parseConstScoped
  wp <;> pr

macro_rules | `(tactic| wp_call) => `(tactic|
  with_reducible refine Eats.use parseConstScoped_ok ?_ ?_)

theorem parseFnCallBaseItem_ok {simpleOnly : Bool}:
    Eats (parseFnCallBaseItem simpleOnly) toks pos PE := by
  intro Q E h1 h2
  unfold parseFnCallBaseItem
  wp <;> pr

macro_rules | `(tactic| wp_call) => `(tactic|
  with_reducible refine Eats.use parseFnCallBaseItem_ok ?_ ?_)

theorem parseVariableBase_ok {simpleOnly : Bool} (hE : RecE r toks lo) (hl : lo ≤ pos + 1):
    Eats (parseVariableBase r simpleOnly) toks pos PE := by
  intro Q E h1 h2
  unfold parseVariableBase
  wp <;> pr

macro_rules | `(tactic| wp_call) => `(tactic|
  with_reducible refine Eats.use (parseVariableBase_ok (by assumption) (by omega)) ?_ ?_)

theorem addArrayIdx_ok {e : Expr} {idx : Option Expr} {stop : Nat} (h : PE e) (hi : PO idx) :
    PE (addArrayIdx e idx stop) := by
  unfold addArrayIdx
  split
  · simp only [PE, Expr.All, ExprK.Children, ExprK.hasPrinter] at h; pr
  · pr

theorem addObjMember_ok {e p : Expr} {stop : Nat} (h : PE e) (hi : PE p) :
    PE (addObjMember e p stop) := by
  unfold addObjMember
  split
  · simp only [PE, Expr.All, ExprK.Children, ExprK.hasPrinter] at h; pr
  · pr

theorem addStaticMember_ok {e p : Expr} {stop : Nat} (h : PE e) (hi : PE p) :
    PE (addStaticMember e p stop) := by
  unfold addStaticMember
  split
  · simp only [PE, Expr.All, ExprK.Children, ExprK.hasPrinter] at h; pr
  · pr

theorem appendixIndex_ok {e : Expr} (hE : RecE r toks lo) (hl : lo ≤ pos + 1) (he : PE e):
    Opts (appendixIndex r e) toks pos PE := by
  intro Q E h1 h3 h2
  unfold appendixIndex
  wp
  exact addArrayIdx_ok (by assumption) (by assumption)

macro_rules | `(tactic| wp_call) => `(tactic|
  with_reducible refine Opts.use (appendixIndex_ok (by assumption) (by omega) (by assumption)) ?_ ?_ ?_)

theorem appendixMember_ok {e : Expr} (hE : RecE r toks lo) (hl : lo ≤ pos + 1) (he : PE e):
    Opts (appendixMember r e) toks pos PE := by
  intro Q E h1 h3 h2
  unfold appendixMember
  wp
  exact addObjMember_ok (by assumption) (by assumption)

macro_rules | `(tactic| wp_call) => `(tactic|
  with_reducible refine Opts.use (appendixMember_ok (by assumption) (by omega) (by assumption)) ?_ ?_ ?_)

theorem appendixStatic_ok {e : Expr} (he : PE e):
    Opts (appendixStatic e) toks pos PE := by
  intro Q E h1 h3 h2
  unfold appendixStatic
  wp
  exact addStaticMember_ok (by assumption) (by assumption)

macro_rules | `(tactic| wp_call) => `(tactic|
  with_reducible refine Opts.use (appendixStatic_ok (by assumption)) ?_ ?_ ?_)

theorem appendixCall_ok {e : Expr} {simpleOnly : Bool} (hE : RecE r toks lo) (hl : lo ≤ pos + 1) (he : PE e):
    Opts (appendixCall r simpleOnly e) toks pos PE := by
  intro Q E h1 h3 h2
  unfold appendixCall
  wp <;> pr

macro_rules | `(tactic| wp_call) => `(tactic|
  with_reducible refine Opts.use (appendixCall_ok (by assumption) (by omega) (by assumption)) ?_ ?_ ?_)

theorem appendixLoop_ok {e : Expr} {simpleOnly : Bool} (hE : RecE r toks lo) (hl : lo ≤ pos + 1) (he : PE e) :
    Keeps (P.loop (appendixStep r simpleOnly) e) toks pos PE := by
  intro Q E h1 h2
  refine Wp.loop (fun s q => pos ≤ q ∧ PE s) ⟨by omega, he⟩ ?_
  rintro s q ⟨hq, hs⟩
  unfold appendixStep
  wp <;> pr
macro_rules | `(tactic| wp_call) => `(tactic|
  with_reducible refine Keeps.use (appendixLoop_ok (by assumption) (by omega) (by assumption)) ?_ ?_)

theorem parseVariable_none_ok {simpleOnly : Bool} (hE : RecE r toks lo) (hl : lo ≤ pos + 1):
    Eats (parseVariable r simpleOnly none) toks pos PE := by
  intro Q E h1 h2
  unfold parseVariable
  wp <;> pr

macro_rules | `(tactic| wp_call) => `(tactic|
  with_reducible refine Eats.use (parseVariable_none_ok (by assumption) (by omega)) ?_ ?_)

theorem parseVariable_some_ok {simpleOnly : Bool} {e : Expr} (hE : RecE r toks lo) (hl : lo ≤ pos + 1) (he : PE e):
    Keeps (parseVariable r simpleOnly (some e)) toks pos PE := by
  intro Q E h1 h2
  unfold parseVariable
  wp <;> pr

macro_rules | `(tactic| wp_call) => `(tactic|
  with_reducible refine Keeps.use (parseVariable_some_ok (by assumption) (by omega) (by assumption)) ?_ ?_)

theorem parseClassNameReference_ok (hE : RecE r toks lo) (hl : lo ≤ pos + 1):
    Eats (parseClassNameReference r) toks pos PE := by
  intro Q E h1 h2
  unfold parseClassNameReference
  wp <;> pr

macro_rules | `(tactic| wp_call) => `(tactic|
  with_reducible refine Eats.use (parseClassNameReference_ok (by assumption) (by omega)) ?_ ?_)

theorem flush_ok {s : Encaps} (h : PEs s.parts) :
    Keeps s.flush toks pos (fun s => PEs s.parts) := by
  intro Q E h1 h2
  unfold Encaps.flush
  wp <;> pr
macro_rules | `(tactic| wp_call) => `(tactic|
  with_reducible refine Keeps.use (flush_ok (by assumption)) ?_ ?_)

theorem encapsDollar_ok {s : Encaps} {t : TokSpan} (hE : RecE r toks lo) (hl : lo ≤ pos) (h : PEs s.parts):
    Eats (encapsDollar r s t) toks pos (fun s => PEs s.parts) := by
  intro Q E h1 h2
  unfold encapsDollar
  have hv : ∀ n sp, PE (.mk (.var (.name n)) sp) := by intro n sp; pr
  wp
  · refine Keeps.use (parseVariable_some_ok hE (by omega) (hv _ _)) ?_ ?_ <;> wp <;> pr
  · pr

macro_rules | `(tactic| wp_call) => `(tactic|
  with_reducible refine Eats.use (encapsDollar_ok (by assumption) (by omega) (by assumption)) ?_ ?_)

theorem concatParts_ok {ps : List Expr} {e : Expr} (h : PEs ps) (he : PE e) : PE (concatParts ps e) := by
  unfold concatParts
  have key : ∀ (l : List Expr) (a : Expr), PEs l → PE a →
      PE (l.foldl (fun acc part =>
        .mk (.binary .Concat part acc) (mkSpan part.span.start acc.span.stop)) a) := by
    intro l
    induction l with
    | nil => intro a _ ha; exact ha
    | cons x l ih =>
      intro a hl ha
      exact ih _ hl.2 ⟨trivial, hl.1, ha⟩
  refine key _ _ ?_ he
  clear he key
  induction ps with
  | nil => trivial
  | cons x l ih =>
    rw [List.reverse_cons]
    exact (allExprs_append _ _).2 ⟨ih h.2, h.1, trivial⟩

theorem PEs_split {ps : List Expr} {e : Expr} (h : PEs ps) (hl : ps.getLast? = some e) :
    PEs ps.dropLast ∧ PE e := by
  have h' : ps = ps.dropLast ++ [e] := by
    cases hps : ps with
    | nil => simp [hps] at hl
    | cons x l =>
      have := List.dropLast_concat_getLast (l := ps) (by simp [hps])
      rw [List.getLast?_eq_some_getLast (by simp [hps])] at hl
      rw [← hps]
      conv => lhs; rw [← this]
      rw [Option.some.inj hl]
  rw [h'] at h
  have := (allExprs_append _ _).1 h
  exact ⟨this.1, this.2.1⟩

theorem encapsLoop_ok (hE : RecE r toks lo) (hl : lo ≤ pos + 1) :
    Keeps (P.loop (encapsStep r) ⟨[], [], none, 0⟩) toks pos (fun s => PEs s.parts) := by
  intro Q E h1 h2
  refine Wp.loop (fun (s : Encaps) q => pos ≤ q ∧ PEs s.parts) ⟨by omega, trivial⟩ ?_
  rintro s q ⟨hq, hs⟩
  unfold encapsStep
  wp <;> pr
macro_rules | `(tactic| wp_call) => `(tactic|
  with_reducible refine Keeps.use (encapsLoop_ok (by assumption) (by omega)) ?_ ?_)

theorem parseEncapsList_ok (hE : RecE r toks lo) (hl : lo ≤ pos + 1):
    Keeps (parseEncapsList r) toks pos PE := by
  intro Q E h1 h2
  unfold parseEncapsList
  wp
  · rename_i h
    have := PEs_split (by assumption) h
    exact concatParts_ok this.1 this.2
  · exact concatParts_ok (by assumption) (by pr)

macro_rules | `(tactic| wp_call) => `(tactic|
  with_reducible refine Keeps.use (parseEncapsList_ok (by assumption) (by omega)) ?_ ?_)

theorem parseScalar_ok (hE : RecE r toks lo) (hl : lo ≤ pos + 1):
    Eats (parseScalar r) toks pos PE := by
  intro Q E h1 h2
  unfold parseScalar
  wp <;> pr

macro_rules | `(tactic| wp_call) => `(tactic|
  with_reducible refine Eats.use (parseScalar_ok (by assumption) (by omega)) ?_ ?_)

theorem parseTypeHint_ok :
    Keeps parseTypeHint toks pos (fun _ => True) := by
  intro Q E h1 h2
  unfold parseTypeHint
  wp <;> pr

macro_rules | `(tactic| wp_call) => `(tactic|
  with_reducible refine Keeps.use parseTypeHint_ok ?_ ?_)

theorem parseDefault_ok (hE : RecE r toks lo) (hl : lo ≤ pos + 1):
    Keeps (parseDefault r) toks pos (fun x => ∀ d, x = .ok d → PO d) := by
  intro Q E h1 h2
  unfold parseDefault
  wp
  all_goals (rename_i h; cases h; first | assumption | exact trivial)

macro_rules | `(tactic| wp_call) => `(tactic|
  with_reducible refine Keeps.use (parseDefault_ok (by assumption) (by omega)) ?_ ?_)

theorem parseParameterList_ok (hE : RecE r toks lo) (hl : lo ≤ pos + 1):
    Keeps (parseParameterList r) toks pos (fun x => PPs x.1) := by
  intro Q E h1 h2
  unfold parseParameterList
  refine Wp.loop (fun s q => pos ≤ q ∧ PPs s) ⟨by omega, trivial⟩ ?_
  rintro s q ⟨hq, hs⟩
  wp
  all_goals try pr

macro_rules | `(tactic| wp_call) => `(tactic|
  with_reducible refine Keeps.use (parseParameterList_ok (by assumption) (by omega)) ?_ ?_)

theorem parseInnerStatementList_ok (hS : RecS r toks los) (hs : los ≤ pos):
    Keeps (parseInnerStatementList r) toks pos (fun x => PSs x.1) := by
  intro Q E h1 h2
  unfold parseInnerStatementList
  wp
  refine Wp.loop (fun s q => pos ≤ q ∧ PSs s) ⟨by omega, trivial⟩ ?_
  rintro s q ⟨hq, hs⟩
  wp <;> pr

macro_rules | `(tactic| wp_call) => `(tactic|
  with_reducible refine Keeps.use (parseInnerStatementList_ok (by assumption) (by omega)) ?_ ?_)

theorem expectOr_ok {k : Kw} {err : Option PErr}:
    Eats (expectOr k err) toks pos (fun _ => True) := by
  intro Q E h1 h2
  unfold expectOr
  wp <;> trivial

macro_rules | `(tactic| wp_call) => `(tactic|
  with_reducible refine Eats.use expectOr_ok ?_ ?_)

theorem parseBraced_ok (hS : RecS r toks los) (hs : los ≤ pos + 1):
    Eats (parseBraced r) toks pos PSs := by
  intro Q E h1 h2
  unfold parseBraced
  wp <;> pr

macro_rules | `(tactic| wp_call) => `(tactic|
  with_reducible refine Eats.use (parseBraced_ok (by assumption) (by omega)) ?_ ?_)

theorem parseUseVars_ok :
    Keeps parseUseVars toks pos (fun _ => True) := by
  intro Q E h1 h2
  unfold parseUseVars
  wp
  · refine Wp.loop (fun s q => pos ≤ q ∧ True) ⟨by omega, trivial⟩ ?_
    rintro s q ⟨hq, hs⟩
    wp <;> trivial

macro_rules | `(tactic| wp_call) => `(tactic|
  with_reducible refine Keeps.use parseUseVars_ok ?_ ?_)

theorem parseFunctionTail_ok {cl aa rr : Bool} (hE : RecE r toks lo) (hl : lo ≤ pos + 1) (hS : RecS r toks los) (hs : los ≤ pos + 1):
    Eats (parseFunctionTail r cl aa rr) toks pos (fun x => PF x.1) := by
  intro Q E h1 h2
  unfold parseFunctionTail
  wp <;> pr

macro_rules | `(tactic| wp_call) => `(tactic|
  with_reducible refine Eats.use (parseFunctionTail_ok (by assumption) (by omega) (by assumption) (by omega)) ?_ ?_)

theorem parseFunctionNamed_ok {sp : Span} {aa : Bool} (hE : RecE r toks lo) (hl : lo ≤ pos + 1) (hS : RecS r toks los) (hs : los ≤ pos + 1):
    Eats (parseFunctionNamed r sp aa) toks pos (fun x => PF x.2.1) := by
  intro Q E h1 h2
  unfold parseFunctionNamed
  wp <;> pr

macro_rules | `(tactic| wp_call) => `(tactic|
  with_reducible refine Eats.use (parseFunctionNamed_ok (by assumption) (by omega) (by assumption) (by omega)) ?_ ?_)

theorem parseClosure_ok {sp : Span} (hE : RecE r toks lo) (hl : lo ≤ pos + 1) (hS : RecS r toks los) (hs : los ≤ pos + 1):
    Eats (parseClosure r sp) toks pos PE := by
  intro Q E h1 h2
  unfold parseClosure
  wp <;> pr

macro_rules | `(tactic| wp_call) => `(tactic|
  with_reducible refine Eats.use (parseClosure_ok (by assumption) (by omega) (by assumption) (by omega)) ?_ ?_)

theorem parseNew_ok {t : TokSpan} (hE : RecE r toks lo) (hl : lo ≤ pos + 1):
    Eats (parseNew r t) toks pos PE := by
  intro Q E h1 h2
  unfold parseNew
  wp <;> pr

macro_rules | `(tactic| wp_call) => `(tactic|
  with_reducible refine Eats.use (parseNew_ok (by assumption) (by omega)) ?_ ?_)

theorem parseExit_ok {t : TokSpan} (hE : RecE r toks lo) (hl : lo ≤ pos + 1):
    Keeps (parseExit r t) toks pos PE := by
  intro Q E h1 h2
  unfold parseExit
  wp <;> pr

macro_rules | `(tactic| wp_call) => `(tactic|
  with_reducible refine Keeps.use (parseExit_ok (by assumption) (by omega)) ?_ ?_)

theorem parseYield_ok {t : TokSpan} (hE : RecE r toks lo) (hl : lo ≤ pos):
    Keeps (parseYield r t) toks pos PE := by
  intro Q E h1 h2
  unfold parseYield
  wp <;> pr

macro_rules | `(tactic| wp_call) => `(tactic|
  with_reducible refine Keeps.use (parseYield_ok (by assumption) (by omega)) ?_ ?_)

theorem parseIsset_ok {t : Span} (hE : RecE r toks lo) (hl : lo ≤ pos + 1):
    Eats (parseIsset r t) toks pos PE := by
  intro Q E h1 h2
  unfold parseIsset
  wp <;> pr

macro_rules | `(tactic| wp_call) => `(tactic|
  with_reducible refine Eats.use (parseIsset_ok (by assumption) (by omega)) ?_ ?_)

theorem parseEmpty_ok {t : Span} (hE : RecE r toks lo) (hl : lo ≤ pos + 1):
    Eats (parseEmpty r t) toks pos PE := by
  intro Q E h1 h2
  unfold parseEmpty
  wp <;> pr

macro_rules | `(tactic| wp_call) => `(tactic|
  with_reducible refine Eats.use (parseEmpty_ok (by assumption) (by omega)) ?_ ?_)

theorem castTy_ok {k : Kw} {ty : Ty} {e : Expr} (h : k.castTy = some ty) (he : PE e) (sp : Span) :
    PE (.mk (.cast ty e) sp) := by
  cases k <;> simp only [Kw.castTy, Option.some.injEq, reduceCtorEq] at h <;> subst h <;> exact ⟨trivial, he⟩

theorem parseInternal_ok {k : Kw} {sp : Span} {m : P Expr} (hE : RecE r toks lo) (hl : lo ≤ pos)
    (hm : parseInternal r k sp = some m) : Keeps m toks pos PE := by
  intro Q E h1 h2
  unfold parseInternal at hm
  split at hm
  · cases hm; wp
  split at hm
  · cases hm; wp <;> pr
  split at hm
  · cases hm; wp <;> pr
  split at hm
  · cases hm; wp; exact castTy_ok (by assumption) (by assumption) _
  split at hm
  · cases hm; wp <;> pr
  · cases hm

macro_rules | `(tactic| wp_call) => `(tactic|
  with_reducible refine Keeps.use (parseInternal_ok (by assumption) (by omega) (by assumption)) ?_ ?_)

theorem parseListTarget_ok {t : TokSpan} (hE : RecE r toks lo) (hl : lo ≤ pos + 1):
    Eats (parseListTarget r t) toks pos PE := by
  intro Q E h1 h2
  unfold parseListTarget
  wp <;> pr

macro_rules | `(tactic| wp_call) => `(tactic|
  with_reducible refine Eats.use (parseListTarget_ok (by assumption) (by omega)) ?_ ?_)

theorem assignKind_ok {op : Op} {b : Bool} {l e : Expr} {sp : Span} (hl : PE l) (he : PE e) :
    PE (.mk (assignKind op b l e) sp) := by
  unfold assignKind
  split <;> exact ⟨trivial, hl, he⟩

theorem parseAssign_ok {t : Expr} (hE : RecE r toks lo) (hl : lo ≤ pos + 1) (ht : PE t):
    Keeps (parseAssign r t) toks pos PE := by
  intro Q E h1 h2
  unfold parseAssign
  wp
  all_goals try exact assignKind_ok (by assumption) (by assumption)
  all_goals try pr

macro_rules | `(tactic| wp_call) => `(tactic|
  with_reducible refine Keeps.use (parseAssign_ok (by assumption) (by omega) (by assumption)) ?_ ?_)

theorem parseNonVariable_ok {err : PErr} (hE : RecE r toks lo) (hl : lo ≤ pos + 1):
    Eats (parseNonVariable r err) toks pos PE := by
  intro Q E h1 h2
  unfold parseNonVariable
  wp <;> pr

macro_rules | `(tactic| wp_call) => `(tactic|
  with_reducible refine Eats.use (parseNonVariable_ok (by assumption) (by omega)) ?_ ?_)

theorem parseVariableOrScalar_ok (hE : RecE r toks lo) (hl : lo ≤ pos + 1):
    Eats (parseVariableOrScalar r) toks pos PE := by
  intro Q E h1 h2
  unfold parseVariableOrScalar
  wp <;> pr

macro_rules | `(tactic| wp_call) => `(tactic|
  with_reducible refine Eats.use (parseVariableOrScalar_ok (by assumption) (by omega)) ?_ ?_)

theorem parseOtherExpression_ok (hE : RecE r toks lo) (hl : lo ≤ pos + 1) (hS : RecS r toks los) (hs : los ≤ pos + 1):
    Eats (parseOtherExpression r) toks pos PE := by
  intro Q E h1 h2
  unfold parseOtherExpression
  wp <;> pr

macro_rules | `(tactic| wp_call) => `(tactic|
  with_reducible refine Eats.use (parseOtherExpression_ok (by assumption) (by omega) (by assumption) (by omega)) ?_ ?_)

theorem parsePostfixExpression_ok (hE : RecE r toks lo) (hl : lo ≤ pos + 1) (hS : RecS r toks los) (hs : los ≤ pos + 1):
    Eats (parsePostfixExpression r) toks pos PE := by
  intro Q E h1 h2
  unfold parsePostfixExpression
  wp <;> pr

macro_rules | `(tactic| wp_call) => `(tactic|
  with_reducible refine Eats.use (parsePostfixExpression_ok (by assumption) (by omega) (by assumption) (by omega)) ?_ ?_)

theorem parseTernary_ok {e : Expr} {prec : Prec} (hE : RecE r toks lo) (hl : lo ≤ pos) (he : PE e):
    Eats (parseTernary r e prec) toks pos PE := by
  intro Q E h1 h2
  unfold parseTernary
  wp <;> pr

macro_rules | `(tactic| wp_call) => `(tactic|
  with_reducible refine Eats.use (parseTernary_ok (by assumption) (by omega) (by assumption)) ?_ ?_)

theorem parseInstanceOf_ok {e : Expr} (hE : RecE r toks lo) (hl : lo ≤ pos) (he : PE e):
    Eats (parseInstanceOf r e) toks pos PE := by
  intro Q E h1 h2
  unfold parseInstanceOf
  wp <;> pr

macro_rules | `(tactic| wp_call) => `(tactic|
  with_reducible refine Eats.use (parseInstanceOf_ok (by assumption) (by omega) (by assumption)) ?_ ?_)

theorem parseBinaryRest_ok {e : Expr} {k : Kw} {prec : Prec} (hE : RecE r toks lo) (hl : lo ≤ pos) (he : PE e):
    Eats (parseBinaryRest r e k prec) toks pos PE := by
  intro Q E h1 h2
  unfold parseBinaryRest
  wp <;> pr

macro_rules | `(tactic| wp_call) => `(tactic|
  with_reducible refine Eats.use (parseBinaryRest_ok (by assumption) (by omega) (by assumption)) ?_ ?_)

theorem parseBinaryExpression_ok {e : Expr} {prec : Prec} (hE : RecE r toks lo) (hl : lo ≤ pos + 1) (he : PE e):
    Opts (parseBinaryExpression r e prec) toks pos PE := by
  intro Q E h1 h3 h2
  unfold parseBinaryExpression
  wp <;> pr

macro_rules | `(tactic| wp_call) => `(tactic|
  with_reducible refine Opts.use (parseBinaryExpression_ok (by assumption) (by omega) (by assumption)) ?_ ?_ ?_)

theorem parseOperand_ok (hE : RecE r toks lo) (hl : lo ≤ pos + 1) (hS : RecS r toks los) (hs : los ≤ pos + 1):
    Eats (parseOperand r) toks pos PE := by
  intro Q E h1 h2
  unfold parseOperand
  wp <;> pr

macro_rules | `(tactic| wp_call) => `(tactic|
  with_reducible refine Eats.use (parseOperand_ok (by assumption) (by omega) (by assumption) (by omega)) ?_ ?_)

theorem parseExpression_ok {prec : Prec} (hE : RecE r toks lo) (hl : lo ≤ pos + 1) (hS : RecS r toks los) (hs : los ≤ pos + 1):
    Eats (parseExpression r prec) toks pos PE := by
  intro Q E h1 h2
  unfold parseExpression
  wp
  rename_i hp he
  refine Wp.loop (fun s q => pos + 1 ≤ q ∧ PE s) ⟨by omega, he⟩ ?_
  rintro s q ⟨hq, hs⟩
  wp <;> pr

macro_rules | `(tactic| wp_call) => `(tactic|
  with_reducible refine Eats.use (parseExpression_ok (by assumption) (by omega) (by assumption) (by omega)) ?_ ?_)

end Pico
