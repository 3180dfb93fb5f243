import Verif.Lemmas.ParserWp
import Verif.Spec.Shape
/-!
# The parser builds well-formed trees: expressions

`Ret m toks pos Q`: if `m` succeeds at `pos`, its result satisfies `Q`. For every parser method it is shown that what
it returns is well-formed (`Gv m toks A`: all results satisfy `A`), given that this holds for the recursive calls.
-/
namespace Pico
open P

section
variable {α β σ : Type} {toks : List TokSpan} {pos : Nat}

structure Ret (m : P α) (toks : List TokSpan) (pos : Nat) (Q : α → Nat → Prop) : Prop where
  run : ∀ a p, m toks pos = .ok a p → Q a p

def Gv (m : P α) (toks : List TokSpan) (A : α → Prop) : Prop :=
  ∀ pos (Q : α → Nat → Prop), (∀ a p, A a → Q a p) → Ret m toks pos Q

def OptP (A : α → Prop) : Option α → Prop
  | none => True
  | some a => A a

theorem OptP.none {A : α → Prop} : OptP A none := trivial

theorem Gv.use {m : P α} {A : α → Prop} {Q : α → Nat → Prop} (h : Gv m toks A) (h1 : ∀ a p, A a → Q a p) :
    Ret m toks pos Q := h pos Q h1

theorem Gv.opt {m : P (Option α)} {A : α → Prop} {Q : Option α → Nat → Prop} (h : Gv m toks (OptP A))
    (h1 : ∀ a p, A a → Q (some a) p) (h2 : ∀ p, Q none p) : Ret m toks pos Q :=
  h pos Q fun a p ha => by
    cases a with
    | none => exact h2 p
    | some a => exact h1 a p ha

theorem Gv.of {m : P α} {A : α → Prop} (h : ∀ pos, Ret m toks pos fun a _ => A a) : Gv m toks A :=
  fun pos _ h1 => ⟨fun a p e => h1 a p ((h pos).run a p e)⟩

theorem Ret.bind {m : P α} {f : α → P β} {Q : β → Nat → Prop}
    (h : Ret m toks pos (fun a p => Ret (f a) toks p Q)) : Ret (m >>= f) toks pos Q := by
  show Ret (P.bnd m f) toks pos Q
  refine ⟨fun b p e => ?_⟩
  unfold P.bnd at e
  cases hm : m toks pos with
  | ok a q => rw [hm] at e; exact (h.run a q hm).run b p e
  | err x q => rw [hm] at e; cases e
  | panic x => rw [hm] at e; cases e
  | oof => rw [hm] at e; cases e

theorem Ret.pure {a : α} {Q : α → Nat → Prop} (h : Q a pos) : Ret (pure a) toks pos Q := by
  refine ⟨fun b p e => ?_⟩
  cases e
  exact h

theorem Ret.ret {a : α} {Q : α → Nat → Prop} (h : Q a pos) : Ret (P.ret a) toks pos Q := Ret.pure h

theorem Ret.iteTrue {m m' : P α} {Q : α → Nat → Prop} (h : Ret m toks pos Q) : Ret (if true = true then m else m') toks pos Q := h

theorem Ret.iteFalse {m m' : P α} {Q : α → Nat → Prop} (h : Ret m' toks pos Q) :
    Ret (if false = true then m else m') toks pos Q := h

theorem Ret.ite {c : Prop} [Decidable c] {m m' : P α} {Q : α → Nat → Prop} (h : c → Ret m toks pos Q)
    (h' : ¬c → Ret m' toks pos Q) : Ret (if c then m else m') toks pos Q := by
  by_cases hc : c
  · rw [if_pos hc]; exact h hc
  · rw [if_neg hc]; exact h' hc

theorem Ret.fail {e : PErr} {Q : α → Nat → Prop} : Ret (P.fail e) toks pos Q := ⟨fun _ _ h => by cases h⟩

theorem Ret.errHere {ts : List Token} {Q : α → Nat → Prop} : Ret (P.errHere ts) toks pos Q := ⟨fun _ _ h => by cases h⟩

theorem Ret.abort {x : Panic} {Q : α → Nat → Prop} : Ret (P.abort x) toks pos Q := ⟨fun _ _ h => by cases h⟩

theorem Ret.getPos {Q : Nat → Nat → Prop} (h : Q pos pos) : Ret P.getPos toks pos Q := ⟨fun _ _ e => by cases e; exact h⟩

theorem Ret.setPos {q : Nat} {Q : Unit → Nat → Prop} (h : Q () q) : Ret (P.setPos q) toks pos Q :=
  ⟨fun _ _ e => by cases e; exact h⟩

theorem Ret.tokCount {Q : Nat → Nat → Prop} (h : Q toks.length pos) : Ret P.tokCount toks pos Q :=
  ⟨fun _ _ e => by cases e; exact h⟩

theorem Ret.attempt {m : P α} {Q : Except PErr α → Nat → Prop} (h : Ret m toks pos (fun a p => Q (.ok a) p))
    (h' : ∀ e p, Q (.error e) p) : Ret (P.attempt m) toks pos Q := by
  refine ⟨fun b p e => ?_⟩
  unfold P.attempt at e
  cases hm : m toks pos with
  | ok a q => rw [hm] at e; cases e; exact h.run _ _ hm
  | err x q => rw [hm] at e; cases e; exact h' _ _
  | panic x => rw [hm] at e; cases e
  | oof => rw [hm] at e; cases e

theorem Ret.peek {Q : Option TokSpan → Nat → Prop} (h1 : ∀ t, toks[pos]? = some t → Q (some t) pos) (h2 : Q none pos) :
    Ret P.peek toks pos Q := by
  refine ⟨fun a p e => ?_⟩
  cases e
  cases ht : toks[pos]? with
  | some t => exact h1 t ht
  | none => exact h2

theorem Ret.peekTok {Q : Option Token → Nat → Prop} (h1 : ∀ t, toks[pos]?.map TokSpan.tok = some t → Q (some t) pos) (h2 : Q none pos) :
    Ret P.peekTok toks pos Q := by
  refine ⟨fun a p e => ?_⟩
  cases e
  cases ht : toks[pos]?.map TokSpan.tok with
  | some t => exact h1 t ht
  | none => exact h2

theorem Ret.eat {k : Kw} {Q : Option TokSpan → Nat → Prop} (h1 : ∀ t, Q (some t) (pos + 1)) (h2 : Q none pos) :
    Ret (P.eat k) toks pos Q := by
  refine ⟨fun a p e => ?_⟩
  unfold P.eat at e
  split at e
  · split at e <;> cases e
    · exact h1 _
    · exact h2
  · cases e; exact h2

theorem Ret.eats {k : Kw} {Q : Bool → Nat → Prop} (h1 : Q true (pos + 1)) (h2 : Q false pos) : Ret (P.eats k) toks pos Q :=
  Ret.bind (Ret.eat (fun _ => Ret.pure h1) (Ret.pure h2))

theorem Ret.nextIs {k : Kw} {Q : Bool → Nat → Prop} (h1 : toks[pos]?.map TokSpan.tok = some (.k k) → Q true pos)
    (h2 : Q false pos) : Ret (P.nextIs k) toks pos Q := by
  refine ⟨fun a p e => ?_⟩
  unfold P.nextIs at e
  cases e
  cases hb : (toks[pos]?.map TokSpan.tok == some (.k k)) with
  | false => exact h2
  | true => exact h1 (by simpa using hb)

theorem Ret.expect {k : Kw} {Q : TokSpan → Nat → Prop} (h1 : ∀ t, Q t (pos + 1)) : Ret (P.expect k) toks pos Q :=
  Ret.bind (Ret.eat (fun _ => Ret.pure (h1 _)) Ret.errHere)

theorem Ret.eatString {Q : Option (Text × Span) → Nat → Prop} (h1 : ∀ t, Q (some t) (pos + 1)) (h2 : Q none pos) :
    Ret P.eatString toks pos Q := by
  refine ⟨fun a p e => ?_⟩
  unfold P.eatString at e
  split at e <;> cases e
  · exact h1 _
  · exact h2

theorem Ret.eatVariable {Q : Option (Text × Span) → Nat → Prop} (h1 : ∀ t, Q (some t) (pos + 1)) (h2 : Q none pos) :
    Ret P.eatVariable toks pos Q := by
  refine ⟨fun a p e => ?_⟩
  unfold P.eatVariable at e
  split at e <;> cases e
  · exact h1 _
  · exact h2

theorem Ret.eatEncaps {Q : Option (Text × Span) → Nat → Prop} (h1 : ∀ t, Q (some t) (pos + 1)) (h2 : Q none pos) :
    Ret P.eatEncaps toks pos Q := by
  refine ⟨fun a p e => ?_⟩
  unfold P.eatEncaps at e
  split at e <;> cases e
  · exact h1 _
  · exact h2

theorem Ret.expectString {Q : Text × Span → Nat → Prop} (h1 : ∀ t, Q t (pos + 1)) : Ret P.expectString toks pos Q :=
  Ret.bind (Ret.eatString (fun _ => Ret.pure (h1 _)) Ret.errHere)

theorem Ret.expectVariable {Q : Text × Span → Nat → Prop} (h1 : ∀ t, Q t (pos + 1)) : Ret P.expectVariable toks pos Q :=
  Ret.bind (Ret.eatVariable (fun _ => Ret.pure (h1 _)) Ret.errHere)

theorem Ret.tokBack {n : Nat} {Q : TokSpan → Nat → Prop} (h1 : ∀ t, Q t pos) : Ret (P.tokBack n) toks pos Q := by
  refine ⟨fun a p e => ?_⟩
  unfold P.tokBack at e
  split at e
  · cases e
  · split at e <;> cases e
    exact h1 _

theorem Ret.lastEnd {Q : Nat → Nat → Prop} (h1 : ∀ t, Q t pos) : Ret P.lastEnd toks pos Q :=
  Ret.bind (Ret.tokBack fun _ => Ret.pure (h1 _))

theorem Ret.subP {a b : Nat} {Q : Nat → Nat → Prop} (h1 : ∀ x, Q x pos) : Ret (P.subP a b) toks pos Q := by
  unfold P.subP
  exact Ret.ite (fun _ => Ret.ret (h1 _)) (fun _ => Ret.abort)

theorem Ret.loop {step : σ → P (σ ⊕ α)} {s : σ} (I : σ → Prop) {Q : α → Nat → Prop} (hI : I s)
    (hstep : ∀ s q, I s → Ret (step s) toks q
      (fun x p => match x with
        | .inl s' => I s'
        | .inr a => Q a p)) :
    Ret (P.loop step s) toks pos Q := by
  have key : ∀ n s q, I s → Ret (P.loopN step n s) toks q Q := by
    intro n
    induction n with
    | zero => intro s q _; exact ⟨fun a p e => by cases e⟩
    | succ n ih =>
      intro s q hs
      refine Ret.bind ?_
      refine ⟨fun x p e => ?_⟩
      have := (hstep s q hs).run x p e
      cases x with
      | inl s' => exact ih s' p this
      | inr a => exact Ret.ret this
  exact ⟨fun a p e => (key _ s pos hI).run a p e⟩

end

abbrev SE (e : Expr) : Prop := shExpr .plain e = true
abbrev SS (s : Stmt) : Prop := shStmt s = true
abbrev SEs (es : List Expr) : Prop := shExprs .plain es = true
abbrev SSs (ss : List Stmt) : Prop := shStmts ss = true
abbrev SO (e : Option Expr) : Prop := shOpt e = true
abbrev SIs (es : List (Option Expr × Expr)) : Prop := shItems es = true
abbrev SPs (es : List Param) : Prop := shParams es = true
abbrev SMs (es : List Member) : Prop := shMembers es = true

abbrev SAs (es : List Expr) : Prop := shExprs .arg es = true
abbrev SV (e : Expr) : Prop := e.isVarName = true ∧ SE e
abbrev SN (e : Expr) : Prop := e.isPath = true ∧ SE e

theorem sv_var (n : Text) (sp : Span) : SV (.mk (.var (.name n)) sp) := ⟨rfl, rfl⟩
theorem sn_path (p : Path) (sp : Span) : SN (.mk (.path p) sp) := ⟨rfl, rfl⟩

theorem SN.base {e : Expr} (h : SN e) : e.isStaticMember = false := by
  obtain ⟨k, sp⟩ := e
  cases k <;> first | rfl | cases h.1

/-- The recursive calls return well-formed trees, and the integers of the tokens are small. -/
structure ShRec (r : Rec) (toks : List TokSpan) : Prop where
  expr : ∀ prec, Gv (r.expr prec) toks SE
  stmt : Gv r.stmt toks SS
  ints : ∀ t ∈ toks, ∀ v : Nat, t.tok = .int v → v < 2 ^ 63

theorem shExprs_append (c : Place) (a b : List Expr) : shExprs c (a ++ b) = (shExprs c a && shExprs c b) := by
  induction a with
  | nil => rfl
  | cons x a ih => simp [shExprs, ih, Bool.and_assoc]

theorem shItems_append (a b : List (Option Expr × Expr)) : shItems (a ++ b) = (shItems a && shItems b) := by
  induction a with
  | nil => rfl
  | cons x a ih => obtain ⟨k, v⟩ := x; simp [shItems, ih, Bool.and_assoc]

theorem shOpts_append (a b : List (Option Expr)) : shOpts (a ++ b) = (shOpts a && shOpts b) := by
  induction a with
  | nil => rfl
  | cons x a ih => simp [shOpts, ih, Bool.and_assoc]

theorem shStmts_append (a b : List Stmt) : shStmts (a ++ b) = (shStmts a && shStmts b) := by
  induction a with
  | nil => rfl
  | cons x a ih => simp [shStmts, ih, Bool.and_assoc]

theorem shParams_append (a b : List Param) : shParams (a ++ b) = (shParams a && shParams b) := by
  induction a with
  | nil => rfl
  | cons x a ih => simp [shParams, ih, Bool.and_assoc]

theorem shMembers_append (a b : List Member) : shMembers (a ++ b) = (shMembers a && shMembers b) := by
  induction a with
  | nil => rfl
  | cons x a ih => simp [shMembers, ih, Bool.and_assoc]

theorem shCatches_append (a b : List Catch) : shCatches (a ++ b) = (shCatches a && shCatches b) := by
  induction a with
  | nil => rfl
  | cons x a ih => obtain ⟨_, _, x⟩ := x; simp [shCatches, ih, Bool.and_assoc]

theorem shStaticVars_append (a b : List (Text × Option Expr)) : shStaticVars (a ++ b) = (shStaticVars a && shStaticVars b) := by
  induction a with
  | nil => rfl
  | cons x a ih => obtain ⟨k, v⟩ := x; simp [shStaticVars, ih, Bool.and_assoc]

theorem sh_kind {c : Place} (e : Expr) : shExprK c e.kind = shExpr c e := by
  cases e; rfl

/-- An expression allowed everywhere. -/
theorem sh_any {e : Expr} (h : shExpr .plain e = true) (c : Place) : shExpr c e = true := by
  obtain ⟨k, sp⟩ := e
  cases k
  case var v => cases v <;> exact h
  all_goals first | exact h | (simp [shExpr, shExprK] at h)

theorem sh_lhs {e : Expr} (h : shExpr .plain e = true) : shExpr .lhs e = true := sh_any h _
theorem sh_arg {e : Expr} (h : shExpr .plain e = true) : shExpr .arg e = true := sh_any h _
theorem sh_each {e : Expr} (h : shExpr .plain e = true) : shExpr .each e = true := sh_any h _

/-- Close goals saying that a tree is well-formed. -/
macro "shp" : tactic => `(tactic| first
  | trivial
  | assumption
  | exact sv_var _ _
  | exact sn_path _ _
  | exact (sv_var _ _).2
  | exact (sn_path _ _).2
  | exact And.right (by assumption)
  | (simp [sh_kind, sh_lhs, sh_arg, sh_each, shExpr, shExprK, shOpt, shExprs, shItems, shOpts, shFn, shParams, shParam, shStmt, shStmtK, shStmts, shCatches,
      shDecl, shStaticVars, shMember, shMembers, tyShape, traitUseShape, OptP, SE, SS, SEs, SSs, SO, SIs, SPs, SMs, SAs, SV, SN, staticShape, Expr.isVarName, Expr.isPath,
      shExprs_append, shItems_append, shOpts_append, shStmts_append, shParams_append, shMembers_append,
      shCatches_append, shStaticVars_append, *]
     done)
  | (simp_all [sh_kind, sh_lhs, sh_arg, sh_each, shExpr, shExprK, shOpt, shExprs, shItems, shOpts, shFn, shParams, shParam, shStmt, shStmtK, shStmts, shCatches,
      shDecl, shStaticVars, shMember, shMembers, tyShape, traitUseShape, OptP, SE, SS, SEs, SSs, SO, SIs, SPs, SMs, SAs, SV, SN, staticShape, Expr.isVarName, Expr.isPath,
      shExprs_append, shItems_append, shOpts_append, shStmts_append, shParams_append, shMembers_append,
      shCatches_append, shStaticVars_append]
     done))

/-- Calls of methods with a known specification; extended below. -/
syntax "sh_call" : tactic

/-- One step of symbolic execution. -/
syntax "sh1" : tactic
set_option hygiene false in
macro_rules | `(tactic| sh1) => `(tactic| first
  | with_reducible refine h1 _ _ ?_
  | with_reducible exact OptP.none
  | intro _
  | with_reducible refine Ret.bind ?_
  | with_reducible refine Ret.iteTrue ?_
  | with_reducible refine Ret.iteFalse ?_
  | with_reducible refine Ret.ite ?_ ?_
  | with_reducible refine Ret.pure ?_
  | with_reducible refine Ret.ret ?_
  | with_reducible exact Ret.fail
  | with_reducible exact Ret.errHere
  | with_reducible exact Ret.abort
  | with_reducible refine Ret.getPos ?_
  | with_reducible refine Ret.setPos ?_
  | with_reducible refine Ret.tokCount ?_
  | with_reducible refine Ret.attempt ?_ ?_
  | with_reducible refine Ret.peek ?_ ?_
  | with_reducible refine Ret.peekTok ?_ ?_
  | with_reducible refine Ret.eat ?_ ?_
  | with_reducible refine Ret.eats ?_ ?_
  | with_reducible refine Ret.nextIs ?_ ?_
  | with_reducible refine Ret.expect ?_
  | with_reducible refine Ret.eatString ?_ ?_
  | with_reducible refine Ret.eatVariable ?_ ?_
  | with_reducible refine Ret.eatEncaps ?_ ?_
  | with_reducible refine Ret.expectString ?_
  | with_reducible refine Ret.expectVariable ?_
  | with_reducible refine Ret.tokBack ?_
  | with_reducible refine Ret.lastEnd ?_
  | with_reducible refine Ret.subP ?_
  | sh_call
  | dsimp only
  | split)

/-- Symbolic execution up to loops and well-formedness goals. -/
macro "sh" : tactic => `(tactic| repeat' sh1)

macro_rules | `(tactic| sh_call) => `(tactic|
  with_reducible refine Gv.use (ShRec.expr (by assumption) _) ?_)
macro_rules | `(tactic| sh_call) => `(tactic|
  with_reducible refine Gv.use (ShRec.stmt (by assumption)) ?_)

variable {r : Rec} {toks : List TokSpan}

theorem parseOptExpression_sh {prec : Prec} (hr : ShRec r toks) :
    Gv (parseOptExpression r prec) toks SO := by
  intro pos Q h1
  unfold parseOptExpression
  sh <;> shp
macro_rules | `(tactic| sh_call) => `(tactic|
  with_reducible refine Gv.use (parseOptExpression_sh (by assumption)) ?_)

theorem parseSimpleVariable_sh :
    Gv parseSimpleVariable toks (fun x => x.1.isName = true) := by
  intro pos Q h1
  unfold parseSimpleVariable
  sh <;> shp
macro_rules | `(tactic| sh_call) => `(tactic|
  with_reducible refine Gv.use parseSimpleVariable_sh ?_)

theorem parseSimpleVariableExpr_sh : Gv parseSimpleVariableExpr toks SV := by
  intro pos Q h1
  unfold parseSimpleVariableExpr parseSimpleVariable
  sh <;> shp

macro_rules | `(tactic| sh_call) => `(tactic|
  with_reducible refine Gv.use parseSimpleVariableExpr_sh ?_)

theorem parseExpressionList_sh (hr : ShRec r toks) :
    Gv (parseExpressionList r) toks (fun es => es.isEmpty = false ∧ SEs es) := by
  intro pos Q h1
  unfold parseExpressionList
  refine Ret.loop (fun s => SEs s) rfl ?_
  intro s q hs
  sh <;> shp
macro_rules | `(tactic| sh_call) => `(tactic|
  with_reducible refine Gv.use (parseExpressionList_sh (by assumption)) ?_)

theorem parseArgumentList_sh (hr : ShRec r toks) : Gv (parseArgumentList r) toks SAs := by
  intro pos Q h1
  unfold parseArgumentList
  sh
  · shp
  · refine Ret.loop SAs rfl ?_
    intro s q hs
    sh <;> shp

macro_rules | `(tactic| sh_call) => `(tactic|
  with_reducible refine Gv.use (parseArgumentList_sh (by assumption)) ?_)

theorem parsePropertyName_sh (hr : ShRec r toks) :
    Gv (parsePropertyName r) toks SE := by
  intro pos Q h1
  unfold parsePropertyName
  sh <;> shp

macro_rules | `(tactic| sh_call) => `(tactic|
  with_reducible refine Gv.use (parsePropertyName_sh (by assumption)) ?_)

theorem namespaceFragments_sh :
    Gv namespaceFragments toks (fun _ => True) := by
  intro pos Q h1
  unfold namespaceFragments
  refine Ret.loop (fun _ => True) trivial ?_
  intro s q hs
  sh <;> shp

macro_rules | `(tactic| sh_call) => `(tactic|
  with_reducible refine Gv.use namespaceFragments_sh ?_)

theorem parseNamespaceName_sh :
    Gv parseNamespaceName toks (fun _ => True) := by
  intro pos Q h1
  unfold parseNamespaceName
  sh <;> shp

macro_rules | `(tactic| sh_call) => `(tactic|
  with_reducible refine Gv.use parseNamespaceName_sh ?_)

theorem parseName_sh :
    Gv parseName toks (fun _ => True) := by
  intro pos Q h1
  unfold parseName
  sh <;> shp

macro_rules | `(tactic| sh_call) => `(tactic|
  with_reducible refine Gv.use parseName_sh ?_)

theorem parseNameAsExpr_sh :
    Gv parseNameAsExpr toks SN := by
  intro pos Q h1
  unfold parseNameAsExpr
  sh <;> shp

macro_rules | `(tactic| sh_call) => `(tactic|
  with_reducible refine Gv.use parseNameAsExpr_sh ?_)

theorem parseNameList_sh :
    Gv parseNameList toks (fun es => es.isEmpty = false) := by
  intro pos Q h1
  unfold parseNameList
  refine Ret.loop (fun _ => True) trivial ?_
  intro s q hs
  sh <;> shp

macro_rules | `(tactic| sh_call) => `(tactic|
  with_reducible refine Gv.use parseNameList_sh ?_)

theorem parseClassName_sh :
    Gv parseClassName toks SN := by
  intro pos Q h1
  unfold parseClassName
  sh <;> shp

macro_rules | `(tactic| sh_call) => `(tactic|
  with_reducible refine Gv.use parseClassName_sh ?_)

theorem parseIdentifier_sh :
    Gv parseIdentifier toks (fun _ => True) := by
  intro pos Q h1
  unfold parseIdentifier
  sh <;> shp

macro_rules | `(tactic| sh_call) => `(tactic|
  with_reducible refine Gv.use parseIdentifier_sh ?_)

theorem parseIdentifierAsExpr_sh :
    Gv parseIdentifierAsExpr toks SN := by
  intro pos Q h1
  unfold parseIdentifierAsExpr
  sh <;> shp

macro_rules | `(tactic| sh_call) => `(tactic|
  with_reducible refine Gv.use parseIdentifierAsExpr_sh ?_)

theorem resolveConst_sh {e : Expr} (h : SE e) : SE (resolveConst e) := by
  unfold resolveConst
  split
  · split
    · split
      · shp
      · exact h
    · exact h
  · exact h

theorem resolveConst_static {e : Expr} (h : e.isPath = true) : (resolveConst e).isStaticMember = false := by
  unfold resolveConst
  split
  · split
    · split <;> rfl
    · rfl
  · obtain ⟨k, sp⟩ := e
    cases k <;> first | rfl | cases h

theorem parseConstant_sh : Gv parseConstant toks SE := by
  intro pos Q h1
  unfold parseConstant
  sh
  · rename_i ha _ _ _ hb
    have h2 := resolveConst_sh (And.right ha)
    have h3 := resolveConst_static ha.1
    simp [shExpr, shExprK, staticShape, SE, hb.1, h2, h3]
  · rename_i ha
    exact resolveConst_sh ha.2

macro_rules | `(tactic| sh_call) => `(tactic|
  with_reducible refine Gv.use parseConstant_sh ?_)

theorem parseArrayPairList_sh (hr : ShRec r toks) :
    Gv (parseArrayPairList r) toks SIs := by
  intro pos Q h1
  unfold parseArrayPairList
  refine Ret.loop (fun s => SIs s) rfl ?_
  intro s q hs
  sh <;> shp

macro_rules | `(tactic| sh_call) => `(tactic|
  with_reducible refine Gv.use (parseArrayPairList_sh (by assumption)) ?_)

theorem parseDereferencableScalar_sh (hr : ShRec r toks) :
    Gv (parseDereferencableScalar r) toks SE := by
  intro pos Q h1
  unfold parseDereferencableScalar
  sh <;> shp

macro_rules | `(tactic| sh_call) => `(tactic|
  with_reducible refine Gv.use (parseDereferencableScalar_sh (by assumption)) ?_)

theorem deepestUnpack_sh {α : Type} {store : Option PErr} :
    Gv (deepestUnpack (α := α) store) toks (fun _ => False) := by
  intro pos Q h1
  unfold deepestUnpack
  sh

macro_rules | `(tactic| sh_call) => `(tactic|
  with_reducible refine Gv.use deepestUnpack_sh ?_)
macro_rules | `(tactic| sh_call) => `(tactic| with_reducible contradiction)

theorem parseBaseVariable_sh {simpleOnly : Bool} (hr : ShRec r toks) :
    Gv (parseBaseVariable r simpleOnly) toks SE := by
  intro pos Q h1
  unfold parseBaseVariable
  sh <;> shp

macro_rules | `(tactic| sh_call) => `(tactic|
  with_reducible refine Gv.use (parseBaseVariable_sh (by assumption)) ?_)

theorem constScopedTail_sh {simpleOnly : Bool} {cls : Expr} (hc : SN cls) :
    Gv (constScopedTail simpleOnly cls) toks (OptP (fun x => SN x.1 ∧ staticShape x.2.1 = true)) := by
  intro pos Q h1
  unfold constScopedTail
  sh
  · rename_i hv
    exact ⟨hc, by simp [staticShape, hv.1]⟩
  · rename_i hv _
    exact ⟨hc, by simp [staticShape, hv.1]⟩

macro_rules | `(tactic| sh_call) => `(tactic|
  with_reducible refine Gv.opt (constScopedTail_sh (by assumption)) ?_ ?_)

theorem parseConstScoped_sh {simpleOnly : Bool}:
    Gv (parseConstScoped simpleOnly) toks (fun x => SN x.1 ∧ staticShape x.2.1 = true) := by
  intro pos Q h1
  unfold parseConstScoped
  sh <;> shp

macro_rules | `(tactic| sh_call) => `(tactic|
  with_reducible refine Gv.use parseConstScoped_sh ?_)

theorem parseFnCallBaseItem_sh {simpleOnly : Bool}:
    Gv (parseFnCallBaseItem simpleOnly) toks SN := by
  intro pos Q h1
  unfold parseFnCallBaseItem
  sh <;> shp

macro_rules | `(tactic| sh_call) => `(tactic|
  with_reducible refine Gv.use parseFnCallBaseItem_sh ?_)

theorem parseVariableBase_sh {simpleOnly : Bool} (hr : ShRec r toks) : Gv (parseVariableBase r simpleOnly) toks SE := by
  intro pos Q h1
  unfold parseVariableBase
  sh
  · rename_i hx
    simp [SE, shExpr, shExprK, hx.1.2, hx.1.base, hx.2]
  all_goals shp

macro_rules | `(tactic| sh_call) => `(tactic|
  with_reducible refine Gv.use (parseVariableBase_sh (by assumption)) ?_)

theorem addArrayIdx_sh {e : Expr} {idx : Option Expr} {stop : Nat} (h : SE e) (hi : SO idx) :
    SE (addArrayIdx e idx stop) := by
  obtain ⟨k, sp⟩ := e
  cases k
  case var v => cases v <;> simp_all [addArrayIdx, addObjMember, addStaticMember, shExpr, shExprK, shOpts, shExprs, staticShape, SE, SO, Expr.isArrayIdx, Expr.isObjMember, Expr.isStaticMember]
  all_goals simp_all [addArrayIdx, shExpr, shExprK, shOpts, shOpts_append, SE, SO, Expr.isArrayIdx]

theorem addObjMember_sh {e p : Expr} {stop : Nat} (h : SE e) (hi : SE p) : SE (addObjMember e p stop) := by
  obtain ⟨k, sp⟩ := e
  cases k
  case var v => cases v <;> simp_all [addArrayIdx, addObjMember, addStaticMember, shExpr, shExprK, shOpts, shExprs, staticShape, SE, SO, Expr.isArrayIdx, Expr.isObjMember, Expr.isStaticMember]
  all_goals simp_all [addObjMember, shExpr, shExprK, shExprs, shExprs_append, SE, Expr.isObjMember]

theorem addStaticMember_sh {e p : Expr} {stop : Nat} (h : SE e) (hi : SV p) : SE (addStaticMember e p stop) := by
  obtain ⟨k, sp⟩ := e
  have := hi.1
  cases k
  case var v => cases v <;> simp_all [addArrayIdx, addObjMember, addStaticMember, shExpr, shExprK, shOpts, shExprs, staticShape, SE, SO, Expr.isArrayIdx, Expr.isObjMember, Expr.isStaticMember]
  all_goals simp_all [addStaticMember, shExpr, shExprK, staticShape, SE, Expr.isStaticMember]

theorem appendixIndex_sh {e : Expr} (hr : ShRec r toks) (he : SE e):
    Gv (appendixIndex r e) toks (OptP SE) := by
  intro pos Q h1
  unfold appendixIndex
  sh
  exact addArrayIdx_sh (by assumption) (by assumption)

macro_rules | `(tactic| sh_call) => `(tactic|
  with_reducible refine Gv.opt (appendixIndex_sh (by assumption) (by assumption)) ?_ ?_)

theorem appendixMember_sh {e : Expr} (hr : ShRec r toks) (he : SE e):
    Gv (appendixMember r e) toks (OptP SE) := by
  intro pos Q h1
  unfold appendixMember
  sh
  exact addObjMember_sh (by assumption) (by assumption)

macro_rules | `(tactic| sh_call) => `(tactic|
  with_reducible refine Gv.opt (appendixMember_sh (by assumption) (by assumption)) ?_ ?_)

theorem appendixStatic_sh {e : Expr} (he : SE e):
    Gv (appendixStatic e) toks (OptP SE) := by
  intro pos Q h1
  unfold appendixStatic
  sh
  exact addStaticMember_sh (by assumption) (by assumption)

macro_rules | `(tactic| sh_call) => `(tactic|
  with_reducible refine Gv.opt (appendixStatic_sh (by assumption)) ?_ ?_)

theorem appendixCall_sh {e : Expr} {simpleOnly : Bool} (hr : ShRec r toks) (he : SE e):
    Gv (appendixCall r simpleOnly e) toks (OptP SE) := by
  intro pos Q h1
  unfold appendixCall
  sh <;> shp

macro_rules | `(tactic| sh_call) => `(tactic|
  with_reducible refine Gv.opt (appendixCall_sh (by assumption) (by assumption)) ?_ ?_)

theorem appendixLoop_sh {e : Expr} {simpleOnly : Bool} (hr : ShRec r toks) (he : SE e) :
    Gv (P.loop (appendixStep r simpleOnly) e) toks SE := by
  intro pos Q h1
  refine Ret.loop (fun s => SE s) he ?_
  intro s q hs
  unfold appendixStep
  sh <;> shp
macro_rules | `(tactic| sh_call) => `(tactic|
  with_reducible refine Gv.use (appendixLoop_sh (by assumption) (by assumption)) ?_)

theorem parseVariable_none_sh {simpleOnly : Bool} (hr : ShRec r toks) :
    Gv (parseVariable r simpleOnly none) toks SE := by
  intro pos Q h1
  unfold parseVariable
  sh <;> shp

macro_rules | `(tactic| sh_call) => `(tactic|
  with_reducible refine Gv.use (parseVariable_none_sh (by assumption)) ?_)

theorem parseVariable_some_sh {simpleOnly : Bool} {e : Expr} (hr : ShRec r toks) (he : SE e):
    Gv (parseVariable r simpleOnly (some e)) toks SE := by
  intro pos Q h1
  unfold parseVariable
  sh <;> shp

macro_rules | `(tactic| sh_call) => `(tactic|
  with_reducible refine Gv.use (parseVariable_some_sh (by assumption) (by assumption)) ?_)

theorem parseClassNameReference_sh (hr : ShRec r toks) :
    Gv (parseClassNameReference r) toks SE := by
  intro pos Q h1
  unfold parseClassNameReference
  sh <;> shp

macro_rules | `(tactic| sh_call) => `(tactic|
  with_reducible refine Gv.use (parseClassNameReference_sh (by assumption)) ?_)

theorem flush_sh {s : Encaps} (h : SEs s.parts) :
    Gv s.flush toks (fun s => SEs s.parts) := by
  intro pos Q h1
  unfold Encaps.flush
  sh <;> shp
macro_rules | `(tactic| sh_call) => `(tactic|
  with_reducible refine Gv.use (flush_sh (by assumption)) ?_)

theorem encapsDollar_sh {s : Encaps} {t : TokSpan} (hr : ShRec r toks) (h : SEs s.parts):
    Gv (encapsDollar r s t) toks (fun s => SEs s.parts) := by
  intro pos Q h1
  unfold encapsDollar
  have hv : ∀ n sp, SE (.mk (.var (.name n)) sp) := by intro n sp; rfl
  sh
  · refine Gv.use (parseVariable_some_sh hr (hv _ _)) ?_ <;> sh <;> shp
  · shp

macro_rules | `(tactic| sh_call) => `(tactic|
  with_reducible refine Gv.use (encapsDollar_sh (by assumption) (by assumption)) ?_)

theorem concatParts_sh {ps : List Expr} {e : Expr} (h : SEs ps) (he : SE e) : SE (concatParts ps e) := by
  unfold concatParts
  have key : ∀ (l : List Expr) (a : Expr), SEs l → SE a →
      SE (l.foldl (fun acc part =>
        .mk (.binary .Concat part acc) (mkSpan part.span.start acc.span.stop)) a) := by
    intro l
    induction l with
    | nil => intro a _ ha; exact ha
    | cons x l ih =>
      intro a hl ha
      have hl' : shExpr .plain x = true ∧ shExprs .plain l = true := by simpa [SEs, shExprs] using hl
      exact ih _ hl'.2 (by simp [SE, shExpr, shExprK, hl'.1]; exact ha)
  refine key _ _ ?_ he
  clear he key
  induction ps with
  | nil => trivial
  | cons x l ih =>
    rw [List.reverse_cons]
    have h' : shExpr .plain x = true ∧ shExprs .plain l = true := by simpa [SEs, shExprs] using h
    simpa [SEs, shExprs_append, shExprs, h'.1] using ih h'.2

theorem SEs_split {ps : List Expr} {e : Expr} (h : SEs ps) (hl : ps.getLast? = some e) :
    SEs ps.dropLast ∧ SE e := by
  have h' : ps = ps.dropLast ++ [e] := by
    cases hps : ps with
    | nil => simp [hps] at hl
    | cons x l =>
      have := List.dropLast_concat_getLast (l := ps) (by simp [hps])
      rw [List.getLast?_eq_some_getLast (by simp [hps])] at hl
      rw [← hps]
      conv => lhs; rw [← this]
      rw [Option.some.inj hl]
  rw [h'] at h
  simpa [SEs, SE, shExprs_append, shExprs] using h

theorem encapsLoop_sh (hr : ShRec r toks) :
    Gv (P.loop (encapsStep r) ⟨[], [], none, 0⟩) toks (fun s => SEs s.parts) := by
  intro pos Q h1
  refine Ret.loop (fun (s : Encaps) => SEs s.parts) rfl ?_
  intro s q hs
  unfold encapsStep
  sh <;> shp
macro_rules | `(tactic| sh_call) => `(tactic|
  with_reducible refine Gv.use (encapsLoop_sh (by assumption)) ?_)

theorem parseEncapsList_sh (hr : ShRec r toks) :
    Gv (parseEncapsList r) toks SE := by
  intro pos Q h1
  unfold parseEncapsList
  sh
  · rename_i h
    have := SEs_split (by assumption) h
    exact concatParts_sh this.1 this.2
  · exact concatParts_sh (by assumption) (by rfl)

macro_rules | `(tactic| sh_call) => `(tactic|
  with_reducible refine Gv.use (parseEncapsList_sh (by assumption)) ?_)

theorem sh_int {pos v : Nat} {t : TokSpan} {sp : Span} (hr : ShRec r toks) (h : toks[pos]? = some t) (ht : t.tok = .int v) :
    SE (.mk (.int v) sp) := by
  have := hr.ints _ (List.mem_of_getElem? h) v ht
  unfold SE shExpr shExprK
  rw [Bool.and_eq_true]
  exact ⟨decide_eq_true (by omega), decide_eq_true (by omega)⟩

theorem parseScalar_sh (hr : ShRec r toks) :
    Gv (parseScalar r) toks SE := by
  intro pos Q h1
  unfold parseScalar
  sh
  · rename_i hp _ _ ht
    exact sh_int hr hp ht
  all_goals shp

macro_rules | `(tactic| sh_call) => `(tactic|
  with_reducible refine Gv.use (parseScalar_sh (by assumption)) ?_)

theorem parseTypeHint_sh : Gv parseTypeHint toks (fun x => ∀ t, x = .ok t → tyShape t = true) := by
  intro pos Q h1
  unfold parseTypeHint
  sh
  all_goals (rename_i h; cases h; try rfl)

macro_rules | `(tactic| sh_call) => `(tactic|
  with_reducible refine Gv.use parseTypeHint_sh ?_)

theorem parseDefault_sh (hr : ShRec r toks) :
    Gv (parseDefault r) toks (fun x => ∀ d, x = .ok d → SO d) := by
  intro pos Q h1
  unfold parseDefault
  sh
  all_goals (rename_i h; cases h; first | assumption | rfl)

macro_rules | `(tactic| sh_call) => `(tactic|
  with_reducible refine Gv.use (parseDefault_sh (by assumption)) ?_)

theorem parseParameterList_sh (hr : ShRec r toks) :
    Gv (parseParameterList r) toks (fun x => SPs x.1) := by
  intro pos Q h1
  unfold parseParameterList
  refine Ret.loop (fun s => SPs s) rfl ?_
  intro s q hs
  sh
  all_goals try shp

macro_rules | `(tactic| sh_call) => `(tactic|
  with_reducible refine Gv.use (parseParameterList_sh (by assumption)) ?_)

theorem parseInnerStatementList_sh (hr : ShRec r toks) :
    Gv (parseInnerStatementList r) toks (fun x => SSs x.1) := by
  intro pos Q h1
  unfold parseInnerStatementList
  sh
  refine Ret.loop (fun s => SSs s) rfl ?_
  intro s q hs
  sh <;> shp

macro_rules | `(tactic| sh_call) => `(tactic|
  with_reducible refine Gv.use (parseInnerStatementList_sh (by assumption)) ?_)

theorem expectOr_sh {k : Kw} {err : Option PErr}:
    Gv (expectOr k err) toks (fun _ => True) := by
  intro pos Q h1
  unfold expectOr
  sh <;> trivial

macro_rules | `(tactic| sh_call) => `(tactic|
  with_reducible refine Gv.use expectOr_sh ?_)

theorem parseBraced_sh (hr : ShRec r toks) :
    Gv (parseBraced r) toks SSs := by
  intro pos Q h1
  unfold parseBraced
  sh <;> shp

macro_rules | `(tactic| sh_call) => `(tactic|
  with_reducible refine Gv.use (parseBraced_sh (by assumption)) ?_)

theorem parseUseVars_sh :
    Gv parseUseVars toks (fun _ => True) := by
  intro pos Q h1
  unfold parseUseVars
  sh
  · refine Ret.loop (fun _ => True) trivial ?_
    intro s q hs
    sh <;> trivial

macro_rules | `(tactic| sh_call) => `(tactic|
  with_reducible refine Gv.use parseUseVars_sh ?_)

theorem parseFunctionTail_sh {cl aa rr : Bool} (hr : ShRec r toks) :
    Gv (parseFunctionTail r cl aa rr) toks (fun x => shFn cl aa x.1 = true) := by
  intro pos Q h1
  unfold parseFunctionTail
  sh <;> shp

macro_rules | `(tactic| sh_call) => `(tactic|
  with_reducible refine Gv.use (parseFunctionTail_sh (by assumption)) ?_)

theorem parseFunctionNamed_sh {sp : Span} {aa : Bool} (hr : ShRec r toks) :
    Gv (parseFunctionNamed r sp aa) toks (fun x => shFn false aa x.2.1 = true) := by
  intro pos Q h1
  unfold parseFunctionNamed
  sh <;> shp

macro_rules | `(tactic| sh_call) => `(tactic|
  with_reducible refine Gv.use (parseFunctionNamed_sh (by assumption)) ?_)

theorem parseClosure_sh {sp : Span} (hr : ShRec r toks) :
    Gv (parseClosure r sp) toks SE := by
  intro pos Q h1
  unfold parseClosure
  sh <;> shp

macro_rules | `(tactic| sh_call) => `(tactic|
  with_reducible refine Gv.use (parseClosure_sh (by assumption)) ?_)

theorem parseNew_sh {t : TokSpan} (hr : ShRec r toks) :
    Gv (parseNew r t) toks SE := by
  intro pos Q h1
  unfold parseNew
  sh <;> shp

macro_rules | `(tactic| sh_call) => `(tactic|
  with_reducible refine Gv.use (parseNew_sh (by assumption)) ?_)

theorem parseExit_sh {t : TokSpan} (hr : ShRec r toks) :
    Gv (parseExit r t) toks SE := by
  intro pos Q h1
  unfold parseExit
  sh <;> shp

macro_rules | `(tactic| sh_call) => `(tactic|
  with_reducible refine Gv.use (parseExit_sh (by assumption)) ?_)

theorem parseYield_sh {t : TokSpan} (hr : ShRec r toks) :
    Gv (parseYield r t) toks SE := by
  intro pos Q h1
  unfold parseYield
  sh <;> shp

macro_rules | `(tactic| sh_call) => `(tactic|
  with_reducible refine Gv.use (parseYield_sh (by assumption)) ?_)

theorem parseIsset_sh {t : Span} (hr : ShRec r toks) :
    Gv (parseIsset r t) toks SE := by
  intro pos Q h1
  unfold parseIsset
  sh <;> shp

macro_rules | `(tactic| sh_call) => `(tactic|
  with_reducible refine Gv.use (parseIsset_sh (by assumption)) ?_)

theorem parseEmpty_sh {t : Span} (hr : ShRec r toks) :
    Gv (parseEmpty r t) toks SE := by
  intro pos Q h1
  unfold parseEmpty
  sh <;> shp

macro_rules | `(tactic| sh_call) => `(tactic|
  with_reducible refine Gv.use (parseEmpty_sh (by assumption)) ?_)

theorem castTy_sh {k : Kw} {ty : Ty} {e : Expr} (h : k.castTy = some ty) (he : SE e) (sp : Span) :
    SE (.mk (.cast ty e) sp) := by
  cases k <;> simp only [Kw.castTy, Option.some.injEq, reduceCtorEq] at h <;> subst h <;> simpa [SE, shExpr, shExprK, castKw] using he

theorem parseInternal_sh {k : Kw} {sp : Span} {m : P Expr} (hr : ShRec r toks) 
    (hm : parseInternal r k sp = some m) : Gv m toks SE := by
  intro pos Q h1
  unfold parseInternal at hm
  split at hm
  · cases hm; sh
  split at hm
  · cases hm; sh <;> shp
  split at hm
  · cases hm; sh <;> shp
  split at hm
  · cases hm; sh; exact castTy_sh (by assumption) (by assumption) _
  split at hm
  · cases hm; sh <;> shp
  · cases hm

macro_rules | `(tactic| sh_call) => `(tactic|
  with_reducible refine Gv.use (parseInternal_sh (by assumption) (by assumption)) ?_)

theorem parseListTarget_sh {t : TokSpan} {Q : Expr → Nat → Prop} {pos : Nat} (hr : ShRec r toks)
    (h : ∀ a p, shExpr .lhs a = true → toks[p]?.map TokSpan.tok = some (.k .Equal) → Q a p) :
    Ret (parseListTarget r t) toks pos Q := by
  unfold parseListTarget
  sh
  refine h _ _ ?_ (by assumption)
  shp

theorem assignKind_sh {op : Op} {b : Bool} {l e : Expr} {sp : Span} (hl : SE l) (he : SE e)
    (ho : op = .Eq ∨ compoundShape op = true) : SE (.mk (assignKind op b l e) sp) := by
  have hl' := sh_lhs hl
  unfold assignKind
  split <;> simp_all [SE, shExpr, shExprK]

theorem assignKind_lhs {b : Bool} {l e : Expr} {sp : Span} (hl : shExpr .lhs l = true) (he : SE e) :
    SE (.mk (assignKind .Eq b l e) sp) := by
  cases b <;> simp_all [assignKind, SE, shExpr, shExprK]

theorem assignOp_shape {t : Token} {op : Op} (h : (t.kw?.bind Kw.assignOp) = some op) : op = .Eq ∨ compoundShape op = true := by
  cases t with
  | k k => cases k <;> first | (cases h; done) | (cases h; exact .inl rfl) | (cases h; exact .inr rfl)
  | _ => cases h

theorem parseAssign_sh {t : Expr} (hr : ShRec r toks) (ht : SE t) : Gv (parseAssign r t) toks SE := by
  intro pos Q h1
  unfold parseAssign
  sh
  all_goals try exact assignKind_sh (by assumption) (by assumption) (assignOp_shape (by assumption))
  all_goals try shp

/-- Behind `list(..)` stands `=`. -/
theorem parseAssign_list {t : Expr} {pos : Nat} {Q : Expr → Nat → Prop} (hr : ShRec r toks) (ht : shExpr .lhs t = true)
    (he : toks[pos]?.map TokSpan.tok = some (.k .Equal)) (h1 : ∀ a p, SE a → Q a p) : Ret (parseAssign r t) toks pos Q := by
  unfold parseAssign
  refine Ret.bind ⟨fun a p e => ?_⟩
  cases e
  rw [he]
  show Ret (P.getPos >>= _) toks _ _
  sh <;> exact assignKind_lhs ht (by assumption)

macro_rules | `(tactic| sh_call) => `(tactic|
  with_reducible refine Gv.use (parseAssign_sh (by assumption) (by assumption)) ?_)

theorem parseNonVariable_sh {err : PErr} (hr : ShRec r toks) :
    Gv (parseNonVariable r err) toks SE := by
  intro pos Q h1
  unfold parseNonVariable
  sh <;> shp

macro_rules | `(tactic| sh_call) => `(tactic|
  with_reducible refine Gv.use (parseNonVariable_sh (by assumption)) ?_)

theorem parseVariableOrScalar_sh (hr : ShRec r toks) : Gv (parseVariableOrScalar r) toks SE := by
  intro pos Q h1
  unfold parseVariableOrScalar
  sh
  all_goals try shp
  refine parseListTarget_sh hr ?_
  intro a p ha hp
  exact parseAssign_list hr ha hp h1

macro_rules | `(tactic| sh_call) => `(tactic|
  with_reducible refine Gv.use (parseVariableOrScalar_sh (by assumption)) ?_)

theorem parseOtherExpression_sh (hr : ShRec r toks) :
    Gv (parseOtherExpression r) toks SE := by
  intro pos Q h1
  unfold parseOtherExpression
  sh <;> shp

macro_rules | `(tactic| sh_call) => `(tactic|
  with_reducible refine Gv.use (parseOtherExpression_sh (by assumption)) ?_)

theorem parsePostfixExpression_sh (hr : ShRec r toks) :
    Gv (parsePostfixExpression r) toks SE := by
  intro pos Q h1
  unfold parsePostfixExpression
  sh <;> shp

macro_rules | `(tactic| sh_call) => `(tactic|
  with_reducible refine Gv.use (parsePostfixExpression_sh (by assumption)) ?_)

theorem parseTernary_sh {e : Expr} {prec : Prec} (hr : ShRec r toks) (he : SE e):
    Gv (parseTernary r e prec) toks SE := by
  intro pos Q h1
  unfold parseTernary
  sh <;> shp

macro_rules | `(tactic| sh_call) => `(tactic|
  with_reducible refine Gv.use (parseTernary_sh (by assumption) (by assumption)) ?_)

theorem isInstance_eq (e : Expr) : e.isInstance = e.isInstanceOf := by
  obtain ⟨k, sp⟩ := e
  cases k <;> rfl

theorem parseInstanceOf_sh {e : Expr} (hr : ShRec r toks) (he : SE e):
    Gv (parseInstanceOf r e) toks SE := by
  intro pos Q h1
  unfold parseInstanceOf
  sh
  simp_all [SE, shExpr, shExprK, isInstance_eq]

macro_rules | `(tactic| sh_call) => `(tactic|
  with_reducible refine Gv.use (parseInstanceOf_sh (by assumption) (by assumption)) ?_)

theorem parseBinaryRest_sh {e : Expr} {k : Kw} {prec : Prec} (hr : ShRec r toks) (he : SE e):
    Gv (parseBinaryRest r e k prec) toks SE := by
  intro pos Q h1
  unfold parseBinaryRest
  sh <;> shp

macro_rules | `(tactic| sh_call) => `(tactic|
  with_reducible refine Gv.use (parseBinaryRest_sh (by assumption) (by assumption)) ?_)

theorem parseBinaryExpression_sh {e : Expr} {prec : Prec} (hr : ShRec r toks) (he : SE e):
    Gv (parseBinaryExpression r e prec) toks (OptP SE) := by
  intro pos Q h1
  unfold parseBinaryExpression
  sh <;> shp

macro_rules | `(tactic| sh_call) => `(tactic|
  with_reducible refine Gv.opt (parseBinaryExpression_sh (by assumption) (by assumption)) ?_ ?_)

theorem parseOperand_sh (hr : ShRec r toks) :
    Gv (parseOperand r) toks SE := by
  intro pos Q h1
  unfold parseOperand
  sh <;> shp

macro_rules | `(tactic| sh_call) => `(tactic|
  with_reducible refine Gv.use (parseOperand_sh (by assumption)) ?_)

theorem parseExpression_sh {prec : Prec} (hr : ShRec r toks) :
    Gv (parseExpression r prec) toks SE := by
  intro pos Q h1
  unfold parseExpression
  sh
  rename_i hp he
  refine Ret.loop (fun s => SE s) he ?_
  intro s q hs
  sh <;> shp

macro_rules | `(tactic| sh_call) => `(tactic|
  with_reducible refine Gv.use (parseExpression_sh (by assumption)) ?_)

end Pico
