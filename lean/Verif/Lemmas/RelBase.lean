import Mathlib.Tactic.CasesM
import Verif.Model.Api
import Verif.Spec.Erase
import Verif.Lemmas.GramClaims
import Verif.Spec.Scan

/-!
# Parsing token lists that differ in positions only

`Env toks toks'`: the same tokens at other positions. `PRel R m m'`: on two such lists the methods `m` and `m'` behave
alike: values related by `R`, the same errors (they contain only tokens and indices), the same aborts.
-/

namespace Pico
open P

/-- The same token; all but numbers and `echo` (which an open tag may stand for) are behind an open tag. -/
inductive TRel : TokSpan → TokSpan → Prop
  | mk (tok : Token) {sp sp' : Span} (left : isNumber tok = false → tok ≠ .k .Echo → 2 ≤ sp.start)
      (right : isNumber tok = false → tok ≠ .k .Echo → 2 ≤ sp'.start) : TRel ⟨tok, sp⟩ ⟨tok, sp'⟩

/-- The same word, behind an open tag. -/
inductive KRel : TokSpan → TokSpan → Prop
  | mk (k : Kw) {sp sp' : Span} (left : 2 ≤ sp.start) (right : 2 ≤ sp'.start) : KRel ⟨.k k, sp⟩ ⟨.k k, sp'⟩

inductive OptRel {α β : Type} (R : α → β → Prop) : Option α → Option β → Prop
  | none : OptRel R none none
  | some {a : α} {b : β} (h : R a b) : OptRel R (some a) (some b)

inductive ExcRel {α β : Type} (R : α → β → Prop) : Except PErr α → Except PErr β → Prop
  | error (e : PErr) : ExcRel R (.error e) (.error e)
  | ok {a : α} {b : β} (h : R a b) : ExcRel R (.ok a) (.ok b)

inductive SumRel {α β γ δ : Type} (S : α → β → Prop) (R : γ → δ → Prop) : α ⊕ γ → β ⊕ δ → Prop
  | inl {a : α} {b : β} (h : S a b) : SumRel S R (.inl a) (.inl b)
  | inr {a : γ} {b : δ} (h : R a b) : SumRel S R (.inr a) (.inr b)

inductive PairRel {α β γ δ : Type} (S : α → β → Prop) (R : γ → δ → Prop) : α × γ → β × δ → Prop
  | mk {a : α} {b : β} {c : γ} {d : δ} (h : S a b) (h' : R c d) : PairRel S R (a, c) (b, d)

/-- Not compared: positions. -/
inductive Anyhow {α β : Type} (a : α) (b : β) : Prop
  | mk : Anyhow a b

/-- The number of tokens at the beginning of which nothing is known but that they are the same. -/
class Lo where
  val : Nat

variable [Lo]

/-- The same index, not among the first tokens. -/
structure PosRel (a b : Nat) : Prop where
  eq : a = b
  le : Lo.val ≤ a

inductive RRel {α β : Type} (R : α → β → Prop) : PR α → PR β → Prop
  | ok {a : α} {b : β} (p : Nat) (l : Lo.val ≤ p) (h : R a b) : RRel R (.ok a p) (.ok b p)
  | err (e : PErr) (p : Nat) (l : Lo.val ≤ p) : RRel R (.err e p) (.err e p)
  | panic (p : Panic) : RRel R (.panic p) (.panic p)
  | oof : RRel R .oof .oof

structure Env (toks toks' : List TokSpan) : Prop where
  length : toks.length = toks'.length
  tok : ∀ i : Nat, toks[i]?.map TokSpan.tok = toks'[i]?.map TokSpan.tok
  at_ : ∀ i : Nat, Lo.val ≤ i → OptRel TRel toks[i]? toks'[i]?

structure PRel {α β : Type} (R : α → β → Prop) (m : P α) (m' : P β) : Prop where
  run : ∀ toks toks', Env toks toks' → ∀ pos, Lo.val ≤ pos → RRel R (m toks pos) (m' toks' pos)

section
variable {α β γ δ σ τ : Type} {R : α → β → Prop} {S : γ → δ → Prop}

theorem PRel.pure {a : α} {b : β} (h : R a b) : PRel R (Pure.pure a : P α) (Pure.pure b : P β) :=
  ⟨fun _ _ _ p hl => .ok p hl h⟩

theorem PRel.ret {a : α} {b : β} (h : R a b) : PRel R (P.ret a : P α) (P.ret b : P β) :=
  ⟨fun _ _ _ p hl => .ok p hl h⟩

theorem PRel.bind {m : P α} {m' : P β} {f : α → P γ} {f' : β → P δ} (h : PRel R m m')
    (hf : ∀ a b, R a b → PRel S (f a) (f' b)) : PRel S (m >>= f) (m' >>= f') := by
  constructor
  intro toks toks' hE pos hl
  show RRel S (P.bnd m f toks pos) (P.bnd m' f' toks' pos)
  unfold P.bnd
  have := h.run toks toks' hE pos hl
  revert this
  generalize m toks pos = x
  generalize m' toks' pos = y
  intro h
  cases h with
  | ok p l h => exact (hf _ _ h).run toks toks' hE p l
  | err e p l => exact .err e p l
  | panic p => exact .panic p
  | oof => exact .oof

theorem PRel.weaken {R' : α → β → Prop} {m : P α} {m' : P β} (h : PRel R m m') (hR : ∀ a b, R a b → R' a b) :
    PRel R' m m' := by
  constructor
  intro toks toks' hE pos hl
  have := h.run toks toks' hE pos hl
  revert this
  generalize m toks pos = x
  generalize m' toks' pos = y
  intro h
  cases h with
  | ok p l h => exact .ok p l (hR _ _ h)
  | err e p l => exact .err e p l
  | panic p => exact .panic p
  | oof => exact .oof

theorem PRel.attempt {m : P α} {m' : P β} (h : PRel R m m') : PRel (ExcRel R) (P.attempt m) (P.attempt m') := by
  constructor
  intro toks toks' hE pos hl
  unfold P.attempt
  have := h.run toks toks' hE pos hl
  revert this
  generalize m toks pos = x
  generalize m' toks' pos = y
  intro h
  cases h with
  | ok p l h => exact .ok p l (.ok h)
  | err e p l => exact .ok p l (.error e)
  | panic p => exact .panic p
  | oof => exact .oof

theorem PRel.loopN {T : σ → τ → Prop} {f : σ → P (σ ⊕ α)} {f' : τ → P (τ ⊕ β)}
    (h : ∀ s t, T s t → PRel (SumRel T R) (f s) (f' t)) (n : Nat) :
    ∀ s t, T s t → PRel R (P.loopN f n s) (P.loopN f' n t) := by
  induction n with
  | zero => intro s t _; exact ⟨fun _ _ _ _ _ => .oof⟩
  | succ n ih =>
    intro s t hs
    refine PRel.bind (h s t hs) ?_
    intro a b hab
    cases hab with
    | inl h => exact ih _ _ h
    | inr h => exact PRel.pure h

theorem PRel.loop {T : σ → τ → Prop} {f : σ → P (σ ⊕ α)} {f' : τ → P (τ ⊕ β)} {s : σ} {t : τ}
    (h : ∀ s t, T s t → PRel (SumRel T R) (f s) (f' t)) (hs : T s t) : PRel R (P.loop f s) (P.loop f' t) := by
  constructor
  intro toks toks' hE pos hl
  show RRel R (P.loopN f (toks.length + 2) s toks pos) (P.loopN f' (toks'.length + 2) t toks' pos)
  rw [hE.length]
  exact (PRel.loopN h _ s t hs).run toks toks' hE pos hl

theorem PRel.ite {c : Prop} [Decidable c] {m n : P α} {m' n' : P β} (h : PRel R m m') (h' : PRel R n n') :
    PRel R (if c then m else n) (if c then m' else n') := by
  by_cases hc : c
  · rw [if_pos hc, if_pos hc]; exact h
  · rw [if_neg hc, if_neg hc]; exact h'

theorem PRel.fail {e : PErr} : PRel R (P.fail e : P α) (P.fail e : P β) := ⟨fun _ _ _ p hl => .err e p hl⟩
theorem PRel.abort {q : Panic} : PRel R (P.abort q : P α) (P.abort q : P β) := ⟨fun _ _ _ _ _ => .panic q⟩
theorem PRel.noFuel : PRel R (P.noFuel : P α) (P.noFuel : P β) := ⟨fun _ _ _ _ _ => .oof⟩
theorem PRel.errHere {ts : List Token} : PRel R (P.errHere ts : P α) (P.errHere ts : P β) := ⟨fun _ _ _ _ hl => .err _ _ hl⟩
theorem PRel.getPos : PRel PosRel P.getPos P.getPos := ⟨fun _ _ _ p hl => .ok p hl ⟨rfl, hl⟩⟩
theorem PRel.setPos {p : Nat} (h : Lo.val ≤ p) : PRel Eq (P.setPos p) (P.setPos p) := ⟨fun _ _ _ _ _ => .ok p h rfl⟩
theorem PRel.peek : PRel (OptRel TRel) P.peek P.peek := ⟨fun _ _ hE p hl => .ok p hl (hE.at_ p hl)⟩

theorem PRel.peekTok : PRel Eq P.peekTok P.peekTok := ⟨fun _ _ hE p hl => .ok p hl (hE.tok p)⟩
theorem PRel.tokCount : PRel Eq P.tokCount P.tokCount := ⟨fun _ _ hE p hl => .ok p hl hE.length⟩
theorem PRel.nextIs {k : Kw} : PRel Eq (P.nextIs k) (P.nextIs k) := by
  constructor
  intro toks toks' hE p hl
  unfold P.nextIs
  rw [hE.tok p]
  exact .ok p hl rfl

theorem PRel.eat {k : Kw} (hk' : k ≠ .Echo := by decide) : PRel (OptRel KRel) (P.eat k) (P.eat k) := by
  constructor
  intro toks toks' hE p hl
  unfold P.eat
  have := hE.at_ p hl
  revert this
  generalize toks[p]? = x
  generalize toks'[p]? = y
  intro h
  cases h with
  | none => exact .ok p hl .none
  | some h =>
    cases h with
    | mk tok l r =>
      dsimp only
      split
      · rename_i hk
        cases hk
        exact .ok _ (Nat.le_succ_of_le hl) (.some (.mk k (l rfl (by simpa using hk')) (r rfl (by simpa using hk'))))
      · exact .ok _ hl .none

theorem PRel.eatAny {k : Kw} : PRel (OptRel Anyhow) (P.eat k) (P.eat k) := by
  constructor
  intro toks toks' hE p hl
  unfold P.eat
  have := hE.tok p
  revert this
  generalize toks[p]? = x
  generalize toks'[p]? = y
  intro h
  cases x with
  | none =>
    cases y with
    | none => exact .ok p hl .none
    | some y => cases h
  | some x =>
    cases y with
    | none => cases h
    | some y =>
      simp only [Option.map_some, Option.some.injEq] at h
      dsimp only
      rw [h]
      split
      · exact .ok _ (Nat.le_succ_of_le hl) (.some .mk)
      · exact .ok _ hl .none

theorem PRel.eats {k : Kw} : PRel Eq (P.eats k) (P.eats k) := by
  unfold P.eats
  refine PRel.bind PRel.eatAny ?_
  intro a b h
  cases h with
  | none => exact PRel.pure rfl
  | some h => exact PRel.pure rfl

theorem PRel.expect {k : Kw} (hk : k ≠ .Echo := by decide) : PRel KRel (P.expect k) (P.expect k) := by
  unfold P.expect
  refine PRel.bind (PRel.eat hk) ?_
  intro a b h
  cases h with
  | none => exact PRel.errHere
  | some h => exact PRel.pure h

/-- A text and a position behind an open tag. -/
inductive NRel : Text × Span → Text × Span → Prop
  | mk (x : Text) {sp sp' : Span} (left : 2 ≤ sp.start) (right : 2 ≤ sp'.start) : NRel (x, sp) (x, sp')

theorem PRel.eatString : PRel (OptRel NRel) P.eatString P.eatString := by
  constructor
  intro toks toks' hE p hl
  unfold P.eatString
  have := hE.at_ p hl
  revert this
  generalize toks[p]? = x
  generalize toks'[p]? = y
  intro h
  cases h with
  | none => exact .ok p hl .none
  | some h =>
    cases h with
    | mk tok l r => cases tok <;> first | exact .ok _ (Nat.le_succ_of_le hl) (.some (.mk _ (l rfl nofun) (r rfl nofun))) | exact .ok _ hl .none

theorem PRel.eatVariable : PRel (OptRel NRel) P.eatVariable P.eatVariable := by
  constructor
  intro toks toks' hE p hl
  unfold P.eatVariable
  have := hE.at_ p hl
  revert this
  generalize toks[p]? = x
  generalize toks'[p]? = y
  intro h
  cases h with
  | none => exact .ok p hl .none
  | some h =>
    cases h with
    | mk tok l r => cases tok <;> first | exact .ok _ (Nat.le_succ_of_le hl) (.some (.mk _ (l rfl nofun) (r rfl nofun))) | exact .ok _ hl .none

theorem PRel.eatEncaps : PRel (OptRel NRel) P.eatEncaps P.eatEncaps := by
  constructor
  intro toks toks' hE p hl
  unfold P.eatEncaps
  have := hE.at_ p hl
  revert this
  generalize toks[p]? = x
  generalize toks'[p]? = y
  intro h
  cases h with
  | none => exact .ok p hl .none
  | some h =>
    cases h with
    | mk tok l r => cases tok <;> first | exact .ok _ (Nat.le_succ_of_le hl) (.some (.mk _ (l rfl nofun) (r rfl nofun))) | exact .ok _ hl .none

theorem PRel.expectString : PRel NRel P.expectString P.expectString := by
  unfold P.expectString
  refine PRel.bind PRel.eatString ?_
  intro a b h
  cases h with
  | none => exact PRel.errHere
  | some h => exact PRel.pure h

theorem PRel.expectVariable : PRel NRel P.expectVariable P.expectVariable := by
  unfold P.expectVariable
  refine PRel.bind PRel.eatVariable ?_
  intro a b h
  cases h with
  | none => exact PRel.errHere
  | some h => exact PRel.pure h

theorem PRel.tokBack {n : Nat} : PRel Anyhow (P.tokBack n) (P.tokBack n) := by
  constructor
  intro toks toks' hE p hl
  unfold P.tokBack
  split
  · exact .panic _
  · have := hE.tok (p - 1 - n)
    revert this
    generalize toks[p - 1 - n]? = x
    generalize toks'[p - 1 - n]? = y
    intro h
    cases x with
    | none =>
      cases y with
      | none => exact .panic _
      | some y => cases h
    | some x =>
      cases y with
      | none => cases h
      | some y => exact .ok _ hl .mk

theorem PRel.lastEnd : PRel Anyhow P.lastEnd P.lastEnd := by
  unfold P.lastEnd
  exact PRel.bind PRel.tokBack fun _ _ _ => PRel.pure .mk

theorem PRel.subP {a b : Nat} : PRel Eq (P.subP a b) (P.subP a b) := by
  unfold P.subP
  exact PRel.ite (PRel.ret rfl) PRel.abort

theorem PRel.subP' {a a' b : Nat} (h : b ≤ a) (h' : b ≤ a') : PRel (fun x y => x = a - b ∧ y = a' - b) (P.subP a b) (P.subP a' b) := by
  unfold P.subP
  rw [if_pos h, if_pos h']
  exact PRel.ret ⟨rfl, rfl⟩

end

/-! ## Trees -/

/-- The same up to what `f` forgets. -/
structure Alike {α β : Type} (f : α → β) (a b : α) : Prop where
  eq : f a = f b

/-- The same expression up to positions. -/
notation "EEq" => Alike Expr.erase
notation "SEq" => Alike Stmt.erase

/-- The same expression up to positions, behind an open tag. -/
structure VRel (a b : Expr) : Prop where
  eq : a.erase = b.erase
  left : 1 ≤ a.span.start
  right : 1 ≤ b.span.start

def RecRel (r : Rec) : Prop := (∀ prec, PRel EEq (r.expr prec) (r.expr prec)) ∧ PRel SEq r.stmt r.stmt

theorem RecRel.expr {r : Rec} (h : RecRel r) {prec : Prec} : PRel EEq (r.expr prec) (r.expr prec) := h.1 prec
theorem RecRel.stmt {r : Rec} (h : RecRel r) : PRel SEq r.stmt r.stmt := h.2

/-! ## The tactic -/

syntax "rel_call" : tactic
syntax "rel_leaf" : tactic
macro_rules | `(tactic| rel_call) => `(tactic| first
  | with_reducible exact RecRel.expr (by assumption)
  | with_reducible exact RecRel.stmt (by assumption)
  | with_reducible exact PRel.errHere
  | with_reducible exact PRel.abort
  | with_reducible exact PRel.fail
  | with_reducible exact PRel.getPos
  | with_reducible exact PRel.setPos (by omega)
  | with_reducible exact PRel.peek
  | with_reducible exact PRel.peekTok
  | with_reducible exact PRel.tokCount
  | with_reducible exact PRel.nextIs
  | with_reducible exact PRel.eats
  | with_reducible exact PRel.eat
  | with_reducible exact PRel.expect
  | with_reducible exact PRel.eatString
  | with_reducible exact PRel.eatVariable
  | with_reducible exact PRel.eatEncaps
  | with_reducible exact PRel.expectString
  | with_reducible exact PRel.expectVariable
  | with_reducible exact PRel.tokBack
  | with_reducible exact PRel.lastEnd
  | with_reducible exact PRel.subP)

/-- One step of comparing two runs of the same method. -/
syntax "rel1" : tactic
macro_rules | `(tactic| rel1) => `(tactic| first
  | rel_call
  | with_reducible refine PRel.pure ?_
  | with_reducible refine PRel.ret ?_
  | with_reducible apply PRel.bind
  | with_reducible apply PRel.attempt
  | with_reducible refine PRel.ite ?_ ?_)

/-- Go on with related values. -/
syntax "relv" : tactic
macro_rules | `(tactic| relv) => `(tactic| (
    intro _ _ h
    try casesm* OptRel _ _ _, ExcRel _ _ _, SumRel _ _ _ _, PairRel _ _ _ _, NRel _ _, TRel _ _, KRel _ _, Alike _ _ _, VRel _ _, Anyhow _ _, PosRel _ _
    all_goals try subst_vars
    all_goals try dsimp only))

end Pico
