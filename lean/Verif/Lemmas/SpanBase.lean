import Verif.Lemmas.ShapeExpr
import Verif.Spec.Spans
/-!
# Ranges of nodes are made of ranges of tokens: symbolic execution

If the ranges of the tokens do not exceed `B` (and, if `D`, only closing braces have the mark of a documentation
comment), then the ranges of all nodes do not exceed `B` (and, if `D`, have no such mark).
-/
namespace Pico
open P

/-- A range up to `B`; if `D`, it has no mark of a documentation comment. -/
def SpOk (B : Nat) (D : Prop) (sp : Span) : Prop := sp.start ≤ B ∧ sp.stop ≤ B ∧ (D → sp.doc = none)

structure SpAll (B : Nat) (D : Prop) (l : List Span) : Prop where
  all : ∀ sp ∈ l, SpOk B D sp

/-- The same for a token, but closing braces may have the mark. -/
def TkOk (B : Nat) (D : Prop) (t : TokSpan) : Prop :=
  t.span.start ≤ B ∧ t.span.stop ≤ B ∧ (D → t.tok ≠ .k .CurlyBracesClose → t.span.doc = none)

def Bounded (B : Nat) (D : Prop) (toks : List TokSpan) : Prop := ∀ t ∈ toks, TkOk B D t

section
variable {B : Nat} {D : Prop}

theorem spAll_nil : SpAll B D [] ↔ True := ⟨fun _ => trivial, fun _ => ⟨fun _ h => by cases h⟩⟩

theorem spAll_cons {x : Span} {l : List Span} : SpAll B D (x :: l) ↔ SpOk B D x ∧ SpAll B D l :=
  ⟨fun h => ⟨h.1 _ (List.mem_cons_self ..), ⟨fun s hs => h.1 s (List.mem_cons_of_mem _ hs)⟩⟩, fun h => ⟨List.forall_mem_cons.2 ⟨h.1, h.2.1⟩⟩⟩

theorem spAll_append {a b : List Span} : SpAll B D (a ++ b) ↔ SpAll B D a ∧ SpAll B D b :=
  ⟨fun h => ⟨⟨fun s hs => h.1 s (List.mem_append_left _ hs)⟩, ⟨fun s hs => h.1 s (List.mem_append_right _ hs)⟩⟩,
    fun h => ⟨List.forall_mem_append.2 ⟨h.1.1, h.2.1⟩⟩⟩

theorem mk_span_e (k : ExprK) (sp : Span) : (Expr.mk k sp).span = sp := rfl
theorem mk_kind_e (k : ExprK) (sp : Span) : (Expr.mk k sp).kind = k := rfl
theorem mk_span_s (k : StmtK) (sp : Span) : (Stmt.mk k sp).span = sp := rfl
theorem mk_kind_s (k : StmtK) (sp : Span) : (Stmt.mk k sp).kind = k := rfl

/-- An expression all of whose ranges are in order, with what follows from it. -/
abbrev BE (B : Nat) (D : Prop) (e : Expr) : Prop :=
  SpAll B D e.spans ∧ SpAll B D e.kind.spans ∧ e.span.start ≤ B ∧ e.span.stop ≤ B ∧ (D → e.span.doc = none)
abbrev BS (B : Nat) (D : Prop) (s : Stmt) : Prop :=
  SpAll B D s.spans ∧ SpAll B D s.kind.spans ∧ s.span.start ≤ B ∧ s.span.stop ≤ B ∧ (D → s.span.doc = none)

theorem BE.of {e : Expr} (h : SpAll B D e.spans) : BE B D e := by
  obtain ⟨k, sp⟩ := e
  have h' := spAll_cons.1 h
  exact ⟨h, h'.2, h'.1.1, h'.1.2.1, h'.1.2.2⟩

theorem BS.of {s : Stmt} (h : SpAll B D s.spans) : BS B D s := by
  obtain ⟨k, sp⟩ := s
  have h' := spAll_cons.1 h
  exact ⟨h, h'.2, h'.1.1, h'.1.2.1, h'.1.2.2⟩

theorem exprsSpans_append (a b : List Expr) : exprsSpans (a ++ b) = exprsSpans a ++ exprsSpans b := by
  induction a with
  | nil => rfl
  | cons x a ih => simp [exprsSpans, ih]

theorem itemsSpans_append (a b : List (Option Expr × Expr)) : itemsSpans (a ++ b) = itemsSpans a ++ itemsSpans b := by
  induction a with
  | nil => rfl
  | cons x a ih => obtain ⟨k, v⟩ := x; simp [itemsSpans, ih]

theorem optsSpans_append (a b : List (Option Expr)) : optsSpans (a ++ b) = optsSpans a ++ optsSpans b := by
  induction a with
  | nil => rfl
  | cons x a ih => simp [optsSpans, ih]

theorem stmtsSpans_append (a b : List Stmt) : stmtsSpans (a ++ b) = stmtsSpans a ++ stmtsSpans b := by
  induction a with
  | nil => rfl
  | cons x a ih => simp [stmtsSpans, ih]

theorem paramsSpans_append (a b : List Param) : paramsSpans (a ++ b) = paramsSpans a ++ paramsSpans b := by
  induction a with
  | nil => rfl
  | cons x a ih => simp [paramsSpans, ih]

theorem declsSpans_append (a b : List Member) : declsSpans (a ++ b) = declsSpans a ++ declsSpans b := by
  induction a with
  | nil => rfl
  | cons x a ih => simp [declsSpans, ih]

theorem catchesSpans_append (a b : List Catch) : catchesSpans (a ++ b) = catchesSpans a ++ catchesSpans b := by
  induction a with
  | nil => rfl
  | cons x a ih => obtain ⟨_, _, x⟩ := x; simp [catchesSpans, ih]

theorem casesSpans_append (a b : List Case) : casesSpans (a ++ b) = casesSpans a ++ casesSpans b := by
  induction a with
  | nil => rfl
  | cons x a ih => obtain ⟨_, _, x⟩ := x; simp [casesSpans, ih]

theorem staticsSpans_append (a b : List (Text × Option Expr)) : staticsSpans (a ++ b) = staticsSpans a ++ staticsSpans b := by
  induction a with
  | nil => rfl
  | cons x a ih => obtain ⟨k, v⟩ := x; simp [staticsSpans, ih]

theorem variablesSpans_append (a b : List Variable) : variablesSpans (a ++ b) = variablesSpans a ++ variablesSpans b := by
  induction a with
  | nil => rfl
  | cons x a ih => simp [variablesSpans, ih]

end

section
variable {α : Type} {B : Nat} {D : Prop} {toks : List TokSpan} {pos : Nat}

/-! ## Rules that know the range of the token -/

theorem Sp.peek {Q : Option TokSpan → Nat → Prop} (hb : Bounded B D toks) (h1 : ∀ t, TkOk B D t → Q (some t) pos) (h2 : Q none pos) :
    Ret P.peek toks pos Q :=
  Ret.peek (fun t ht => h1 t (hb t (List.mem_of_getElem? ht))) h2

theorem Sp.eat {k : Kw} {Q : Option TokSpan → Nat → Prop} (hb : Bounded B D toks)
    (h1 : ∀ t : TokSpan, t.span.start ≤ B → t.span.stop ≤ B → (D → k ≠ .CurlyBracesClose → t.span.doc = none) → Q (some t) (pos + 1))
    (h2 : Q none pos) : Ret (P.eat k) toks pos Q := by
  refine ⟨fun a p e => ?_⟩
  unfold P.eat at e
  split at e
  · rename_i ts ht
    split at e <;> cases e
    · rename_i hk
      obtain ⟨a, b, c⟩ := hb _ (List.mem_of_getElem? ht)
      exact h1 _ a b fun hd hk' => c hd (by rw [hk]; intro h; cases h; exact hk' rfl)
    · exact h2
  · cases e; exact h2

theorem Sp.expect {k : Kw} {Q : TokSpan → Nat → Prop} (hb : Bounded B D toks)
    (h1 : ∀ t : TokSpan, t.span.start ≤ B → t.span.stop ≤ B → (D → k ≠ .CurlyBracesClose → t.span.doc = none) → Q t (pos + 1)) :
    Ret (P.expect k) toks pos Q :=
  Ret.bind (Sp.eat hb (fun _ a b c => Ret.pure (h1 _ a b c)) Ret.errHere)

theorem Sp.eatString {Q : Option (Text × Span) → Nat → Prop} (hb : Bounded B D toks)
    (h1 : ∀ t, SpOk B D t.2 → Q (some t) (pos + 1)) (h2 : Q none pos) : Ret P.eatString toks pos Q := by
  refine ⟨fun a p e => ?_⟩
  unfold P.eatString at e
  split at e <;> cases e
  · rename_i ht
    obtain ⟨a, b, c⟩ := hb _ (List.mem_of_getElem? ht)
    exact h1 _ ⟨a, b, fun hd => c hd nofun⟩
  · exact h2

theorem Sp.eatVariable {Q : Option (Text × Span) → Nat → Prop} (hb : Bounded B D toks)
    (h1 : ∀ t, SpOk B D t.2 → Q (some t) (pos + 1)) (h2 : Q none pos) : Ret P.eatVariable toks pos Q := by
  refine ⟨fun a p e => ?_⟩
  unfold P.eatVariable at e
  split at e <;> cases e
  · rename_i ht
    obtain ⟨a, b, c⟩ := hb _ (List.mem_of_getElem? ht)
    exact h1 _ ⟨a, b, fun hd => c hd nofun⟩
  · exact h2

theorem Sp.eatEncaps {Q : Option (Text × Span) → Nat → Prop} (hb : Bounded B D toks)
    (h1 : ∀ t, SpOk B D t.2 → Q (some t) (pos + 1)) (h2 : Q none pos) : Ret P.eatEncaps toks pos Q := by
  refine ⟨fun a p e => ?_⟩
  unfold P.eatEncaps at e
  split at e <;> cases e
  · rename_i ht
    obtain ⟨a, b, c⟩ := hb _ (List.mem_of_getElem? ht)
    exact h1 _ ⟨a, b, fun hd => c hd nofun⟩
  · exact h2

theorem Sp.expectString {Q : Text × Span → Nat → Prop} (hb : Bounded B D toks) (h1 : ∀ t, SpOk B D t.2 → Q t (pos + 1)) :
    Ret P.expectString toks pos Q :=
  Ret.bind (Sp.eatString hb (fun _ h => Ret.pure (h1 _ h)) Ret.errHere)

theorem Sp.expectVariable {Q : Text × Span → Nat → Prop} (hb : Bounded B D toks) (h1 : ∀ t, SpOk B D t.2 → Q t (pos + 1)) :
    Ret P.expectVariable toks pos Q :=
  Ret.bind (Sp.eatVariable hb (fun _ h => Ret.pure (h1 _ h)) Ret.errHere)

theorem Sp.tokBack {n : Nat} {Q : TokSpan → Nat → Prop} (hb : Bounded B D toks) (h1 : ∀ t, TkOk B D t → Q t pos) :
    Ret (P.tokBack n) toks pos Q := by
  refine ⟨fun a p e => ?_⟩
  unfold P.tokBack at e
  split at e
  · cases e
  · split at e <;> cases e
    rename_i ht
    exact h1 _ (hb _ (List.mem_of_getElem? ht))

theorem Sp.lastEnd {Q : Nat → Nat → Prop} (hb : Bounded B D toks) (h1 : ∀ x, x ≤ B → Q x pos) : Ret P.lastEnd toks pos Q :=
  Ret.bind (Sp.tokBack hb fun _ h => Ret.pure (h1 _ h.2.1))

theorem Sp.subP {a b : Nat} {Q : Nat → Nat → Prop} (h1 : ∀ x, x ≤ a → Q x pos) : Ret (P.subP a b) toks pos Q := by
  unfold P.subP
  exact Ret.ite (fun _ => Ret.ret (h1 _ (Nat.sub_le ..))) (fun _ => Ret.abort)

end

/-- The recursive calls return trees whose ranges are in order. -/
structure BRec (r : Rec) (toks : List TokSpan) (B : Nat) (D : Prop) : Prop where
  expr : ∀ prec, Gv (r.expr prec) toks (BE B D)
  stmt : Gv r.stmt toks (BS B D)

/-- Close goals saying that ranges are in order. -/
syntax "rgp" : tactic
set_option hygiene false in
macro_rules | `(tactic| rgp) => `(tactic| first
  | trivial
  | assumption
  | (try clear h1
     simp_all [BE, BS, SpOk, TkOk, spAll_nil, spAll_cons, spAll_append, mk_span_e, mk_kind_e, mk_span_s, mk_kind_s, Expr.spans, ExprK.spans, Variable.spans,
      optSpans, optsSpans, exprsSpans, itemsSpans, FnDecl.spans, paramsSpans, Param.spans, optBlockSpans, Stmt.spans, stmtsSpans,
      StmtK.spans, catchesSpans, casesSpans, Decl.spans, staticsSpans, variablesSpans, declsSpans, Member.spans, mkSpan, OptP,
      exprsSpans_append, itemsSpans_append, optsSpans_append, stmtsSpans_append, paramsSpans_append, declsSpans_append,
      catchesSpans_append, casesSpans_append, staticsSpans_append, variablesSpans_append]
     done)
  | (try clear h1
     simp_all [BE, BS, SpOk, TkOk, spAll_nil, spAll_cons, spAll_append, mk_span_e, mk_kind_e, mk_span_s, mk_kind_s, Expr.spans, ExprK.spans, Variable.spans,
      optSpans, optsSpans, exprsSpans, itemsSpans, FnDecl.spans, paramsSpans, Param.spans, optBlockSpans, Stmt.spans, stmtsSpans,
      StmtK.spans, catchesSpans, casesSpans, Decl.spans, staticsSpans, variablesSpans, declsSpans, Member.spans, mkSpan, OptP,
      exprsSpans_append, itemsSpans_append, optsSpans_append, stmtsSpans_append, paramsSpans_append, declsSpans_append,
      catchesSpans_append, casesSpans_append, staticsSpans_append, variablesSpans_append]
     omega))

/-- Calls of methods with a known specification; extended below. -/
syntax "rg_call" : tactic

/-- One step of symbolic execution. -/
syntax "rg1" : tactic
set_option hygiene false in
macro_rules | `(tactic| rg1) => `(tactic| first
  | with_reducible refine h1 _ _ ?_
  | with_reducible exact OptP.none
  | intro _
  | with_reducible refine Ret.bind ?_
  | with_reducible refine Ret.iteTrue ?_
  | with_reducible refine Ret.iteFalse ?_
  | with_reducible refine Ret.ite ?_ ?_
  | with_reducible refine Ret.pure ?_
  | with_reducible refine Ret.ret ?_
  | with_reducible exact Ret.fail
  | with_reducible exact Ret.errHere
  | with_reducible exact Ret.abort
  | with_reducible refine Ret.getPos ?_
  | with_reducible refine Ret.setPos ?_
  | with_reducible refine Ret.tokCount ?_
  | with_reducible refine Ret.attempt ?_ ?_
  | with_reducible refine Sp.peek hb ?_ ?_
  | with_reducible refine Ret.peekTok ?_ ?_
  | with_reducible refine Sp.eat hb ?_ ?_
  | with_reducible refine Ret.eats ?_ ?_
  | with_reducible refine Ret.nextIs ?_ ?_
  | with_reducible refine Sp.expect hb ?_
  | with_reducible refine Sp.eatString hb ?_ ?_
  | with_reducible refine Sp.eatVariable hb ?_ ?_
  | with_reducible refine Sp.eatEncaps hb ?_ ?_
  | with_reducible refine Sp.expectString hb ?_
  | with_reducible refine Sp.expectVariable hb ?_
  | with_reducible refine Sp.tokBack hb ?_
  | with_reducible refine Sp.lastEnd hb ?_
  | with_reducible refine Sp.subP ?_
  | rg_call
  | dsimp only
  | split)

/-- Symbolic execution up to loops and leaves. -/
macro "rgo" : tactic => `(tactic| repeat' rg1)

macro_rules | `(tactic| rg_call) => `(tactic|
  with_reducible refine Gv.use (BRec.expr (by assumption) _) ?_)
macro_rules | `(tactic| rg_call) => `(tactic|
  with_reducible refine Gv.use (BRec.stmt (by assumption)) ?_)

end Pico
