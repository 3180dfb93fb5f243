import Verif.Lemmas.PanicBase
import Verif.Spec.Ranges
/-!
# Why the parser panics: names and expressions
-/
namespace Pico
open P

/-- An `instanceof` has been read from a token of this kind. -/
def Inst (toks : List TokSpan) (e : Expr) (p : Nat) : Prop :=
  e.isInstanceOf = true → ∃ i, i < p ∧ (kinds toks)[i]? = some (.k .InstanceOf)

/-- The position is one the parser may be at. -/
abbrev Okay (toks : List TokSpan) (pos : Nat) : Prop := pos ≤ toks.length ∨ Gone toks

abbrev any0 : Nat → Prop := fun _ => True

section
variable {α β : Type} {toks : List TokSpan} {r : Rec} {base : Int} {lo pos : Nat}

theorem Inst.mono {e : Expr} {p q : Nat} (h : Inst toks e p) (hq : p ≤ q) : Inst toks e q := fun he =>
  let ⟨i, hi, h'⟩ := h he
  ⟨i, Nat.lt_of_lt_of_le hi hq, h'⟩

theorem Inst.kind {e : Expr} {p q : Nat} {s : Span} (h : Inst toks e p) (hq : p ≤ q) : Inst toks (.mk e.kind s) q := by
  cases e with
  | mk k sp =>
    intro he
    refine Inst.mono h hq ?_
    cases k <;> first | exact he | rfl

theorem Ab.bindE {m : P Expr} {f : Expr → P β} {W : β → Nat → Prop}
    (h : Aq toks pos m (Inst toks) any0) (hr : Reach toks base lo pos)
    (hf : ∀ a p, Reach toks base lo p → pos ≤ p → dep toks pos ≤ dep toks p → Inst toks a p → Ab toks base lo p (f a) W any0) :
    Ab toks base lo pos (m >>= f) W any0 :=
  Ab.bind h hr (fun a p h1 h2 h3 h4 => hf a p h1 h2 h3 h4) fun _ _ _ _ => trivial

theorem Ab.attemptE {m : P Expr} {f : Except PErr Expr → P β} {W : β → Nat → Prop} {E : Nat → Prop}
    (h : Aq toks pos m (Inst toks) any0) (hr : Reach toks base lo pos)
    (hok : ∀ a p, Reach toks base lo p → pos ≤ p → dep toks pos ≤ dep toks p → Inst toks a p → Ab toks base lo p (f (.ok a)) W E)
    (herr : ∀ e p, Reach toks base lo p → pos ≤ p → dep toks pos ≤ dep toks p → Ab toks base lo p (f (.error e)) W E) :
    Ab toks base lo pos (P.attempt m >>= f) W E :=
  Ab.attempt h hr hok fun e p h1 h2 h3 _ => herr e p h1 h2 h3

theorem Ab.eatsTail {k : Kw} {E : Nat → Prop} (hr : Reach toks base lo pos) (hk : k ≠ .ParenthesesOpen ∧ k ≠ .ParenthesesClose) :
    Ab toks base lo pos (P.eats k) (fun _ _ => True) E := by
  have : Ab toks base lo pos (P.eats k >>= P.ret) (fun _ _ => True) E :=
    Ab.eatsOther hr hk (fun _ _ _ hr' _ => Ab.ret hr' trivial) fun _ => Ab.ret hr trivial
  unfold Ab at this ⊢
  have e : (P.eats k >>= P.ret) toks pos = P.eats k toks pos := by
    show P.bnd (P.eats k) P.ret toks pos = _
    unfold P.bnd
    cases P.eats k toks pos <;> rfl
  rw [e] at this
  exact this

theorem Ab.eatOpenTail {E : Nat → Prop} (hr : Reach toks base lo pos) :
    Ab toks base lo pos (P.eat .ParenthesesOpen) (fun _ _ => True) E := by
  have : Ab toks base lo pos (P.eat .ParenthesesOpen >>= P.ret) (fun _ _ => True) E :=
    Ab.eatOpen hr (fun _ _ _ hr' _ => Ab.ret hr' trivial) fun _ => Ab.ret hr trivial
  unfold Ab at this ⊢
  have e : (P.eat .ParenthesesOpen >>= P.ret) toks pos = P.eat .ParenthesesOpen toks pos := by
    show P.bnd (P.eat _) P.ret toks pos = _
    unfold P.bnd
    cases P.eat _ toks pos <;> rfl
  rw [e] at this
  exact this

/-- Both recursive calls. -/
def RecA (toks : List TokSpan) (r : Rec) : Prop :=
  (∀ prec pos, Okay toks pos → Aq toks pos (r.expr prec) (Inst toks) any0) ∧ ∀ pos, Okay toks pos → At0 toks pos r.stmt

theorem RecA.expr {prec : Prec} (h : RecA toks r) (hr : Reach toks base lo pos) :
    Ab toks base lo pos (r.expr prec) (Inst toks) any0 := Ab.tail hr (h.1 prec pos hr.fits)
theorem RecA.stmt (h : RecA toks r) (hr : Reach toks base lo pos) :
    Ab toks base lo pos r.stmt (fun _ _ => True) any0 := Ab.tail hr (h.2 pos hr.fits)

end

/-- Positions. -/
macro "reach" : tactic => `(tactic| first
  | with_reducible assumption
  | with_reducible exact Reach.here (by assumption)
  | with_reducible exact Reach.refl (by assumption))

/-- The position is allowed. -/
macro "okay" : tactic => `(tactic| first
  | with_reducible exact Reach.fits (by assumption)
  | with_reducible assumption)

/-- Facts about `instanceof`. -/
macro "inst" : tactic => `(tactic| first
  | with_reducible exact trivial
  | with_reducible assumption
  | with_reducible exact Inst.mono (by assumption) (by omega)
  | with_reducible exact Inst.kind (by assumption) (by omega)
  | exact ⟨Inst.mono (by assumption) (by omega), by assumption⟩
  | exact ⟨Inst.kind (by assumption) (by omega), by assumption⟩
  | exact ⟨nofun, by assumption⟩
  | exact nofun)

syntax "ab_call" : tactic
syntax "ab1" : tactic
macro_rules | `(tactic| ab1) => `(tactic| first
  | with_reducible refine Ab.getPos ?_
  | with_reducible refine Ab.peek ?_
  | with_reducible refine Ab.peekTok ?_
  | with_reducible refine Ab.tokCount ?_
  | with_reducible refine Ab.pureBind ?_
  | with_reducible refine Ab.eatsOpen (by reach) ?_ ?_
  | with_reducible refine Ab.eatsClose (by reach) (by omega) ?_ ?_
  | ((with_reducible refine Ab.eatsOther (by reach) ?hk ?_ ?_); case hk => exact ⟨nofun, nofun⟩)
  | with_reducible refine Ab.eatOpen (by reach) ?_ ?_
  | with_reducible refine Ab.eatClose (by reach) (by omega) ?_ ?_
  | ((with_reducible refine Ab.eatOther (by reach) ?hk ?_ ?_); case hk => exact ⟨nofun, nofun⟩)
  | with_reducible refine Ab.expectOpen (by reach) trivial ?_
  | with_reducible refine Ab.expectClose (by reach) (by omega) trivial ?_
  | ((with_reducible refine Ab.expectOther (by reach) ?hk trivial ?_); case hk => exact ⟨nofun, nofun⟩)
  | ((with_reducible refine Ab.expectOrOther (by reach) ?hk trivial ?_); case hk => exact ⟨nofun, nofun⟩)
  | with_reducible refine Ab.eatString (by reach) ?_ ?_
  | with_reducible refine Ab.eatVariable (by reach) ?_ ?_
  | with_reducible refine Ab.eatEncaps (by reach) ?_ ?_
  | with_reducible refine Ab.expectString (by reach) trivial ?_
  | with_reducible refine Ab.expectVariable (by reach) trivial ?_
  | with_reducible refine Ab.nextIs ?_ ?_
  | with_reducible refine Ab.lastEnd (by reach) (by omega) ?_
  | with_reducible refine Ab.attemptE ?_ (by reach) ?_ ?_
  | with_reducible refine Ab.attemptT ?_ (by reach) ?_ ?_
  | with_reducible refine Ab.bindE ?_ (by reach) ?_
  | with_reducible refine Ab.bindT ?_ (by reach) ?_
  | with_reducible refine Ab.loopT (by reach) ?_
  | with_reducible refine Ab.iteTrue ?_
  | with_reducible refine Ab.iteFalse ?_
  | with_reducible refine Ab.ite ?_ ?_
  | with_reducible intro _
  | ((with_reducible refine Ab.pure (by reach) ?hv); case hv => inst)
  | ((with_reducible refine Ab.ret (by reach) ?hv); case hv => inst)
  | with_reducible exact Ab.err (by reach) trivial
  | with_reducible exact Ab.fail (by reach) trivial
  | with_reducible exact Ab.unpack (by reach) trivial
  | ((with_reducible refine Ab.eatsTail (by reach) ?hk); case hk => exact ⟨nofun, nofun⟩)
  | with_reducible exact Ab.eatOpenTail (by reach)
  | ab_call
  | dsimp only
  | split)
macro "ab" : tactic => `(tactic| repeat' ab1)
macro_rules | `(tactic| ab_call) => `(tactic| with_reducible exact RecA.expr (by assumption) (by reach))
macro_rules | `(tactic| ab_call) => `(tactic| with_reducible exact Ab.any (RecA.expr (by assumption) (by reach)))
macro_rules | `(tactic| ab_call) => `(tactic| with_reducible exact RecA.stmt (by assumption) (by reach))

variable {toks : List TokSpan} {r : Rec} {base : Int} {lo pos : Nat}

theorem at_kind {i : Nat} {t : TokSpan} {k : Token} (h : toks[i]? = some t) (hk : t.tok = k) : (kinds toks)[i]? = some k := by
  rw [kinds_get, h, ← hk]; rfl

/-! ## Names -/

/-- All tokens from `a` to `b` are parts of lists of names. -/
def Names (toks : List TokSpan) (a b : Nat) : Prop := ∀ k t, a ≤ k → k < b → (kinds toks)[k]? = some t → t.inNames = true

theorem Names.refl {a : Nat} : Names toks a a := fun _ _ h h' => absurd h (by omega)

theorem Names.trans {a b c : Nat} (h : Names toks a b) (h' : Names toks b c) : Names toks a c := fun k t h1 h2 ht => by
  rcases Nat.lt_or_ge k b with hk | hk
  · exact h k t h1 hk ht
  · exact h' k t hk h2 ht

theorem Names.one {a : Nat} {t : TokSpan} (h : toks[a]? = some t) (ht : t.tok.inNames = true) : Names toks a (a + 1) := fun k u h1 h2 hu => by
  rw [show k = a by omega, at_kind h rfl] at hu
  cases hu
  exact ht

/-- `StartsAt`, with a token that is neither a number nor `echo`. -/
def Stt (toks : List TokSpan) (i x : Nat) : Prop :=
  ∃ t, toks[i]? = some t ∧ (t.tok ≠ .k .NsSeparator ∧ Solid t.tok ∧ t.span.start = x ∨
    t.tok = .k .NsSeparator ∧ ∃ u, toks[i + 1]? = some u ∧ Solid u.tok ∧ u.span.start = x + 1)

theorem parseSimpleVariable_ab (h : Okay toks pos) :
    Aq toks pos parseSimpleVariable (fun x _ => ∃ t, toks[pos]? = some t ∧ t.tok ≠ .k .NsSeparator ∧ Solid t.tok ∧ t.span = x.2)
      (fun p => p = pos) := by
  unfold parseSimpleVariable
  refine Ab.eatOther (Reach.refl h) ⟨nofun, nofun⟩ ?_ ?_
  · intro t ht hk _ _
    exact Ab.cause (.dollar pos (at_kind ht hk))
  · intro _
    refine Ab.eatVariable (Reach.refl h) ?_ ?_
    · intro s sp ht hr _
      exact Ab.pure hr ⟨_, ht, nofun, ⟨rfl, nofun⟩, rfl⟩
    · intro _
      exact Ab.err (Reach.refl h) rfl
macro_rules | `(tactic| ab_call) => `(tactic| with_reducible exact Ab.tail (by reach) (parseSimpleVariable_ab (by okay)))
macro_rules | `(tactic| ab_call) => `(tactic| with_reducible exact Ab.tail (by reach) (Ab.any (parseSimpleVariable_ab (by okay))))

theorem parseSimpleVariableExpr_ab (h : Okay toks pos) :
    Aq toks pos parseSimpleVariableExpr (fun e p => Inst toks e p ∧ Stt toks pos e.span.start) (fun p => p = pos) := by
  unfold parseSimpleVariableExpr
  refine Ab.bind (parseSimpleVariable_ab h) (Reach.refl h) ?_ fun _ _ _ h => h
  rintro ⟨v, sp⟩ p hr _ _ ⟨t, ht, hk, hb, hs⟩
  exact Ab.pure hr ⟨nofun, t, ht, .inl ⟨hk, hb, by rw [hs]; rfl⟩⟩

theorem parseSimpleVariableExpr_i (h : Okay toks pos) : Aq toks pos parseSimpleVariableExpr (Inst toks) any0 :=
  (parseSimpleVariableExpr_ab h).weak (fun _ _ _ h => h.1) fun _ _ _ => trivial
macro_rules | `(tactic| ab_call) => `(tactic| with_reducible exact Ab.tail (by reach) (parseSimpleVariableExpr_i (by okay)))
macro_rules | `(tactic| ab_call) => `(tactic| with_reducible exact Ab.tail (by reach) (Ab.any (parseSimpleVariableExpr_i (by okay))))

theorem namespaceFragments_ab (h : Okay toks pos) :
    Aq toks pos namespaceFragments (fun fs p => Names toks pos p ∧ fs ≠ [] ∧
      ∀ f, fs.head? = some f → ∃ t s, toks[pos]? = some t ∧ t.tok = .string s ∧ t.span = f.2) any0 := by
  unfold namespaceFragments
  refine Ab.loop (fun fs p => Names toks pos p ∧ (fs = [] → p = pos) ∧
    ∀ f, fs.head? = some f → ∃ t s, toks[pos]? = some t ∧ t.tok = .string s ∧ t.span = f.2) (Reach.refl h) ⟨Names.refl, fun _ => rfl, nofun⟩ ?_
  rintro fs p hr ⟨hn, h0, hf⟩
  refine Ab.eatString hr ?_ fun _ => Ab.err hr trivial
  intro s sp ht hr1 _
  have hn1 : Names toks pos (p + 1) := hn.trans (Names.one ht rfl)
  have hf1 : ∀ f, (fs ++ [(s, sp)]).head? = some f → ∃ t s, toks[pos]? = some t ∧ t.tok = .string s ∧ t.span = f.2 := by
    intro f hh
    cases fs with
    | nil => cases hh; exact ⟨_, s, by rw [← h0 rfl]; exact ht, rfl, rfl⟩
    | cons x xs => exact hf f hh
  dsimp only
  refine Ab.getPos ?_
  refine Ab.eatOther hr1 ⟨nofun, nofun⟩ ?_ fun _ => Ab.pure hr1 ⟨nofun, fun a ha => by cases ha; exact ⟨hn1, by simp, hf1⟩⟩
  intro t' ht' hk' hr2 _
  refine Ab.eatString hr2 ?_ fun _ => Ab.setPos (Ab.pure hr1 ⟨nofun, fun a ha => by cases ha; exact ⟨hn1, by simp, hf1⟩⟩)
  intro s2 sp2 ht2 hr3 _
  refine Ab.getPos (Ab.setPos ?_)
  exact Ab.pure hr2 ⟨fun x' hx => by
    cases hx
    exact ⟨hn1.trans (Names.one ht' (by rw [hk']; rfl)), by simp, hf1⟩, nofun⟩

theorem parseNamespaceName_ab (h : Okay toks pos) :
    Aq toks pos parseNamespaceName (fun x p => Names toks pos p ∧ ∃ t s, toks[pos]? = some t ∧ t.tok = .string s ∧ t.span.start = x.2.start) any0 := by
  unfold parseNamespaceName
  refine Ab.bind (namespaceFragments_ab h) (Reach.refl h) ?_ fun _ _ _ h => h
  rintro fs p hr _ _ ⟨hn, hne, hf⟩
  cases fs with
  | nil => exact absurd rfl hne
  | cons f fs =>
    have hl : ∃ l, (f :: fs).getLast? = some l := ⟨_, List.getLast?_eq_some_getLast (by simp)⟩
    obtain ⟨l, hl⟩ := hl
    rw [hl]
    obtain ⟨t, s, ht, hs, e⟩ := hf f rfl
    exact Ab.pure hr ⟨hn, t, s, ht, hs, by rw [e]; rfl⟩
macro_rules | `(tactic| ab_call) => `(tactic| with_reducible exact Ab.tail (by reach) (parseNamespaceName_ab (by okay)))
macro_rules | `(tactic| ab_call) => `(tactic| with_reducible exact Ab.tail (by reach) (Ab.any (parseNamespaceName_ab (by okay))))

theorem parseName_ab (h : Okay toks pos) :
    Aq toks pos parseName (fun x p => Names toks pos p ∧ Stt toks pos x.2.start) any0 := by
  unfold parseName
  refine Ab.eatsOther (Reach.refl h) ⟨nofun, nofun⟩ ?_ ?_
  · intro t ht hk hr _
    refine Ab.bind (parseNamespaceName_ab hr.fits) hr ?_ fun _ _ _ h => h
    rintro ⟨path, span⟩ p hr' _ _ ⟨hn, u, s, hu, hs, e⟩
    refine Ab.iteTrue ?_
    refine Ab.subP (fun hlt => .inr ⟨rfl, pos, t, pos + 1, u, ht, .inl hk, Nat.lt_succ_self _, hu, by rw [hs]; exact ⟨rfl, nofun⟩, ?_⟩) ?_
    · rw [e]
      show span.start < 2
      omega
    · intro h1
      refine Ab.pure hr' ⟨(Names.one ht (by rw [hk]; rfl)).trans hn, t, ht, .inr ⟨hk, u, hu, by rw [hs]; exact ⟨rfl, nofun⟩, ?_⟩⟩
      rw [e]; show span.start = span.start - 1 + 1; omega
  · intro hn
    refine Ab.bind (parseNamespaceName_ab h) (Reach.refl h) ?_ fun _ _ _ h => h
    rintro ⟨path, span⟩ p hr' _ _ ⟨hn, u, s, hu, hs, e⟩
    refine Ab.iteFalse ?_
    exact Ab.pure hr' ⟨hn, u, hu, .inl ⟨by rw [hs]; nofun, by rw [hs]; exact ⟨rfl, nofun⟩, e⟩⟩
macro_rules | `(tactic| ab_call) => `(tactic| with_reducible exact Ab.tail (by reach) (parseName_ab (by okay)))
macro_rules | `(tactic| ab_call) => `(tactic| with_reducible exact Ab.tail (by reach) (Ab.any (parseName_ab (by okay))))

theorem parseNameAsExpr_ab (h : Okay toks pos) :
    Aq toks pos parseNameAsExpr (fun e p => Inst toks e p ∧ Stt toks pos e.span.start) any0 := by
  unfold parseNameAsExpr
  refine Ab.bind (parseName_ab h) (Reach.refl h) ?_ fun _ _ _ h => h
  rintro ⟨v, sp⟩ p hr _ _ ⟨_, hs⟩
  exact Ab.pure hr ⟨nofun, hs⟩

theorem parseNameAsExpr_i (h : Okay toks pos) : Aq toks pos parseNameAsExpr (Inst toks) any0 :=
  (parseNameAsExpr_ab h).weak (fun _ _ _ h => h.1) fun _ _ _ => trivial
macro_rules | `(tactic| ab_call) => `(tactic| with_reducible exact Ab.tail (by reach) (parseNameAsExpr_i (by okay)))
macro_rules | `(tactic| ab_call) => `(tactic| with_reducible exact Ab.tail (by reach) (Ab.any (parseNameAsExpr_i (by okay))))

theorem parseNameList_ab (h : Okay toks pos) : Aq toks pos parseNameList (fun _ p => Names toks pos p) any0 := by
  unfold parseNameList
  refine Ab.loop (fun _ p => Names toks pos p) (Reach.refl h) Names.refl ?_
  intro ns p hr hn
  refine Ab.bind (parseName_ab hr.fits) hr ?_ fun _ _ _ h => h
  rintro ⟨v, sp⟩ q hr' _ _ ⟨hn', _⟩
  refine Ab.eatsOther hr' ⟨nofun, nofun⟩ ?_ ?_
  · intro t ht hk hr2 _
    exact Ab.pure hr2 ⟨fun _ _ => (hn.trans hn').trans (Names.one ht (by rw [hk]; rfl)), nofun⟩
  · intro _
    exact Ab.pure hr' ⟨nofun, fun _ _ => hn.trans hn'⟩
macro_rules | `(tactic| ab_call) => `(tactic| with_reducible exact Ab.tail (by reach) (parseNameList_ab (by okay)))
macro_rules | `(tactic| ab_call) => `(tactic| with_reducible exact Ab.tail (by reach) (Ab.any (parseNameList_ab (by okay))))

theorem parseClassName_ab (h : Okay toks pos) :
    Aq toks pos parseClassName (fun e p => Inst toks e p ∧ Stt toks pos e.span.start) any0 := by
  unfold parseClassName
  refine Ab.eatOther (Reach.refl h) ⟨nofun, nofun⟩ ?_ fun _ => parseNameAsExpr_ab h
  intro t ht hk hr _
  exact Ab.pure hr ⟨nofun, t, ht, .inl ⟨by rw [hk]; nofun, by rw [hk]; exact ⟨rfl, nofun⟩, rfl⟩⟩

theorem parseClassName_i (h : Okay toks pos) : Aq toks pos parseClassName (Inst toks) any0 :=
  (parseClassName_ab h).weak (fun _ _ _ h => h.1) fun _ _ _ => trivial
macro_rules | `(tactic| ab_call) => `(tactic| with_reducible exact Ab.tail (by reach) (parseClassName_i (by okay)))
macro_rules | `(tactic| ab_call) => `(tactic| with_reducible exact Ab.tail (by reach) (Ab.any (parseClassName_i (by okay))))

theorem reserved_silent {k : Kw} (h : k.isReservedNonModifier = true) (h' : k.repr? = none) : k = .Yield := by
  revert h h'; cases k <;> decide

/-- `yield` is not where a name is read. -/
abbrev NoYield (toks : List TokSpan) (pos : Nat) : Prop := (kinds toks)[pos]? = some (.k .Yield) → NameSpot (kinds toks) pos

theorem parseIdentifier_ab (h : Okay toks pos) (hy : NoYield toks pos) :
    Aq toks pos parseIdentifier (fun x p => p = pos + 1 ∧ (kinds toks)[pos]? ≠ some (.k .CurlyBracesClose) ∧ StartsAt toks pos x.2.start)
      (fun p => p = pos) := by
  unfold parseIdentifier
  refine Ab.peek ?_
  intro o ho
  cases o with
  | none => exact Ab.err (Reach.refl h) rfl
  | some t =>
    obtain ⟨tok, sp⟩ := t
    cases tok with
    | string s =>
      have e : dep toks (pos + 1) = dep toks pos := dep_other ho nofun nofun
      refine Ab.getPos (Ab.setPos (Ab.pure ((Reach.refl h).step ho (by rw [e]; exact Int.le_refl _)) ⟨rfl, ?_, _, ho, .inl ⟨nofun, rfl⟩⟩))
      rw [at_kind ho rfl]; nofun
    | k k =>
      refine Ab.ite ?_ fun _ => Ab.err (Reach.refl h) rfl
      intro hk
      have e : dep toks pos ≤ dep toks (pos + 1) := dep_up ho (by intro h; cases h; cases hk)
      refine Ab.getPos (Ab.setPos ?_)
      cases hs : k.repr? with
      | some s =>
        refine Ab.pure ((Reach.refl h).step ho e) ⟨rfl, ?_, _, ho, .inl ⟨?_, rfl⟩⟩
        · rw [at_kind ho rfl]; intro h; cases h; cases hk
        · intro h; cases h; cases hk
      | none =>
        have := reserved_silent hk hs
        subst this
        exact Ab.cause (.yield pos (at_kind ho rfl) (hy (at_kind ho rfl)))
    | _ => exact Ab.err (Reach.refl h) rfl

theorem parseIdentifierAsExpr_ab (h : Okay toks pos) (hy : NoYield toks pos) : Aq toks pos parseIdentifierAsExpr (Inst toks) any0 := by
  unfold parseIdentifierAsExpr
  refine Ab.bind (parseIdentifier_ab h hy) (Reach.refl h) ?_ fun _ _ _ _ => trivial
  rintro ⟨s, sp⟩ p hr _ _ _
  exact Ab.pure hr nofun

theorem NameSpot.scope {i : Nat} {t : TokSpan} (h : toks[i]? = some t) (hk : t.tok = .k .ScopeOp) : NameSpot (kinds toks) (i + 1) :=
  .inl ⟨i, rfl, .inl (at_kind h hk)⟩

theorem resolveConst_inst {e : Expr} {p : Nat} (h : Inst toks e p) : Inst toks (resolveConst e) p := by
  unfold resolveConst
  split
  · split
    · split
      · nofun
      · exact h
    · exact h
  · exact h

theorem parseConstant_ab (h : Okay toks pos) : Aq toks pos parseConstant (Inst toks) any0 := by
  unfold parseConstant
  refine Ab.bindE (parseClassName_i h) (Reach.refl h) ?_
  intro e p hr _ _ he
  refine Ab.eatOther hr ⟨nofun, nofun⟩ ?_ fun _ => Ab.pure hr (resolveConst_inst he)
  intro t ht hk hr' _
  refine Ab.bindE (parseIdentifierAsExpr_ab hr'.fits fun _ => NameSpot.scope ht hk) hr' ?_
  intro e' p' hr2 _ _ _
  exact Ab.pure hr2 nofun
macro_rules | `(tactic| ab_call) => `(tactic| with_reducible exact Ab.tail (by reach) (parseConstant_ab (by okay)))
macro_rules | `(tactic| ab_call) => `(tactic| with_reducible exact Ab.tail (by reach) (Ab.any (parseConstant_ab (by okay))))

/-! ## Variables -/

theorem parseOptExpression_ab {prec : Prec} (hq : RecA toks r) (h : Okay toks pos) :
    Aq toks pos (parseOptExpression r prec) (fun _ _ => True) any0 := by
  unfold parseOptExpression
  ab
macro_rules | `(tactic| ab_call) => `(tactic| with_reducible exact Ab.tail (by reach) (parseOptExpression_ab (by assumption) (by okay)))

theorem parseExpressionList_ab (hq : RecA toks r) (h : Okay toks pos) :
    Aq toks pos (parseExpressionList r) (fun _ _ => True) any0 := by
  unfold parseExpressionList
  ab
macro_rules | `(tactic| ab_call) => `(tactic| with_reducible exact Ab.tail (by reach) (parseExpressionList_ab (by assumption) (by okay)))


theorem parsePropertyName_ab (hq : RecA toks r) (h : Okay toks pos) : Aq toks pos (parsePropertyName r) (Inst toks) any0 := by
  unfold parsePropertyName
  refine Ab.getPos (Ab.attempt (parseSimpleVariableExpr_ab h) (Reach.refl h) ?_ ?_)
  · intro e p hr _ _ hv
    exact Ab.pure hr hv.1
  · intro _ _ _ _ _ _
    refine Ab.setPos ?_
    ab
macro_rules | `(tactic| ab_call) => `(tactic| with_reducible exact Ab.tail (by reach) (parsePropertyName_ab (by assumption) (by okay)))
macro_rules | `(tactic| ab_call) => `(tactic| with_reducible exact Ab.tail (by reach) (Ab.any (parsePropertyName_ab (by assumption) (by okay))))

/-- The parser has stopped in a list of arguments. -/
def Stuck (toks : List TokSpan) (pos p : Nat) : Prop := ∃ i, pos ≤ i ∧ i < p ∧ OpenTo (kinds toks) i p

/-- A list of arguments that is not closed. -/
theorem parseArgumentList_ab (hq : RecA toks r) (h : Okay toks pos) :
    Aq toks pos (parseArgumentList r) (fun _ p => pos < p)
      (fun p => (p = pos ∧ ∀ u, toks[pos]? = some u → u.tok ≠ .k .ParenthesesOpen) ∨ Stuck toks pos p) := by
  have key : ∀ p, Reach toks (dep toks pos + 1) (pos + 1) p → (∃ t, toks[pos]? = some t ∧ t.tok = .k .ParenthesesOpen) →
      (p = pos ∧ ∀ u, toks[pos]? = some u → u.tok ≠ .k .ParenthesesOpen) ∨ Stuck toks pos p := by
    rintro p hp ⟨t, ht, hk⟩
    refine .inr ⟨pos, Nat.le_refl _, hp.le, at_kind ht hk, fun c h1 h2 => ?_⟩
    have := hp.deep c h1 h2
    show dep toks pos < dep toks c
    omega
  unfold parseArgumentList
  refine Ab.expectOpenN (Reach.refl h) (fun h => .inl ⟨rfl, h⟩) ?_
  intro t ht hk hr e
  refine Ab.eatsClose hr (by omega) (fun _ _ _ hr' _ => Ab.pure hr' (by omega)) ?_
  intro _
  have hr1 : Reach toks (dep toks pos + 1) (pos + 1) (pos + 1) := e ▸ hr.here
  refine Ab.bind (V := fun _ p => Reach toks (dep toks (pos + 1)) (pos + 1) p) (E0 := fun p => Reach toks (dep toks (pos + 1)) (pos + 1) p) ?_ hr ?_ ?_
  · refine (Ab.loopT hr.here ?_).weak (fun _ p hp _ => hp) fun p hp _ => hp
    ab
  · intro args p hr2 hp2 hd2 h2
    exact Ab.expectClose hr2 (by omega) (key p (e ▸ h2) ⟨t, ht, hk⟩) fun _ _ _ hr3 _ => Ab.pure hr3 (by omega)
  · intro p hr2 _ h2
    exact key p (e ▸ h2) ⟨t, ht, hk⟩



/-- A node that begins at `x` begins with a token behind `pos`. -/
def Beg (toks : List TokSpan) (pos x : Nat) : Prop := ∃ i, pos ≤ i ∧ Stt toks i x

def Sta (toks : List TokSpan) (pos : Nat) (e : Expr) (p : Nat) : Prop := Inst toks e p ∧ Beg toks pos e.span.start

theorem Stt.beg {i x : Nat} (h : Stt toks i x) : Beg toks i x := ⟨i, Nat.le_refl _, h⟩
theorem Beg.mono {x p : Nat} (h : Beg toks p x) (hp : pos ≤ p) : Beg toks pos x := let ⟨i, hi, h'⟩ := h; ⟨i, by omega, h'⟩

theorem Stt.tok {t : TokSpan} {i : Nat} (ht : toks[i]? = some t) (hk : t.tok ≠ .k .NsSeparator) (hb : Solid t.tok) :
    Stt toks i t.span.start := ⟨t, ht, .inl ⟨hk, hb, rfl⟩⟩

theorem Stt.kw {t : TokSpan} {i : Nat} {k : Kw} (ht : toks[i]? = some t) (hk : t.tok = .k k) (hn : k ≠ .NsSeparator) (he : k ≠ .Echo) :
    Stt toks i t.span.start := .tok ht (by rw [hk]; intro h; cases h; exact hn rfl) ⟨by rw [hk]; rfl, by rw [hk]; intro h; cases h; exact he rfl⟩

theorem parseArrayPairList_ab (hq : RecA toks r) (h : Okay toks pos) : Aq toks pos (parseArrayPairList r) (fun _ _ => True) any0 := by
  unfold parseArrayPairList
  ab
macro_rules | `(tactic| ab_call) => `(tactic| with_reducible exact Ab.tail (by reach) (parseArrayPairList_ab (by assumption) (by okay)))

theorem parseDereferencableScalar_ab (hq : RecA toks r) (h : Okay toks pos) :
    Aq toks pos (parseDereferencableScalar r) (Sta toks pos) any0 := by
  unfold parseDereferencableScalar
  refine Ab.eatOther (Reach.refl h) ⟨nofun, nofun⟩ ?_ fun _ => ?_
  · intro t ht hk hr _
    have hs := (Stt.kw ht hk nofun nofun).beg
    ab
  · refine Ab.eatOther (Reach.refl h) ⟨nofun, nofun⟩ ?_ fun _ => ?_
    · intro t ht hk hr _
      have hs := (Stt.kw ht hk nofun nofun).beg
      ab
    · refine Ab.eatEncaps (Reach.refl h) ?_ fun _ => Ab.err (Reach.refl h) trivial
      intro s sp ht hr _
      exact Ab.pure hr ⟨nofun, (Stt.tok ht nofun ⟨rfl, nofun⟩).beg⟩

theorem parseBaseVariable_ab {simpleOnly : Bool} (hq : RecA toks r) (h : Okay toks pos) :
    Aq toks pos (parseBaseVariable r simpleOnly) (Sta toks pos) any0 := by
  unfold parseBaseVariable
  cases simpleOnly with
  | true =>
    refine Ab.pureBind (Ab.attempt (parseSimpleVariableExpr_ab h) (Reach.refl h) ?_ ?_)
    · intro e p hr _ _ hv
      exact Ab.pure hr ⟨hv.1, hv.2.beg⟩
    · intro e p hr _ _ _
      dsimp only
      exact Ab.ite (fun _ => Ab.unpack hr trivial) fun h => absurd rfl h
  | false =>
    refine Ab.eatOpen (Reach.refl h) ?_ fun _ => ?_
    · intro t ht hk hr _
      have hs := (Stt.kw ht hk nofun nofun).beg
      ab
    · refine Ab.attempt (parseSimpleVariableExpr_ab h) (Reach.refl h) ?_ ?_
      · intro e p hr _ _ hv
        exact Ab.pure hr ⟨hv.1, hv.2.beg⟩
      · rintro e p hr _ _ rfl
        refine Ab.attempt (parseDereferencableScalar_ab hq h) hr ?_ ?_
        · intro e p hr _ _ hv
          exact Ab.pure hr hv
        · intro e p hr _ _ _
          exact Ab.unpack hr trivial

theorem constScopedTail_ab {simpleOnly : Bool} {cls : Expr} (h : Okay toks pos) (hy : NoYield toks pos) :
    Aq toks pos (constScopedTail simpleOnly cls) (fun o _ => ∀ x, o = some x → x.2.2.start = cls.span.start) any0 := by
  unfold constScopedTail
  refine Ab.attempt (parseSimpleVariableExpr_ab h) (Reach.refl h) ?_ ?_
  · intro e p hr _ _ hv
    exact Ab.pure hr fun x hx => by cases hx; rfl
  · rintro e p hr _ _ rfl
    refine Ab.ite (fun _ => Ab.pure hr nofun) fun _ => ?_
    refine Ab.bindE (parseIdentifierAsExpr_ab h hy) hr ?_
    intro e p hr _ _ _
    exact Ab.nextIs (fun _ _ _ => Ab.pure hr fun x hx => by cases hx; rfl) fun _ => Ab.pure hr nofun

theorem parseConstScoped_ab {simpleOnly : Bool} (h : Okay toks pos) :
    Aq toks pos (parseConstScoped simpleOnly) (fun x _ => Beg toks pos x.2.2.start) any0 := by
  unfold parseConstScoped
  refine Ab.getPos ?_
  refine Ab.bind (V := fun o _ => ∀ x, o = some x → Stt toks pos x.2.2.start) (E0 := any0) ?_ (Reach.refl h) ?_ fun _ _ _ _ => trivial
  · refine Ab.attempt (parseClassName_ab h) (Reach.refl h) ?_ fun _ _ hr _ _ _ => Ab.pure hr nofun
    rintro cls p hr _ _ ⟨_, hs⟩
    refine Ab.eatsOther hr ⟨nofun, nofun⟩ ?_ fun _ => Ab.pure hr nofun
    intro t ht hk hr' _
    refine (Ab.tail hr' (constScopedTail_ab hr'.fits fun _ => NameSpot.scope ht hk)).weak ?_ fun _ _ _ => trivial
    intro o _ _ ho x hx
    rw [ho x hx]; exact hs
  · intro o p hr _ _ ho
    cases o with
    | some x => exact Ab.pure hr (ho x rfl).beg
    | none => exact Ab.setPos (Ab.err (Reach.refl h) trivial)

theorem parseFnCallBaseItem_ab {simpleOnly : Bool} (h : Okay toks pos) :
    Aq toks pos (parseFnCallBaseItem simpleOnly) (Sta toks pos) any0 := by
  unfold parseFnCallBaseItem
  refine Ab.ite (fun _ => Ab.err (Reach.refl h) trivial) fun _ => Ab.getPos ?_
  refine Ab.bind (V := fun o p => ∀ x, o = some x → Inst toks x p ∧ Stt toks pos x.span.start) (E0 := any0) ?_ (Reach.refl h) ?_
    fun _ _ _ _ => trivial
  · refine Ab.attempt (parseNameAsExpr_ab h) (Reach.refl h) ?_ fun _ _ hr _ _ _ => Ab.pure hr nofun
    intro e p hr _ _ he
    exact Ab.nextIs (fun _ _ _ => Ab.pure hr fun x hx => by cases hx; exact he) fun _ => Ab.pure hr nofun
  · intro o p hr _ _ ho
    cases o with
    | some x => exact Ab.pure hr ⟨(ho x rfl).1, (ho x rfl).2.beg⟩
    | none => exact Ab.setPos (Ab.err (Reach.refl h) trivial)

theorem parseVariableBase_ab {simpleOnly : Bool} (hq : RecA toks r) (h : Okay toks pos) :
    Aq toks pos (parseVariableBase r simpleOnly) (Sta toks pos) (fun p => p = pos) := by
  unfold parseVariableBase
  refine Ab.getPos ?_
  refine Ab.attempt (parseConstScoped_ab h) (Reach.refl h) ?_ ?_
  · rintro ⟨_, _, _⟩ p hr _ _ hs
    exact Ab.pure hr ⟨nofun, hs⟩
  · intro _ p hr hp _ _
    refine Ab.attempt (parseFnCallBaseItem_ab hr.fits) hr ?_ ?_
    · intro e q hr _ _ hs
      exact Ab.pure hr ⟨hs.1, hs.2.mono hp⟩
    · intro _ q hr hq' _ _
      refine Ab.attempt (parseBaseVariable_ab hq hr.fits) hr ?_ ?_
      · intro e q hr _ _ hs
        exact Ab.pure hr ⟨hs.1, hs.2.mono (by omega)⟩
      · intro _ _ _ _ _ _
        exact Ab.setPos (Ab.fail (Reach.refl h) rfl)

/-- What an appendix adds. -/
def Upd (e : Expr) (o : Option Expr) : Prop := ∀ e', o = some e' → e'.isInstanceOf = false ∧ e'.span.start = e.span.start

theorem addArrayIdx_upd {e : Expr} {i : Option Expr} {n : Nat} : Upd e (some (addArrayIdx e i n)) := by
  rintro _ ⟨⟩
  unfold addArrayIdx
  split <;> exact ⟨rfl, rfl⟩

theorem addObjMember_upd {e : Expr} {i : Expr} {n : Nat} : Upd e (some (addObjMember e i n)) := by
  rintro _ ⟨⟩
  unfold addObjMember
  split <;> exact ⟨rfl, rfl⟩

theorem addStaticMember_upd {e : Expr} {i : Expr} {n : Nat} : Upd e (some (addStaticMember e i n)) := by
  rintro _ ⟨⟩
  unfold addStaticMember
  split <;> exact ⟨rfl, rfl⟩

theorem appendixIndex_ab {e : Expr} {E : Nat → Prop} (hq : RecA toks r) (h : Okay toks pos) :
    Aq toks pos (appendixIndex r e) (fun o _ => Upd e o) E := by
  unfold appendixIndex
  refine Ab.eatsOther (Reach.refl h) ⟨nofun, nofun⟩ ?_ fun _ => Ab.pure (Reach.refl h) nofun
  intro t ht hk hr _
  refine Ab.bind (E0 := fun _ => False) (V := fun _ _ => True) ?_ hr ?_ (fun _ _ _ h => h.elim)
  · unfold parseOptExpression
    exact Ab.attempt (hq.1 _ _ hr.fits) hr.here (fun _ _ hr _ _ _ => Ab.pure hr trivial) fun _ _ hr _ _ _ => Ab.pure hr trivial
  · intro o p hr _ _ _
    refine Ab.eatsOther hr ⟨nofun, nofun⟩ ?_ fun _ => Ab.pure hr nofun
    intro _ _ _ hr _
    exact Ab.lastEnd hr (by omega) fun _ => Ab.pure hr addArrayIdx_upd

theorem appendixMember_ab {e : Expr} {E : Nat → Prop} (hq : RecA toks r) (h : Okay toks pos) :
    Aq toks pos (appendixMember r e) (fun o _ => Upd e o) E := by
  unfold appendixMember
  refine Ab.eatsOther (Reach.refl h) ⟨nofun, nofun⟩ ?_ fun _ => Ab.pure (Reach.refl h) nofun
  intro t ht hk hr _
  refine Ab.attempt (parsePropertyName_ab hq hr.fits) hr ?_ fun _ _ hr _ _ _ => Ab.pure hr nofun
  intro o p hr _ _ _
  exact Ab.lastEnd hr (by omega) fun _ => Ab.pure hr addObjMember_upd

theorem appendixStatic_ab {e : Expr} {E : Nat → Prop} (h : Okay toks pos) :
    Aq toks pos (appendixStatic e) (fun o _ => Upd e o) E := by
  unfold appendixStatic
  refine Ab.eatsOther (Reach.refl h) ⟨nofun, nofun⟩ ?_ fun _ => Ab.pure (Reach.refl h) nofun
  intro t ht hk hr _
  refine Ab.attempt (parseSimpleVariableExpr_ab hr.fits) hr ?_ fun _ _ hr _ _ _ => Ab.pure hr nofun
  intro o p hr _ _ _
  exact Ab.lastEnd hr (by omega) fun _ => Ab.pure hr addStaticMember_upd

theorem appendixCall_ab {e : Expr} {simpleOnly : Bool} (hq : RecA toks r) (h : Okay toks pos) :
    Aq toks pos (appendixCall r simpleOnly e) (fun o _ => Upd e o) (Stuck toks pos) := by
  unfold appendixCall
  refine Ab.ite (fun _ => Ab.pure (Reach.refl h) nofun) fun _ => ?_
  refine Ab.nextIs ?_ fun _ => Ab.pure (Reach.refl h) nofun
  intro t ht hk
  refine Ab.bind (parseArgumentList_ab hq h) (Reach.refl h) ?_ ?_
  · intro _ p hr hp _ hv
    exact Ab.lastEnd hr (by omega) fun _ => Ab.pure hr fun _ hx => by cases hx; exact ⟨rfl, rfl⟩
  · rintro p _ hp (⟨_, hn⟩ | hi)
    · exact absurd hk (hn t ht)
    · exact hi

theorem appendixStep_ab {S : Nat → Prop} {e : Expr} {simpleOnly : Bool} {p0 : Nat} (hq : RecA toks r) (h : Okay toks pos)
    (he : Inst toks e pos ∧ S e.span.start) (h0 : p0 ≤ pos) :
    Aq toks pos (appendixStep r simpleOnly e)
      (fun y p => (∀ x, y = .inl x → Inst toks x p ∧ S x.span.start) ∧ ∀ x, y = .inr x → Inst toks x p ∧ S x.span.start) (Stuck toks p0) := by
  have key : ∀ {p : Nat} {e' : Expr}, Upd e (some e') → Inst toks e' p ∧ S e'.span.start := fun hu =>
    ⟨fun h => absurd h (by rw [(hu _ rfl).1]; exact nofun), by rw [(hu _ rfl).2]; exact he.2⟩
  unfold appendixStep
  refine Ab.bind (E0 := fun _ => False) (appendixIndex_ab hq h) (Reach.refl h) ?_ fun _ _ _ h => h.elim
  intro o p hr hp _ hu
  cases o with
  | some e' => exact Ab.pure hr ⟨fun x hx => by cases hx; exact key hu, nofun⟩
  | none =>
    refine Ab.bind (E0 := fun _ => False) (appendixMember_ab hq hr.fits) hr ?_ fun _ _ _ h => h.elim
    intro o p hr hp _ hu
    cases o with
    | some e' => exact Ab.pure hr ⟨fun x hx => by cases hx; exact key hu, nofun⟩
    | none =>
      refine Ab.bind (E0 := fun _ => False) (appendixStatic_ab hr.fits) hr ?_ fun _ _ _ h => h.elim
      intro o p hr hp _ hu
      cases o with
      | some e' => exact Ab.pure hr ⟨fun x hx => by cases hx; exact key hu, nofun⟩
      | none =>
        refine Ab.bind (appendixCall_ab hq hr.fits) hr ?_ ?_
        · intro o p hr hp _ hu
          cases o with
          | some e' => exact Ab.pure hr ⟨fun x hx => by cases hx; exact key hu, nofun⟩
          | none => exact Ab.pure hr ⟨nofun, fun x hx => by cases hx; exact ⟨he.1.mono (by omega), he.2⟩⟩
        · rintro p _ _ ⟨i, h1, h2⟩
          exact ⟨i, by omega, h2⟩

theorem parseVariable_ab {simpleOnly : Bool} (hq : RecA toks r) (h : Okay toks pos) :
    Aq toks pos (parseVariable r simpleOnly none) (Sta toks pos) (fun p => p = pos ∨ Stuck toks pos p) := by
  unfold parseVariable
  refine Ab.bind (parseVariableBase_ab hq h) (Reach.refl h) ?_ fun _ _ _ h => .inl h
  intro e p hr hp _ he
  refine Ab.loop (fun e p => Sta toks pos e p) hr he ?_
  intro e p hr he
  exact (Ab.tail hr (appendixStep_ab (S := Beg toks pos) hq hr.fits he hr.le)).weak (fun _ _ _ h => h) fun _ _ h => .inr h

theorem parseVariable_i {simpleOnly : Bool} (hq : RecA toks r) (h : Okay toks pos) :
    Aq toks pos (parseVariable r simpleOnly none) (Inst toks) any0 :=
  (parseVariable_ab hq h).weak (fun _ _ _ h => h.1) fun _ _ _ => trivial
macro_rules | `(tactic| ab_call) => `(tactic| with_reducible exact Ab.tail (by reach) (parseVariable_i (by assumption) (by okay)))
macro_rules | `(tactic| ab_call) => `(tactic| with_reducible exact Ab.tail (by reach) (Ab.any (parseVariable_i (by assumption) (by okay))))

theorem parseVariable_more {simpleOnly : Bool} {e : Expr} {p0 : Nat} (hq : RecA toks r) (h : Okay toks pos) (he : Inst toks e pos) (h0 : p0 ≤ pos) :
    Aq toks pos (parseVariable r simpleOnly (some e)) (Inst toks) any0 := by
  unfold parseVariable
  refine Ab.pureBind ?_
  refine Ab.loop (fun e p => Inst toks e p ∧ True) (Reach.refl h) ⟨he, trivial⟩ ?_
  intro e p hr he
  exact (Ab.tail hr (appendixStep_ab (S := fun _ => True) hq hr.fits he (Nat.le_trans h0 hr.le))).weak
    (fun _ _ _ h => ⟨h.1, fun a ha => (h.2 a ha).1⟩) fun _ _ h => trivial

theorem parseArgumentList_any (hq : RecA toks r) (h : Okay toks pos) : At0 toks pos (parseArgumentList r) := (parseArgumentList_ab hq h).any
macro_rules | `(tactic| ab_call) => `(tactic| with_reducible exact Ab.tail (by reach) (parseArgumentList_any (by assumption) (by okay)))

theorem parseClassNameReference_ab (hq : RecA toks r) (h : Okay toks pos) : Aq toks pos (parseClassNameReference r) (Inst toks) any0 := by
  unfold parseClassNameReference
  ab
macro_rules | `(tactic| ab_call) => `(tactic| with_reducible exact Ab.tail (by reach) (parseClassNameReference_ab (by assumption) (by okay)))
macro_rules | `(tactic| ab_call) => `(tactic| with_reducible exact Ab.tail (by reach) (Ab.any (parseClassNameReference_ab (by assumption) (by okay))))

end Pico
