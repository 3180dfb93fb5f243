import Verif.Lemmas.GramClaims
/-!
# Variables, names, arguments, array elements
-/
namespace Pico
open P

variable {toks : List TokSpan}

macro "norml" : tactic => `(tactic| simp only [List.append_assoc, List.cons_append, List.nil_append])

theorem loops_snoc {α : Type} {step : List α → P (List α ⊕ List α)} {l r : List Token} {es : List α}
    (h : ∀ acc, Loops toks step acc l (acc ++ es) r) (acc : List α) (x : α) :
    Loops toks step (acc ++ [x]) l (acc ++ x :: es) r := by
  have := h (acc ++ [x])
  rw [List.append_assoc] at this
  exact this

/-! ## Erasure of what the parser builds -/

theorem erase_addArrayIdx {b' b : Expr} {i' i : Option Expr} {stop : Nat} (hb : b'.erase = b)
    (hi : eraseOpt i' = i) : (addArrayIdx b' i' stop).erase = withIndex b i := by
  subst hb hi
  obtain ⟨k, sp⟩ := b'
  cases k <;> simp [addArrayIdx, withIndex, Expr.erase, ExprK.erase, eraseOpts, eraseOpts_append, bare]

theorem erase_addObjMember {b' b m' m : Expr} {stop : Nat} (hb : b'.erase = b)
    (hm : m'.erase = m) : (addObjMember b' m' stop).erase = withMember b m := by
  subst hb hm
  obtain ⟨k, sp⟩ := b'
  cases k <;> simp [addObjMember, withMember, Expr.erase, ExprK.erase, eraseExprs, eraseExprs_append, bare]

theorem erase_addStaticMember {b' b m' m : Expr} {stop : Nat} (hb : b'.erase = b)
    (hm : m'.erase = m) : (addStaticMember b' m' stop).erase = withStatic b m := by
  subst hb hm
  obtain ⟨k, sp⟩ := b'
  cases k <;> simp [addStaticMember, withStatic, Expr.erase, ExprK.erase, eraseExprs, eraseExprs_append, bare]

theorem start_addArrayIdx (b : Expr) (i : Option Expr) (stop : Nat) :
    (addArrayIdx b i stop).span.start = b.span.start := by
  obtain ⟨k, sp⟩ := b
  cases k <;> rfl

theorem start_addObjMember (b m : Expr) (stop : Nat) :
    (addObjMember b m stop).span.start = b.span.start := by
  obtain ⟨k, sp⟩ := b
  cases k <;> rfl

theorem start_addStaticMember (b m : Expr) (stop : Nat) :
    (addStaticMember b m stop).span.start = b.span.start := by
  obtain ⟨k, sp⟩ := b
  cases k <;> rfl

/-! ## What is appended to a variable -/

theorem apps_nil (simple : Bool) (b : Expr) : AppsOK toks simple b [] b := by
  intro r hr b' hb
  refine ⟨b', hb, rfl, Loops.done ?_⟩
  obtain ⟨h1, h2, h3, h4⟩ := hr
  unfold appendixStep
  refine Step.bind (a := none) (l' := r) ?_ ?_
  · unfold appendixIndex
    stepc (eats_miss h1)
    exact Step.pure
  refine Step.bind (a := none) (l' := r) ?_ ?_
  · unfold appendixMember
    stepc (eats_miss h2)
    exact Step.pure
  refine Step.bind (a := none) (l' := r) ?_ ?_
  · unfold appendixStatic
    stepc (eats_miss h3)
    exact Step.pure
  refine Step.bind (a := none) (l' := r) ?_ ?_
  · unfold appendixCall
    cases simple with
    | true => exact Step.pure
    | false =>
      try dsimp only [Bool.false_eq_true, ↓reduceIte]
      stepc (nextIs_miss (h4 rfl))
      exact Step.pure
  exact Step.pure

theorem apps_index {simple : Bool} {b e : Expr} {ts us : List Token} {i : Option Expr} (h : OptOK toks ts i)
    (h' : AppsOK toks simple (withIndex b i) us e) :
    AppsOK toks simple b (.k .SquareBracketOpen :: (ts ++ .k .SquareBracketClose :: us)) e := by
  intro r hr b' hb
  obtain ⟨i', hi, hstep⟩ := h (.k .SquareBracketClose :: (us ++ r)) rfl
  obtain ⟨e', he, hs, hl⟩ := h' r hr (addArrayIdx b' i' (spanBefore toks (us ++ r)).stop)
    (erase_addArrayIdx hb hi)
  refine ⟨e', he, hs.trans (start_addArrayIdx _ _ _), ?_⟩
  norml
  refine Loops.more (l' := us ++ r) ?_ (by simp; omega) hl
  refine Step.with fun ht => ?_
  unfold appendixStep
  refine Step.bind (a := some (addArrayIdx b' i' (spanBefore toks (us ++ r)).stop)) (l' := us ++ r) ?_ Step.pure
  unfold appendixIndex
  stepc eats_hit
  stepc hstep
  stepc eats_hit
  stepc (lastEnd_step ht (by simp; omega))
  exact Step.pure

theorem apps_member {simple : Bool} {b e m : Expr} {ts us : List Token} (h : PropOK toks ts m)
    (h' : AppsOK toks simple (withMember b m) us e) :
    AppsOK toks simple b (.k .ObjectOp :: (ts ++ us)) e := by
  intro r hr b' hb
  obtain ⟨m', hm, hstep⟩ := h (us ++ r)
  obtain ⟨e', he, hs, hl⟩ := h' r hr (addObjMember b' m' (spanBefore toks (us ++ r)).stop)
    (erase_addObjMember hb hm)
  refine ⟨e', he, hs.trans (start_addObjMember _ _ _), ?_⟩
  norml
  refine Loops.more (l' := us ++ r) ?_ (by simp; omega) hl
  refine Step.with fun ht => ?_
  unfold appendixStep
  refine Step.bind (a := none) (l' := .k .ObjectOp :: (ts ++ (us ++ r))) ?_ ?_
  · unfold appendixIndex
    stepc (eats_miss (by nokw))
    exact Step.pure
  refine Step.bind (a := some (addObjMember b' m' (spanBefore toks (us ++ r)).stop)) (l' := us ++ r) ?_ Step.pure
  unfold appendixMember
  stepc eats_hit
  stepc hstep.attempt
  stepc (lastEnd_step ht (by simp; omega))
  exact Step.pure

theorem apps_static {simple : Bool} {b e : Expr} (n : Text) {us : List Token}
    (h : AppsOK toks simple (withStatic b (bare (.var (.name n)))) us e) :
    AppsOK toks simple b (.k .ScopeOp :: .variable n :: us) e := by
  intro r hr b' hb
  obtain ⟨e', he, hs, hl⟩ := h r hr (addStaticMember b' (.mk (.var (.name n)) (spanBefore toks (us ++ r)))
    (spanBefore toks (us ++ r)).stop) (erase_addStaticMember hb rfl)
  refine ⟨e', he, hs.trans (start_addStaticMember _ _ _), ?_⟩
  norml
  refine Loops.more (l' := us ++ r) ?_ (by simp; omega) hl
  refine Step.with fun ht => ?_
  unfold appendixStep
  refine Step.bind (a := none) (l' := .k .ScopeOp :: .variable n :: (us ++ r)) ?_ ?_
  · unfold appendixIndex
    stepc (eats_miss (by nokw))
    exact Step.pure
  refine Step.bind (a := none) (l' := .k .ScopeOp :: .variable n :: (us ++ r)) ?_ ?_
  · unfold appendixMember
    stepc (eats_miss (by nokw))
    exact Step.pure
  refine Step.bind (a := some (addStaticMember b' (.mk (.var (.name n)) (spanBefore toks (us ++ r)))
    (spanBefore toks (us ++ r)).stop)) (l' := us ++ r) ?_ Step.pure
  unfold appendixStatic
  stepc eats_hit
  stepc (parseSimpleVariableExpr_step n _).attempt
  stepc (lastEnd_step ht (by simp; omega))
  exact Step.pure

theorem apps_call {b e : Expr} {as us : List Token} {es : List Expr} (h : ArgsOK toks as es)
    (h' : AppsOK toks false (bare (.call b es)) us e) : AppsOK toks false b (as ++ us) e := by
  intro r hr b' hb
  obtain ⟨⟨xs, rfl⟩, h⟩ := h
  obtain ⟨es', hes, hstep⟩ := h (us ++ r)
  obtain ⟨e', he, hs, hl⟩ := h' r hr (.mk (.call b' es') (mkSpan b'.span.start (spanBefore toks (us ++ r)).stop))
    (by simp [Expr.erase, ExprK.erase, hb, hes])
  refine ⟨e', he, hs.trans rfl, ?_⟩
  norml
  simp only [List.append_assoc, List.cons_append, List.nil_append] at hstep
  refine Loops.more (l' := us ++ r) ?_ (by simp; omega) hl
  refine Step.with fun ht => ?_
  unfold appendixStep
  refine Step.bind (a := none) (l' := .k .ParenthesesOpen :: (xs ++ (us ++ r))) ?_ ?_
  · unfold appendixIndex
    stepc (eats_miss (by nokw))
    exact Step.pure
  refine Step.bind (a := none) (l' := .k .ParenthesesOpen :: (xs ++ (us ++ r))) ?_ ?_
  · unfold appendixMember
    stepc (eats_miss (by nokw))
    exact Step.pure
  refine Step.bind (a := none) (l' := .k .ParenthesesOpen :: (xs ++ (us ++ r))) ?_ ?_
  · unfold appendixStatic
    stepc (eats_miss (by nokw))
    exact Step.pure
  refine Step.bind (a := some (.mk (.call b' es') (mkSpan b'.span.start (spanBefore toks (us ++ r)).stop)))
    (l' := us ++ r) ?_ Step.pure
  unfold appendixCall
  try dsimp only [Bool.false_eq_true, ↓reduceIte]
  stepc nextIs_hit
  stepc hstep
  stepc (lastEnd_step ht (by simp; omega))
  exact Step.pure

/-! ## Variables -/

/-- A variable from its base and what is appended. -/
theorem variable_step {so : Bool} {l l' r : List Token} {b' e' : Expr}
    (hb : Step toks (parseVariableBase theRec so) l b' l')
    (h : Loops toks (appendixStep theRec so) b' l' e' r) :
    Step toks (parseVariable theRec so none) l e' r := by
  unfold parseVariable
  stepc hb
  exact h.loop

theorem base_scoped {so : Bool} {l l' : List Token} {c p : Expr} {sp : Span}
    (h : Step toks (parseConstScoped so) l (c, p, sp) l') :
    Step toks (parseVariableBase theRec so) l (.mk (.staticMember c [p]) sp) l' := by
  unfold parseVariableBase
  stepc getPos_step
  stepc h.attempt
  exact Step.pure

theorem base_fnCall {so : Bool} {l l' : List Token} {e : Expr}
    (h0 : Fails toks (parseConstScoped so) l l)
    (h : Step toks (parseFnCallBaseItem so) l e l') :
    Step toks (parseVariableBase theRec so) l e l' := by
  unfold parseVariableBase
  stepc getPos_step
  stepc h0.attempt
  stepc h.attempt
  exact Step.pure

theorem base_base {so : Bool} {l l' : List Token} {e : Expr}
    (h0 : NoName l) (h1 : NoKw .Static l)
    (h : Step toks (parseBaseVariable theRec so) l e l') :
    Step toks (parseVariableBase theRec so) l e l' := by
  unfold parseVariableBase
  stepc getPos_step
  stepc (constScoped_none h0 h1).attempt
  stepc (fnCall_none h0).attempt
  stepc h.attempt
  exact Step.pure

theorem baseVariable_name (so : Bool) (n : Text) (r : List Token) :
    Step toks (parseBaseVariable theRec so) (.variable n :: r) (.mk (.var (.name n)) (spanBefore toks r)) r := by
  unfold parseBaseVariable
  refine Step.bind (a := none) (l' := .variable n :: r) ?_ ?_
  · cases so
    · exact eat_miss (by nokw)
    · exact Step.pure
  stepc (parseSimpleVariableExpr_step n r).attempt
  exact Step.pure

theorem baseVariable_deref {t : Token} {l r : List Token} {e : Expr} (hp : t ≠ .k .ParenthesesOpen)
    (hv : NoVar (t :: l)) (h : Step toks (parseDereferencableScalar theRec) (t :: l) e r) :
    Step toks (parseBaseVariable theRec false) (t :: l) e r := by
  unfold parseBaseVariable
  dsimp only [Bool.false_eq_true, ↓reduceIte]
  stepc (eat_miss (by simpa [NoKw] using hp))
  stepc (parseSimpleVariableExpr_fails hv).attempt
  stepc h.attempt
  exact Step.pure

/-- From the base of a variable to the variable. -/
theorem VarOK.of {ts us : List Token} {b e : Expr} (hst : StartsWith otherHead (ts ++ us))
    (h : AppsOK toks false b us e)
    (hb : ∀ r, ∃ b', b'.erase = b ∧ Step toks (parseVariableBase theRec false) (ts ++ (us ++ r)) b' (us ++ r) ∧
      (∀ n vs, ts ++ us = .variable n :: vs → Placed toks → Tail toks (ts ++ (us ++ r)) → 1 ≤ b'.span.start)) :
    VarOK toks (ts ++ us) e := by
  refine ⟨hst, fun r hr => ?_⟩
  obtain ⟨b', hbe, hstep, hsp⟩ := hb r
  obtain ⟨e', he, hs, hl⟩ := h r (EndsApps.of_endsVar hr) b' hbe
  refine ⟨e', he, ?_, ?_⟩
  · norml
    exact variable_step hstep hl
  · intro n vs hv hP ht
    rw [hs]
    exact hsp n vs hv hP (by simpa using ht)

theorem var_name (n : Text) {ts : List Token} {e : Expr} (h : AppsOK toks false (bare (.var (.name n))) ts e) :
    VarOK toks (.variable n :: ts) e := by
  refine VarOK.of (ts := [.variable n]) ⟨_, _, rfl, rfl⟩ h fun r => ?_
  refine ⟨.mk (.var (.name n)) (spanBefore toks (ts ++ r)), rfl, ?_, fun _ _ _ hP ht => hP.spanBefore ht rfl⟩
  exact base_base ⟨by simp [NoKw], by simp⟩ (by simp [NoKw]) (baseVariable_name false n _)

theorem var_paren {s : Nat} {ts us : List Token} {e e' : Expr} (h : ExprOK toks 0 s ts e)
    (h' : AppsOK toks false e us e') :
    VarOK toks (.k .ParenthesesOpen :: (ts ++ .k .ParenthesesClose :: us)) e' := by
  have := VarOK.of (toks := toks) (ts := .k .ParenthesesOpen :: (ts ++ [.k .ParenthesesClose])) (us := us)
    ⟨_, _, rfl, rfl⟩ h' fun r => by
    obtain ⟨e1, he, hstep⟩ := h.run0 (r := .k .ParenthesesClose :: (us ++ r)) rfl
    refine ⟨.mk e1.kind (mkSpan (spanBefore toks (ts ++ .k .ParenthesesClose :: (us ++ r))).start
      (spanBefore toks (us ++ r)).stop), (erase_kind _ _).trans he, ?_, by simp⟩
    norml
    refine base_base ⟨by simp [NoKw], by simp⟩ (by simp [NoKw]) ?_
    unfold parseBaseVariable
    dsimp only [Bool.false_eq_true, ↓reduceIte]
    stepc eat_hit
    stepc hstep
    stepc expect_hit
    exact Step.pure
  simpa using this

theorem items_run {ts : List Token} {its : List (Option Expr × Expr)} (h : ItemsOK toks ts its) {r : List Token}
    (h0 : endsExpr 0 r = true) (h1 : NoKw .Comma r) (h2 : NoKw .DoubleArrow r) :
    ∃ its', eraseItems its' = its ∧ Step toks (parseArrayPairList theRec) (ts ++ r) its' r := by
  obtain ⟨its', he, hl⟩ := h r h0 h1 h2
  exact ⟨its', he, by rw [parseArrayPairList_eq]; exact (hl []).loop⟩

theorem var_array {ts us : List Token} {its : List (Option Expr × Expr)} {e : Expr} (h : ItemsOK toks ts its)
    (h' : AppsOK toks false (bare (.array its)) us e) :
    VarOK toks (.k .Array :: .k .ParenthesesOpen :: (ts ++ .k .ParenthesesClose :: us)) e := by
  have := VarOK.of (toks := toks) (ts := .k .Array :: .k .ParenthesesOpen :: (ts ++ [.k .ParenthesesClose]))
    (us := us) ⟨_, _, rfl, rfl⟩ h' fun r => by
    obtain ⟨its', he, hstep⟩ := items_run h (r := .k .ParenthesesClose :: (us ++ r)) rfl (by nokw) (by nokw)
    refine ⟨.mk (.array its') (mkSpan (spanBefore toks (.k .ParenthesesOpen :: (ts ++ .k .ParenthesesClose ::
      (us ++ r)))).start (spanBefore toks (us ++ r)).stop), by simp [Expr.erase, ExprK.erase, he], ?_, by simp⟩
    norml
    refine base_base ⟨by simp [NoKw], by simp⟩ (by simp [NoKw])
      (baseVariable_deref (by decide) ⟨by simp [NoKw], by simp⟩ ?_)
    unfold parseDereferencableScalar
    stepc eat_hit
    stepc expect_hit
    stepc hstep
    stepc expect_hit
    exact Step.pure
  simpa using this

theorem var_bracket {ts us : List Token} {its : List (Option Expr × Expr)} {e : Expr} (h : ItemsOK toks ts its)
    (h' : AppsOK toks false (bare (.array its)) us e) :
    VarOK toks (.k .SquareBracketOpen :: (ts ++ .k .SquareBracketClose :: us)) e := by
  have := VarOK.of (toks := toks) (ts := .k .SquareBracketOpen :: (ts ++ [.k .SquareBracketClose]))
    (us := us) ⟨_, _, rfl, rfl⟩ h' fun r => by
    obtain ⟨its', he, hstep⟩ := items_run h (r := .k .SquareBracketClose :: (us ++ r)) rfl (by nokw) (by nokw)
    refine ⟨.mk (.array its') (mkSpan (spanBefore toks (ts ++ .k .SquareBracketClose ::
      (us ++ r))).start (spanBefore toks (us ++ r)).stop), by simp [Expr.erase, ExprK.erase, he], ?_, by simp⟩
    norml
    refine base_base ⟨by simp [NoKw], by simp⟩ (by simp [NoKw])
      (baseVariable_deref (by decide) ⟨by simp [NoKw], by simp⟩ ?_)
    unfold parseDereferencableScalar
    stepc (eat_miss (by nokw))
    stepc eat_hit
    stepc hstep
    stepc expect_hit
    exact Step.pure
  simpa using this

theorem var_str (x : Text) {ts : List Token} {e : Expr} (h : AppsOK toks false (bare (.str x)) ts e) :
    VarOK toks (.encaps x :: ts) e := by
  refine VarOK.of (ts := [.encaps x]) ⟨_, _, rfl, rfl⟩ h fun r => ?_
  refine ⟨.mk (.str x) (spanBefore toks (ts ++ r)), rfl, ?_, by simp⟩
  refine base_base ⟨by simp [NoKw], by simp⟩ (by simp [NoKw])
    (baseVariable_deref (by simp) ⟨by simp [NoKw], by simp⟩ ?_)
  unfold parseDereferencableScalar
  stepc (eat_miss (by nokw))
  stepc (eat_miss (by nokw))
  stepc eatEncaps_hit
  exact Step.pure

theorem ClassName.head {cts : List Token} {p : Path} (h : ClassName cts p) :
    ∃ t us, cts = t :: us ∧ otherHead t = true ∧ (t = .k .Static ∨ t = .k .NsSeparator ∨ ∃ x, t = .string x) := by
  cases h with
  | static => exact ⟨_, _, rfl, rfl, .inl rfl⟩
  | qual abs ns id =>
    obtain ⟨t, us, h, ht⟩ := qualToks_cons abs ns id
    refine ⟨t, us, h, ?_, .inr ht⟩
    rcases ht with rfl | ⟨x, rfl⟩ <;> rfl

theorem var_static (hP : Placed toks) {cts : List Token} {p : Path} (n : Text) {ts : List Token} {e : Expr}
    (hc : ClassName cts p)
    (h : AppsOK toks false (bare (.staticMember (bare (.path p)) [bare (.var (.name n))])) ts e) :
    VarOK toks (cts ++ .k .ScopeOp :: .variable n :: ts) e := by
  obtain ⟨t, us, hcs, ho, hd⟩ := hc.head
  have := VarOK.of (toks := toks) (ts := cts ++ [.k .ScopeOp, .variable n]) (us := ts)
    ⟨t, us ++ (.k .ScopeOp :: .variable n :: ts), by simp [hcs], ho⟩ h fun r => by
    obtain ⟨s1, s2, s3, hs⟩ := constScoped_var hP hc false n (ts ++ r)
    refine ⟨.mk (.staticMember (.mk (.path p) s1) [.mk (.var (.name n)) s2]) s3, rfl, ?_, ?_⟩
    · norml
      exact base_scoped hs
    · intro n' vs hv
      rw [hcs] at hv
      rcases hd with rfl | rfl | ⟨x, rfl⟩ <;> simp at hv
  simpa using this

theorem var_scall (hP : Placed toks) {cts : List Token} {p : Path} {t : Token} {m : Text} {as ts : List Token}
    {es : List Expr} {e : Expr} (hc : ClassName cts p) (hm : Ident t m) (ha : ArgsOK toks as es)
    (h : AppsOK toks false
      (bare (.call (bare (.staticMember (bare (.path p)) [bare (.path ⟨false, none, m⟩)])) es)) ts e) :
    VarOK toks (cts ++ .k .ScopeOp :: t :: (as ++ ts)) e := by
  obtain ⟨t', us, hcs, ho, hd⟩ := hc.head
  have h' := apps_call ha h
  obtain ⟨⟨xs, rfl⟩, -⟩ := ha
  have := VarOK.of (toks := toks) (ts := cts ++ [.k .ScopeOp, t]) (us := .k .ParenthesesOpen :: xs ++ ts)
    ⟨t', us ++ (.k .ScopeOp :: t :: (.k .ParenthesesOpen :: xs ++ ts)), by simp [hcs], ho⟩ h' fun r => by
    obtain ⟨s1, s2, s3, hs⟩ := constScoped_call hP hc hm (xs ++ (ts ++ r))
    refine ⟨.mk (.staticMember (.mk (.path p) s1) [.mk (.path ⟨false, none, m⟩) s2]) s3, rfl, ?_, ?_⟩
    · norml
      exact base_scoped hs
    · intro n' vs hv
      rw [hcs] at hv
      rcases hd with rfl | rfl | ⟨x, rfl⟩ <;> simp at hv
  simpa using this

theorem var_call (hP : Placed toks) (abs : Bool) (ns : List Text) (id : Text) {as ts : List Token}
    {es : List Expr} {e : Expr} (ha : ArgsOK toks as es)
    (h : AppsOK toks false (bare (.call (bare (.path (qualPath abs ns id))) es)) ts e) :
    VarOK toks (qualToks abs ns id ++ (as ++ ts)) e := by
  have hc := ClassName.qual abs ns id
  obtain ⟨t', us, hcs, ho, hd⟩ := hc.head
  have h' := apps_call ha h
  obtain ⟨⟨xs, rfl⟩, -⟩ := ha
  refine VarOK.of (toks := toks) (ts := qualToks abs ns id) (us := .k .ParenthesesOpen :: xs ++ ts)
    ⟨t', us ++ (.k .ParenthesesOpen :: xs ++ ts), by simp [hcs], ho⟩ h' fun r => ?_
  obtain ⟨sp, hs⟩ := fnCall_step hP abs ns id (xs ++ (ts ++ r))
  refine ⟨.mk (.path (qualPath abs ns id)) sp, rfl, ?_, ?_⟩
  · norml
    exact base_fnCall (constScoped_name hP hc false _ (by nokw) (by nokw)) hs
  · intro n' vs hv
    rw [hcs] at hv
    rcases hd with rfl | rfl | ⟨x, rfl⟩ <;> simp at hv

/-! ## Optional expressions, property names, class name references -/

theorem opt_none : OptOK toks [] none :=
  fun _ hr => ⟨none, rfl, optExpression_none (endsExpr_zero hr)⟩

theorem opt_some {s : Nat} {ts : List Token} {e : Expr} (h : ExprOK toks 0 s ts e) : OptOK toks ts (some e) := by
  intro r hr
  obtain ⟨e', he, hs⟩ := h.run0 hr
  refine ⟨some e', by simp [eraseOpt, he], ?_⟩
  unfold parseOptExpression
  stepc hs.attempt
  exact Step.pure

theorem prop_var (n : Text) : PropOK toks [.variable n] (bare (.var (.name n))) := by
  intro r
  refine ⟨.mk (.var (.name n)) (spanBefore toks r), rfl, ?_⟩
  unfold parsePropertyName
  stepc getPos_step
  stepc (parseSimpleVariableExpr_step n r).attempt
  exact Step.pure

theorem prop_word (w : Text) : PropOK toks [.string w] (bare (.path ⟨false, none, w⟩)) := by
  intro r
  refine ⟨.mk (.path ⟨false, none, w⟩) (spanBefore toks r), rfl, ?_⟩
  refine Step.with fun ht => ?_
  unfold parsePropertyName
  stepc getPos_step
  stepc (parseSimpleVariableExpr_fails ⟨by simp [NoKw], by simp⟩).attempt
  stepc (rewind_step ht)
  stepc eatString_hit
  exact Step.pure

theorem prop_expr {s : Nat} {ts : List Token} {e : Expr} (h : ExprOK toks 0 s ts e) :
    PropOK toks (.k .CurlyBracesOpen :: (ts ++ [.k .CurlyBracesClose])) e := by
  intro r
  obtain ⟨e', he, hs⟩ := h.run0 (r := .k .CurlyBracesClose :: r) rfl
  refine ⟨e', he, ?_⟩
  norml
  refine Step.with fun ht => ?_
  unfold parsePropertyName
  stepc getPos_step
  stepc (parseSimpleVariableExpr_fails ⟨by simp [NoKw], by simp⟩).attempt
  stepc (rewind_step ht)
  stepc (eatString_miss (by simp))
  stepc eat_hit
  stepc hs
  stepc expect_hit
  exact Step.pure

theorem cref_name (hP : Placed toks) {ts : List Token} {p : Path} (h : ClassName ts p) :
    CrefOK toks ts (bare (.path p)) := by
  intro r hr _
  obtain ⟨sp, hs⟩ := parseClassName_step hP h r hr
  refine ⟨.mk (.path p) sp, rfl, ?_⟩
  unfold parseClassNameReference
  stepc hs.attempt
  exact Step.pure

theorem cref_var (n : Text) {ts : List Token} {e : Expr} (h : AppsOK toks true (bare (.var (.name n))) ts e) :
    CrefOK toks (.variable n :: ts) e := by
  intro r _ hr
  obtain ⟨e', he, -, hl⟩ := h r hr (.mk (.var (.name n)) (spanBefore toks (ts ++ r))) rfl
  refine ⟨e', he, ?_⟩
  norml
  unfold parseClassNameReference
  stepc (parseClassName_fails ⟨by simp [NoKw], by simp⟩ (by nokw)).attempt
  exact variable_step (base_base ⟨by simp [NoKw], by simp⟩ (by nokw) (baseVariable_name true n _)) hl

/-! ## Arguments -/

theorem args_nil : ArgsOK toks [.k .ParenthesesOpen, .k .ParenthesesClose] [] := by
  refine ⟨⟨_, rfl⟩, fun r => ⟨[], rfl, ?_⟩⟩
  norml
  rw [parseArgumentList_eq]
  stepc expect_hit
  stepc eats_hit
  exact Step.pure

theorem args_some {ts : List Token} {es : List Expr} (h : ArglOK toks ts es) :
    ArgsOK toks (.k .ParenthesesOpen :: (ts ++ [.k .ParenthesesClose])) es := by
  refine ⟨⟨_, rfl⟩, fun r => ?_⟩
  obtain ⟨⟨t, us, rfl, ht⟩, h⟩ := h
  obtain ⟨es', he, hl⟩ := h r
  refine ⟨es', he, ?_⟩
  norml
  simp only [List.append_assoc, List.cons_append, List.nil_append] at hl
  rw [parseArgumentList_eq]
  stepc expect_hit
  stepc (eats_miss (by intro hk; simp at hk; subst hk; simp [exprHead, otherHead, prefixOf, castOf, includeOf] at ht))
  stepc (hl []).loop
  stepc expect_hit
  exact Step.pure

theorem argl_one {s : Nat} {ts : List Token} {e : Expr} (h : ExprOK toks 0 s ts e) : ArglOK toks ts [e] := by
  obtain ⟨t, us, rfl, ht⟩ := h.1
  refine ⟨⟨t, us, rfl, by simp [ht]⟩, fun r => ?_⟩
  obtain ⟨e', he, hs⟩ := h.run0 (r := .k .ParenthesesClose :: r) rfl
  refine ⟨[e'], by simp [eraseExprs, he], fun acc => Loops.done ?_⟩
  unfold argStep
  stepc (eat_miss (by intro hk; simp at hk; subst hk; simp [exprHead, otherHead, prefixOf, castOf, includeOf] at ht))
  stepc hs
  stepc (eats_miss (by nokw))
  exact Step.pure

theorem argl_unpack {s : Nat} {ts : List Token} {e : Expr} (h : ExprOK toks 0 s ts e) :
    ArglOK toks (.k .Ellipsis :: ts) [bare (.unpack e)] := by
  refine ⟨⟨_, _, rfl, by simp⟩, fun r => ?_⟩
  obtain ⟨e', he, hs⟩ := h.run0 (r := .k .ParenthesesClose :: r) rfl
  refine ⟨[.mk (.unpack e') { e'.span with start := (spanBefore toks (ts ++ .k .ParenthesesClose :: r)).start }],
    by simp [eraseExprs, Expr.erase, ExprK.erase, he], fun acc => Loops.done ?_⟩
  unfold argStep
  stepc eat_hit
  stepc hs
  stepc (eats_miss (by nokw))
  exact Step.pure

theorem argl_cons {s : Nat} {ts us : List Token} {e : Expr} {es : List Expr} (h : ExprOK toks 0 s ts e)
    (h' : ArglOK toks us es) : ArglOK toks (ts ++ .k .Comma :: us) (e :: es) := by
  obtain ⟨t, vs, rfl, ht⟩ := h.1
  refine ⟨⟨t, _, rfl, by simp [ht]⟩, fun r => ?_⟩
  obtain ⟨e', he, hs⟩ := h.run0 (r := .k .Comma :: (us ++ .k .ParenthesesClose :: r)) rfl
  obtain ⟨es', hes, hl⟩ := h'.2 r
  refine ⟨e' :: es', by simp [eraseExprs, he, hes], fun acc => ?_⟩
  norml
  simp only [List.append_assoc, List.cons_append, List.nil_append] at hs
  refine Loops.more (s' := acc ++ [e']) (l' := us ++ .k .ParenthesesClose :: r) ?_ (by simp; omega) (loops_snoc hl acc _)
  unfold argStep
  stepc (eat_miss (by intro hk; simp at hk; subst hk; simp [exprHead, otherHead, prefixOf, castOf, includeOf] at ht))
  stepc hs
  stepc eats_hit
  exact Step.pure

theorem argl_cons_unpack {s : Nat} {ts us : List Token} {e : Expr} {es : List Expr} (h : ExprOK toks 0 s ts e)
    (h' : ArglOK toks us es) :
    ArglOK toks (.k .Ellipsis :: (ts ++ .k .Comma :: us)) (bare (.unpack e) :: es) := by
  refine ⟨⟨_, _, rfl, by simp⟩, fun r => ?_⟩
  obtain ⟨e', he, hs⟩ := h.run0 (r := .k .Comma :: (us ++ .k .ParenthesesClose :: r)) rfl
  obtain ⟨es', hes, hl⟩ := h'.2 r
  refine ⟨.mk (.unpack e') { e'.span with
      start := (spanBefore toks (ts ++ .k .Comma :: (us ++ .k .ParenthesesClose :: r))).start } :: es',
    by simp [eraseExprs, Expr.erase, ExprK.erase, he, hes], fun acc => ?_⟩
  norml
  refine Loops.more (s' := acc ++ [.mk (.unpack e') { e'.span with
      start := (spanBefore toks (ts ++ .k .Comma :: (us ++ .k .ParenthesesClose :: r))).start }]) (l' := us ++ .k .ParenthesesClose :: r) ?_ (by simp; omega) (loops_snoc hl acc _)
  unfold argStep
  stepc eat_hit
  stepc hs
  stepc eats_hit
  exact Step.pure

theorem exprs_one {s : Nat} {ts : List Token} {e : Expr} (h : ExprOK toks 0 s ts e) : ExprsOK toks ts [e] := by
  intro r hr hc
  obtain ⟨e', he, hs⟩ := h.run0 hr
  refine ⟨[e'], by simp [eraseExprs, he], fun acc => Loops.done ?_⟩
  unfold exprListStep
  stepc hs
  stepc (eats_miss hc)
  exact Step.pure

theorem exprs_cons {s : Nat} {ts us : List Token} {e : Expr} {es : List Expr} (h : ExprOK toks 0 s ts e)
    (h' : ExprsOK toks us es) : ExprsOK toks (ts ++ .k .Comma :: us) (e :: es) := by
  intro r hr hc
  obtain ⟨e', he, hs⟩ := h.run0 (r := .k .Comma :: (us ++ r)) rfl
  obtain ⟨es', hes, hl⟩ := h' r hr hc
  refine ⟨e' :: es', by simp [eraseExprs, he, hes], fun acc => ?_⟩
  norml
  refine Loops.more (s' := acc ++ [e']) (l' := us ++ r) ?_ (by simp; omega) (loops_snoc hl acc _)
  unfold exprListStep
  stepc hs
  stepc eats_hit
  exact Step.pure

/-! ## Array elements -/

theorem items_nil : ItemsOK toks [] [] := by
  intro r hr _ _
  refine ⟨[], rfl, fun acc => Loops.done ?_⟩
  unfold pairStep
  stepc (expression_stops (endsExpr_zero hr)).attempt
  exact Step.pure' (by simp)

theorem items_one {s : Nat} {ts : List Token} {e : Expr} (h : ExprOK toks 0 s ts e) :
    ItemsOK toks ts [(none, e)] := by
  intro r hr hc ha
  obtain ⟨e', he, hs⟩ := h.run0 hr
  refine ⟨[(none, e')], by simp [eraseItems, eraseOpt, he], fun acc => Loops.done ?_⟩
  unfold pairStep
  stepc hs.attempt
  refine Step.bind (a := (none, e')) (l' := r) ?_ ?_
  · stepc (eats_miss ha)
    exact Step.pure
  stepc (eats_miss hc)
  exact Step.pure

theorem items_key {s s' : Nat} {ts us : List Token} {e e' : Expr} (h : ExprOK toks 0 s ts e)
    (h' : ExprOK toks 0 s' us e') : ItemsOK toks (ts ++ .k .DoubleArrow :: us) [(some e, e')] := by
  intro r hr hc ha
  obtain ⟨k', hk, hks⟩ := h.run0 (r := .k .DoubleArrow :: (us ++ r)) rfl
  obtain ⟨v', hv, hvs⟩ := h'.run0 hr
  refine ⟨[(some k', v')], by simp [eraseItems, eraseOpt, hk, hv], fun acc => Loops.done ?_⟩
  norml
  unfold pairStep
  stepc hks.attempt
  refine Step.bind (a := (some k', v')) (l' := r) ?_ ?_
  · stepc eats_hit
    stepc hvs
    exact Step.pure
  stepc (eats_miss hc)
  exact Step.pure

theorem items_cons {s : Nat} {ts us : List Token} {e : Expr} {es : List (Option Expr × Expr)}
    (h : ExprOK toks 0 s ts e) (h' : ItemsOK toks us es) :
    ItemsOK toks (ts ++ .k .Comma :: us) ((none, e) :: es) := by
  intro r hr hc ha
  obtain ⟨e', he, hs⟩ := h.run0 (r := .k .Comma :: (us ++ r)) rfl
  obtain ⟨es', hes, hl⟩ := h' r hr hc ha
  refine ⟨(none, e') :: es', by simp [eraseItems, eraseOpt, he, hes], fun acc => ?_⟩
  norml
  refine Loops.more (s' := acc ++ [(none, e')]) (l' := us ++ r) ?_ (by simp; omega) (loops_snoc hl acc _)
  unfold pairStep
  stepc hs.attempt
  refine Step.bind (a := (none, e')) (l' := .k .Comma :: (us ++ r)) ?_ ?_
  · stepc (eats_miss (by nokw))
    exact Step.pure
  stepc eats_hit
  exact Step.pure

theorem items_cons_key {s s' : Nat} {ts us vs : List Token} {e e' : Expr} {es : List (Option Expr × Expr)}
    (h : ExprOK toks 0 s ts e) (h' : ExprOK toks 0 s' us e') (h'' : ItemsOK toks vs es) :
    ItemsOK toks (ts ++ .k .DoubleArrow :: (us ++ .k .Comma :: vs)) ((some e, e') :: es) := by
  intro r hr hc ha
  obtain ⟨k', hk, hks⟩ := h.run0 (r := .k .DoubleArrow :: (us ++ .k .Comma :: (vs ++ r))) rfl
  obtain ⟨v', hv, hvs⟩ := h'.run0 (r := .k .Comma :: (vs ++ r)) rfl
  obtain ⟨es', hes, hl⟩ := h'' r hr hc ha
  refine ⟨(some k', v') :: es', by simp [eraseItems, eraseOpt, hk, hv, hes], fun acc => ?_⟩
  norml
  refine Loops.more (s' := acc ++ [(some k', v')]) (l' := vs ++ r) ?_ (by simp; omega) (loops_snoc hl acc _)
  unfold pairStep
  stepc hks.attempt
  refine Step.bind (a := (some k', v')) (l' := .k .Comma :: (vs ++ r)) ?_ ?_
  · stepc eats_hit
    stepc hvs
    exact Step.pure
  stepc eats_hit
  exact Step.pure

end Pico
