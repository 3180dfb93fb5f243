import Verif.Lemmas.SndExpr
/-!
# Variables: what they are derived from
-/
namespace Pico
open P

variable {toks : List TokSpan} {r : Rec}

theorem TgS.nnB {α : Type} {p0 p : Nat} {ts : List Token} {m : P α} {Q : α → Nat → Prop} {B : List Token → Prop}
    (h : TgS toks p0 ts p m Q B) : TgS toks p0 ts p m Q Nn :=
  fun h1 => (h h1).imp (fun _ _ h => h) fun _ ⟨us, h2, _⟩ => ⟨us, h2, h2.nn⟩

/-! ## First tokens -/

/-- The tokens begin like a variable. -/
def HeadV (us : List Token) : Prop := ∃ t vs, us = t :: vs ∧ startsVar t = true

theorem HeadV.app {us : List Token} (h : HeadV us) (vs : List Token) : HeadV (us ++ vs) := by
  obtain ⟨t, ws, rfl, h⟩ := h
  exact ⟨t, ws ++ vs, rfl, h⟩

theorem qualToks_headV (abs : Bool) (ns : List Text) (id : Text) : HeadV (qualToks abs ns id) := by
  unfold qualToks
  cases abs with
  | true => exact ⟨_, _, rfl, rfl⟩
  | false =>
    cases ns with
    | nil => exact ⟨_, _, rfl, rfl⟩
    | cons x ns => exact ⟨_, _, rfl, rfl⟩

theorem NameS.head {us : List Token} {x : Path} (h : NameS us x) : HeadV us := by
  obtain ⟨abs, ns, id, rfl, -⟩ := h
  exact qualToks_headV abs ns id

theorem ClassName.headV {us : List Token} {x : Path} (h : ClassName us x) : HeadV us := by
  cases h with
  | static => exact ⟨_, _, rfl, rfl⟩
  | qual abs ns id => exact qualToks_headV abs ns id

theorem D.var_head {us : List Token} {e : Expr} : D .var us e → HeadV us
  | .v_name .. => ⟨_, _, rfl, rfl⟩
  | .v_paren .. => ⟨_, _, rfl, rfl⟩
  | .v_array .. => ⟨_, _, rfl, rfl⟩
  | .v_bracket .. => ⟨_, _, rfl, rfl⟩
  | .v_str .. => ⟨_, _, rfl, rfl⟩
  | .v_static _ hc _ => hc.headV.app _
  | .v_scall hc .. => hc.headV.app _
  | .v_call abs ns id .. => (qualToks_headV abs ns id).app _
  | .x_scope _ hc _ => hc.headV.app _

/-! ## Arrays and bases -/

theorem parseDereferencableScalar_snd (hr : RecG toks r) : PrE toks (parseDereferencableScalar r)
    (fun _ us e => ∀ vs e', D (.apps false e.erase) vs e' → D .var (us ++ vs) e') (fun us => us = [] ∨ HeadV us) := by
  refine PrE.intro fun p => ?_
  unfold parseDereferencableScalar
  refine TgS.bind (TgS.eatB (fun t => ?_) fun _ => ?_)
  · dsimp only
    have hB : ∀ us, [Token.k .Array] ++ us = [] ∨ HeadV ([Token.k .Array] ++ us) := fun us => .inr ⟨_, _, rfl, rfl⟩
    refine TgS.bind (TgS.expectB (fun _ => ?_) (fun _ => hB []))
    refine TgS.bind (TgS.callB (parseArrayPairList_snd hr) (fun us _ _ => hB _) ?_)
    intro its q us h
    refine TgS.bind (TgS.expectB (fun _ => ?_) (fun _ => hB _))
    refine TgS.pure fun vs e' h' => ?_
    simpa using DerivesX.v_array h h'
  · dsimp only
    refine TgS.bind (TgS.eatB (fun t => ?_) fun _ => ?_)
    · have hB : ∀ us, [Token.k .SquareBracketOpen] ++ us = [] ∨ HeadV ([Token.k .SquareBracketOpen] ++ us) :=
        fun us => .inr ⟨_, _, rfl, rfl⟩
      refine TgS.bind (TgS.callB (parseArrayPairList_snd hr) (fun us _ _ => hB _) ?_)
      intro its q us h
      refine TgS.bind (TgS.expectB (fun _ => ?_) (fun _ => hB _))
      refine TgS.pure fun vs e' h' => ?_
      simpa using DerivesX.v_bracket h h'
    · refine TgS.bind (TgS.eatEncapsB (fun s sp => ?_) ?_)
      · exact TgS.pure fun vs e' h' => .v_str s h'
      · exact TgS.errHere _ (fun _ => .inl rfl)

/-- What `parse_variable` has read before its loop, or in it: `K` is what the whole is derived from. The name of a
function and the name of a static method are only read before arguments. -/
def LoopS (toks : List TokSpan) (K : List Token → Expr → Prop) (simple : Bool) (q : Nat) (us : List Token) (e : Expr) : Prop :=
  (∀ vs e', D (.apps simple e.erase) vs e' → K (us ++ vs) e') ∨
  (simple = false ∧ nextTok toks q = some (.k .ParenthesesOpen) ∧
    ∀ as es vs e', D .args as es → D (.apps false (bare (.call e.erase es))) vs e' → K (us ++ (as ++ vs)) e')

theorem LoopS.imp {K K' : List Token → Expr → Prop} {simple : Bool} {q : Nat} {us us' : List Token} {e : Expr}
    (h : LoopS toks K simple q us e) (hK : ∀ vs e', K (us ++ vs) e' → K' (us' ++ vs) e') : LoopS toks K' simple q us' e := by
  rcases h with h | ⟨h1, h2, h3⟩
  · exact .inl fun vs e' h' => hK _ _ (h vs e' h')
  · exact .inr ⟨h1, h2, fun as es vs e' ha h' => hK _ _ (h3 as es vs e' ha h')⟩

theorem parseBaseVariable_snd (hr : RecG toks r) : Pr toks (parseBaseVariable r false)
    (fun _ us e => ∀ vs e', D (.apps false e.erase) vs e' → D .var (us ++ vs) e') := by
  refine PrE.intro fun p => ?_
  unfold parseBaseVariable
  rw [if_neg Bool.false_ne_true]
  refine TgS.bind (TgS.eatB (fun t => ?_) fun _ => ?_)
  · dsimp only
    refine TgS.bind (TgS.callB hr.ex0 (by sd_b) ?_)
    rintro e q us ⟨s, h⟩
    refine TgS.bind (TgS.expectB (fun _ => ?_) (by sd_b))
    refine TgS.pure fun vs e' h' => ?_
    rw [erase_kind] at h'
    simpa using DerivesX.v_paren h h'
  · dsimp only
    refine TgS.bind (TgS.attemptB parseSimpleVariableExpr_snd ?_ ?_)
    · rintro e q us ⟨n, rfl, h⟩
      refine TgS.pure fun vs e' h' => ?_
      rw [h] at h'
      exact .v_name n h'
    · rintro _ q us rfl
      dsimp only
      refine TgS.bind (TgS.attemptB (parseDereferencableScalar_snd hr) ?_ ?_)
      · intro e q us h
        exact TgS.pure h
      · intro _ q us _
        exact TgS.deepestUnpack _ (by sd_b)

theorem parseBaseVariable_simple_snd : PrE toks (parseBaseVariable r true)
    (fun _ us e => ∃ n, us = [.variable n] ∧ e.erase = bare (.var (.name n))) (fun _ => True) := by
  refine PrE.intro fun p => ?_
  unfold parseBaseVariable
  simp only [if_true]
  refine TgS.bind (TgS.pureB ?_)
  dsimp only
  refine TgS.bind (TgS.attemptB parseSimpleVariableExpr_snd ?_ ?_)
  · rintro e q us ⟨n, rfl, h⟩
    exact TgS.pure ⟨n, rfl, h⟩
  · rintro _ q us rfl
    exact TgS.deepestUnpack _ (by sd_b)

/-- A static member. -/
theorem constScopedTail_snd (cls : Expr) (simple : Bool) : PrE toks (constScopedTail simple cls)
    (fun q us o => match o with
      | some x => x.1 = cls ∧ ((∃ n, us = [.variable n] ∧ x.2.1.erase = bare (.var (.name n))) ∨
          (simple = false ∧ nextTok toks q = some (.k .ParenthesesOpen) ∧
            ∃ t m, us = [t] ∧ Ident t m ∧ x.2.1.erase = bare (.path ⟨false, none, m⟩)))
      | none => True) (fun us => simple = false ∧ us = []) := by
  refine PrE.intro fun p => ?_
  unfold constScopedTail
  refine TgS.bind (TgS.attemptB parseSimpleVariableExpr_snd ?_ ?_)
  · rintro e q us ⟨n, rfl, h⟩
    exact TgS.pure ⟨rfl, .inl ⟨n, rfl, h⟩⟩
  · rintro _ q us rfl
    dsimp only
    cases simple with
    | true => exact TgS.pure trivial
    | false =>
      rw [if_neg Bool.false_ne_true]
      refine TgS.bind (TgS.callB parseIdentifierAsExpr_snd (by rintro _ rfl _; exact ⟨rfl, rfl⟩) ?_)
      rintro e q us ⟨t, m, rfl, h1, h2⟩
      refine TgS.bind (TgS.nextIsB (fun hn => ?_) fun _ => ?_)
      · exact TgS.pure ⟨rfl, .inr ⟨rfl, hn, t, m, by simp, h1, h2⟩⟩
      · exact TgS.pure trivial

/-- A static member behind a class name; an error leaves nothing or the class name and `::` behind. -/
theorem parseConstScoped_snd (simple : Bool) : PrE toks (parseConstScoped simple)
    (fun q us x => ∃ cts c, ClassName cts c ∧ x.1.erase = bare (.path c) ∧
      ((∃ n, us = cts ++ [.k .ScopeOp, .variable n] ∧ x.2.1.erase = bare (.var (.name n))) ∨
        (simple = false ∧ nextTok toks q = some (.k .ParenthesesOpen) ∧
          ∃ t m, us = cts ++ [.k .ScopeOp, t] ∧ Ident t m ∧ x.2.1.erase = bare (.path ⟨false, none, m⟩))))
    (fun us => us = [] ∨ (simple = false ∧ ∃ cts c, ClassName cts c ∧ us = cts ++ [.k .ScopeOp])) := by
  refine PrE.intro fun p => ?_
  unfold parseConstScoped
  refine TgS.bind (TgS.getPosB fun hs => ?_)
  have hback : TgS toks p [] p (errHere [] : P (Expr × Expr × Span)) (Sg toks p (fun q us x => ∃ cts c, ClassName cts c ∧ x.1.erase = bare (.path c) ∧
      ((∃ n, us = cts ++ [.k .ScopeOp, .variable n] ∧ x.2.1.erase = bare (.var (.name n))) ∨
        (simple = false ∧ nextTok toks q = some (.k .ParenthesesOpen) ∧
          ∃ t m, us = cts ++ [.k .ScopeOp, t] ∧ Ident t m ∧ x.2.1.erase = bare (.path ⟨false, none, m⟩)))))
      (fun us => us = [] ∨ (simple = false ∧ ∃ cts c, ClassName cts c ∧ us = cts ++ [.k .ScopeOp])) := TgS.errHere _ (fun _ => .inl rfl)
  refine TgS.bind (TgS.bind (TgS.attemptB parseClassName_snd ?_ ?_))
  · rintro cls q us ⟨c, hc, he⟩
    dsimp only
    refine TgS.bind (TgS.eatsB ?_ fun _ => ?_)
    · refine TgS.callB (constScopedTail_snd cls simple) ?_ ?_
      · rintro _ ⟨rfl, rfl⟩ _
        exact .inr ⟨rfl, us, c, hc, by simp⟩
      · rintro (_ | x) q vs h
        · exact TgS.bind (TgS.backB hs hback)
        · refine TgS.pure ?_
          obtain ⟨h1, h2⟩ := h
          refine ⟨us, c, hc, by rw [h1, he], ?_⟩
          rcases h2 with ⟨n, rfl, h⟩ | ⟨h3, h4, t, m, rfl, h5, h6⟩
          · exact .inl ⟨n, by simp, h⟩
          · exact .inr ⟨h3, h4, t, m, by simp, h5, h6⟩
    · refine TgS.pureB ?_
      exact TgS.bind (TgS.backB hs hback)
  · intro _ q us _
    refine TgS.pureB ?_
    exact TgS.bind (TgS.backB hs hback)

theorem parseFnCallBaseItem_snd (simple : Bool) : PrE toks (parseFnCallBaseItem simple)
    (fun q us e => simple = false ∧ nextTok toks q = some (.k .ParenthesesOpen) ∧
      ∃ c, NameS us c ∧ e.erase = bare (.path c)) (fun us => us = []) := by
  refine PrE.intro fun p => ?_
  unfold parseFnCallBaseItem
  cases simple with
  | true => exact TgS.errHere _ (fun _ => rfl)
  | false =>
    rw [if_neg Bool.false_ne_true]
    refine TgS.bind (TgS.getPosB fun hs => ?_)
    refine TgS.bind (TgS.bind (TgS.attemptB parseNameAsExpr_snd ?_ ?_))
    · rintro e q us ⟨c, hc, he⟩
      dsimp only
      refine TgS.bind (TgS.nextIsB (fun hn => ?_) fun _ => ?_)
      · refine TgS.pureB ?_
        exact TgS.pure ⟨rfl, hn, c, by simpa using hc, he⟩
      · refine TgS.pureB ?_
        exact TgS.bind (TgS.backB hs (TgS.errHere _ (fun _ => rfl)))
    · intro _ q us _
      refine TgS.pureB ?_
      exact TgS.bind (TgS.backB hs (TgS.errHere _ (fun _ => rfl)))

/-- The base of a variable. -/
theorem parseVariableBase_snd (hr : RecG toks r) : PrE toks (parseVariableBase r false)
    (fun q us e => LoopS toks (D .var) false q us e ∧ HeadV us) (fun us => us = []) := by
  refine PrE.intro fun p => ?_
  unfold parseVariableBase
  refine TgS.bind (TgS.getPosB fun hs => ?_)
  refine TgS.bind (TgS.attemptB (parseConstScoped_snd false) ?_ ?_)
  · rintro ⟨cls, prop, sp⟩ q us ⟨cts, c, hc, he, h⟩
    dsimp only at he h ⊢
    refine TgS.pure ⟨?_, ?_⟩
    · rcases h with ⟨n, rfl, h⟩ | ⟨-, hn, t, m, rfl, hm, h⟩
      · refine .inl fun vs e' h' => ?_
        simp only [Expr.erase, ExprK.erase, eraseExprs] at h'
        rw [he, h] at h'
        simpa using DerivesX.v_static n hc h'
      · refine .inr ⟨rfl, hn, fun as es vs e' ha h' => ?_⟩
        simp only [Expr.erase, ExprK.erase, eraseExprs] at h'
        rw [he, h] at h'
        simpa using DerivesX.v_scall hc hm ha h'
    · rcases h with ⟨n, rfl, h⟩ | ⟨-, hn, t, m, rfl, hm, h⟩ <;> exact hc.headV.app _
  · intro _ q us hB
    -- the rest is derived like a variable
    have lift : ∀ (q : Nat) (vs : List Token) (e : Expr), LoopS toks (D .var) false q vs e ∧ HeadV vs →
        LoopS toks (D .var) false q ([] ++ us ++ vs) e ∧ HeadV ([] ++ us ++ vs) := by
      rintro q vs e ⟨h1, h2⟩
      rcases hB with rfl | ⟨-, cts, c, hc, rfl⟩
      · exact ⟨h1, h2⟩
      · refine ⟨h1.imp fun ws e' h => ?_, by simpa using hc.headV.app _⟩
        simpa using DerivesX.x_scope rfl hc h
    dsimp only
    refine TgS.bind (TgS.attemptB (parseFnCallBaseItem_snd false) ?_ ?_)
    · rintro e q vs ⟨-, hn, c, hc, he⟩
      refine TgS.pure (lift q vs e ⟨?_, hc.head⟩)
      obtain ⟨abs, ns, id, rfl, rfl⟩ := hc
      refine .inr ⟨rfl, hn, fun as es ws e' ha h' => ?_⟩
      rw [he] at h'
      exact .v_call abs ns id ha h'
    · rintro _ q vs rfl
      dsimp only
      refine TgS.bind (TgS.attemptB (parseBaseVariable_snd hr) ?_ ?_)
      · intro e q vs h
        refine TgS.pure ?_
        simpa using lift q vs e ⟨.inl h, (by simpa using D.var_head (h [] _ (.a_nil _ _)))⟩
      · intro _ q vs _
        exact TgS.bind (TgS.backB hs (TgS.fail _ (fun _ => rfl)))

/-! ## Indices, members, calls -/

theorem appendixIndex_snd (hr : RecG toks r) (e : Expr) : PrE toks (appendixIndex r e) (fun _ us o => match o with
      | some e' => ∃ ts i, us = .k .SquareBracketOpen :: (ts ++ [.k .SquareBracketClose]) ∧ D .opt ts i ∧ e'.erase = withIndex e.erase i
      | none => us = [] ∨ ∃ j, us = .k .SquareBracketOpen :: j) (fun _ => False) := by
  refine PrE.intro fun p => ?_
  unfold appendixIndex
  refine TgS.bind (TgS.eatsB ?_ fun _ => ?_)
  · refine TgS.bind (TgS.callB (parseOpt0_snd hr) (fun _ h _ => h) ?_)
    intro o q us h
    refine TgS.bind (TgS.eatsB ?_ fun _ => ?_)
    · refine TgS.bind (TgS.lastEndB fun n => ?_)
      exact TgS.pure ⟨us, _, by simp, h, erase_addArrayIdx rfl rfl⟩
    · exact TgS.pure (.inr ⟨us, by simp⟩)
  · exact TgS.pure (.inl rfl)

theorem appendixMember_snd (hr : RecG toks r) (e : Expr) : PrE toks (appendixMember r e) (fun _ us o => match o with
      | some e' => ∃ ts m, us = .k .ObjectOp :: ts ∧ D .prop ts m ∧ e'.erase = withMember e.erase m
      | none => us = [] ∨ ∃ j, us = .k .ObjectOp :: j) (fun _ => False) := by
  refine PrE.intro fun p => ?_
  unfold appendixMember
  refine TgS.bind (TgS.eatsB ?_ fun _ => ?_)
  · refine TgS.bind (TgS.attemptB (parsePropertyName_snd hr) ?_ ?_)
    · intro m q us h
      refine TgS.bind (TgS.lastEndB fun n => ?_)
      exact TgS.pure ⟨us, _, by simp, h, erase_addObjMember rfl rfl⟩
    · intro _ q us _
      exact TgS.pure (.inr ⟨us, by simp⟩)
  · exact TgS.pure (.inl rfl)

theorem appendixStatic_snd (e : Expr) : PrE toks (appendixStatic e) (fun _ us o => match o with
      | some e' => ∃ n, us = [.k .ScopeOp, .variable n] ∧ e'.erase = withStatic e.erase (bare (.var (.name n)))
      | none => us = [] ∨ ∃ j, us = .k .ScopeOp :: j) (fun _ => False) := by
  refine PrE.intro fun p => ?_
  unfold appendixStatic
  refine TgS.bind (TgS.eatsB ?_ fun _ => ?_)
  · refine TgS.bind (TgS.attemptB parseSimpleVariableExpr_snd ?_ ?_)
    · rintro m q us ⟨n, rfl, h⟩
      refine TgS.bind (TgS.lastEndB fun _ => ?_)
      exact TgS.pure ⟨n, by simp, erase_addStaticMember rfl h⟩
    · intro _ q us _
      exact TgS.pure (.inr ⟨us, by simp⟩)
  · exact TgS.pure (.inl rfl)

theorem appendixCall_snd (hr : RecG toks r) (simple : Bool) (e : Expr) : PrE toks (appendixCall r simple e) (fun q us o => match o with
      | some e' => simple = false ∧ ∃ es, D .args us es ∧ e'.erase = bare (.call e.erase es)
      | none => us = [] ∧ (simple = false → nextTok toks q ≠ some (.k .ParenthesesOpen))) (fun _ => simple = false) := by
  refine PrE.intro fun p => ?_
  unfold appendixCall
  cases simple with
  | true => exact TgS.pure ⟨rfl, by simp⟩
  | false =>
    rw [if_neg Bool.false_ne_true]
    refine TgS.bind (TgS.nextIsB (fun _ => ?_) fun hn => ?_)
    · refine TgS.bind (TgS.callB (parseArgumentList_snd hr) (fun _ _ _ => rfl) ?_)
      intro es q us h
      refine TgS.bind (TgS.lastEndB fun _ => ?_)
      exact TgS.pure ⟨rfl, _, h, rfl⟩
    · exact TgS.pure ⟨rfl, fun _ => hn⟩

/-- Dropped tokens. -/
theorem LoopS.junk {K : List Token → Expr → Prop} {simple : Bool} {q q' : Nat} {us vs : List Token} {e : Expr} {kw : Kw}
    (hk : kw = .SquareBracketOpen ∨ kw = .ObjectOp ∨ kw = .ScopeOp) (h : LoopS toks K simple q us e) (hs : Seg toks q q' vs)
    (hv : vs = [] ∨ ∃ j, vs = .k kw :: j) : LoopS toks K simple q' (us ++ vs) e := by
  rcases hv with rfl | ⟨j, rfl⟩
  · rw [List.append_nil]
    exact Or.imp id (fun ⟨h1, h2, h3⟩ => ⟨h1, hs.nil_next ▸ h2, h3⟩) h
  · rcases h with h | ⟨h1, h2, h3⟩
    · refine .inl fun ws e' h' => ?_
      simpa using h _ _ (.x_apps rfl kw j hs.nn.noStray hk h')
    · rw [hs.head] at h2
      cases h2
      simp at hk

theorem LoopS.not_paren {K : List Token → Expr → Prop} {simple : Bool} {q : Nat} {us : List Token} {e : Expr}
    (h : LoopS toks K simple q us e) (hn : nextTok toks q ≠ some (.k .ParenthesesOpen)) :
    ∀ vs e', D (.apps simple e.erase) vs e' → K (us ++ vs) e' := by
  rcases h with h | ⟨-, h2, -⟩
  · exact h
  · exact absurd h2 hn

/-- The loop of `parse_variable`. -/
theorem appendix_loop (hr : RecG toks r) {K : List Token → Expr → Prop} {simple : Bool} {p0 p : Nat} {ts : List Token} {e : Expr}
    {B : List Token → Prop} (hB : simple = false → ∀ us, B us → ∀ vs, B (us ++ vs)) (h0 : simple = false → B ts)
    (h : LoopS toks K simple p ts e) :
    TgS toks p0 ts p (loop (appendixStep r simple) e) (Sg toks p0 fun _ us e => K us e.erase) B := by
  refine TgS.loop (fun q us e => LoopS toks K simple q us e ∧ (simple = false → B us)) ⟨h, h0⟩ ?_
  rintro e ts p ⟨h, h0⟩
  unfold appendixStep
  refine TgS.bind (TgS.callSB (appendixIndex_snd hr e) (fun _ h _ => h.elim) ?_)
  rintro (_ | e') q us h1 hs
  · replace h := h.junk (.inl rfl) hs h1
    replace h0 := fun hs => hB hs _ (h0 hs) us
    dsimp only
    refine TgS.bind (TgS.callSB (appendixMember_snd hr e) (fun _ h _ => h.elim) ?_)
    rintro (_ | e') q us h1 hs
    · replace h := h.junk (.inr (.inl rfl)) hs h1
      replace h0 := fun hs => hB hs _ (h0 hs) us
      dsimp only
      refine TgS.bind (TgS.callSB (appendixStatic_snd e) (fun _ h _ => h.elim) ?_)
      rintro (_ | e') q us h1 hs
      · replace h := h.junk (.inr (.inr rfl)) hs h1
        replace h0 := fun hs => hB hs _ (h0 hs) us
        dsimp only
        refine TgS.bind (TgS.callSB (appendixCall_snd hr simple e) (fun us h _ => hB h _ (h0 h) us) ?_)
        rintro (_ | e') q us h1 hs
        · obtain ⟨rfl, hn⟩ := h1
          refine TgS.pure ?_
          rw [List.append_nil]
          rcases h with h | ⟨h1, h2, -⟩
          · simpa using h [] _ (.a_nil _ _)
          · rw [hs.nil_next] at h2
            exact absurd h2 (hn h1)
        · obtain ⟨rfl, es, ha, he⟩ := h1
          refine TgS.pure ⟨.inl fun vs e'' h' => ?_, fun hs => hB hs _ (h0 hs) us⟩
          rw [he] at h'
          rw [List.append_assoc]
          rcases h with h | ⟨-, -, h⟩
          · exact h _ _ (.a_call ha h')
          · exact h _ _ _ _ ha h'
      · obtain ⟨n, rfl, he⟩ := h1
        refine TgS.pure ⟨.inl fun vs e'' h' => ?_, fun hs => hB hs _ (h0 hs) _⟩
        rw [he] at h'
        have := h.not_paren (by rw [hs.head]; simp) _ _ (.a_static n h')
        simpa using this
    · obtain ⟨us, m, rfl, hm, he⟩ := h1
      refine TgS.pure ⟨.inl fun vs e'' h' => ?_, fun hs => hB hs _ (h0 hs) _⟩
      rw [he] at h'
      have := h.not_paren (by rw [hs.head]; simp) _ _ (.a_member hm h')
      simpa using this
  · obtain ⟨us, i, rfl, hi, he⟩ := h1
    refine TgS.pure ⟨.inl fun vs e'' h' => ?_, fun hs => hB hs _ (h0 hs) _⟩
    rw [he] at h'
    have := h.not_paren (by rw [hs.head]; simp) _ _ (.a_index hi h')
    simpa using this

theorem parseVariable_snd (hr : RecG toks r) : PrE toks (parseVariable r false none) (fun _ us e => D .var us e.erase)
    (fun us => us = [] ∨ HeadV us) := by
  refine PrE.intro fun p => ?_
  unfold parseVariable
  refine TgS.bind (TgS.callB (parseVariableBase_snd hr) (by rintro _ rfl _; exact .inl rfl) ?_)
  rintro e q us ⟨h, hh⟩
  rw [List.nil_append]
  intro hs
  have := appendix_loop (B := HeadV) (p0 := p) hr (fun _ us h vs => h.app vs) (fun _ => hh) h hs
  exact this.imp (fun _ _ h => h) fun q ⟨us, h1, h2⟩ => ⟨us, h1, .inr h2⟩

/-- With a base. -/
theorem parseVariable_base_snd (hr : RecG toks r) (b : Expr) : Pr toks (parseVariable r false (some b))
    (fun _ us e => D (.apps false b.erase) us e.erase) := by
  refine PrE.intro fun p => ?_
  unfold parseVariable
  refine TgS.bind (TgS.pureB ?_)
  exact (appendix_loop (B := fun _ => True) hr (fun _ _ _ _ => trivial) (fun _ => trivial) (.inl fun vs e' h => h)).nnB

theorem parseClassName_at (p : Nat) : TgS toks p [] p parseClassName (Sg toks p fun _ us e => ∃ x, ClassName us x ∧ e.erase = bare (.path x))
    (fun us => us = [.k .NsSeparator] ∨ us = [] ∧ ∀ t, nextTok toks p = some t →
      t ≠ .k .Static ∧ t ≠ .k .NsSeparator ∧ ∀ s, t ≠ .string s) := by
  unfold parseClassName
  refine TgS.bind (TgS.eatB (fun _ => ?_) fun h1 => ?_)
  · exact TgS.pure ⟨_, .static, rfl⟩
  · dsimp only
    unfold parseNameAsExpr
    refine TgS.bind ?_
    unfold parseName
    refine TgS.bind (TgS.eatsB ?_ fun h2 => ?_)
    · refine TgS.bind (TgS.callB parseNamespaceName_snd (by rintro _ rfl _; exact .inl rfl) ?_)
      rintro ⟨path, sp⟩ q us ⟨ns, id, rfl, h⟩
      cases h
      dsimp only
      simp only [if_true]
      refine TgS.bind (TgS.subPB fun _ => TgS.pureB ?_)
      exact TgS.pure ⟨_, .qual true ns id, rfl⟩
    · refine TgS.bind (TgS.callAtB (parseNamespaceName_sndAt p) ?_ ?_)
      · rintro _ ⟨rfl, h3⟩ _
        refine .inr ⟨rfl, ?_⟩
        rintro t ht
        rw [ht] at h1 h2
        refine ⟨fun h => h1 (congrArg some h), fun h => h2 (congrArg some h), fun s h => h3 s ?_⟩
        rw [ht, h]
      · rintro ⟨path, sp⟩ q us ⟨ns, id, rfl, h⟩
        cases h
        dsimp only
        rw [if_neg Bool.false_ne_true]
        refine TgS.pureB ?_
        exact TgS.pure ⟨_, .qual false ns id, rfl⟩

theorem parseClassNameReference_snd (hr : RecG toks r) : Pr toks (parseClassNameReference r) (fun _ us e => D .cref us e.erase) := by
  refine PrE.intro fun p => ?_
  unfold parseClassNameReference
  refine TgS.bind (TgS.attemptAtB (parseClassName_at p) ?_ ?_)
  · rintro e q us ⟨x, h, he⟩
    refine TgS.pure ?_
    rw [he]
    exact .c_name h
  · intro _ q us hus hseg
    dsimp only
    rw [List.nil_append]
    unfold parseVariable
    refine TgS.bind ?_
    unfold parseVariableBase
    refine TgS.bind (TgS.getPosB fun hs => ?_)
    have hloop : ∀ {ts : List Token} {q' : Nat} {e : Expr}, LoopS toks (D .cref) true q' ts e →
        TgS toks p ts q' (loop (appendixStep r true) e) (Sg toks p fun _ us e => D .cref us e.erase) Nn :=
      fun h => (appendix_loop (B := fun _ => True) hr (fun _ _ _ _ => trivial) (fun _ => trivial) h).nnB
    refine TgS.bind (TgS.attemptSB (parseConstScoped_snd true) ?_ ?_)
    · rintro ⟨cls, prop, sp⟩ q' vs ⟨cts, c, hc, he, h⟩ hv
      dsimp only at he h ⊢
      refine TgS.pureB (hloop (.inl fun ws e' h' => ?_))
      rcases h with ⟨n, rfl, h⟩ | ⟨hf, -⟩
      · simp only [Expr.erase, ExprK.erase, eraseExprs] at h'
        rw [he, h] at h'
        rcases hus with rfl | ⟨rfl, hnext⟩
        · simpa using DerivesX.x_crefStatic rfl n hc h'
        · exfalso
          obtain ⟨t, us, rfl, -, ht⟩ := hc.head
          have := hnext t (by rw [hseg.nil_next]; exact hv.head)
          rcases ht with rfl | rfl | ⟨s, rfl⟩
          · exact this.1 rfl
          · exact this.2.1 rfl
          · exact this.2.2 s rfl
      · cases hf
    · rintro _ q' vs hv hsv
      rcases hv with rfl | ⟨hf, -⟩
      · dsimp only
        refine TgS.bind (TgS.attemptB (parseFnCallBaseItem_snd true) ?_ ?_)
        · rintro e q vs ⟨hf, -⟩
          cases hf
        · rintro _ q vs rfl
          dsimp only
          refine TgS.bind (TgS.attemptB parseBaseVariable_simple_snd ?_ ?_)
          · rintro e q vs ⟨n, rfl, h⟩
            refine TgS.pureB (hloop (.inl fun ws e' h' => ?_))
            rw [h] at h'
            rcases hus with rfl | ⟨rfl, -⟩
            · simpa using DerivesX.x_cref rfl n h'
            · simpa using DerivesX.c_var n h'
          · intro _ q vs _
            exact TgS.bind (TgS.backB hs (TgS.fail _ (by sd_b)))
      · cases hf

end Pico
