import Verif.Lemmas.SndOper
/-!
# Expressions: what they are derived from
-/
namespace Pico
open P

variable {toks : List TokSpan} {r : Rec}

/-- An operator of level `lv` may follow `e`. -/
def Can (lv s top : Nat) (e : Expr) : Prop :=
  lv ≤ s ∧ lv ≤ top ∧ (lv = 15 → 16 ≤ top) ∧ (lv = 16 → e.isInstanceOf = false → 17 ≤ top)

/-- The operator that follows may follow `e`. -/
def Rdy (toks : List TokSpan) (q s top : Nat) (e : Expr) : Prop :=
  ∀ kw lv, nextTok toks q = some (.k kw) → infixLevel kw = some lv → Can lv s top e

/-- Left operand and operators so far. -/
def LpS (toks : List TokSpan) (P q : Nat) (us : List Token) (e : Expr) : Prop :=
  ∃ ts j s top, us = ts ++ j ∧ (∀ p, p < top → D (.expr p s) ts e.erase) ∧ P < top ∧ (Pend j ∨ j = [] ∧ Rdy toks q s top e)

theorem OpS.lp {P q : Nat} {us : List Token} {e : Expr} (hP : P ≤ 17) (h : OpS toks q us e) : LpS toks P q us e := by
  obtain ⟨ts, j, s, rfl, h, hj⟩ := h
  refine ⟨ts, j, s, 18, rfl, fun p _ => h p, by omega, hj.imp id fun ⟨h1, h2⟩ => ⟨h1, ?_⟩⟩
  intro kw lv hn hl
  have := infixLevel_le hl
  exact ⟨h2 kw lv hn hl, by omega, by omega, by omega⟩

/-- What follows the left operand. -/
def BinS (toks : List TokSpan) (P q : Nat) (left : Expr) (us : List Token) : Option Expr → Prop
  | none => us = [] ∧ NextLe toks q P
  | some e => ∃ kw lv ts2 j, us = .k kw :: (ts2 ++ j) ∧ infixLevel kw = some lv ∧
      ∀ ts s top, (∀ p, p < top → D (.expr p s) ts left.erase) → Can lv s top left →
        ∃ s' top', (∀ p, p < top' → D (.expr p s') (ts ++ .k kw :: ts2) e.erase) ∧ P < top' ∧ (Pend j ∨ j = [] ∧ Rdy toks q s' top' e)

theorem parseTernary_snd (hr : RecG toks r) (left : Expr) (P : Nat) (hP : P < 4) :
    Pr toks (parseTernary r left .Conditional) (fun q us e => BinS toks P q left (.k .QuestionMark :: us) (some e)) := by
  refine PrE.intro fun p => ?_
  unfold parseTernary
  refine TgS.bind (TgS.callB (parseOptExpression_snd hr .Conditional) (by sd_b) ?_)
  intro m q us hm
  refine TgS.bind (TgS.expectB (fun _ => ?_) (by sd_b))
  refine TgS.bind (TgS.callB (hr.expr .Conditional) (by sd_b) ?_)
  rintro e q _ ⟨vs, j, se, rfl, he, hj⟩
  refine TgS.pure ⟨.QuestionMark, 4, us ++ .k .Colon :: vs, j, by simp, rfl, ?_⟩
  intro ts s top hl ⟨h1, h2, h3, h4⟩
  refine ⟨min 4 se, 4, fun p hp => ?_, hP, hj.imp id fun ⟨h1, h2, h3⟩ => ⟨h1, ?_⟩⟩
  · cases m with
    | none => exact .x_ternary rfl us hm.noStray hp (hl 3 (by omega)) h1 he
    | some m =>
      obtain ⟨s', hm⟩ := hm.close
      exact .e_ternary hp (hl 3 (by omega)) h1 hm he
  · intro kw lv hn hlv
    have a1 : lv ≤ 4 := h2 kw lv hn hlv
    have a2 : lv ≤ se := h3 kw lv hn hlv
    exact ⟨by omega, a1, by omega, by omega⟩

theorem parseInstanceOf_snd (hr : RecG toks r) (left : Expr) (P : Nat) (hP : P < 16) :
    Pr toks (parseInstanceOf r left) (fun q us e => BinS toks P q left (.k .InstanceOf :: us) (some e)) := by
  refine PrE.intro fun p => ?_
  unfold parseInstanceOf
  split
  · exact TgS.abort _
  · rename_i hi
    refine TgS.bind (TgS.callB (parseClassNameReference_snd hr) (by sd_b) ?_)
    intro x q us hx
    refine TgS.pure ⟨.InstanceOf, 16, us, [], by simp, rfl, ?_⟩
    intro ts s top hl ⟨h1, h2, h3, h4⟩
    refine ⟨prefixLevel, 16, fun p hp => ?_, hP, .inr ⟨rfl, ?_⟩⟩
    · refine .e_instance hp (hl 16 ?_) h1 ?_ hx
      · exact h4 rfl (by simpa using hi)
      · obtain ⟨k, sp⟩ := left
        cases k <;> first | rfl | exact absurd rfl hi
    · intro kw lv hn hlv
      have := infixLevel_le hlv
      refine ⟨Nat.le_succ_of_le this, this, fun _ => Nat.le_refl _, fun _ h => ?_⟩
      cases h

theorem parseBinaryRest_snd (hr : RecG toks r) (left : Expr) (kw : Kw) (prec : Prec) (hk : kw.precedence = some prec) (P : Nat)
    (hP : P < prec.toNat) :
    Pr toks (parseBinaryRest r left kw prec) (fun q us e => BinS toks P q left (.k kw :: us) (some e)) := by
  refine PrE.intro fun p => ?_
  have hl : infixLevel kw = some prec.toNat := by rw [← precedence_level, hk]; rfl
  unfold parseBinaryRest
  split
  · exact TgS.abort _
  rename_i op hop
  split
  · exact TgS.abort _
  rename_i assoc has
  cases assoc with
  | left =>
    have hL : leftOp kw = some op ∧ prec.toNat ≤ 14 := by
      revert hop has hk
      cases kw <;> simp [Kw.binaryOp, Kw.associativity, Kw.precedence, leftOp] <;> rintro rfl rfl <;> decide
    dsimp only
    refine TgS.bind (TgS.callB (hr.expr prec) (by sd_b) ?_)
    rintro e q _ ⟨vs, j, se, rfl, he, hj⟩
    refine TgS.pure ⟨kw, prec.toNat, vs, j, by simp, hl, ?_⟩
    intro ts s top hl' ⟨h1, h2, h3, h4⟩
    refine ⟨min prec.toNat se, prec.toNat, fun p hp => ?_, hP, hj.imp id fun ⟨h1, h2, h3⟩ => ⟨h1, ?_⟩⟩
    · exact .e_left hL.1 hl hp (hl' _ (by omega)) h1 he
    · intro kw lv hn hlv
      have a1 := h2 kw lv hn hlv
      have a2 := h3 kw lv hn hlv
      exact ⟨by omega, a1, by omega, by omega⟩
  | right =>
    have hL : kw = .Pow ∧ op = .Pow ∧ prec = .Pow := by
      revert hop has hk
      cases kw <;> simp [Kw.binaryOp, Kw.associativity, Kw.precedence] <;> rintro rfl rfl <;> simp
    obtain ⟨rfl, rfl, rfl⟩ := hL
    show TgS toks p [] p (do
      let right ← r.expr .Mul
      return Expr.mk (.binary .Pow left right) (mkSpan left.span.start right.span.stop)) _ _
    refine TgS.bind (TgS.callB (hr.expr .Mul) (by sd_b) ?_)
    rintro e q _ ⟨vs, j, se, rfl, he, hj⟩
    refine TgS.pure ⟨.Pow, 15, vs, j, by simp, rfl, ?_⟩
    intro ts s top hl' ⟨h1, h2, h3, h4⟩
    refine ⟨min 14 se, 15, fun p hp => ?_, hP, hj.imp id fun ⟨h1, h2, h3⟩ => ⟨h1, ?_⟩⟩
    · exact .e_pow hp (hl' _ (h3 rfl)) h1 he
    · intro kw lv hn hlv
      have a1 : lv ≤ 14 := h2 kw lv hn hlv
      have a2 := h3 kw lv hn hlv
      exact ⟨by omega, by omega, by omega, by omega⟩

theorem parseBinaryExpression_snd (hr : RecG toks r) (left : Expr) (prec : Prec) :
    PrE toks (parseBinaryExpression r left prec) (fun q us o => BinS toks prec.toNat q left us o) Pend := by
  refine PrE.intro fun p => ?_
  unfold parseBinaryExpression
  refine TgS.bind (TgS.peekTokB fun x hx => ?_)
  dsimp only
  split
  · rename_i hk
    refine TgS.pure ⟨rfl, fun kw lv hkw _ => ?_⟩
    rw [hx] at hkw
    subst hkw
    cases hk
  · rename_i kw hk
    obtain ⟨t, rfl, hk⟩ := Option.bind_eq_some_iff.mp hk
    have ht : t = .k kw := by
      cases t <;> simp [Token.kw?] at hk
      rw [hk]
    subst ht
    split
    · rename_i hp
      refine TgS.pure ⟨rfl, fun kw' lv hkw hl => ?_⟩
      rw [hx] at hkw
      cases hkw
      rw [← precedence_level, hp] at hl
      cases hl
    · rename_i np hp
      have hl : infixLevel kw = some np.toNat := by rw [← precedence_level, hp]; rfl
      split
      · rename_i hge
        refine TgS.pure ⟨rfl, fun kw' lv hkw hl' => ?_⟩
        rw [hx] at hkw
        cases hkw
        rw [hl] at hl'
        cases hl'
        exact hge
      · rename_i hge
        obtain ⟨tk, h1, h2⟩ := Option.map_eq_some_iff.mp (show toks[p]?.map TokSpan.tok = some (.k kw) from hx)
        refine TgS.bind (TgS.getPosB fun _ => ?_)
        refine TgS.bind (TgS.takeB h1 ?_ (fun h => h.app (.one fun b => by rw [h2]; exact (closes_infix hl b).1)))
        rw [h2]
        have hB : ∀ us : List Token, Nn us → Nn ([] ++ [.k kw] ++ us) → Pend ([] ++ [.k kw] ++ us) :=
          fun us hn _ => ⟨kw, _, us, rfl, hl, hn⟩
        refine TgS.bind ?_
        split
        · rename_i h
          subst h
          cases hp
          refine TgS.callB (parseTernary_snd hr left prec.toNat ?_) hB ?_
          · exact Nat.not_le.mp hge
          · intro e q us h
            exact TgS.pure h
        split
        · rename_i h
          subst h
          cases hp
          refine TgS.callB (parseInstanceOf_snd hr left prec.toNat ?_) hB ?_
          · exact Nat.not_le.mp hge
          · intro e q us h
            exact TgS.pure h
        · refine TgS.callB (parseBinaryRest_snd hr left kw np hp prec.toNat ?_) hB ?_
          · exact Nat.not_le.mp hge
          · intro e q us h
            exact TgS.pure h

theorem LpS.step {P p q : Nat} {us vs : List Token} {left e : Expr} (h : LpS toks P p us left) (hs : Seg toks p q vs)
    (hb : BinS toks P q left vs (some e)) : LpS toks P q (us ++ vs) e := by
  obtain ⟨ts, j, s, top, rfl, hD, hP, hj⟩ := h
  obtain ⟨kw, lv, ts2, j2, rfl, hl, hb⟩ := hb
  rcases hj with hj | ⟨rfl, hj⟩
  · obtain ⟨s', top', h1, h2, h3⟩ := hb (ts ++ j) prefixLevel 18 (fun p _ => wrap (hD 0 (by omega)) hj)
      ⟨Nat.le_succ_of_le (infixLevel_le hl), by have := infixLevel_le hl; omega, by omega, by omega⟩
    exact ⟨(ts ++ j) ++ .k kw :: ts2, j2, s', top', by simp, h1, h2, h3⟩
  · obtain ⟨s', top', h1, h2, h3⟩ := hb ts s top hD (hj kw lv hs.head hl)
    exact ⟨ts ++ .k kw :: ts2, j2, s', top', by simp, h1, h2, h3⟩

theorem LpS.done {P p q : Nat} {us vs : List Token} {e : Expr} (h : LpS toks P p us e) (hs : Seg toks p q vs)
    (hb : BinS toks P q e vs none) : ExS toks P q (us ++ vs) e := by
  obtain ⟨ts, j, s, top, rfl, hD, hP, hj⟩ := h
  obtain ⟨rfl, hb⟩ := hb
  refine ⟨ts, j, s, by simp, hD P hP, hj.imp id fun ⟨h1, h2⟩ => ⟨h1, hb, fun kw lv hn hl => ?_⟩⟩
  exact (h2 kw lv (by rw [hs.nil_next]; exact hn) hl).1

theorem LpS.fail {P p q : Nat} {us vs : List Token} {e : Expr} (h : LpS toks P p us e) (hb : Pend vs) : ExS toks P q (us ++ vs) e := by
  obtain ⟨ts, j, s, top, rfl, hD, hP, hj⟩ := h
  refine ⟨ts, j ++ vs, s, by simp, hD P hP, .inl ?_⟩
  rcases hj with hj | ⟨rfl, -⟩
  · exact hj.app hb.nn
  · exact hb

theorem parseExpression_snd (hr : RecG toks r) (prec : Prec) : Pr toks (parseExpression r prec) (ExS toks prec.toNat) := by
  refine PrE.intro fun p => ?_
  unfold parseExpression
  refine TgS.bind (TgS.callB (parseOperand_snd hr) (by sd_b) ?_)
  intro e q us h
  refine TgS.loop (fun q us e => LpS toks prec.toNat q us e) (h.lp (by cases prec <;> decide)) ?_
  intro e ts q hI
  refine TgS.bind (TgS.attemptSB (parseBinaryExpression_snd hr e prec) ?_ ?_)
  · rintro (_ | e') q' us h hs
    · exact TgS.pure (hI.done hs h)
    · exact TgS.pure (hI.step hs h)
  · intro _ q' us h _
    exact TgS.pure (hI.fail h)

end Pico
