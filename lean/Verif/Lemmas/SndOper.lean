import Verif.Lemmas.SndFn
/-!
# Operands: what they are derived from
-/
namespace Pico
open P

variable {toks : List TokSpan} {r : Rec}

theorem OpS.app {q : Nat} {us vs : List Token} {e : Expr} (hu : us = [] ∨ HeadV us) (hn : Nn us) (h : OpS toks q vs e) :
    OpS toks q (us ++ vs) e := by
  rcases hu with rfl | ⟨t, j', rfl, ht⟩
  · exact h
  obtain ⟨ts, j, s, rfl, h, hj⟩ := h
  exact ⟨t :: (j' ++ ts), j, s, by simp, fun p => .x_call rfl j' hn.noStray ht (h p), hj⟩

theorem parseNew_snd (hr : RecG toks r) (t : TokSpan) : Pr toks (parseNew r t)
    (fun _ us e => ∀ p, D (.expr p prefixLevel) (.k .New :: us) e.erase) := by
  refine PrE.intro fun p => ?_
  unfold parseNew
  refine TgS.bind (TgS.callB (parseClassNameReference_snd hr) (by sd_b) ?_)
  intro x q us hx
  refine TgS.bind (TgS.bind (TgS.nextIsB ?_ ?_))
  · intro _
    refine TgS.callB (parseArgumentList_snd hr) (by sd_b) ?_
    intro as q vs ha
    refine TgS.bind (TgS.lastEndB fun _ => ?_)
    exact TgS.pure fun p => .e_newArgs hx ha
  · intro _
    refine TgS.pureB (TgS.bind (TgS.lastEndB fun _ => ?_))
    exact TgS.pure fun p => .e_new hx

theorem parseExit_snd (hr : RecG toks r) (t : TokSpan) : Pr toks (parseExit r t)
    (fun _ us e => ∀ p, D (.expr p prefixLevel) (.k .Exit :: us) e.erase) := by
  refine PrE.intro fun p => ?_
  unfold parseExit
  refine TgS.bind (TgS.eatsB ?_ fun _ => ?_)
  · refine TgS.bind (TgS.callB hr.ex0 (by sd_b) ?_)
    rintro e q us ⟨s, h⟩
    refine TgS.bind (TgS.expectB (fun _ => ?_) (by sd_b))
    refine TgS.pure fun p => ?_
    show D (.expr p prefixLevel) _ (bare (.exit (some e.erase)))
    simpa using DerivesX.e_exitValue h
  · exact TgS.pure fun p => .e_exit

theorem parseYield_snd (hr : RecG toks r) (t : TokSpan) : Pr toks (parseYield r t)
    (fun q us e => OpS toks q (.k .Yield :: us) e) := by
  refine PrE.intro fun p => ?_
  unfold parseYield
  refine TgS.bind (TgS.callB (parseOptExpression_snd hr .None) (by sd_b) ?_)
  rintro (_ | e) q us h
  · refine TgS.bind (TgS.lastEndB fun _ => ?_)
    exact TgS.pure (.of fun p => .x_yield rfl us h.noStray)
  · refine TgS.bind (TgS.lastEndB fun _ => ?_)
    exact TgS.pure (.tail (vs := [.k .Yield]) h fun ts s p h => .e_yieldValue h)

theorem parseIsset_snd (hr : RecG toks r) (sp : Span) : Pr toks (parseIsset r sp)
    (fun _ us e => ∀ p, D (.expr p prefixLevel) (.k .Isset :: us) e.erase) := by
  refine PrE.intro fun p => ?_
  unfold parseIsset
  refine TgS.bind (TgS.expectB (fun _ => ?_) (by sd_b))
  refine TgS.bind (TgS.callB (parseExpressionList_snd hr) (by sd_b) ?_)
  intro es q us h
  refine TgS.bind (TgS.expectB (fun _ => ?_) (by sd_b))
  refine TgS.pure fun p => ?_
  show D (.expr p prefixLevel) _ (bare (.isset (eraseExprs es)))
  simpa using DerivesX.e_isset h

theorem parseEmpty_snd (hr : RecG toks r) (sp : Span) : Pr toks (parseEmpty r sp)
    (fun _ us e => ∀ p, D (.expr p prefixLevel) (.k .Empty :: us) e.erase) := by
  refine PrE.intro fun p => ?_
  unfold parseEmpty
  refine TgS.bind (TgS.expectB (fun _ => ?_) (by sd_b))
  refine TgS.bind (TgS.callB hr.ex0 (by sd_b) ?_)
  rintro e q us ⟨s, h⟩
  refine TgS.bind (TgS.expectB (fun _ => ?_) (by sd_b))
  refine TgS.pure fun p => ?_
  show D (.expr p prefixLevel) _ (bare (.empty e.erase))
  simpa using DerivesX.e_empty h

/-- A prefix operator. -/
theorem OpS.prefix {q : Nat} {us vs : List Token} {e e' : Expr} (h : ExS toks prefixLevel q us e)
    (hD : ∀ ts s p, D (.expr prefixLevel s) ts e.erase → D (.expr p s) (vs ++ ts) e'.erase) : OpS toks q (vs ++ us) e' := by
  obtain ⟨ts, j, s, rfl, h, hj⟩ := h
  exact ⟨vs ++ ts, j, s, by simp, fun p => hD ts s p h, hj.imp id fun ⟨h1, _, h2⟩ => ⟨h1, h2⟩⟩

theorem parseInternal_closes {kw : Kw} {sp : Span} {m : P Expr} (h : parseInternal r kw sp = some m) (b : Bracket) :
    b.closes (.k kw) = false := by
  revert h
  cases kw <;> cases b <;> first | (intro _; rfl) | (intro h; cases h)

theorem parseInternal_snd (hr : RecG toks r) {kw : Kw} {sp : Span} {m : P Expr} (h : parseInternal r kw sp = some m) :
    Pr toks m (fun q us e => OpS toks q (.k kw :: us) e) := by
  unfold parseInternal at h
  split at h
  · cases h
    exact PrE.intro fun p => TgS.abort _
  split at h
  · cases h
    subst kw
    exact (parseIsset_snd hr sp).weaken (fun _ _ _ h => .of h) (fun _ h => h)
  split at h
  · cases h
    subst kw
    exact (parseEmpty_snd hr sp).weaken (fun _ _ _ h => .of h) (fun _ h => h)
  split at h
  · rename_i ty hty
    cases h
    refine PrE.intro fun p => ?_
    refine TgS.bind (TgS.callB (hr.expr .Unary) (by sd_b) ?_)
    intro e q us h
    refine TgS.pure ?_
    refine OpS.prefix (vs := [.k kw]) h fun ts s p h => .e_cast ?_ h
    rw [← hty]
    cases kw <;> rfl
  · split at h
    · rename_i ity hty
      cases h
      refine PrE.intro fun p => ?_
      refine TgS.bind (TgS.callB (hr.expr .None) (by sd_b) ?_)
      intro e q us h
      refine TgS.bind (TgS.lastEndB fun _ => ?_)
      refine TgS.pure ?_
      refine OpS.tail (vs := [.k kw]) h fun ts s p h => .e_include ?_ h
      rw [← hty]
      cases kw <;> rfl
    · cases h

theorem parseListTarget_snd (hr : RecG toks r) (t : TokSpan) : Pr toks (parseListTarget r t) (fun q us e =>
    nextTok toks q = some (.k .Equal) ∧ ∃ ts its, us = .k .ParenthesesOpen :: (ts ++ [.k .ParenthesesClose]) ∧
      D .items ts its ∧ e.erase = bare (.list its)) := by
  refine PrE.intro fun p => ?_
  unfold parseListTarget
  refine TgS.bind (TgS.expectB (fun _ => ?_) (by sd_b))
  refine TgS.bind (TgS.callB (parseArrayPairList_snd hr) (by sd_b) ?_)
  intro its q us h
  refine TgS.bind (TgS.expectB (fun _ => ?_) (by sd_b))
  refine TgS.bind (TgS.nextIsB ?_ ?_)
  · intro hn
    exact TgS.pure ⟨hn, us, _, by simp, h, rfl⟩
  · intro _
    exact TgS.errHere _ (by sd_b)

/-- What follows the target of an assignment. -/
def AsS (toks : List TokSpan) (q : Nat) (us : List Token) (target e : Expr) : Prop :=
  (us = [] ∧ e = target ∧ ∀ kw, nextTok toks q = some (.k kw) → kw.assignOp = none) ∨
  ∃ kw op br ts e2, us = .k kw :: (refToks br ++ ts) ∧ kw.assignOp = some op ∧ (br = true → op = .Eq) ∧
    ExS toks 0 q ts e2 ∧ e.erase = bare (assignKind op br target.erase e2.erase)

theorem parseAssign_snd (hr : RecG toks r) (target : Expr) : Pr toks (parseAssign r target) (fun q us e =>
    AsS toks q us target e) := by
  refine PrE.intro fun p => ?_
  unfold parseAssign
  refine TgS.bind (TgS.peekTokB fun x hx => ?_)
  dsimp only
  split
  · rename_i hop
    refine TgS.pure (.inl ⟨rfl, rfl, fun kw hkw => ?_⟩)
    rw [hx] at hkw
    subst hkw
    simpa [Token.kw?] using hop
  · rename_i op hop
    obtain ⟨t, rfl, hop1⟩ := Option.bind_eq_some_iff.mp hop
    obtain ⟨kw, hkw, hop⟩ := Option.bind_eq_some_iff.mp hop1
    have ht : t = .k kw := by
      cases t <;> simp [Token.kw?] at hkw
      rw [hkw]
    subst ht
    obtain ⟨tk, h1, h2⟩ := Option.map_eq_some_iff.mp (show toks[p]?.map TokSpan.tok = some (.k kw) from hx)
    refine TgS.bind (TgS.getPosB fun _ => ?_)
    refine TgS.bind (TgS.takeB h1 ?_ (fun h => h.app (.one fun b => ?_)))
    rotate_left
    · rw [h2]
      revert hop
      cases kw <;> cases b <;> first | (intro _; rfl) | (intro h; cases h)
    rw [h2]
    have fin : ∀ br q, (br = true → op = .Eq) → TgS toks p ([] ++ [.k kw] ++ refToks br) q (do
        let e ← r.expr .None
        let stop ← lastEnd
        return .mk (assignKind op br target e) (mkSpan target.span.start stop))
        (Sg toks p fun q us e => AsS toks q us target e) Nn := by
      intro br q hbr
      refine TgS.bind (TgS.callB (hr.expr .None) (by sd_b) ?_)
      intro e q us h
      refine TgS.bind (TgS.lastEndB fun _ => ?_)
      exact TgS.pure (.inr ⟨kw, op, br, us, e, by simp, hop, hbr, h, by cases op <;> cases br <;> rfl⟩)
    refine TgS.bind ?_
    split
    · rename_i hEq
      exact TgS.eatsRefB fun br q => fin br q (fun _ => hEq)
    · exact TgS.pureB (by simpa [refToks] using fin false _ nofun)

theorem assignOp_cases {kw : Kw} {op : Op} (h : kw.assignOp = some op) :
    kw = .Equal ∧ op = .Eq ∨ op ≠ .Eq ∧ (compoundOf kw = some op ∨ kw = .AndEqual ∧ op = .And) := by
  revert h
  cases kw <;> simp [Kw.assignOp, compoundOf] <;> rintro rfl <;> simp

theorem AsS.var {q : Nat} {ts us : List Token} {target e : Expr} (ht : D .var ts target.erase) (h : AsS toks q us target e) :
    OpS toks q (ts ++ us) e := by
  rcases h with ⟨rfl, rfl, -⟩ | ⟨kw, op, br, vs, e2, rfl, hop, hbr, h, he⟩
  · exact .of fun p => by simpa using DerivesX.e_var ht
  · have := OpS.tail (e' := e) (vs := ts ++ .k kw :: refToks br) h fun us s p h => by
      rw [he]
      rcases assignOp_cases hop with ⟨rfl, rfl⟩ | ⟨hne, hk⟩
      · cases br
        · simpa [refToks, assignKind] using DerivesX.e_assign ht h
        · simpa [refToks, assignKind] using DerivesX.e_assignRef ht h
      · have hb : br = false := by
          cases br
          · rfl
          · exact absurd (hbr rfl) hne
        subst hb
        have ha : assignKind op false target.erase e2.erase = .compoundAssign target.erase op e2.erase := by
          revert hne
          cases op <;> simp [assignKind]
        rw [ha]
        rcases hk with hk | ⟨rfl, rfl⟩
        · simpa [refToks] using DerivesX.e_compound hk ht h
        · simpa [refToks] using DerivesX.x_and rfl ht h
    simpa using this

theorem AsS.list {p q : Nat} {ts us : List Token} {its : List (Option Expr × Expr)} {target e : Expr} (ht : D .items ts its)
    (hn : nextTok toks p = some (.k .Equal)) (hs : Seg toks p q us)
    (hl : target.erase = bare (.list its)) (h : AsS toks q us target e) :
    OpS toks q (.k .List :: .k .ParenthesesOpen :: (ts ++ .k .ParenthesesClose :: us)) e := by
  rcases h with ⟨rfl, rfl, h⟩ | ⟨kw, op, br, vs, e2, rfl, hop, hbr, h, he⟩
  · have := h .Equal (by rw [← hs.nil_next]; exact hn)
    simp [Kw.assignOp] at this
  · have hk : kw = .Equal := by simpa using hs.head.symm.trans hn
    subst hk
    have hE : op = .Eq := by simpa [Kw.assignOp] using hop.symm
    subst hE
    have := OpS.tail (e' := e) (vs := .k .List :: .k .ParenthesesOpen :: (ts ++ .k .ParenthesesClose :: .k .Equal :: refToks br)) h
      fun us s p h => by
        rw [he, hl]
        cases br
        · simpa [refToks, assignKind] using DerivesX.e_list ht h
        · simpa [refToks, assignKind] using DerivesX.e_listRef ht h
    simpa using this

theorem parseNonVariable_snd (hr : RecG toks r) (er : PErr) : Pr toks (parseNonVariable r er) (fun q us e => OpS toks q us e) := by
  refine PrE.intro fun p => ?_
  unfold parseNonVariable
  refine TgS.bind (TgS.eatB (fun _ => ?_) fun _ => ?_)
  · refine TgS.bind (TgS.callB hr.ex0 (by sd_b) ?_)
    rintro e q us ⟨s, h⟩
    refine TgS.bind (TgS.expectB (fun _ => ?_) (by sd_b))
    refine TgS.pure (.of fun p => ?_)
    rw [erase_kind]
    simpa using DerivesX.e_var (.v_paren h (.a_nil _ _))
  · refine TgS.bind (TgS.attemptB (parseScalar_snd hr) ?_ ?_)
    · intro e q us h
      exact TgS.pure (.of h)
    · intro _ q us _
      exact TgS.deepestUnpack _ (by sd_b)

theorem parseVariableOrScalar_snd (hr : RecG toks r) : Pr toks (parseVariableOrScalar r) (fun q us e => OpS toks q us e) := by
  refine PrE.intro fun p => ?_
  unfold parseVariableOrScalar
  refine TgS.bind (TgS.attemptSB (parseVariable_snd hr) ?_ ?_)
  · intro e q us h _
    exact TgS.callE (parseAssign_snd hr e) (by sd_b) fun _ q vs h' => AsS.var h h'
  · intro er q us hu hs
    rw [List.nil_append]
    refine TgS.bind (TgS.eatB (fun t => ?_) fun _ => ?_)
    · refine TgS.bind (TgS.callB (parseListTarget_snd hr t) (by sd_b) ?_)
      rintro target q _ ⟨hn, ts, its, rfl, ht, hl⟩
      intro h1
      refine ((parseAssign_snd hr target) q).imp ?_ ?_
      · rintro e q' ⟨vs, h2, h3⟩
        refine ⟨_, h1.trans h2, ?_⟩
        simpa using (AsS.list ht hn h2 hl h3).app hu hs.nn
      · rintro q' ⟨vs, h2, h3⟩
        exact ⟨_, h1.trans h2, (h1.trans h2).nn⟩
    · exact TgS.callE (parseNonVariable_snd hr er) (by sd_b) fun _ q vs h' => h'.app hu hs.nn

theorem parseOtherExpression_snd (hr : RecG toks r) : Pr toks (parseOtherExpression r) (fun q us e => OpS toks q us e) := by
  refine PrE.intro fun p => ?_
  unfold parseOtherExpression
  refine TgS.bind (TgS.peekB fun x hx => ?_)
  split
  · rename_i kw sp
    refine TgS.bind (TgS.getPosB fun _ => ?_)
    split
    · subst kw
      refine TgS.bind (TgS.takeB hx ?_)
      exact TgS.callE (parseNew_snd hr _) (by sd_b) fun _ _ _ h => .of h
    split
    · subst kw
      refine TgS.bind (TgS.takeB hx ?_)
      refine TgS.bind (TgS.callB (hr.expr .None) (by sd_b) ?_)
      intro e q us h
      exact TgS.pure (OpS.tail (vs := [.k .Clone]) h fun ts s p h => .e_clone h)
    split
    · subst kw
      refine TgS.bind (TgS.takeB hx ?_)
      exact TgS.callE (parseExit_snd hr _) (by sd_b) fun _ _ _ h => .of h
    split
    · subst kw
      refine TgS.bind (TgS.takeB hx ?_)
      exact TgS.callE (parseYield_snd hr _) (by sd_b) fun _ _ _ h => h
    split
    · subst kw
      refine TgS.bind (TgS.takeB hx ?_)
      exact TgS.callE (parseClosure_snd hr _) (by sd_b) fun _ _ _ h => .of h
    split
    · rename_i m hm
      refine TgS.bind (TgS.takeB hx ?_ (fun h => h.app (.one (parseInternal_closes hm))))
      exact TgS.callE (parseInternal_snd hr hm) (by sd_b) fun _ _ _ h => h
    · exact TgS.callE (parseVariableOrScalar_snd hr) (by sd_b) fun _ _ _ h => h
  · exact TgS.callE (parseVariableOrScalar_snd hr) (by sd_b) fun _ _ _ h => h

theorem OpS.close {q : Nat} {us : List Token} {e : Expr} (h : OpS toks q us e) : ∃ s, ∀ p, D (.expr p s) us e.erase := by
  obtain ⟨ts, j, s, rfl, h, hj | ⟨rfl, -⟩⟩ := h
  · exact ⟨_, fun p => wrap (h 0) hj⟩
  · exact ⟨s, by simpa using h⟩

theorem parsePostfixExpression_snd (hr : RecG toks r) : Pr toks (parsePostfixExpression r) (fun q us e => OpS toks q us e) := by
  refine PrE.intro fun p => ?_
  unfold parsePostfixExpression
  refine TgS.bind (TgS.callB (parseOtherExpression_snd hr) (by sd_b) ?_)
  intro e q us h
  rw [List.nil_append]
  refine TgS.bind (TgS.eatB (fun _ => ?_) fun _ => ?_)
  · obtain ⟨s, h⟩ := h.close
    exact TgS.pure (.of fun p => .x_postInc rfl (h _))
  refine TgS.bind (TgS.eatB (fun _ => ?_) fun _ => ?_)
  · obtain ⟨s, h⟩ := h.close
    exact TgS.pure (.of fun p => .x_postDec rfl (h _))
  · exact TgS.pure h

theorem parseOperand_snd (hr : RecG toks r) : Pr toks (parseOperand r) (fun q us e => OpS toks q us e) := by
  refine PrE.intro fun p => ?_
  unfold parseOperand
  refine TgS.bind (TgS.peekB fun x hx => ?_)
  split
  · exact TgS.errHere _ (by sd_b)
  · rename_i tok sp
    split
    · rename_i op hop
      obtain ⟨kw, hkw, hop⟩ := Option.bind_eq_some_iff.mp hop
      have ht : tok = .k kw := by
        cases tok <;> simp [Token.kw?] at hkw
        rw [hkw]
      subst ht
      refine TgS.bind (TgS.getPosB fun _ => ?_)
      refine TgS.bind (TgS.takeB hx ?_ (fun h => h.app (.one fun b => ?_)))
      rotate_left
      · revert hop
        cases kw <;> cases b <;> first | (intro _; rfl) | (intro h; cases h)
      refine TgS.bind (TgS.callB (hr.expr .Unary) (by sd_b) ?_)
      intro e q us h
      refine TgS.pure ?_
      refine OpS.prefix (vs := [.k kw]) h fun ts s p h => .e_prefix ?_ h
      rw [← hop]
      cases kw <;> rfl
    · exact TgS.callE (parsePostfixExpression_snd hr) (by sd_b) fun _ _ _ h => h

end Pico
