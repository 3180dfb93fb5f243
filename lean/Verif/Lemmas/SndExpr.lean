import Verif.Lemmas.SndName
import Verif.Lemmas.GramExpr
/-!
# Parts of expressions: what they are derived from
-/
namespace Pico
open P

variable {toks : List TokSpan}

/-- The grammar with the lax rules. -/
abbrev D : (c : Cat) → List Token → c.Tree → Prop := DerivesX true

theorem D.weaken {p q s : Nat} {ts : List Token} {e : Expr} (hq : q ≤ p) : D (.expr p s) ts e → D (.expr q s) ts e
  | .e_var h => .e_var h
  | .e_postInc h => .e_postInc h
  | .e_postDec h => .e_postDec h
  | .e_int v => .e_int v
  | .e_double l => .e_double l
  | .e_magic h => .e_magic h
  | .e_name h => .e_name h
  | .e_classConst hc hm => .e_classConst hc hm
  | .e_emptyString => .e_emptyString
  | .e_string h hp => .e_string h hp
  | .e_heredoc h hp => .e_heredoc h hp
  | .e_new h => .e_new h
  | .e_newArgs h h' => .e_newArgs h h'
  | .e_exit => .e_exit
  | .e_exitValue h => .e_exitValue h
  | .e_isset h => .e_isset h
  | .e_empty h => .e_empty h
  | .e_closure h => .e_closure h
  | .e_clone h => .e_clone h
  | .e_yield => .e_yield
  | .e_yieldValue h => .e_yieldValue h
  | .e_include hk h => .e_include hk h
  | .e_assign h h' => .e_assign h h'
  | .e_assignRef h h' => .e_assignRef h h'
  | .e_compound hk h h' => .e_compound hk h h'
  | .e_list h h' => .e_list h h'
  | .e_listRef h h' => .e_listRef h h'
  | .e_cast hk h => .e_cast hk h
  | .e_prefix hk h => .e_prefix hk h
  | .e_left hk hl hp h hs h' => .e_left hk hl (by omega) h hs h'
  | .e_pow hp h hs h' => .e_pow (by omega) h hs h'
  | .e_ternary hp h hs h' h'' => .e_ternary (by omega) h hs h' h''
  | .e_elvis hp h hs h'' => .e_elvis (by omega) h hs h''
  | .e_instance hp h hs hi h' => .e_instance (by omega) h hs hi h'
  | .x_op hl kw lv j hj h hk => .x_op hl kw lv j hj h hk
  | .x_yield hl j hj => .x_yield hl j hj
  | .x_ternary hl j hj hp h hs h'' => .x_ternary hl j hj (by omega) h hs h''
  | .x_call hl j hj ht h => .x_call hl j hj ht (D.weaken hq h)
  | .x_and hl h h' => .x_and hl h h'
  | .x_postInc hl h => .x_postInc hl h
  | .x_postDec hl h => .x_postDec hl h
  termination_by ts.length
  decreasing_by simp; omega

/-! ## The claims -/

/-- An infix operator that follows has at most level `n`. -/
def NextLe (toks : List TokSpan) (q n : Nat) : Prop :=
  ∀ kw lv, nextTok toks q = some (.k kw) → infixLevel kw = some lv → lv ≤ n

theorem infixLevel_le {kw : Kw} {lv : Nat} (h : infixLevel kw = some lv) : lv ≤ 16 := by
  revert h
  cases kw <;> simp [infixLevel] <;> omega

theorem NextLe.top (q : Nat) : NextLe toks q prefixLevel := fun _ _ _ h => Nat.le_succ_of_le (infixLevel_le h)

/-- Dropped tokens: an operator and what has been read of its right operand. -/
def Pend (j : List Token) : Prop := ∃ kw lv j', j = .k kw :: j' ∧ infixLevel kw = some lv ∧ Nn j'

theorem Pend.app {j : List Token} (h : Pend j) {us : List Token} (hu : Nn us) : Pend (j ++ us) := by
  obtain ⟨kw, lv, j', rfl, h, hj⟩ := h
  exact ⟨kw, lv, j' ++ us, rfl, h, hj.app hu⟩

theorem Pend.of {kw : Kw} {lv : Nat} {us : List Token} (hl : infixLevel kw = some lv) (h : Nn (.k kw :: us)) : Pend (.k kw :: us) := by
  refine ⟨kw, lv, us, rfl, hl, fun b => ?_⟩
  have := h b
  simp only [Bracket.low, Bracket.w, closes_infix hl b, Bool.false_eq_true, if_false] at this
  omega

theorem Pend.nn {j : List Token} (h : Pend j) : Nn j := by
  obtain ⟨kw, lv, j', rfl, h, hj⟩ := h
  nn

/-- An operand. -/
def OpS (toks : List TokSpan) (q : Nat) (us : List Token) (e : Expr) : Prop :=
  ∃ ts j s, us = ts ++ j ∧ (∀ p, D (.expr p s) ts e.erase) ∧ (Pend j ∨ j = [] ∧ NextLe toks q s)

/-- An expression of level `P`. -/
def ExS (toks : List TokSpan) (P q : Nat) (us : List Token) (e : Expr) : Prop :=
  ∃ ts j s, us = ts ++ j ∧ D (.expr P s) ts e.erase ∧ (Pend j ∨ j = [] ∧ NextLe toks q P ∧ NextLe toks q s)

theorem wrap {p P s : Nat} {ts j : List Token} {e : Expr} (h : D (.expr P s) ts e) (hj : Pend j) :
    D (.expr p prefixLevel) (ts ++ j) e := by
  obtain ⟨kw, lv, j', rfl, hk, hn⟩ := hj
  exact .x_op rfl kw lv j' hn.noStray (h.weaken (Nat.zero_le _)) hk

theorem ExS.close {P q : Nat} {us : List Token} {e : Expr} (h : ExS toks P q us e) : ∃ s, D (.expr P s) us e.erase := by
  obtain ⟨ts, j, s, rfl, h, hj | ⟨rfl, -⟩⟩ := h
  · exact ⟨_, wrap h hj⟩
  · exact ⟨s, by simpa using h⟩

theorem ExS.nn {P q : Nat} {us : List Token} {e : Expr} (h : ExS toks P q us e) : Nn us := by
  obtain ⟨s, h⟩ := h.close
  exact derives_nn h

theorem OpS.nn {q : Nat} {us : List Token} {e : Expr} (h : OpS toks q us e) : Nn us := by
  obtain ⟨ts, j, s, rfl, h, hj⟩ := h
  refine (derives_nn (h 0)).app ?_
  rcases hj with hj | ⟨rfl, -⟩
  · exact hj.nn
  · exact .nil

theorem OpS.of {q : Nat} {us : List Token} {e : Expr} (h : ∀ p, D (.expr p prefixLevel) us e.erase) : OpS toks q us e :=
  ⟨us, [], _, by simp, h, .inr ⟨rfl, NextLe.top q⟩⟩

/-- An operand with an expression of level 0 at its end. -/
theorem OpS.tail {q : Nat} {us vs : List Token} {e e' : Expr} (h : ExS toks 0 q us e)
    (hD : ∀ ts s p, D (.expr 0 s) ts e.erase → D (.expr p 0) (vs ++ ts) e'.erase) : OpS toks q (vs ++ us) e' := by
  obtain ⟨ts, j, s, rfl, h, hj⟩ := h
  exact ⟨vs ++ ts, j, 0, by simp, fun p => hD ts s p h, hj.imp id fun ⟨h1, h2, _⟩ => ⟨h1, h2⟩⟩

/-- A statement. -/
def StS (toks : List TokSpan) (q : Nat) (us : List Token) (s : Stmt) : Prop :=
  ∃ o, D (.stmt o) us s.erase ∧
    (o = true → nextTok toks q ≠ some (.k .Else) ∧ nextTok toks q ≠ some (.k .ElseIf))

/-- The two recursive methods. -/
structure RecG (toks : List TokSpan) (r : Rec) : Prop where
  expr : ∀ prec, Pr toks (r.expr prec) (ExS toks prec.toNat)
  stmt : Pr toks r.stmt (StS toks)

variable {r : Rec}

/-- An expression of level 0. -/
def Ex0 (us : List Token) (e : Expr) : Prop := ∃ s, D (.expr 0 s) us e.erase

theorem Ex0.nn {us : List Token} {e : Expr} (h : Ex0 us e) : Nn us := by
  obtain ⟨s, h⟩ := h
  exact derives_nn h

theorem StS.nn {q : Nat} {us : List Token} {s : Stmt} (h : StS toks q us s) : Nn us := by
  obtain ⟨s, h, -⟩ := h
  exact derives_nn h

theorem RecG.ex0 (hr : RecG toks r) : Pr toks (r.expr .None) (fun _ us e => Ex0 us e) :=
  (hr.expr .None).weaken (fun _ _ _ h => h.close) (fun _ h => h)

macro_rules | `(tactic| sd_call) => `(tactic| exact RecG.ex0 ‹_›)
macro_rules | `(tactic| sd_call) => `(tactic| exact parseSimpleVariableExpr_snd)

/-! ## Lists -/

theorem parseOptExpression_snd (hr : RecG toks r) (prec : Prec) :
    PrE toks (parseOptExpression r prec) (fun q us o => match o with
      | some e => ExS toks prec.toNat q us e
      | none => Nn us) (fun _ => False) := by
  refine PrE.intro fun p => ?_
  unfold parseOptExpression
  refine TgS.bind (TgS.attemptB (hr.expr prec) ?_ ?_)
  · intro e q us h
    exact TgS.pure h
  · intro _ q us h
    exact TgS.pure h

theorem parseOpt0_snd (hr : RecG toks r) :
    PrE toks (parseOptExpression r .None) (fun _ us o => D .opt us (eraseOpt o)) (fun _ => False) := by
  refine (parseOptExpression_snd hr .None).weaken ?_ (fun _ h => h)
  rintro q us (_ | e) h
  · exact .x_opt rfl us h.noStray
  · obtain ⟨s, h⟩ := ExS.close h
    exact .o_some h

macro_rules | `(tactic| sd_call) => `(tactic| exact parseOpt0_snd ‹_›)

theorem parseExpressionList_snd (hr : RecG toks r) :
    Pr toks (parseExpressionList r) (fun _ us es => D .exprs us (eraseExprs es)) := by
  refine PrE.intro fun p => ?_
  unfold parseExpressionList
  refine TgS.loop (fun _ us es => ∀ vs ys, D .exprs vs ys → D .exprs (us ++ vs) (eraseExprs es ++ ys)) (fun _ _ h => h) ?_
  intro es ts q hI
  refine TgS.bind (TgS.callB hr.ex0 (by sd_b) ?_)
  rintro e q us ⟨s, h⟩
  sd
  · intro vs ys h'
    simpa [eraseExprs_append, eraseExprs] using hI _ _ (.exprs_cons h h')
  · simpa [eraseExprs_append, eraseExprs] using hI _ _ (.exprs_one h)

macro_rules | `(tactic| sd_call) => `(tactic| exact parseExpressionList_snd ‹_›)

theorem parseArgumentList_snd (hr : RecG toks r) :
    Pr toks (parseArgumentList r) (fun _ us es => D .args us (eraseExprs es)) := by
  refine PrE.intro fun p => ?_
  unfold parseArgumentList
  refine TgS.bind (TgS.expectB (fun _ => ?_) (by sd_b))
  refine TgS.bind (TgS.eatsB ?_ fun _ => ?_)
  · sd
    exact .args_nil
  refine TgS.bind (TgS.callB (A := fun _ us es => D .argl us (eraseExprs es)) (B' := fun _ => True) ?_ (by sd_b) ?_)
  · refine PrE.intro fun p => ?_
    refine TgS.loop (fun _ us es => ∀ vs ys, D .argl vs ys → D .argl (us ++ vs) (eraseExprs es ++ ys)) (fun _ _ h => h) ?_
    intro es ts q hI
    refine TgS.bind (TgS.eatB (fun t => ?_) fun _ => ?_)
    · refine TgS.bind (TgS.callB hr.ex0 (by sd_b) ?_)
      rintro e q us ⟨s, h⟩
      sd
      · intro vs ys h'
        simpa [eraseExprs_append, eraseExprs, Expr.erase, ExprK.erase] using hI _ _ (.argl_cons_unpack h h')
      · simpa [eraseExprs_append, eraseExprs, Expr.erase, ExprK.erase] using hI _ _ (.argl_unpack h)
    · refine TgS.bind (TgS.callB hr.ex0 (by sd_b) ?_)
      rintro e q us ⟨s, h⟩
      sd
      · intro vs ys h'
        simpa [eraseExprs_append, eraseExprs] using hI _ _ (.argl_cons h h')
      · simpa [eraseExprs_append, eraseExprs] using hI _ _ (.argl_one h)
  · intro es q us h
    sd
    exact .args_some h

macro_rules | `(tactic| sd_call) => `(tactic| exact parseArgumentList_snd ‹_›)

theorem parsePropertyName_snd (hr : RecG toks r) :
    Pr toks (parsePropertyName r) (fun _ us e => D .prop us e.erase) := by
  refine PrE.intro fun p => ?_
  unfold parsePropertyName
  refine TgS.bind (TgS.getPosB fun hs => ?_)
  refine TgS.bind (TgS.attemptB parseSimpleVariableExpr_snd ?_ ?_)
  · rintro e q us ⟨n, rfl, h⟩
    refine TgS.pure ?_
    rw [h]
    exact .p_var n
  · rintro _ q us rfl
    refine TgS.bind (TgS.backB hs ?_)
    refine TgS.bind (TgS.eatStringB (fun s sp => ?_) fun _ => ?_)
    · exact TgS.pure (.p_word s)
    · refine TgS.bind (TgS.eatB (fun t => ?_) fun _ => ?_)
      · refine TgS.bind (TgS.callB hr.ex0 (by sd_b) ?_)
        rintro e q us ⟨s, h⟩
        sd
        exact .p_expr h
      · exact TgS.errHere _ id

macro_rules | `(tactic| sd_call) => `(tactic| exact parsePropertyName_snd ‹_›)

theorem parseArrayPairList_snd (hr : RecG toks r) :
    Pr toks (parseArrayPairList r) (fun _ us es => D .items us (eraseItems es)) := by
  refine PrE.intro fun p => ?_
  unfold parseArrayPairList
  refine TgS.loop (fun _ us es => ∀ vs ys, D .items vs ys → D .items (us ++ vs) (eraseItems es ++ ys)) (fun _ _ h => h) ?_
  intro es ts q hI
  refine TgS.bind (TgS.attemptB hr.ex0 ?_ ?_)
  · rintro e q us ⟨s, h⟩
    dsimp only
    refine TgS.bind (TgS.bind (TgS.eatsB ?_ fun _ => ?_))
    · refine TgS.bind (TgS.callB hr.ex0 (by sd_b) ?_)
      rintro e' q us ⟨s', h'⟩
      sd
      · intro vs ys h''
        simpa [eraseItems_append, eraseItems, eraseOpt] using hI _ _ (.items_cons_key h h' h'')
      · simpa [eraseItems_append, eraseItems, eraseOpt] using hI _ _ (.items_key h h')
    · sd
      · intro vs ys h''
        simpa [eraseItems_append, eraseItems, eraseOpt] using hI _ _ (.items_cons h h'')
      · simpa [eraseItems_append, eraseItems, eraseOpt] using hI _ _ (.items_one h)
  · intro _ q us h
    refine TgS.pure ?_
    simpa using hI _ _ (.x_items rfl us h.noStray)

macro_rules | `(tactic| sd_call) => `(tactic| exact parseArrayPairList_snd ‹_›)

end Pico
