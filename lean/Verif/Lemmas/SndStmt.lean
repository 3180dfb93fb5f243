import Verif.Lemmas.SndBin
import Verif.Lemmas.GramStmt
import Verif.Lemmas.ParserRelStmt
/-!
# Statements: what they are derived from
-/
namespace Pico
open P

variable {toks : List TokSpan} {r : Rec}

/-- Neither `else` nor `elseif` follows. -/
def NoElse (toks : List TokSpan) (q : Nat) : Prop :=
  nextTok toks q ≠ some (.k .Else) ∧ nextTok toks q ≠ some (.k .ElseIf)

theorem TgS.eatB' {β : Type} {p0 p : Nat} {ts : List Token} {B : List Token → Prop} {kw : Kw} {f : Option TokSpan → P β}
    {Q : β → Nat → Prop} (h : ∀ t, nextTok toks p = some (.k kw) → TgS toks p0 (ts ++ [.k kw]) (p + 1) (f (some t)) Q B)
    (hn : nextTok toks p ≠ some (.k kw) → TgS toks p0 ts p (f none) Q B) (hc : Nn ts → Nn (ts ++ [.k kw]) := by nn_tok) :
    TgS toks p0 ts p (eat kw) (Ct toks p0 B f Q) B := by
  intro h1
  unfold GoS eat
  unfold nextTok at h hn
  cases hx : toks[p]? with
  | none => exact hn (by simp [hx]) h1
  | some t =>
    dsimp only
    by_cases ht : t.tok = .k kw
    · rw [if_pos ht]
      exact h t (by simp [hx, ht]) (ht ▸ h1.tok hx (ht ▸ hc h1.nn))
    · rw [if_neg ht]
      exact hn (by simp [hx, ht]) h1

theorem StS.of {q : Nat} {us : List Token} {s : Stmt} (h : D (.stmt false) us s.erase) : StS toks q us s := ⟨false, h, nofun⟩

/-- The body of a statement. -/
def BoS (toks : List TokSpan) (q : Nat) (us : List Token) (b : List Stmt) : Prop :=
  ∃ o, D (.body o) us (eraseStmts b) ∧ (o = true → NoElse toks q)

theorem bodyBlock_snd {o : Bool} {us : List Token} {s : Stmt} (h : D (.stmt o) us s) (b : List Stmt) (hs : s = bareS (.block b)) :
    D (.body o) us b := by
  cases h <;> first | (cases hs; done) | skip
  case s_block b' h =>
    cases hs
    exact .b_block h
  case x_class => rename_i hb; subst hs; cases hb

theorem parseStatementExtractBlock_snd (hr : RecG toks r) : Pr toks (parseStatementExtractBlock r)
    (fun q us x => BoS toks q us x.1) := by
  refine PrE.intro fun p => ?_
  unfold parseStatementExtractBlock
  refine TgS.bind (TgS.callB hr.stmt (by sd_b) ?_)
  rintro ⟨k, sp⟩ q us ⟨o, h, hn⟩
  split
  · rename_i b sp' he
    cases he
    exact TgS.pure ⟨o, bodyBlock_snd h _ rfl, hn⟩
  · rename_i k' sp' hne he
    cases he
    refine TgS.pure ⟨o, .b_stmt h ?_, hn⟩
    cases k <;> first | rfl | exact (hne _ rfl).elim

theorem parseParenExpr_snd (hr : RecG toks r) : Pr toks (parseParenExpr r)
    (fun _ us e => ∃ cs s, us = .k .ParenthesesOpen :: (cs ++ [.k .ParenthesesClose]) ∧ D (.expr 0 s) cs e.erase) := by
  refine PrE.intro fun p => ?_
  unfold parseParenExpr
  refine TgS.bind (TgS.expectB (fun _ => ?_) (by sd_b))
  refine TgS.bind (TgS.callB hr.ex0 (by sd_b) ?_)
  rintro e q us ⟨s, h⟩
  refine TgS.bind (TgS.expectB (fun _ => ?_) (by sd_b))
  exact TgS.pure ⟨us, s, by simp, h⟩

theorem parseForeachVariable_snd (hr : RecG toks r) : Pr toks (parseForeachVariable r) (fun _ us e => D .fvar us e.erase) := by
  refine PrE.intro fun p => ?_
  unfold parseForeachVariable
  refine TgS.bind (TgS.eatsB ?_ fun _ => ?_)
  · refine TgS.bind (TgS.callB (parseVariable_snd hr) (by sd_b) ?_)
    intro e q us h
    rw [if_pos rfl]
    refine TgS.bind (TgS.subPB fun _ => ?_)
    exact TgS.pure (.x_ref rfl h)
  · refine TgS.bind (TgS.callB (parseVariable_snd hr) (by sd_b) ?_)
    intro e q us h
    rw [if_neg Bool.false_ne_true]
    exact TgS.pure (.fv_plain h)

/-- `= expression` or nothing. -/
theorem dflt_snd (hr : RecG toks r) : Pr toks (do
      if ← eats .Equal then
        let e ← r.expr .None
        return some e
      else return none) (fun _ us d => D .dflt us (eraseOpt d)) := by
  refine PrE.intro fun p => ?_
  refine TgS.bind (TgS.eatsB ?_ fun _ => ?_)
  · rw [if_pos rfl]
    refine TgS.bind (TgS.callB hr.ex0 (by sd_b) ?_)
    rintro e q us ⟨s, h⟩
    exact TgS.pure (.dflt_some h)
  · rw [if_neg Bool.false_ne_true]
    exact TgS.pure .dflt_none

theorem parseStaticVarDecl_snd (hr : RecG toks r) (sp : Span) : Pr toks (parseStaticVarDecl r sp)
    (fun _ us s => D (.stmt false) (.k .Static :: us) s.erase) := by
  refine PrE.intro fun p => ?_
  unfold parseStaticVarDecl
  refine TgS.bind (TgS.callB (A := fun _ us vs => D .vars us (eraseStaticVars vs)) (B' := Nn) ?_ (by sd_b) ?_)
  · refine PrE.intro fun p => ?_
    refine TgS.loop (fun _ us ss => ∀ vs ys, D .vars vs ys → D .vars (us ++ vs) (eraseStaticVars ss ++ ys)) (fun _ _ h => h) ?_
    intro ss ts q hI
    refine TgS.bind (TgS.expectVariableB (fun n sp => ?_) (by sd_b))
    refine TgS.bind (TgS.callB (dflt_snd hr) (by sd_b) ?_)
    intro d q us hd
    refine TgS.bind (TgS.eatsB ?_ fun _ => ?_)
    · refine TgS.pure fun vs ys h => ?_
      simpa [eraseStaticVars_append, eraseStaticVars] using hI _ _ (.vars_cons n hd h)
    · refine TgS.pure ?_
      simpa [eraseStaticVars_append, eraseStaticVars] using hI _ _ (.vars_one n hd)
  · intro vs q us h
    refine TgS.bind (TgS.expectB (fun _ => ?_) (by sd_b))
    refine TgS.bind (TgS.lastEndB fun _ => ?_)
    exact TgS.pure (.s_static h)

theorem parseGlobalVarDecl_snd (sp : Span) : Pr toks (parseGlobalVarDecl sp)
    (fun _ us s => D (.stmt false) (.k .Global :: us) s.erase) := by
  refine PrE.intro fun p => ?_
  unfold parseGlobalVarDecl
  refine TgS.bind (TgS.callB (A := fun _ us vs => GlobalList us vs) (B' := Nn) ?_ (by sd_b) ?_)
  · refine PrE.intro fun p => ?_
    refine TgS.loop (fun _ us ss => ∀ vs ys, GlobalList vs ys → GlobalList (us ++ vs) (ss ++ ys)) (fun _ _ h => h) ?_
    intro ss ts q hI
    refine TgS.bind (TgS.callB parseSimpleVariable_snd (by sd_b) ?_)
    rintro ⟨v, sp⟩ q us ⟨n, rfl, h⟩
    have h : v = .name n := h
    subst h
    refine TgS.bind (TgS.eatsB ?_ fun _ => ?_)
    · refine TgS.pure fun vs ys h => ?_
      simpa using hI _ _ (.cons n h)
    · refine TgS.pure ?_
      simpa using hI _ _ (.one n)
  · intro vs q us h
    refine TgS.bind (TgS.expectB (fun _ => ?_) (by sd_b))
    refine TgS.bind (TgS.lastEndB fun _ => ?_)
    refine TgS.pure ?_
    show D (.stmt false) _ (bareS (.decl (.globalVars (eraseVariables vs))))
    rw [erase_globals h]
    exact .s_global h

theorem parseCatches_snd (hr : RecG toks r) : Pr toks (parseCatches r) (fun _ us cs => D .catches us (eraseCatches cs)) := by
  refine PrE.intro fun p => ?_
  unfold parseCatches
  refine TgS.loop (fun _ us ss => ∀ vs ys, D .catches vs ys → D .catches (us ++ vs) (eraseCatches ss ++ ys)) (fun _ _ h => h) ?_
  intro ss ts q hI
  refine TgS.bind (TgS.eatsB ?_ fun _ => ?_)
  · rw [if_pos rfl]
    refine TgS.bind (TgS.expectB (fun _ => ?_) (by sd_b))
    refine TgS.bind (TgS.callB parseName_snd (by sd_b) ?_)
    rintro ⟨ty, sp⟩ q us ⟨abs, ns, id, rfl, h⟩
    have h : ty = qualPath abs ns id := h
    subst h
    refine TgS.bind (TgS.expectVariableB (fun n sp => ?_) (by sd_b))
    refine TgS.bind (TgS.expectB (fun _ => ?_) (by sd_b))
    refine TgS.bind (TgS.callB (parseBraced_snd hr) (by sd_b) ?_)
    rintro b q _ ⟨bs, rfl, hb⟩
    refine TgS.pure fun vs ys h => ?_
    simpa [eraseCatches_append, eraseCatches, Catch.erase] using hI _ _ (.catches_cons abs ns id n hb h)
  · rw [if_neg Bool.false_ne_true]
    refine TgS.pure ?_
    simpa using hI _ _ .catches_nil

theorem parseTry_snd (hr : RecG toks r) (t : TokSpan) : Pr toks (parseTry r t)
    (fun _ us s => D (.stmt false) (.k .Try :: us) s.erase) := by
  refine PrE.intro fun p => ?_
  unfold parseTry
  refine TgS.bind (TgS.callB (parseBraced_snd hr) (by sd_b) ?_)
  rintro b q _ ⟨bs, rfl, hb⟩
  refine TgS.bind (TgS.callB (parseCatches_snd hr) (by sd_b) ?_)
  intro cs q cts hc
  refine TgS.bind (TgS.callB (A := fun _ us f => D .fin us (eraseBody f)) (B' := Nn) ?_ (by sd_b) ?_)
  · refine PrE.intro fun p => ?_
    refine TgS.bind (TgS.eatsB ?_ fun _ => ?_)
    · rw [if_pos rfl]
      refine TgS.bind (TgS.callB (parseBraced_snd hr) (by sd_b) ?_)
      rintro b q _ ⟨bs, rfl, hb⟩
      exact TgS.pure (.fin_some hb)
    · rw [if_neg Bool.false_ne_true]
      exact TgS.pure .fin_none
  · intro f q fts hf
    refine TgS.bind (TgS.lastEndB fun _ => ?_)
    refine TgS.pure ?_
    show D (.stmt false) _ (bareS (.try (eraseStmts b) (eraseCatches cs) (eraseBody f)))
    simpa using DerivesX.s_try hb hc hf

theorem parseUnset_snd (hr : RecG toks r) (t : TokSpan) : Pr toks (parseUnset r t)
    (fun _ us s => D (.stmt false) (.k .Unset :: us) s.erase) := by
  refine PrE.intro fun p => ?_
  unfold parseUnset
  refine TgS.bind (TgS.expectB (fun _ => ?_) (by sd_b))
  refine TgS.bind (TgS.callB (A := fun _ us vs => D .varl us (eraseExprs vs)) (B' := Nn) ?_ (by sd_b) ?_)
  · refine PrE.intro fun p => ?_
    refine TgS.loop (fun _ us ss => ∀ vs ys, D .varl vs ys → D .varl (us ++ vs) (eraseExprs ss ++ ys)) (fun _ _ h => h) ?_
    intro ss ts q hI
    refine TgS.bind (TgS.callB (parseVariable_snd hr) (by sd_b) ?_)
    intro v q us hv
    refine TgS.bind (TgS.eatsB ?_ fun _ => ?_)
    · refine TgS.pure fun vs ys h => ?_
      simpa [eraseExprs_append, eraseExprs] using hI _ _ (.varl_cons hv h)
    · refine TgS.pure ?_
      simpa [eraseExprs_append, eraseExprs] using hI _ _ (.varl_one hv)
  · intro vs q us h
    refine TgS.bind (TgS.expectB (fun _ => ?_) (by sd_b))
    refine TgS.bind (TgS.expectB (fun _ => ?_) (by sd_b))
    refine TgS.pure ?_
    show D (.stmt false) _ (bareS (.unset (eraseExprs vs)))
    simpa using DerivesX.s_unset h

theorem parseForeach_snd (hr : RecG toks r) (t : TokSpan) : Pr toks (parseForeach r t)
    (fun q us s => StS toks q (.k .Foreach :: us) s) := by
  refine PrE.intro fun p => ?_
  unfold parseForeach
  refine TgS.bind (TgS.expectB (fun _ => ?_) (by sd_b))
  refine TgS.bind (TgS.callB hr.ex0 (by sd_b) ?_)
  rintro e q cs ⟨s, h⟩
  refine TgS.bind (TgS.expectB (fun _ => ?_) (by sd_b))
  refine TgS.bind (TgS.callB (parseForeachVariable_snd hr) (by sd_b) ?_)
  intro kv q ks hk
  refine TgS.bind (TgS.bind (TgS.eatsB ?_ fun _ => ?_))
  · rw [if_pos rfl]
    refine TgS.bind (TgS.callB (parseForeachVariable_snd hr) (by sd_b) ?_)
    intro v q vs hv
    refine TgS.pureB ?_
    dsimp only
    refine TgS.bind (TgS.expectB (fun _ => ?_) (by sd_b))
    refine TgS.bind (TgS.callB (parseStatementExtractBlock_snd hr) (by sd_b) ?_)
    rintro ⟨b, bsp⟩ q bs ⟨o, hb, hn⟩
    refine TgS.pure ⟨o, ?_, hn⟩
    show D (.stmt o) _ (bareS (.forEach e.erase (some kv.erase) v.erase (eraseStmts b)))
    simpa using DerivesX.s_foreachKey h hk hv hb
  · rw [if_neg Bool.false_ne_true]
    refine TgS.pureB ?_
    dsimp only
    refine TgS.bind (TgS.expectB (fun _ => ?_) (by sd_b))
    refine TgS.bind (TgS.callB (parseStatementExtractBlock_snd hr) (by sd_b) ?_)
    rintro ⟨b, bsp⟩ q bs ⟨o, hb, hn⟩
    refine TgS.pure ⟨o, ?_, hn⟩
    show D (.stmt o) _ (bareS (.forEach e.erase none kv.erase (eraseStmts b)))
    simpa using DerivesX.s_foreach h hk hb

theorem parseFor_snd (hr : RecG toks r) (t : TokSpan) : Pr toks (parseFor r t)
    (fun q us s => StS toks q (.k .For :: us) s) := by
  refine PrE.intro fun p => ?_
  unfold parseFor
  refine TgS.bind (TgS.expectB (fun _ => ?_) (by sd_b))
  refine TgS.bind (TgS.callB (parseOpt0_snd hr) (by sd_b) ?_)
  intro i q is hi
  refine TgS.bind (TgS.expectB (fun _ => ?_) (by sd_b))
  refine TgS.bind (TgS.callB (parseOpt0_snd hr) (by sd_b) ?_)
  intro c q cs hc
  refine TgS.bind (TgS.expectB (fun _ => ?_) (by sd_b))
  refine TgS.bind (TgS.callB (parseOpt0_snd hr) (by sd_b) ?_)
  intro l q ls hl
  refine TgS.bind (TgS.expectB (fun _ => ?_) (by sd_b))
  refine TgS.bind (TgS.callB (parseStatementExtractBlock_snd hr) (by sd_b) ?_)
  rintro ⟨b, bsp⟩ q bs ⟨o, hb, hn⟩
  refine TgS.pure ⟨o, ?_, hn⟩
  show D (.stmt o) _ (bareS (.for (eraseOpt i) (eraseOpt c) (eraseOpt l) (eraseStmts b)))
  simpa using DerivesX.s_for hi hc hl hb

theorem parseDo_snd (hr : RecG toks r) (t : TokSpan) : Pr toks (parseDo r t)
    (fun _ us s => D (.stmt false) (.k .Do :: us) s.erase) := by
  refine PrE.intro fun p => ?_
  unfold parseDo
  refine TgS.bind (TgS.callB (parseStatementExtractBlock_snd hr) (by sd_b) ?_)
  rintro ⟨b, bsp⟩ q bs ⟨o, hb, hn⟩
  refine TgS.bind (TgS.expectB (fun _ => ?_) (by sd_b))
  refine TgS.bind (TgS.callB (parseParenExpr_snd hr) (by sd_b) ?_)
  rintro c q _ ⟨cs, s, rfl, hc⟩
  refine TgS.bind (TgS.expectB (fun _ => ?_) (by sd_b))
  refine TgS.pure ?_
  show D (.stmt false) _ (bareS (.doWhile (eraseStmts b) c.erase))
  simpa using DerivesX.s_do hb hc

theorem parseWhile_snd (hr : RecG toks r) (t : TokSpan) : Pr toks (parseWhile r t)
    (fun q us s => StS toks q (.k .While :: us) s) := by
  refine PrE.intro fun p => ?_
  unfold parseWhile
  refine TgS.bind (TgS.callB (parseParenExpr_snd hr) (by sd_b) ?_)
  rintro c q _ ⟨cs, s, rfl, hc⟩
  refine TgS.bind (TgS.callB (parseStatementExtractBlock_snd hr) (by sd_b) ?_)
  rintro ⟨b, bsp⟩ q bs ⟨o, hb, hn⟩
  refine TgS.pure ⟨o, ?_, hn⟩
  show D (.stmt o) _ (bareS (.while c.erase (eraseStmts b)))
  simpa using DerivesX.s_while hc hb

/-- Behind the opening brace. -/
theorem parseBlock_snd (hr : RecG toks r) (t : TokSpan) (p : Nat) :
    TgS toks p [.k .CurlyBracesOpen] (p + 1) (parseBlock r t) (Sg toks p fun _ us s => D (.stmt false) us s.erase) Nn := by
  unfold parseBlock
  refine TgS.bind (TgS.callB (parseInnerStatementList_snd hr) (by sd_b) ?_)
  rintro ⟨b, e⟩ q us h
  refine TgS.bind (TgS.expectOrB (fun _ => ?_) (by sd_b))
  exact TgS.pure (.s_block h)

/-! ## `switch` -/

theorem casesOf_some (pend : List Expr) (e : Expr) (b : List Stmt) (cl : List (Option Expr × List Stmt)) (hb : b ≠ []) :
    casesOf pend false ((some e, b) :: cl) = .mk (pend ++ [e]) false b :: casesOf [] false cl := by
  cases b with
  | nil => exact absurd rfl hb
  | cons _ _ => rfl

theorem casesOf_none (pend : List Expr) (b : List Stmt) (cl : List (Option Expr × List Stmt)) (hb : b ≠ []) :
    casesOf pend false ((none, b) :: cl) = .mk pend true b :: casesOf [] false cl := by
  cases b with
  | nil => exact absurd rfl hb
  | cons _ _ => rfl

/-- The clauses so far. -/
def SwS (us : List Token) (st : List Case × List Expr) : Prop :=
  ∀ vs cl, D .clauses vs cl → ∃ cl', D .clauses (us ++ vs) cl' ∧
    casesOf [] false cl' = eraseCases st.1 ++ casesOf (eraseExprs st.2) false cl

theorem parseCaseHead_snd (hr : RecG toks r) : Pr toks (parseCaseHead r) (fun _ us o => match o with
    | some (some e) => ∃ ts s, us = .k .Case :: ts ∧ D (.expr 0 s) ts e.erase
    | some none => us = [.k .Default]
    | none => us = []) := by
  refine PrE.intro fun p => ?_
  unfold parseCaseHead
  refine TgS.bind (TgS.eatsB ?_ fun _ => ?_)
  · rw [if_pos rfl]
    refine TgS.bind (TgS.callB hr.ex0 (by sd_b) ?_)
    rintro e q us ⟨s, h⟩
    exact TgS.pure ⟨us, s, rfl, h⟩
  · rw [if_neg Bool.false_ne_true]
    refine TgS.bind (TgS.eatsB ?_ fun _ => ?_)
    · exact TgS.pure rfl
    · exact TgS.pure rfl

theorem sep_snd : Pr toks (do if ← eats .Colon then return true else eats .SemiColon) (fun _ us b =>
    b = true → ∃ c : Bool, us = [.k (if c then .Colon else .SemiColon)]) := by
  refine PrE.intro fun p => ?_
  refine TgS.bind (TgS.eatsB ?_ fun _ => ?_)
  · rw [if_pos rfl]
    exact TgS.pure fun _ => ⟨true, rfl⟩
  · rw [if_neg Bool.false_ne_true]
    unfold eats
    refine TgS.bind (TgS.eatB (fun _ => ?_) fun _ => ?_)
    · exact TgS.pure fun _ => ⟨false, rfl⟩
    · exact TgS.pure (fun h => by cases h)

theorem switchLoop_snd (hr : RecG toks r) : Pr toks (loop (switchStep r) ([], [])) (fun _ us st => SwS us st) := by
  refine PrE.intro fun p => ?_
  refine TgS.loop (fun _ us st => SwS us st) (fun vs cl h => ⟨cl, h, rfl⟩) ?_
  rintro ⟨cases, conds⟩ ts q hI
  unfold switchStep
  refine TgS.bind (TgS.callB (parseCaseHead_snd hr) (by sd_b) ?_)
  intro ce q us hce
  cases ce with
  | none =>
    have hce : us = [] := hce
    subst hce
    exact TgS.pure (by simpa using hI)
  | some ce =>
    dsimp only
    refine TgS.bind (TgS.callB sep_snd (by sd_b) ?_)
    intro sep q ss hs
    cases sep with
    | false => exact TgS.errHere _ (by sd_b)
    | true =>
      obtain ⟨col, rfl⟩ := hs rfl
      rw [if_neg (show ¬ (!true) = true by decide)]
      refine TgS.bind (TgS.callB (parseInnerStatementList_snd hr) (by sd_b) ?_)
      rintro ⟨b, err⟩ q bs hb
      dsimp only at hb ⊢
      have hE : ∀ b : List Stmt, b ≠ [] → eraseStmts b ≠ [] := by
        intro b hb
        cases b with
        | nil => exact absurd rfl hb
        | cons _ _ => simp [eraseStmts]
      cases ce with
      | some e =>
        obtain ⟨es, s, rfl, he⟩ := hce
        by_cases hbe : b = []
        · subst hbe
          rw [if_pos (show ([] : List Stmt).isEmpty = true from rfl)]
          refine TgS.pure fun vs cl h => ?_
          obtain ⟨cl', h1, h2⟩ := hI _ _ (.clauses_case col he hb h)
          refine ⟨cl', by simpa using h1, ?_⟩
          rw [h2]
          simp [eraseStmts, casesOf, eraseExprs_append, eraseExprs]
        · rw [if_neg (show ¬ b.isEmpty = true by simpa using hbe)]
          refine TgS.pure fun vs cl h => ?_
          obtain ⟨cl', h1, h2⟩ := hI _ _ (.clauses_case col he hb h)
          refine ⟨cl', by simpa using h1, ?_⟩
          rw [h2, casesOf_some _ _ _ _ (hE b hbe)]
          simp [eraseCases_append, eraseCases, Case.erase, eraseExprs_append, eraseExprs]
      | none =>
        have hce : us = [.k .Default] := hce
        subst hce
        by_cases hbe : b = []
        · subst hbe
          rw [if_pos (show ([] : List Stmt).isEmpty = true from rfl)]
          refine TgS.pure fun vs cl h => ?_
          obtain ⟨cl', h1, h2⟩ := hI _ _ (.x_default rfl col hb h)
          refine ⟨cl', by simpa using h1, ?_⟩
          rw [h2]
        · rw [if_neg (show ¬ b.isEmpty = true by simpa using hbe)]
          refine TgS.pure fun vs cl h => ?_
          obtain ⟨cl', h1, h2⟩ := hI _ _ (.clauses_default col hb (hE b hbe) h)
          refine ⟨cl', by simpa using h1, ?_⟩
          rw [h2, casesOf_none _ _ _ (hE b hbe)]
          simp [eraseCases_append, eraseCases, Case.erase, eraseExprs]

theorem parseSwitch_snd (hr : RecG toks r) (t : TokSpan) : Pr toks (parseSwitch r t)
    (fun _ us s => D (.stmt false) (.k .Switch :: us) s.erase) := by
  refine PrE.intro fun p => ?_
  unfold parseSwitch
  refine TgS.bind (TgS.expectB (fun _ => ?_) (by sd_b))
  refine TgS.bind (TgS.callB hr.ex0 (by sd_b) ?_)
  rintro e q es ⟨s, he⟩
  refine TgS.bind (TgS.expectB (fun _ => ?_) (by sd_b))
  refine TgS.bind (TgS.expectB (fun _ => ?_) (by sd_b))
  refine TgS.bind (TgS.callB (switchLoop_snd hr) (by sd_b) ?_)
  rintro ⟨cases, conds⟩ q us h
  obtain ⟨cl, h1, h2⟩ := h _ _ .clauses_nil
  rw [List.append_nil] at h1
  dsimp only
  refine TgS.bind (TgS.expectB (fun _ => ?_) (by sd_b))
  refine TgS.pure ?_
  show D (.stmt false) _ (bareS (.switch e.erase (eraseCases (cases ++ conds.map fun c => .mk [c] false []))))
  have h3 : eraseCases (cases ++ conds.map fun c => .mk [c] false []) = casesOf [] false cl := by
    rw [h2, eraseCases_append, eraseCases_map]
    simp [casesOf]
  rw [h3]
  simpa using DerivesX.s_switch he h1

/-! ## `if` -/

/-- The branches so far. -/
inductive Chn : Bool → List Token → List Stmt → Prop
  | first {s cs c o bs b} (h : D (.expr 0 s) cs c) (h' : D (.body o) bs b) :
      Chn o (.k .If :: .k .ParenthesesOpen :: (cs ++ .k .ParenthesesClose :: bs)) [bareS (.ite c b [])]
  | elif {ts ss s cs c o bs b} (h0 : Chn false ts ss) (h : D (.expr 0 s) cs c) (h' : D (.body o) bs b) :
      Chn o (ts ++ .k .ElseIf :: .k .ParenthesesOpen :: (cs ++ .k .ParenthesesClose :: bs)) (ss ++ [bareS (.ite c b [])])
  | els {ts ss o bs b} (h0 : Chn false ts ss) (h' : D (.body o) bs b) :
      Chn o (ts ++ .k .Else :: bs) (ss ++ [bareS (.block b)])

/-- `acc` stands for the branch `tl`. -/
def IfAcc (acc : Stmt) (tl : List Stmt) : Prop :=
  acc = bareS (.block tl) ∨ ∃ c b e, acc = bareS (.ite c b e) ∧ tl = [acc]

theorem IfAcc.nest {acc : Stmt} {tl : List Stmt} (h : IfAcc acc tl) (c : Expr) (b : List Stmt) :
    nestIf acc (bareS (.ite c b [])) = some (bareS (.ite c b tl)) := by
  rcases h with rfl | ⟨c, b, e, rfl, rfl⟩ <;> rfl

theorem Chn.nest {o : Bool} {ts : List Token} {ss : List Stmt} (h : Chn o ts ss) : ∀ {acc s : Stmt} {us : List Token} {tl : List Stmt},
    D .ifTail us tl → (us = [] ∨ o = false) → IfAcc acc tl → nestIfs acc ss.reverse = some s → D (.stmt true) (ts ++ us) s := by
  induction h with
  | @first s0 cs c o bs b h h' =>
    intro acc s us tl ht ho ha hn
    simp only [List.reverse_singleton, nestIfs, ha.nest, Option.some.injEq] at hn
    subst hn
    simpa using DerivesX.s_if h h' ht ho
  | @elif ts ss s0 cs c o bs b h0 h h' ih =>
    intro acc s us tl ht ho ha hn
    simp only [List.reverse_append, List.reverse_singleton, List.singleton_append, nestIfs, ha.nest] at hn
    have := ih (.if_elseif h h' ht ho) (.inr rfl) (.inr ⟨_, _, _, rfl, rfl⟩) hn
    simpa using this
  | @els ts ss o bs b h0 h' ih =>
    intro acc s us tl ht ho ha hn
    simp only [List.reverse_append, List.reverse_singleton, List.singleton_append, nestIfs] at hn
    rcases ha with rfl | ⟨c, b', e, rfl, rfl⟩ <;> cases hn

theorem Chn.done {o : Bool} {ts : List Token} {ss : List Stmt} (h : Chn o ts ss) {last s : Stmt} {rest : List Stmt}
    (hr : ss.reverse = last :: rest) (hn : nestIfs last rest = some s) : D (.stmt true) ts s := by
  cases h with
  | first h h' =>
    cases hr
    cases hn
    simpa using DerivesX.s_if h h' .if_none (.inl rfl)
  | elif h0 h h' =>
    simp only [List.reverse_append, List.reverse_singleton, List.singleton_append, List.cons.injEq] at hr
    obtain ⟨rfl, rfl⟩ := hr
    have := h0.nest (.if_elseif h h' .if_none (.inl rfl)) (.inr rfl) (.inr ⟨_, _, _, rfl, rfl⟩) hn
    simpa using this
  | els h0 h' =>
    simp only [List.reverse_append, List.reverse_singleton, List.singleton_append, List.cons.injEq] at hr
    obtain ⟨rfl, rfl⟩ := hr
    exact h0.nest (.if_else h') (.inr rfl) (.inl rfl) hn

theorem parseIfBranch_snd (hr : RecG toks r) (n : Nat) : Pr toks (parseIfBranch r n) (fun q us s =>
    ∃ cs st c bs b o, us = .k .ParenthesesOpen :: (cs ++ .k .ParenthesesClose :: bs) ∧ D (.expr 0 st) cs c ∧ D (.body o) bs b ∧
      (o = true → NoElse toks q) ∧ s.erase = bareS (.ite c b [])) := by
  refine PrE.intro fun p => ?_
  unfold parseIfBranch
  refine TgS.bind (TgS.callB (parseParenExpr_snd hr) (by sd_b) ?_)
  rintro c q _ ⟨cs, s, rfl, hc⟩
  refine TgS.bind (TgS.callB (parseStatementExtractBlock_snd hr) (by sd_b) ?_)
  rintro ⟨b, bsp⟩ q bs ⟨o, hb, hn⟩
  exact TgS.pure ⟨cs, s, _, bs, _, o, by simp, hc, hb, hn, rfl⟩

theorem parseIf_snd (hr : RecG toks r) (t : TokSpan) : Pr toks (parseIf r t)
    (fun q us s => StS toks q (.k .If :: us) s) := by
  refine PrE.intro fun p => ?_
  unfold parseIf
  refine TgS.bind (TgS.callB (parseIfBranch_snd hr _) (by sd_b) ?_)
  rintro first q _ ⟨cs, st, c, bs, b, o, rfl, hc, hb, hn, he⟩
  refine TgS.bind ?_
  have hl := TgS.loop (step := ifStep r) (p0 := p) (p := q) (toks := toks)
    (ts := [] ++ .k .ParenthesesOpen :: (cs ++ .k .ParenthesesClose :: bs)) (s := [first]) (B := Nn)
    (A := fun q us ss => ∃ o, Chn o (.k .If :: us) (eraseStmts ss) ∧ NoElse toks q)
    (fun q us ss => ∃ o, Chn o (.k .If :: us) (eraseStmts ss) ∧ (o = true → NoElse toks q))
    ⟨o, by simpa [eraseStmts, he] using Chn.first hc hb, hn⟩ ?_
  · intro h1
    refine (hl h1).imp ?_ (fun _ h => h)
    rintro ss q ⟨us, h1, o, hch, hne⟩
    have : TgS toks p us q (match ss.reverse with
        | [] => abort .unwrap
        | last :: rest =>
          match nestIfs last rest with
          | some s => return s
          | none => abort .unreachable : P Stmt) (Sg toks p fun q us s => StS toks q (.k .If :: us) s) Nn := by
      split
      · exact TgS.abort _
      · rename_i last rest hrev
        split
        · rename_i s hs
          refine TgS.pure ⟨true, ?_, fun _ => hne⟩
          have h2 : nestIfs last.erase (eraseStmts rest) = some s.erase := by
            rw [← @nestIfs_erase ⟨0⟩, hs]; rfl
          refine hch.done ?_ h2
          rw [@eraseStmts_map ⟨0⟩, ← List.map_reverse, hrev, @eraseStmts_map ⟨0⟩]
          rfl
        · exact TgS.abort _
    exact this h1
  · rintro ss ts q ⟨o, hch, hne⟩
    unfold ifStep
    refine TgS.bind (TgS.seg fun _ => TgS.eatB' (fun t ht => ?_) fun h1 => ?_)
    · have ho : o = false := by
        cases o
        · rfl
        · exact absurd ht (hne rfl).2
      subst ho
      refine TgS.bind (TgS.callB (parseIfBranch_snd hr _) (by sd_b) ?_)
      rintro s q _ ⟨cs, st, c, bs, b, o, rfl, hc, hb, hn, he⟩
      refine TgS.pure ⟨o, ?_, hn⟩
      simpa [eraseStmts_append, eraseStmts, he] using Chn.elif hch hc hb
    · refine TgS.bind (TgS.eatB' (fun t ht => ?_) fun h2 => ?_)
      · have ho : o = false := by
          cases o
          · rfl
          · exact absurd ht (hne rfl).1
        subst ho
        refine TgS.bind (TgS.callB (parseStatementExtractBlock_snd hr) (by sd_b) ?_)
        rintro ⟨b, bsp⟩ q bs ⟨o, hb, hn⟩
        refine TgS.pure ⟨o, ?_, hn⟩
        simpa [eraseStmts_append, eraseStmts, Stmt.erase, StmtK.erase] using Chn.els hch hb
      · exact TgS.pure ⟨o, hch, h2, h1⟩

end Pico
