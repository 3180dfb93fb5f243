import Verif.Lemmas.SndScalar
/-!
# Functions: what they are derived from
-/
namespace Pico
open P

variable {toks : List TokSpan} {r : Rec}

theorem TgS.eatsRefB {p0 p : Nat} {ts : List Token} {B : List Token → Prop} {β : Type} {f : Bool → P β} {Q : β → Nat → Prop}
    (h : ∀ r q, TgS toks p0 (ts ++ refToks r) q (f r) Q B) : TgS toks p0 ts p (eats .Ampersand) (Ct toks p0 B f Q) B :=
  TgS.eatsB (h true _) fun _ => by simpa [refToks] using h false p

theorem TgS.eatsVariadicB {p0 p : Nat} {ts : List Token} {B : List Token → Prop} {β : Type} {f : Bool → P β} {Q : β → Nat → Prop}
    (h : ∀ r q, TgS toks p0 (ts ++ variadicToks r) q (f r) Q B) : TgS toks p0 ts p (eats .Ellipsis) (Ct toks p0 B f Q) B :=
  TgS.eatsB (h true _) fun _ => by simpa [variadicToks] using h false p

theorem parseTypeHint_snd : PrE toks parseTypeHint (fun _ us x => match x with
    | .ok ty => TypeHint us ty ∨ us = [.k .NsSeparator] ∧ ty = none
    | .error _ => Nn us) (fun _ => False) := by
  refine PrE.intro fun p => ?_
  unfold parseTypeHint
  refine TgS.bind (TgS.eatsB ?_ fun _ => ?_)
  · refine TgS.bind (TgS.eatsB ?_ fun _ => ?_)
    · exact TgS.pure (.inl .nullArray)
    rw [if_neg Bool.false_ne_true]
    refine TgS.bind (TgS.eatsB ?_ fun _ => ?_)
    · exact TgS.pure (.inl .nullCallable)
    rw [if_neg Bool.false_ne_true]
    refine TgS.bind (TgS.attemptB parseName_snd ?_ ?_)
    · rintro ⟨path, sp⟩ q us ⟨abs, ns, id, rfl, h⟩
      have h : path = qualPath abs ns id := h
      subst h
      exact TgS.pure (.inl (.nullName abs ns id))
    · intro _ q us h
      refine TgS.pure ?_
      rcases h with rfl | rfl <;> nn
  · refine TgS.bind (TgS.eatsB ?_ fun _ => ?_)
    · exact TgS.pure (.inl .array)
    rw [if_neg Bool.false_ne_true]
    refine TgS.bind (TgS.eatsB ?_ fun _ => ?_)
    · exact TgS.pure (.inl .callable)
    rw [if_neg Bool.false_ne_true]
    refine TgS.bind (TgS.attemptB parseName_snd ?_ ?_)
    · rintro ⟨path, sp⟩ q us ⟨abs, ns, id, rfl, h⟩
      have h : path = qualPath abs ns id := h
      subst h
      exact TgS.pure (.inl (.name abs ns id))
    · intro _ q us h
      dsimp only
      rw [if_neg Bool.false_ne_true]
      rcases h with rfl | rfl
      · exact TgS.pure (.inl .none)
      · exact TgS.pure (.inr ⟨rfl, rfl⟩)

theorem parseDefault_snd (hr : RecG toks r) : PrE toks (parseDefault r) (fun _ us x => match x with
    | .ok d => D .dflt us (eraseOpt d)
    | .error _ => Nn us) (fun _ => False) := by
  refine PrE.intro fun p => ?_
  unfold parseDefault
  refine TgS.bind (TgS.eatsB ?_ fun _ => ?_)
  · refine TgS.bind (TgS.attemptB hr.ex0 ?_ ?_)
    · rintro e q us ⟨s, h⟩
      exact TgS.pure (.dflt_some h)
    · intro _ q us h
      refine TgS.pure ?_
      dsimp only
      nn
  · exact TgS.pure .dflt_none

theorem parseParameterList_snd (hr : RecG toks r) : PrE toks (parseParameterList r)
    (fun _ us x => D .params us (eraseParams x.1)) (fun _ => False) := by
  refine PrE.intro fun p => ?_
  unfold parseParameterList
  refine TgS.loop (fun _ us ps => ∀ vs ys, D .params vs ys → D .params (us ++ vs) (eraseParams ps ++ ys)) (fun _ _ h => h) ?_
  intro ps ts q hI
  refine TgS.bind (TgS.callB parseTypeHint_snd (fun _ h _ => h) ?_)
  rintro (e | ty) q us hty
  · refine TgS.pure ?_
    simpa using hI _ _ (.x_params rfl us hty.noStray)
  dsimp only at hty ⊢
  refine TgS.bind (TgS.eatsRefB fun rf q => ?_)
  refine TgS.bind (TgS.eatsVariadicB fun v q => ?_)
  refine TgS.bind (TgS.eatVariableB (fun n sp => ?_) fun _ => ?_)
  · refine TgS.bind (TgS.callB (parseDefault_snd hr) (fun _ h _ => h) ?_)
    rintro (e | d) q ds hd
    · refine TgS.pure ?_
      have hn : Nn (us ++ (refToks rf ++ (variadicToks v ++ (.variable n :: ds)))) := by
        dsimp only at hd
        rcases hty with hty | ⟨rfl, -⟩ <;> nn
      simpa using hI _ _ (.x_params rfl _ hn.noStray)
    · dsimp only at hd ⊢
      refine TgS.bind (TgS.eatsB ?_ fun _ => ?_)
      · refine TgS.pure fun vs ys h => ?_
        rcases hty with ht | ⟨rfl, rfl⟩
        · simpa [eraseParams_append, eraseParams, Param.erase] using hI _ _ (.params_cons n rf v ht hd h)
        · simpa [eraseParams_append, eraseParams, Param.erase] using hI _ _ (.x_paramCons rfl n rf v hd h)
      · refine TgS.pure ?_
        rcases hty with ht | ⟨rfl, rfl⟩
        · simpa [eraseParams_append, eraseParams, Param.erase] using hI _ _ (.params_one n rf v ht hd)
        · simpa [eraseParams_append, eraseParams, Param.erase] using hI _ _ (.x_param rfl n rf v hd)
  · refine TgS.bind (TgS.getPosB fun _ => ?_)
    refine TgS.pure ?_
    have hn : Nn (us ++ (refToks rf ++ variadicToks v)) := by
      rcases hty with hty | ⟨rfl, -⟩ <;> nn
    simpa using hI _ _ (.x_params rfl _ hn.noStray)

theorem parseInnerStatementList_snd (hr : RecG toks r) : PrE toks (parseInnerStatementList r)
    (fun _ us x => D .stmts us (eraseStmts x.1)) (fun _ => False) := by
  refine PrE.intro fun p => ?_
  unfold parseInnerStatementList
  refine TgS.bind (TgS.tokCountB ?_)
  refine TgS.bind (TgS.subPB fun _ => ?_)
  refine TgS.loop (fun _ us ss => ∀ vs ys, D .stmts vs ys → D .stmts (us ++ vs) (eraseStmts ss ++ ys)) (fun _ _ h => h) ?_
  intro ss ts q hI
  refine TgS.bind (TgS.getPosB fun _ => ?_)
  split
  · refine TgS.bind (TgS.attemptB hr.stmt ?_ ?_)
    · rintro s q us ⟨o, h, -⟩
      refine TgS.pure fun vs ys h' => ?_
      simpa [eraseStmts_append, eraseStmts] using hI _ _ (.stmts_cons h h')
    · intro _ q us h
      refine TgS.pure ?_
      simpa using hI _ _ (.x_stmts rfl us h.noStray)
  · refine TgS.pure ?_
    simpa using hI _ _ .stmts_nil

/-- `{` statements `}`. -/
theorem parseBraced_snd (hr : RecG toks r) : Pr toks (parseBraced r) (fun _ us b =>
    ∃ ts, us = .k .CurlyBracesOpen :: (ts ++ [.k .CurlyBracesClose]) ∧ D .stmts ts (eraseStmts b)) := by
  refine PrE.intro fun p => ?_
  unfold parseBraced
  refine TgS.bind (TgS.expectB (fun _ => ?_) (by sd_b))
  refine TgS.bind (TgS.callB (parseInnerStatementList_snd hr) (fun _ h _ => h.elim) ?_)
  rintro ⟨b, e⟩ q us h
  refine TgS.bind (TgS.expectOrB (fun _ => ?_) (by sd_b))
  exact TgS.pure ⟨us, by simp, h⟩

theorem parseUseVars_snd : Pr toks parseUseVars (fun _ us vs => UseClauses true us vs) := by
  refine PrE.intro fun p => ?_
  unfold parseUseVars
  refine TgS.bind (TgS.eatsB ?_ fun _ => ?_)
  · refine TgS.bind (TgS.expectB (fun _ => ?_) (by sd_b))
    refine TgS.bind (TgS.callB (A := fun _ us vs => Captures us vs) (B' := Nn) ?_ (by sd_b) ?_)
    · refine PrE.intro fun p => ?_
      refine TgS.loop (fun _ us ss => ∀ vs ys, Captures vs ys → Captures (us ++ vs) (ss ++ ys)) (fun _ _ h => h) ?_
      intro ss ts q hI
      refine TgS.bind (TgS.eatsB ?_ fun _ => ?_)
      · refine TgS.bind (TgS.expectVariableB (fun n sp => ?_) (by sd_b))
        refine TgS.bind (TgS.eatsB ?_ fun _ => ?_)
        · refine TgS.pure fun vs ys h => ?_
          simpa [refToks] using hI _ _ (.cons true n h)
        · refine TgS.pure ?_
          simpa [refToks] using hI _ _ (.one true n)
      · refine TgS.bind (TgS.expectVariableB (fun n sp => ?_) (by sd_b))
        refine TgS.bind (TgS.eatsB ?_ fun _ => ?_)
        · refine TgS.pure fun vs ys h => ?_
          simpa [refToks] using hI _ _ (.cons false n h)
        · refine TgS.pure ?_
          simpa [refToks] using hI _ _ (.one false n)
    · intro vs q us h
      refine TgS.bind (TgS.expectB (fun _ => ?_) (by sd_b))
      refine TgS.pure ?_
      simpa using UseClauses.some h
  · exact TgS.pure (.none true)

theorem parseFunctionTail_snd (hr : RecG toks r) (c a rf : Bool) (hca : c = true → a = false) :
    Pr toks (parseFunctionTail r c a rf) (fun _ us x => D (.fn c a rf) us x.1.erase) := by
  refine PrE.intro fun p => ?_
  unfold parseFunctionTail
  refine TgS.bind (TgS.expectB (fun _ => ?_) (by sd_b))
  refine TgS.bind (TgS.callB (parseParameterList_snd hr) (fun _ h _ => h.elim) ?_)
  rintro ⟨ps, pe⟩ q ts hps
  refine TgS.bind (TgS.eatB (fun _ => ?_) fun _ => ?_)
  · dsimp only at hps ⊢
    refine TgS.bind ?_
    have body : ∀ (q : Nat) (us : List Token) (vs : List (Bool × Text)), UseClauses c us vs →
        TgS toks p ([] ++ [.k .ParenthesesOpen] ++ ts ++ [.k .ParenthesesClose] ++ us) q (do
          let body : Option (List Stmt) ← (do
            let b ← parseBraced r
            return some b)
          let stop ← lastEnd
          return (FnDecl.mk ps body vs rf, stop)) (Sg toks p fun _ us x => D (.fn c a rf) us x.1.erase) Nn := by
      intro q us vs hu
      refine TgS.bind (TgS.bind (TgS.callB (parseBraced_snd hr) (by sd_b) ?_))
      rintro b q _ ⟨bs, rfl, hb⟩
      refine TgS.pureB (TgS.bind (TgS.lastEndB fun _ => ?_))
      refine TgS.pure ?_
      simpa [FnDecl.erase, eraseBody] using DerivesX.fn_body hps hu hb
    have rest : ∀ (q : Nat) (us : List Token) (vs : List (Bool × Text)), UseClauses c us vs → (a = true → us = [] ∧ vs = []) →
        TgS toks p ([] ++ [.k .ParenthesesOpen] ++ ts ++ [.k .ParenthesesClose] ++ us) q (do
          let noBody ← (if a then eats .SemiColon else return false)
          let body : Option (List Stmt) ← (if noBody then return none else do
            let b ← parseBraced r
            return some b)
          let stop ← lastEnd
          return (FnDecl.mk ps body vs rf, stop)) (Sg toks p fun _ us x => D (.fn c a rf) us x.1.erase) Nn := by
      intro q us vs hu ha
      cases a with
      | true =>
        obtain ⟨rfl, rfl⟩ := ha rfl
        cases c with
        | true => exact absurd (hca rfl) (by simp)
        | false =>
          simp only [if_true]
          refine TgS.bind (TgS.eatsB ?_ fun _ => ?_)
          · simp only [if_true]
            refine TgS.bind (TgS.pureB ?_)
            refine TgS.bind (TgS.lastEndB fun _ => ?_)
            refine TgS.pure ?_
            simpa [FnDecl.erase, eraseBody] using DerivesX.fn_abstract hps
          · exact body q [] [] hu
      | false => exact TgS.bind (TgS.pureB (body q us vs hu))
    cases c with
    | true =>
      refine TgS.callB parseUseVars_snd (by sd_b) ?_
      intro vs q us hu
      exact rest q us vs hu (fun h => absurd (hca rfl) (by simp [h]))
    | false =>
      refine TgS.pureB ?_
      simpa using rest _ [] [] (.none false) (fun _ => ⟨rfl, rfl⟩)
  · dsimp only
    cases pe with
    | some e => exact TgS.fail _ (by sd_b)
    | none => exact TgS.abort _

theorem parseFunctionNamed_snd (hr : RecG toks r) (sp : Span) (a : Bool) : Pr toks (parseFunctionNamed r sp a) (fun _ us x =>
    ∃ rf ts, us = refToks rf ++ .string x.1 :: ts ∧ D (.fn false a rf) ts x.2.1.erase) := by
  refine PrE.intro fun p => ?_
  unfold parseFunctionNamed
  refine TgS.bind (TgS.eatsB ?_ fun _ => ?_)
  · refine TgS.bind (TgS.expectStringB (fun n sp => ?_) (by sd_b))
    refine TgS.bind (TgS.callB (parseFunctionTail_snd hr false a true (by simp)) (by sd_b) ?_)
    rintro ⟨d, st⟩ q us h
    exact TgS.pure ⟨true, us, by simp [refToks], h⟩
  · refine TgS.bind (TgS.expectStringB (fun n sp => ?_) (by sd_b))
    refine TgS.bind (TgS.callB (parseFunctionTail_snd hr false a false (by simp)) (by sd_b) ?_)
    rintro ⟨d, st⟩ q us h
    exact TgS.pure ⟨false, us, by simp [refToks], h⟩

theorem parseClosure_snd (hr : RecG toks r) (sp : Span) : Pr toks (parseClosure r sp) (fun _ us e =>
    ∀ p, D (.expr p prefixLevel) (.k .Function :: us) e.erase) := by
  refine PrE.intro fun p => ?_
  unfold parseClosure
  refine TgS.bind (TgS.eatsB ?_ fun _ => ?_)
  · refine TgS.bind (TgS.callB (parseFunctionTail_snd hr true false true (by simp)) (by sd_b) ?_)
    rintro ⟨d, st⟩ q us h
    exact TgS.pure fun p => .e_closure (r := true) h
  · refine TgS.bind (TgS.callB (parseFunctionTail_snd hr true false false (by simp)) (by sd_b) ?_)
    rintro ⟨d, st⟩ q us h
    exact TgS.pure fun p => .e_closure (r := false) h

end Pico
