import Verif.Lemmas.SndStmt
import Verif.Lemmas.GramTop
/-!
# Classes and programs: what they are derived from
-/
namespace Pico
open P

variable {toks : List TokSpan} {r : Rec}

/-! ## Members -/

theorem parseMemberModifiers_snd : Pr toks parseMemberModifiers (fun _ us ms => us = memberModifierToks ms) := by
  refine PrE.intro fun p => ?_
  unfold parseMemberModifiers
  refine TgS.loop (fun _ us ms => us = memberModifierToks ms) rfl ?_
  rintro ms ts q rfl
  refine TgS.bind (TgS.eatsB ?_ fun _ => ?_)
  · rw [if_pos rfl]
    exact TgS.pure (by simp [memberModifierToks, modifierKw])
  rw [if_neg Bool.false_ne_true]
  refine TgS.bind (TgS.eatsB ?_ fun _ => ?_)
  · rw [if_pos rfl]
    exact TgS.pure (by simp [memberModifierToks, modifierKw])
  rw [if_neg Bool.false_ne_true]
  refine TgS.bind (TgS.eatsB ?_ fun _ => ?_)
  · rw [if_pos rfl]
    exact TgS.pure (by simp [memberModifierToks, modifierKw])
  rw [if_neg Bool.false_ne_true]
  refine TgS.bind (TgS.eatsB ?_ fun _ => ?_)
  · rw [if_pos rfl]
    exact TgS.pure (by simp [memberModifierToks, modifierKw])
  rw [if_neg Bool.false_ne_true]
  refine TgS.bind (TgS.eatsB ?_ fun _ => ?_)
  · rw [if_pos rfl]
    exact TgS.pure (by simp [memberModifierToks, modifierKw])
  rw [if_neg Bool.false_ne_true]
  refine TgS.bind (TgS.eatsB ?_ fun _ => ?_)
  · rw [if_pos rfl]
    exact TgS.pure (by simp [memberModifierToks, modifierKw])
  rw [if_neg Bool.false_ne_true]
  exact TgS.pure rfl

theorem parseAbsoluteTraitMethodReference_snd : Pr toks parseAbsoluteTraitMethodReference (fun _ us x =>
    ∃ abs ns id t, us = qualToks abs ns id ++ [.k .ScopeOp, t] ∧ Ident t x.2 ∧ x.1 = qualPath abs ns id) := by
  refine PrE.intro fun p => ?_
  unfold parseAbsoluteTraitMethodReference
  refine TgS.bind (TgS.callB parseName_snd (by sd_b) ?_)
  rintro ⟨path, sp⟩ q us ⟨abs, ns, id, rfl, h⟩
  refine TgS.bind (TgS.expectB (fun _ => ?_) (by sd_b))
  refine TgS.bind (TgS.callB parseIdentifier_snd (by sd_b) ?_)
  rintro ⟨m, sp⟩ q us ⟨t, rfl, hm⟩
  exact TgS.pure ⟨abs, ns, id, t, by simp, hm, h⟩

theorem parseTraitMethod_snd : PrE toks parseTraitMethod (fun _ us x => match x with
    | none => us = []
    | some (none, m) => ∃ t, us = [t] ∧ Ident t m
    | some (some p, m) => ∃ abs ns id t, us = qualToks abs ns id ++ [.k .ScopeOp, t] ∧ Ident t m ∧ p = qualPath abs ns id)
    (fun _ => False) := by
  refine PrE.intro fun p => ?_
  unfold parseTraitMethod
  refine TgS.bind (TgS.getPosB fun h0 => ?_)
  refine TgS.bind (TgS.attemptB parseAbsoluteTraitMethodReference_snd ?_ ?_)
  · rintro ⟨path, m⟩ q us h
    exact TgS.pure h
  · intro _ q us _
    refine TgS.bind (TgS.backB h0 ?_)
    refine TgS.bind (TgS.attemptB parseIdentifier_snd ?_ ?_)
    · rintro ⟨m, sp⟩ q us h
      exact TgS.pure h
    · rintro _ q us rfl
      exact TgS.pure rfl

/-- The rules so far; the semicolon of the last one is still to come. -/
def RuS (us : List Token) (st : Bool × List TraitUse) : Prop :=
  if st.1 then us = [] ∧ st.2 = [] else ∀ vs rs, LaxRules vs rs → LaxRules (us ++ .k .SemiColon :: vs) (st.2 ++ rs)

theorem traitAdapt_snd : Pr toks (loop traitAdaptStep (true, [])) (fun _ us rs => LaxRules us rs) := by
  refine PrE.intro fun p => ?_
  refine TgS.loop (fun _ us st => RuS us st) (by exact ⟨rfl, rfl⟩) ?_
  rintro ⟨first, uses⟩ ts q hI
  unfold traitAdaptStep
  have key : ∀ ts q, (∀ vs rs, LaxRules vs rs → LaxRules (ts ++ vs) (uses ++ rs)) → TgS toks p ts q (do
      match ← parseTraitMethod with
      | none => return Sum.inr uses
      | some (path, name) =>
        let names : Option (List Path) ← (if path.isSome then do
            if ← eats .Insteadof then
              let ns ← parseNameList
              return some ns
            else return none
          else return none)
        match names, path with
        | some ns, some p => return .inl (false, uses ++ [.insteadOf p name ns])
        | _, _ =>
          if ← eats .As then
            match ← eatString with
            | some (a, _) => return .inl (false, uses ++ [.asAlias path name MemberModifiers.none (some a)])
            | none => abort .unimplemented
          else return .inl (false, uses))
      (Sg toks p fun _ us x => match x with | .inl s' => RuS us s' | .inr a => LaxRules us a) Nn := by
    intro ts q hI
    refine TgS.bind (TgS.callB parseTraitMethod_snd (by sd_b) ?_)
    rintro (_ | ⟨_ | path, m⟩) q us h
    · have h : us = [] := h
      subst h
      refine TgS.pure ?_
      simpa using hI _ _ .nil
    · obtain ⟨t, rfl, hm⟩ := h
      refine TgS.bind ?_
      rw [if_neg (by simp)]
      refine TgS.pureB ?_
      dsimp only
      refine TgS.bind (TgS.eatsB ?_ fun _ => ?_)
      · rw [if_pos rfl]
        refine TgS.bind (TgS.eatStringB (fun a sp => ?_) fun _ => ?_)
        · refine TgS.pure ?_
          intro vs rs h
          simpa using hI _ _ (.asSimple hm a h)
        · exact TgS.abort _
      · rw [if_neg Bool.false_ne_true]
        refine TgS.pure ?_
        intro vs rs h
        simpa using hI _ _ (.simple hm h)
    · obtain ⟨abs, ns, id, t, rfl, hm, rfl⟩ := h
      refine TgS.bind ?_
      rw [if_pos (by rfl)]
      refine TgS.bind (TgS.eatsB ?_ fun _ => ?_)
      · rw [if_pos rfl]
        refine TgS.bind (TgS.callB parseNameList_snd (by sd_b) ?_)
        intro names q us hn
        refine TgS.pureB ?_
        refine TgS.pure ?_
        intro vs rs h
        simpa using hI _ _ (.insteadOf abs ns id hm hn h)
      · rw [if_neg Bool.false_ne_true]
        refine TgS.pureB ?_
        dsimp only
        refine TgS.bind (TgS.eatsB ?_ fun _ => ?_)
        · rw [if_pos rfl]
          refine TgS.bind (TgS.eatStringB (fun a sp => ?_) fun _ => ?_)
          · refine TgS.pure ?_
            intro vs rs h
            simpa using hI _ _ (.asQual abs ns id hm a h)
          · exact TgS.abort _
        · rw [if_neg Bool.false_ne_true]
          refine TgS.pure ?_
          intro vs rs h
          simpa using hI _ _ (.qual abs ns id hm h)
  have fin : ∀ ts q, (∀ vs rs, LaxRules vs rs → LaxRules (ts ++ vs) (uses ++ rs)) → _ := key
  cases first with
  | true =>
    obtain ⟨rfl, h2⟩ : ts = [] ∧ uses = [] := hI
    intro h1
    refine (key _ _ (by intro vs rs h; rw [h2]; exact h) h1).imp ?_ (fun _ h => h)
    rintro (s' | s') q ⟨us, h2, h3⟩ <;> exact ⟨us, h2, h3⟩
  | false =>
    have hI : ∀ vs rs, LaxRules vs rs → LaxRules (ts ++ .k .SemiColon :: vs) (uses ++ rs) := hI
    refine TgS.bind (TgS.expectB (fun _ => ?_) (by sd_b))
    intro h1
    refine (key _ _ (by intro vs rs h; simpa using hI vs rs h) h1).imp ?_ (fun _ h => h)
    rintro (s' | s') q ⟨us, h2, h3⟩ <;> exact ⟨us, h2, h3⟩

theorem parseTraitUse_snd (ms : List MemberModifier) : Pr toks parseTraitUse (fun _ us m =>
    D .member (memberModifierToks ms ++ .k .Use :: us) (eraseMembers m)) := by
  refine PrE.intro fun p => ?_
  unfold parseTraitUse
  refine TgS.bind (TgS.callB parseNameList_snd (by sd_b) ?_)
  intro names q us hn
  refine TgS.bind (TgS.eatsB ?_ fun _ => ?_)
  · rw [if_pos rfl]
    exact TgS.pure (.x_use rfl ms hn)
  rw [if_neg Bool.false_ne_true]
  refine TgS.bind (TgS.expectB (fun _ => ?_) (by sd_b))
  refine TgS.bind (TgS.eatsB ?_ fun _ => ?_)
  · rw [if_pos rfl]
    refine TgS.pure ?_
    simpa [eraseMembers] using DerivesX.x_useEmpty rfl ms hn
  rw [if_neg Bool.false_ne_true]
  refine TgS.bind (TgS.callB traitAdapt_snd (by sd_b) ?_)
  intro rules q vs hr
  refine TgS.bind (TgS.expectB (fun _ => ?_) (by sd_b))
  refine TgS.pure ?_
  simpa [eraseMembers, Member.erase] using DerivesX.x_useRules rfl ms hn hr

theorem parseClassConsts_snd (hr : RecG toks r) (ms : MemberModifiers) : Pr toks (parseClassConsts r ms) (fun _ us m =>
    ∃ cs, D .consts us cs ∧ eraseMembers m = cs.map fun c => .constant ms c.1 c.2) := by
  refine PrE.intro fun p => ?_
  unfold parseClassConsts
  refine TgS.loop (fun _ us m => ∃ cs, eraseMembers m = (cs.map fun c => .constant ms c.1 c.2) ∧
    ∀ vs ys, D .consts vs ys → D .consts (us ++ vs) (cs ++ ys)) ⟨[], rfl, fun _ _ h => h⟩ ?_
  rintro m ts q ⟨cs, he, hI⟩
  refine TgS.bind (TgS.callB parseIdentifier_snd (by sd_b) ?_)
  rintro ⟨n, sp⟩ q us ⟨t, rfl, hm⟩
  refine TgS.bind (TgS.expectB (fun _ => ?_) (by sd_b))
  refine TgS.bind (TgS.callB hr.ex0 (by sd_b) ?_)
  rintro e q us ⟨s, h⟩
  dsimp only
  refine TgS.bind (TgS.eatsB ?_ fun _ => ?_)
  · refine TgS.pure ⟨cs ++ [(n, e.erase)], by simp [eraseMembers_append, eraseMembers, Member.erase, he], fun vs ys h' => ?_⟩
    simpa using hI _ _ (.consts_cons hm h h')
  · refine TgS.pure ⟨cs ++ [(n, e.erase)], ?_, by simp [eraseMembers_append, eraseMembers, Member.erase, he]⟩
    simpa using hI _ _ (.consts_one hm h)

theorem parseProperties_snd (hr : RecG toks r) (ms : MemberModifiers) : Pr toks (parseProperties r ms) (fun _ us m =>
    ∃ cs, D .vars us cs ∧ eraseMembers m = cs.map fun c => .property ms c.1 c.2) := by
  refine PrE.intro fun p => ?_
  unfold parseProperties
  refine TgS.loop (fun _ us m => ∃ cs, eraseMembers m = (cs.map fun c => .property ms c.1 c.2) ∧
    ∀ vs ys, D .vars vs ys → D .vars (us ++ vs) (cs ++ ys)) ⟨[], rfl, fun _ _ h => h⟩ ?_
  rintro m ts q ⟨cs, he, hI⟩
  refine TgS.bind (TgS.expectVariableB (fun n sp => ?_) (by sd_b))
  refine TgS.bind (TgS.callB (dflt_snd hr) (by sd_b) ?_)
  intro d q us hd
  dsimp only
  refine TgS.bind (TgS.eatsB ?_ fun _ => ?_)
  · refine TgS.pure ⟨cs ++ [(n, eraseOpt d)], by simp [eraseMembers_append, eraseMembers, Member.erase, he], fun vs ys h' => ?_⟩
    simpa using hI _ _ (.vars_cons n hd h')
  · refine TgS.pure ⟨cs ++ [(n, eraseOpt d)], ?_, by simp [eraseMembers_append, eraseMembers, Member.erase, he]⟩
    simpa using hI _ _ (.vars_one n hd)

theorem parseClassStatement_snd (hr : RecG toks r) : Pr toks (parseClassStatement r) (fun _ us m => D .member us (eraseMembers m)) := by
  refine PrE.intro fun p => ?_
  unfold parseClassStatement
  refine TgS.bind (TgS.eatsB ?_ fun _ => ?_)
  · rw [if_pos rfl]
    refine TgS.bind (TgS.callB (parseProperties_snd hr _) (by sd_b) ?_)
    rintro m q us ⟨cs, h, he⟩
    refine TgS.bind (TgS.expectB (fun _ => ?_) (by sd_b))
    refine TgS.pure ?_
    rw [he]
    exact .m_var h
  rw [if_neg Bool.false_ne_true]
  refine TgS.bind (TgS.callB parseMemberModifiers_snd (by sd_b) ?_)
  rintro mods q _ rfl
  dsimp only
  rw [List.nil_append]
  refine TgS.bind (TgS.eatsB ?_ fun _ => ?_)
  · rw [if_pos rfl]
    exact TgS.callE (parseTraitUse_snd mods) (by sd_b) fun _ _ _ h => by simpa using h
  rw [if_neg Bool.false_ne_true]
  refine TgS.bind (TgS.eatB (fun t => ?_) fun _ => ?_)
  · refine TgS.bind (TgS.callB (parseFunctionNamed_snd hr _ true) (by sd_b) ?_)
    rintro ⟨name, decl, sp⟩ q _ ⟨rf, us, rfl, h⟩
    refine TgS.pure ?_
    simpa [eraseMembers, Member.erase] using DerivesX.m_method mods rf name h
  · refine TgS.bind (TgS.bind (TgS.eatsB ?_ fun _ => ?_))
    · rw [if_pos rfl]
      refine TgS.callB (parseClassConsts_snd hr _) (by sd_b) ?_
      rintro m q us ⟨cs, h, he⟩
      refine TgS.bind (TgS.expectB (fun _ => ?_) (by sd_b))
      refine TgS.pure ?_
      rw [he]
      simpa using DerivesX.m_const mods h
    · rw [if_neg Bool.false_ne_true]
      refine TgS.callB (parseProperties_snd hr _) (by sd_b) ?_
      rintro m q us ⟨cs, h, he⟩
      refine TgS.bind (TgS.expectB (fun _ => ?_) (by sd_b))
      refine TgS.pure ?_
      rw [he]
      simpa using DerivesX.m_property mods h

theorem parseClassStatementList_snd (hr : RecG toks r) : PrE toks (parseClassStatementList r)
    (fun _ us x => D .members us (eraseMembers x.1)) (fun _ => False) := by
  refine PrE.intro fun p => ?_
  unfold parseClassStatementList
  refine TgS.bind (TgS.tokCountB ?_)
  refine TgS.bind (TgS.subPB fun _ => ?_)
  refine TgS.loop (fun _ us ss => ∀ vs ys, D .members vs ys → D .members (us ++ vs) (eraseMembers ss ++ ys)) (fun _ _ h => h) ?_
  intro ss ts q hI
  refine TgS.bind (TgS.getPosB fun _ => ?_)
  split
  · refine TgS.bind (TgS.attemptB (parseClassStatement_snd hr) ?_ ?_)
    · rintro m q us h
      refine TgS.pure fun vs ys h' => ?_
      simpa [eraseMembers_append] using hI _ _ (.members_cons h h')
    · intro _ q us h
      refine TgS.pure ?_
      simpa using hI _ _ (.x_members rfl us h.noStray)
  · refine TgS.pure ?_
    simpa using hI _ _ .members_nil

theorem parseMembers_snd (hr : RecG toks r) : Pr toks (parseMembers r) (fun _ us x =>
    ∃ ts, us = .k .CurlyBracesOpen :: (ts ++ [.k .CurlyBracesClose]) ∧ D .members ts (eraseMembers x.1)) := by
  refine PrE.intro fun p => ?_
  unfold parseMembers
  refine TgS.bind (TgS.expectB (fun _ => ?_) (by sd_b))
  refine TgS.bind (TgS.callB (parseClassStatementList_snd hr) (fun _ h _ => h.elim) ?_)
  rintro ⟨b, e⟩ q us h
  refine TgS.bind (TgS.expectOrB (fun _ => ?_) (by sd_b))
  exact TgS.pure ⟨us, by simp, h⟩

theorem parseOptNames_snd (kw : Kw) (hc : ∀ b : Bracket, b.closes (.k kw) = false := by intro b; cases b <;> rfl) : Pr toks (parseOptNames kw) (fun _ us ns => OptNames kw us ns) := by
  refine PrE.intro fun p => ?_
  unfold parseOptNames
  refine TgS.bind (TgS.eatsB ?_ (fun _ => ?_) (fun h => h.app (.one hc)))
  · rw [if_pos rfl]
    exact TgS.callE parseNameList_snd (by sd_b) fun _ _ _ h => .some h
  · rw [if_neg Bool.false_ne_true]
    exact TgS.pure .none

theorem parseClassModifiers_snd : PrE toks parseClassModifiers (fun _ us ms => us = classModifierToks ms) (fun _ => False) := by
  refine PrE.intro fun p => ?_
  unfold parseClassModifiers
  refine TgS.loop (fun _ us ms => us = classModifierToks ms) rfl ?_
  rintro ms ts q rfl
  refine TgS.bind (TgS.eatsB ?_ fun _ => ?_)
  · rw [if_pos rfl]
    exact TgS.pure (by simp [classModifierToks, classModifierKw])
  rw [if_neg Bool.false_ne_true]
  refine TgS.bind (TgS.eatsB ?_ fun _ => ?_)
  · rw [if_pos rfl]
    exact TgS.pure (by simp [classModifierToks, classModifierKw])
  rw [if_neg Bool.false_ne_true]
  exact TgS.pure rfl

/-- Nothing, or the beginning of a class. -/
def HeadC (us : List Token) : Prop := us = [] ∨ ∃ t j, us = t :: j ∧ startsClass t = true

theorem HeadC.mods (ms : List ClassModifier) (us : List Token) (h : HeadC us) : HeadC (classModifierToks ms ++ us) := by
  cases ms with
  | nil => exact h
  | cons m ms => exact .inr ⟨_, _, rfl, by cases m <;> rfl⟩

theorem parseOoDeclaration_snd (hr : RecG toks r) : PrE toks (parseOoDeclaration r)
    (fun _ us s => D (.stmt false) us s.erase) HeadC := by
  have hc : ∀ {t : Token} (us : List Token), startsClass t = true → HeadC (t :: us) := fun us h => .inr ⟨_, us, rfl, h⟩
  refine PrE.intro fun p => ?_
  unfold parseOoDeclaration
  refine TgS.bind (TgS.eatsB ?_ fun _ => ?_)
  · rw [if_pos rfl]
    refine TgS.bind (TgS.tokBackB fun _ => ?_)
    refine TgS.bind (TgS.expectStringB (fun n sp => ?_) (fun _ => hc _ rfl))
    refine TgS.bind (TgS.callB (parseMembers_snd hr) (fun _ _ _ => hc _ rfl) ?_)
    rintro ⟨ms, stop⟩ q _ ⟨us, rfl, h⟩
    exact TgS.pure (.s_trait n h)
  rw [if_neg Bool.false_ne_true]
  refine TgS.bind (TgS.eatsB ?_ fun _ => ?_)
  · rw [if_pos rfl]
    refine TgS.bind (TgS.tokBackB fun _ => ?_)
    refine TgS.bind (TgS.expectStringB (fun n sp => ?_) (fun _ => hc _ rfl))
    refine TgS.bind (TgS.callB (parseOptNames_snd .Extends) (fun _ _ _ => hc _ rfl) ?_)
    intro exts q xs hx
    refine TgS.bind (TgS.callB (parseMembers_snd hr) (fun _ _ _ => hc _ rfl) ?_)
    rintro ⟨ms, stop⟩ q _ ⟨us, rfl, h⟩
    refine TgS.pure ?_
    show D (.stmt false) _ (bareS (.decl (.interface n exts (eraseMembers ms))))
    simpa using DerivesX.s_interface n hx h
  rw [if_neg Bool.false_ne_true]
  refine TgS.bind (TgS.callB parseClassModifiers_snd (fun _ h _ => h.elim) ?_)
  rintro mods q _ rfl
  rw [List.nil_append]
  refine TgS.bind (TgS.expectB (fun _ => ?_) ?_)
  · have hm : ∀ us, HeadC (classModifierToks mods ++ .k .Class :: us) := fun us => HeadC.mods mods _ (hc _ rfl)
    refine TgS.bind (TgS.tokBackB fun _ => ?_)
    refine TgS.bind (TgS.expectStringB (fun n sp => ?_) (fun _ => hm _))
    refine TgS.bind (TgS.callB (A := fun _ us b => OptBase us b) (B' := Nn) ?_ (fun _ _ _ => by simpa using hm _) ?_)
    · refine PrE.intro fun p => ?_
      refine TgS.bind (TgS.eatsB ?_ fun _ => ?_)
      · rw [if_pos rfl]
        refine TgS.bind (TgS.callB parseName_snd (by sd_b) ?_)
        rintro ⟨path, sp⟩ q us ⟨abs, ns, id, rfl, h⟩
        have h : path = qualPath abs ns id := h
        subst h
        exact TgS.pure (.some abs ns id)
      · rw [if_neg Bool.false_ne_true]
        exact TgS.pure .none
    · intro base q xs hx
      refine TgS.bind (TgS.callB (parseOptNames_snd .Implements) (fun _ _ _ => by simpa using hm _) ?_)
      intro impls q is hi
      refine TgS.bind (TgS.callB (parseMembers_snd hr) (fun _ _ _ => by simpa using hm _) ?_)
      rintro ⟨ms, stop⟩ q _ ⟨us, rfl, h⟩
      refine TgS.pure ?_
      show D (.stmt false) _ (bareS (.decl (.cls (ClassModifiers.new mods) n base impls (eraseMembers ms))))
      simpa using DerivesX.s_class mods n hx hi h
  · intro _
    simpa using HeadC.mods mods [] (.inl rfl)

/-! ## Statements -/

theorem simpleStmt_closes {t : TokSpan} {m : P StmtK} (h : simpleStmt r t = some m) (b : Bracket) : b.closes t.tok = false := by
  obtain ⟨tok, sp⟩ := t
  unfold simpleStmt at h
  split at h <;> first | (cases h; done) | skip
  all_goals (dsimp only at *; subst_vars; cases b <;> rfl)

theorem simpleStmt_snd (hr : RecG toks r) {t : TokSpan} {m : P StmtK} (h : simpleStmt r t = some m) : Pr toks m (fun _ us k =>
    D (.stmt false) (t.tok :: (us ++ [.k .SemiColon])) (bareS k.erase) ∧ isSimple (bareS k.erase) = true) := by
  refine PrE.intro fun p => ?_
  unfold simpleStmt at h
  split at h
  case h_7 => cases h
  all_goals rename_i ht; rw [ht]; cases h
  · refine TgS.bind (TgS.callB (parseExpressionList_snd hr) (by sd_b) ?_)
    intro es q us h
    exact TgS.pure ⟨.s_echo h, rfl⟩
  · refine TgS.bind (TgS.callB (parseOpt0_snd hr) (by sd_b) ?_)
    intro e q us h
    exact TgS.pure ⟨.s_return h, rfl⟩
  · refine TgS.bind (TgS.callB (parseOpt0_snd hr) (by sd_b) ?_)
    intro e q us h
    exact TgS.pure ⟨.s_continue h, rfl⟩
  · refine TgS.bind (TgS.callB (parseOpt0_snd hr) (by sd_b) ?_)
    intro e q us h
    exact TgS.pure ⟨.s_break h, rfl⟩
  · refine TgS.bind (TgS.callB hr.ex0 (by sd_b) ?_)
    rintro e q us ⟨s, h⟩
    exact TgS.pure ⟨.s_throw h, rfl⟩
  · exact TgS.ret ⟨.s_html _, rfl⟩

theorem parseExprStmt_snd (hr : RecG toks r) (st : Option PErr) : Pr toks (parseExprStmt r st) (fun _ us s =>
    D (.stmt false) us s.erase ∧ isSimple s.erase = true) := by
  refine PrE.intro fun p => ?_
  unfold parseExprStmt
  refine TgS.bind (TgS.attemptB hr.ex0 ?_ ?_)
  · rintro e q us ⟨s, h⟩
    refine TgS.bind (TgS.expectB (fun _ => ?_) (by sd_b))
    exact TgS.pure ⟨.s_expr h, rfl⟩
  · intro _ q us _
    exact TgS.deepestUnpack _ (by sd_b)

theorem class_drop {us vs : List Token} {s : Stmt} (hu : HeadC us) (hn : Nn us) (h : D (.stmt false) vs s) (hs : isSimple s = true) :
    D (.stmt false) (us ++ vs) s := by
  rcases hu with rfl | ⟨t, j, rfl, ht⟩
  · exact h
  · exact .x_class rfl j hn.noStray ht h hs

theorem parseOtherStmt_snd (hr : RecG toks r) (st : Option PErr) : Pr toks (parseOtherStmt r st)
    (fun _ us s => D (.stmt false) us s.erase) := by
  refine PrE.intro fun p => ?_
  unfold parseOtherStmt
  refine TgS.bind (TgS.attemptSB (parseOoDeclaration_snd hr) ?_ ?_)
  · intro s q us h _
    exact TgS.pure h
  · intro e q us hu hsg
    rw [List.nil_append]
    refine TgS.bind (TgS.peekB fun x hx => ?_)
    split
    · exact TgS.errHere _ (by sd_b)
    · rename_i t
      split
      · rename_i m hm
        refine TgS.bind (TgS.getPosB fun _ => ?_)
        refine TgS.bind (TgS.takeB hx ?_ (fun h => h.app (.one (simpleStmt_closes hm))))
        refine TgS.bind (TgS.callB (simpleStmt_snd hr hm) (by sd_b) ?_)
        rintro k q vs ⟨h, hs⟩
        refine TgS.bind (TgS.expectB (fun _ => ?_) (by sd_b))
        refine TgS.bind (TgS.lastEndB fun _ => ?_)
        refine TgS.pure ?_
        show D (.stmt false) _ (bareS k.erase)
        simpa using class_drop hu hsg.nn h hs
      · refine TgS.bind (TgS.getPosB fun _ => ?_)
        exact TgS.callE (parseExprStmt_snd hr _) (by sd_b) fun _ _ _ ⟨h, hs⟩ => class_drop hu hsg.nn h hs

theorem tryDecl_snd (hr : RecG toks r) (m : P Stmt) {p : Nat} {t : TokSpan} (ht : toks[p]? = some t)
    (hc : ∀ b : Bracket, b.closes t.tok = false)
    (hm : Pr toks m (fun _ us s => D (.stmt false) (t.tok :: us) s.erase)) :
    TgS toks p [] p (tryDecl r m) (Sg toks p fun _ us s => D (.stmt false) us s.erase) Nn := by
  unfold tryDecl
  refine TgS.bind (TgS.getPosB fun h0 => ?_)
  refine TgS.bind (TgS.takeB ht ?_ (fun h => h.app (.one hc)))
  refine TgS.bind (TgS.attemptB hm ?_ ?_)
  · intro s q us h
    exact TgS.pure h
  · intro _ q us _
    refine TgS.bind (TgS.backB h0 ?_)
    exact TgS.callE (parseOtherStmt_snd hr _) (by sd_b) fun _ _ _ h => h

theorem TgS.ite {α : Type} {c : Prop} [Decidable c] {p0 p : Nat} {ts : List Token} {m m' : P α} {Q : α → Nat → Prop}
    {B : List Token → Prop} (h : c → TgS toks p0 ts p m Q B) (h' : ¬ c → TgS toks p0 ts p m' Q B) :
    TgS toks p0 ts p (if c then m else m') Q B := by
  by_cases hc : c
  · rw [if_pos hc]; exact h hc
  · rw [if_neg hc]; exact h' hc

theorem parseStatement_snd (hr : RecG toks r) : Pr toks (parseStatement r) (StS toks) := by
  refine PrE.intro fun p => ?_
  have oth : TgS toks p [] p (parseOtherStmt r none) (Sg toks p (StS toks)) Nn :=
    TgS.callE (parseOtherStmt_snd hr _) (by sd_b) fun _ _ _ h => .of h
  have dclAt : ∀ {m : P Stmt} {ts : List Token} {p' : Nat},
      TgS toks p ts p' m (Sg toks p fun _ us s => D (.stmt false) us s.erase) Nn →
      TgS toks p ts p' m (Sg toks p (StS toks)) Nn := fun h h1 =>
    (h h1).imp (fun _ _ ⟨us, a, b⟩ => ⟨us, a, .of b⟩) (fun _ h => h)
  have dcl : ∀ {m : P Stmt}, TgS toks p [] p m (Sg toks p fun _ us s => D (.stmt false) us s.erase) Nn →
      TgS toks p [] p m (Sg toks p (StS toks)) Nn := fun h h1 =>
    (h h1).imp (fun _ _ ⟨us, a, b⟩ => ⟨us, a, .of b⟩) (fun _ h => h)
  unfold parseStatement
  refine TgS.bind (TgS.peekB fun x hx => ?_)
  split
  · rename_i kw sp
    dsimp only
    refine TgS.bind (TgS.getPosB fun _ => ?_)
    refine TgS.ite (fun hkw => ?_) fun _ => ?_
    · subst hkw
      refine TgS.bind (TgS.takeB hx ?_)
      exact TgS.pure (.of .s_empty)
    refine TgS.ite (fun hkw => ?_) fun _ => ?_
    · subst hkw
      refine TgS.bind (TgS.takeB hx ?_)
      exact dclAt (parseBlock_snd hr _ p)
    refine TgS.ite (fun hkw => ?_) fun _ => ?_
    · subst hkw
      refine TgS.bind (TgS.takeB hx ?_)
      exact TgS.callE (parseTry_snd hr _) (by sd_b) fun _ _ _ h => .of h
    refine TgS.ite (fun hkw => ?_) fun _ => ?_
    · subst hkw
      refine TgS.bind (TgS.takeB hx ?_)
      exact TgS.callE (parseUnset_snd hr _) (by sd_b) fun _ _ _ h => .of h
    refine TgS.ite (fun hkw => ?_) fun _ => ?_
    · subst hkw
      refine TgS.bind (TgS.takeB hx ?_)
      exact TgS.callE (parseForeach_snd hr _) (by sd_b) fun _ _ _ h => h
    refine TgS.ite (fun hkw => ?_) fun _ => ?_
    · subst hkw
      refine TgS.bind (TgS.takeB hx ?_)
      exact TgS.callE (parseFor_snd hr _) (by sd_b) fun _ _ _ h => h
    refine TgS.ite (fun hkw => ?_) fun _ => ?_
    · subst hkw
      refine TgS.bind (TgS.takeB hx ?_)
      exact TgS.callE (parseSwitch_snd hr _) (by sd_b) fun _ _ _ h => .of h
    refine TgS.ite (fun hkw => ?_) fun _ => ?_
    · subst hkw
      refine TgS.bind (TgS.takeB hx ?_)
      exact TgS.callE (parseIf_snd hr _) (by sd_b) fun _ _ _ h => h
    refine TgS.ite (fun hkw => ?_) fun _ => ?_
    · subst hkw
      refine TgS.bind (TgS.takeB hx ?_)
      exact TgS.callE (parseWhile_snd hr _) (by sd_b) fun _ _ _ h => h
    refine TgS.ite (fun hkw => ?_) fun _ => ?_
    · subst hkw
      refine TgS.bind (TgS.takeB hx ?_)
      exact TgS.callE (parseDo_snd hr _) (by sd_b) fun _ _ _ h => .of h
    refine TgS.ite (fun hkw => ?_) fun _ => ?_
    · subst hkw
      exact dcl (tryDecl_snd hr _ hx (fun b => by cases b <;> rfl) (parseStaticVarDecl_snd hr sp))
    refine TgS.ite (fun hkw => ?_) fun _ => ?_
    · subst hkw
      exact dcl (tryDecl_snd hr _ hx (fun b => by cases b <;> rfl) (parseGlobalVarDecl_snd sp))
    refine TgS.ite (fun hkw => ?_) fun _ => ?_
    · subst hkw
      refine dcl (tryDecl_snd hr _ hx (fun b => by cases b <;> rfl) ?_)
      refine PrE.intro fun p => ?_
      refine TgS.bind (TgS.callB (parseFunctionNamed_snd hr _ false) (by sd_b) ?_)
      rintro ⟨name, decl, sp⟩ q _ ⟨rf, us, rfl, h⟩
      exact TgS.pure (.s_function name h)
    · exact oth
  · exact oth

/-! ## The recursion -/

theorem recN_snd (toks : List TokSpan) : ∀ n, RecG toks (recN n)
  | 0 => ⟨fun _ => PrE.intro fun _ => TgS.noFuel, PrE.intro fun _ => TgS.noFuel⟩
  | n + 1 => ⟨fun prec => parseExpression_snd (recN_snd toks n) prec, parseStatement_snd (recN_snd toks n)⟩

/-! ## The top level -/

theorem parseTopUse_snd (t : TokSpan) : Pr toks (parseTopUse t) (fun _ us s => D .top (.k .Use :: us) s.erase) := by
  refine PrE.intro fun p => ?_
  unfold parseTopUse
  refine TgS.bind (TgS.callB (A := fun _ us vs => UseList us vs) (B' := Nn) ?_ (by sd_b) ?_)
  · refine PrE.intro fun p => ?_
    refine TgS.loop (fun _ us ss => ∀ vs ys, UseList vs ys → UseList (us ++ vs) (ss ++ ys)) (fun _ _ h => h) ?_
    intro ss ts q hI
    refine TgS.bind (TgS.callB (A := fun _ us b => us = if b then [.k .NsSeparator] else []) (B' := Nn) ?_ (by sd_b) ?_)
    · refine PrE.intro fun p => ?_
      unfold eats
      refine TgS.bind (TgS.eatB (fun _ => ?_) fun _ => ?_)
      · exact TgS.pure rfl
      · exact TgS.pure rfl
    rintro abs q _ rfl
    refine TgS.bind (TgS.callB parseNamespaceName_snd (by sd_b) ?_)
    rintro ⟨path, sp⟩ q us ⟨ns, id, rfl, h⟩
    have h : path = qualPath false ns id := h
    subst h
    have hq : (if abs then [Token.k .NsSeparator] else []) ++ nameToks ns id = qualToks abs ns id := by
      cases abs <;> rfl
    rw [List.append_assoc, hq]
    refine TgS.bind (TgS.bind (TgS.eatsB ?_ fun _ => ?_))
    · rw [if_pos rfl]
      refine TgS.bind (TgS.expectStringB (fun a sp => ?_) (by sd_b))
      refine TgS.pureB ?_
      dsimp only
      rw [qualPath_abs]
      refine TgS.bind (TgS.eatsB ?_ fun _ => ?_)
      · refine TgS.pure fun vs ys h => ?_
        simpa using hI _ _ (.consAs abs ns id a h)
      · refine TgS.pure ?_
        simpa using hI _ _ (.oneAs abs ns id a)
    · rw [if_neg Bool.false_ne_true]
      refine TgS.pureB ?_
      dsimp only
      rw [qualPath_abs]
      refine TgS.bind (TgS.eatsB ?_ fun _ => ?_)
      · refine TgS.pure fun vs ys h => ?_
        simpa using hI _ _ (.cons abs ns id h)
      · refine TgS.pure ?_
        simpa using hI _ _ (.one abs ns id)
  · intro cs q us h
    refine TgS.bind (TgS.expectB (fun _ => ?_) (by sd_b))
    exact TgS.pure (.t_use h)

theorem parseTopStatement_snd (hr : RecG toks r) : Pr toks (parseTopStatement r) (fun _ us s => D .top us s.erase) := by
  refine PrE.intro fun p => ?_
  unfold parseTopStatement
  refine TgS.bind (TgS.eatB (fun t => ?_) fun _ => ?_)
  · refine TgS.bind (TgS.callB parseNamespaceName_snd (by sd_b) ?_)
    rintro ⟨path, sp⟩ q us ⟨ns, id, rfl, h⟩
    have h : path = qualPath false ns id := h
    subst h
    refine TgS.bind (TgS.expectB (fun _ => ?_) (by sd_b))
    exact TgS.pure (.t_namespace ns id)
  refine TgS.bind (TgS.eatB (fun t => ?_) fun _ => ?_)
  · exact TgS.callE (parseTopUse_snd t) (by sd_b) fun _ _ _ h => h
  · exact TgS.callE (parseStatement_snd hr) (by sd_b) fun _ _ _ ⟨_, h, _⟩ => .t_stmt h

theorem parseTopStatementList_snd (hr : RecG toks r) : Pr toks (parseTopStatementList r) (fun q us ss =>
    toks.length ≤ q ∧ D .tops us (eraseStmts ss)) := by
  refine PrE.intro fun p => ?_
  unfold parseTopStatementList
  refine TgS.bind (TgS.tokCountB ?_)
  refine TgS.bind (TgS.subPB fun h0 => ?_)
  refine TgS.loop (fun _ us ss => ∀ vs ys, D .tops vs ys → D .tops (us ++ vs) (eraseStmts ss ++ ys)) (fun _ _ h => h) ?_
  intro ss ts q hI
  refine TgS.bind (TgS.getPosB fun _ => ?_)
  split
  · refine TgS.bind (TgS.callB (parseTopStatement_snd hr) (by sd_b) ?_)
    rintro s q us h
    refine TgS.pure fun vs ys h' => ?_
    simpa [eraseStmts_append, eraseStmts] using hI _ _ (.tops_cons h h')
  · rename_i hlt
    refine TgS.pure ⟨by omega, ?_⟩
    simpa using hI _ _ .tops_nil

end Pico
