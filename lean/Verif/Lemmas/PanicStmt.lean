import Verif.Lemmas.PanicOper
/-!
# Why the parser panics: statements and programs
-/
namespace Pico
open P

variable {toks : List TokSpan} {r : Rec} {base : Int} {lo pos : Nat}

macro_rules | `(tactic| ab1) => `(tactic| with_reducible refine Ab.tokBack (by reach) (by omega) ?_)

theorem Beg.bad {x : Nat} {a : TokSpan} (ha : toks[pos]? = some a) (hk : a.tok = .k .Ampersand) (h : Beg toks (pos + 1) x) (hx : x < 1) :
    BadStart toks := by
  obtain ⟨i, hi, t, ht, ⟨_, hb, h⟩ | ⟨_, u, hu, hb, h⟩⟩ := h
  · exact ⟨pos, a, i, t, ha, .inr hk, by omega, ht, hb, by omega⟩
  · exact ⟨pos, a, i + 1, u, ha, .inr hk, by omega, hu, hb, by omega⟩

theorem parseForeachVariable_ab (hq : RecA toks r) (h : Okay toks pos) : Aq toks pos (parseForeachVariable r) (Inst toks) any0 := by
  unfold parseForeachVariable
  refine Ab.eatsOther (Reach.refl h) ⟨nofun, nofun⟩ ?_ fun _ => ?_
  · intro t ht hk hr _
    refine Ab.bind (parseVariable_ab hq hr.fits) hr ?_ fun _ _ _ _ => trivial
    intro e p hr _ _ he
    refine Ab.iteTrue (Ab.subP (fun hlt => .inr ⟨rfl, he.2.bad ht hk hlt⟩) fun _ => Ab.pure hr nofun)
  · refine Ab.bindE (parseVariable_i hq h) (Reach.refl h) ?_
    intro e p hr _ _ he
    exact Ab.iteFalse (Ab.pure hr he)
macro_rules | `(tactic| ab_call) => `(tactic| with_reducible exact Ab.tail (by reach) (parseForeachVariable_ab (by assumption) (by okay)))
macro_rules | `(tactic| ab_call) => `(tactic| with_reducible exact Ab.tail (by reach) (Ab.any (parseForeachVariable_ab (by assumption) (by okay))))

theorem parseStatementExtractBlock_ab (hq : RecA toks r) (h : Okay toks pos) : Aq toks pos (parseStatementExtractBlock r) (fun _ _ => True) any0 := by
  unfold parseStatementExtractBlock
  ab
macro_rules | `(tactic| ab_call) => `(tactic| with_reducible exact Ab.tail (by reach) (parseStatementExtractBlock_ab (by assumption) (by okay)))

theorem parseStaticVarDecl_ab {start : Span} (hq : RecA toks r) (h : Okay toks pos) : Aq toks pos (parseStaticVarDecl r start) (fun _ _ => True) any0 := by
  unfold parseStaticVarDecl
  ab
macro_rules | `(tactic| ab_call) => `(tactic| with_reducible exact Ab.tail (by reach) (parseStaticVarDecl_ab (by assumption) (by okay)))

theorem parseGlobalVarDecl_ab {start : Span} (h : Okay toks pos) : At0 toks pos (parseGlobalVarDecl start) := by
  unfold parseGlobalVarDecl
  ab
macro_rules | `(tactic| ab_call) => `(tactic| with_reducible exact Ab.tail (by reach) (parseGlobalVarDecl_ab (by okay)))

/-! ## Classes -/

theorem parseMemberModifiers_ab (h : Okay toks pos) : At0 toks pos parseMemberModifiers := by
  unfold parseMemberModifiers
  ab
macro_rules | `(tactic| ab_call) => `(tactic| with_reducible exact Ab.tail (by reach) (parseMemberModifiers_ab (by okay)))

theorem InUse.pass {i : Nat} {t : TokSpan} (h : InUse (kinds toks) i) (ht : toks[i]? = some t) (hk : t.tok ≠ .k .CurlyBracesClose) :
    InUse (kinds toks) (i + 1) := by
  obtain ⟨u, o, h1, h2, h3, h4, h5, h6⟩ := h
  refine ⟨u, o, h1, by omega, h3, h4, h5, fun k h7 h8 => ?_⟩
  rcases Nat.lt_or_ge k i with hk' | hk'
  · exact h6 k h7 hk'
  · rw [show k = i by omega, at_kind ht rfl]
    intro h; exact hk (Option.some.inj h)

theorem InUse.one {i : Nat} (h : InUse (kinds toks) i) (hk : (kinds toks)[i]? ≠ some (.k .CurlyBracesClose)) :
    InUse (kinds toks) (i + 1) := by
  obtain ⟨u, o, h1, h2, h3, h4, h5, h6⟩ := h
  refine ⟨u, o, h1, by omega, h3, h4, h5, fun k h7 h8 => ?_⟩
  rcases Nat.lt_or_ge k i with hk' | hk'
  · exact h6 k h7 hk'
  · rw [show k = i by omega]; exact hk

theorem InUse.names {i j : Nat} (h : InUse (kinds toks) i) (hj : i ≤ j) (hn : Names toks i j) : InUse (kinds toks) j := by
  obtain ⟨u, o, h1, h2, h3, h4, h5, h6⟩ := h
  refine ⟨u, o, h1, by omega, h3, h4, h5, fun k h7 h8 => ?_⟩
  rcases Nat.lt_or_ge k i with hk' | hk'
  · exact h6 k h7 hk'
  · intro h
    have := hn k _ hk' h8 h
    cases this

theorem parseAbsoluteTraitMethodReference_ab (h : Okay toks pos) (hu : InUse (kinds toks) pos) :
    Aq toks pos parseAbsoluteTraitMethodReference (fun _ p => InUse (kinds toks) p) any0 := by
  unfold parseAbsoluteTraitMethodReference
  refine Ab.bind (parseName_ab h) (Reach.refl h) ?_ fun _ _ _ _ => trivial
  rintro ⟨p', _⟩ p hr hp _ ⟨hn, _⟩
  refine Ab.expectOther hr ⟨nofun, nofun⟩ trivial ?_
  intro t ht hk hr _
  have hu' := (hu.names hp hn).pass ht (by rw [hk]; nofun)
  refine Ab.bind (parseIdentifier_ab hr.fits fun _ => .inr hu') hr ?_ fun _ _ _ _ => trivial
  rintro ⟨_, _⟩ q hr _ _ ⟨rfl, hc, _⟩
  exact Ab.pure hr (hu'.one hc)

theorem parseTraitMethod_ab (h : Okay toks pos) (hu : InUse (kinds toks) pos) :
    Aq toks pos parseTraitMethod (fun o p => o.isSome = true → InUse (kinds toks) p) any0 := by
  unfold parseTraitMethod
  refine Ab.getPos (Ab.attempt (parseAbsoluteTraitMethodReference_ab h hu) (Reach.refl h) ?_ ?_)
  · rintro ⟨_, _⟩ p hr _ _ hv
    exact Ab.pure hr fun _ => hv
  · intro _ _ _ _ _ _
    refine Ab.setPos (Ab.attempt (parseIdentifier_ab h fun _ => .inr hu) (Reach.refl h) ?_ fun _ _ hr _ _ _ => Ab.pure hr nofun)
    rintro ⟨_, _⟩ p hr _ _ ⟨rfl, hc, _⟩
    exact Ab.pure hr fun _ => hu.one hc

theorem traitAdaptStep_ab {s : Bool × List TraitUse} (h : Okay toks pos) (hu : InUse (kinds toks) pos) :
    Aq toks pos (traitAdaptStep s) (fun y p => (∀ x, y = .inl x → InUse (kinds toks) p) ∧ ∀ x, y = .inr x → True) any0 := by
  obtain ⟨first, uses⟩ := s
  have key : ∀ {p}, Reach toks (dep toks pos) pos p → InUse (kinds toks) p → Ab toks (dep toks pos) pos p (do
      match ← parseTraitMethod with
      | none => return .inr uses
      | some (path, name) =>
        let names : Option (List Path) ← (if path.isSome then do
            if ← P.eats .Insteadof then
              let ns ← parseNameList
              return some ns
            else return none
          else return none)
        match names, path with
        | some ns, some p => return .inl (false, uses ++ [.insteadOf p name ns])
        | _, _ =>
          if ← P.eats .As then
            match ← P.eatString with
            | some (a, _) => return .inl (false, uses ++ [.asAlias path name MemberModifiers.none (some a)])
            | none => P.abort .unimplemented
          else return .inl (false, uses))
      (fun (y : (Bool × List TraitUse) ⊕ List TraitUse) p => (∀ x, y = .inl x → InUse (kinds toks) p) ∧ ∀ x, y = .inr x → True) any0 := by
    intro p hr hu
    refine Ab.bind (parseTraitMethod_ab hr.fits hu) hr ?_ fun _ _ _ _ => trivial
    intro o p hr _ _ ho
    cases o with
    | none => exact Ab.pure hr ⟨nofun, fun _ _ => trivial⟩
    | some x =>
      obtain ⟨path, name⟩ := x
      have hu := ho rfl
      have last : ∀ {p}, Reach toks (dep toks pos) pos p → InUse (kinds toks) p → Ab toks (dep toks pos) pos p (do
          if ← P.eats .As then
            match ← P.eatString with
            | some (a, _) => return .inl (false, uses ++ [.asAlias path name MemberModifiers.none (some a)])
            | none => P.abort .unimplemented
          else return .inl (false, uses))
          (fun (y : (Bool × List TraitUse) ⊕ List TraitUse) p => (∀ x, y = .inl x → InUse (kinds toks) p) ∧ ∀ x, y = .inr x → True) any0 := by
        intro p hr hu
        refine Ab.eatsOther hr ⟨nofun, nofun⟩ ?_ fun _ => Ab.pure hr ⟨fun _ _ => hu, nofun⟩
        intro t ht hk hr _
        have hu' := hu.pass ht (by rw [hk]; nofun)
        refine Ab.eatString hr ?_ ?_
        · intro s sp hs hr _
          exact Ab.pure hr ⟨fun _ _ => hu'.pass hs nofun, nofun⟩
        · intro hn
          refine Ab.cause (.alias p (at_kind ht hk) hu fun s hs => ?_)
          rw [kinds_get] at hs
          cases hx : toks[p + 1]? with
          | none => rw [hx] at hs; cases hs
          | some u =>
            obtain ⟨tok, sp⟩ := u
            rw [hx] at hs
            cases hs
            exact hn s sp hx
      refine Ab.bind (E0 := any0) (V := fun _ p => InUse (kinds toks) p) ?_ hr ?_ fun _ _ _ _ => trivial
      · refine Ab.ite (fun _ => ?_) fun _ => Ab.pure hr.here hu
        refine Ab.eatsOther hr.here ⟨nofun, nofun⟩ ?_ fun _ => Ab.pure hr.here hu
        intro t ht hk hr _
        have hu' := hu.pass ht (by rw [hk]; nofun)
        refine Ab.bind (parseNameList_ab hr.fits) hr ?_ fun _ _ _ _ => trivial
        intro _ p hr hp _ hn
        exact Ab.pure hr (hu'.names hp hn)
      · intro names p hr _ _ hu
        split
        · exact Ab.pure hr ⟨fun _ _ => hu, nofun⟩
        · exact last hr hu
  unfold traitAdaptStep
  cases first with
  | true => exact key (Reach.refl h) hu
  | false =>
    refine Ab.expectOther (Reach.refl h) ⟨nofun, nofun⟩ trivial ?_
    intro t ht hk hr _
    exact key hr (hu.pass ht (by rw [hk]; nofun))

theorem parseTraitUse_ab {u : Nat} {t : TokSpan} (h : Okay toks (u + 1)) (ht : toks[u]? = some t) (hk : t.tok = .k .Use) :
    At0 toks (u + 1) parseTraitUse := by
  unfold parseTraitUse
  refine Ab.bind (parseNameList_ab h) (Reach.refl h) ?_ fun _ _ _ _ => trivial
  intro names o hr ho _ hn
  refine Ab.eatsOther hr ⟨nofun, nofun⟩ (fun _ _ _ hr _ => Ab.pure hr trivial) fun _ => ?_
  refine Ab.expectOther hr ⟨nofun, nofun⟩ trivial ?_
  intro b hb hbk hr _
  refine Ab.eatsOther hr ⟨nofun, nofun⟩ (fun _ _ _ hr _ => Ab.pure hr trivial) fun _ => ?_
  have hu : InUse (kinds toks) (o + 1) :=
    ⟨u, o, ho, Nat.lt_succ_self _, at_kind ht hk, fun k x h1 h2 hx => hn k x h1 h2 hx, at_kind hb hbk, fun k h1 h2 => absurd h1 (by omega)⟩
  refine Ab.bindT (Ab.loop (fun _ p => InUse (kinds toks) p) hr.here hu ?_) hr ?_
  · intro s p hr hu
    exact Ab.tail hr (traitAdaptStep_ab hr.fits hu)
  · ab

theorem parseClassConsts_ab {ms : MemberModifiers} {c : Nat} {t : TokSpan} (hq : RecA toks r) (h : Okay toks (c + 1)) (ht : toks[c]? = some t)
    (hk : t.tok = .k .Const) : At0 toks (c + 1) (parseClassConsts r ms) := by
  unfold parseClassConsts
  refine Ab.loop (fun _ p => NameSpot (kinds toks) p) (Reach.refl h) (.inl ⟨c, rfl, .inr (.inr (.inl (at_kind ht hk)))⟩) ?_
  intro _ p hr hn
  refine Ab.bind (parseIdentifier_ab hr.fits fun _ => hn) hr ?_ fun _ _ _ _ => trivial
  rintro ⟨id, _⟩ p hr _ _ _
  refine Ab.expectOther hr ⟨nofun, nofun⟩ trivial ?_
  intro _ _ _ hr _
  refine Ab.bindE (hq.1 _ _ hr.fits) hr ?_
  intro e p hr _ _ _
  refine Ab.eatsOther hr ⟨nofun, nofun⟩ ?_ fun _ => Ab.pure hr ⟨nofun, fun _ _ => trivial⟩
  intro u hu huk hr2 _
  exact Ab.pure hr2 ⟨fun _ _ => .inl ⟨p, rfl, .inr (.inr (.inr ⟨at_kind hu huk, c, hr.le, at_kind ht hk⟩))⟩, nofun⟩

theorem parseProperties_ab {ms : MemberModifiers} (hq : RecA toks r) (h : Okay toks pos) : Aq toks pos (parseProperties r ms) (fun _ _ => True) any0 := by
  unfold parseProperties
  ab
macro_rules | `(tactic| ab_call) => `(tactic| with_reducible exact Ab.tail (by reach) (parseProperties_ab (by assumption) (by okay)))

theorem parseClassStatement_ab (hq : RecA toks r) (h : Okay toks pos) : At0 toks pos (parseClassStatement r) := by
  unfold parseClassStatement
  refine Ab.eatsOther (Reach.refl h) ⟨nofun, nofun⟩ ?_ fun _ => ?_
  · intro _ _ _ hr _
    ab
  · refine Ab.bindT (parseMemberModifiers_ab h) (Reach.refl h) ?_
    intro mods p hr _ _
    refine Ab.eatsOther hr ⟨nofun, nofun⟩ (fun t ht hk hr _ => Ab.tail hr (parseTraitUse_ab hr.fits ht hk)) fun _ => ?_
    refine Ab.eatOther hr ⟨nofun, nofun⟩ ?_ fun _ => ?_
    · intro t ht hk hr _
      refine Ab.bindT (parseFunctionNamed_ab hq hr.fits (FnHead.begin ht hk)) hr ?_
      ab
    · refine Ab.bindT ?_ hr ?_
      · exact Ab.eatsOther hr.here ⟨nofun, nofun⟩ (fun t ht hk hr _ => Ab.tail hr (parseClassConsts_ab hq hr.fits ht hk))
          fun _ => parseProperties_ab hq hr.fits
      · ab
macro_rules | `(tactic| ab_call) => `(tactic| with_reducible exact Ab.tail (by reach) (parseClassStatement_ab (by assumption) (by okay)))

theorem parseClassStatementList_ab (hq : RecA toks r) (h : Okay toks pos) : At0 toks pos (parseClassStatementList r) := by
  unfold parseClassStatementList
  refine Ab.tokCount (Ab.subP nothing_of fun _ => ?_)
  ab
macro_rules | `(tactic| ab_call) => `(tactic| with_reducible exact Ab.tail (by reach) (parseClassStatementList_ab (by assumption) (by okay)))

theorem parseClassModifiers_ab (h : Okay toks pos) : Aq toks pos parseClassModifiers (fun ms p => pos + ms.length ≤ p) any0 := by
  unfold parseClassModifiers
  refine Ab.loop (fun ms p => pos + ms.length ≤ p) (Reach.refl h) (Nat.le_refl _) ?_
  intro ms p hr hl
  refine Ab.eatsOther hr ⟨nofun, nofun⟩ (fun _ _ _ hr _ => Ab.pure hr ⟨fun x hx => by cases hx; simp; omega, nofun⟩) fun _ => ?_
  exact Ab.eatsOther hr ⟨nofun, nofun⟩ (fun _ _ _ hr _ => Ab.pure hr ⟨fun x hx => by cases hx; simp; omega, nofun⟩)
    fun _ => Ab.pure hr ⟨nofun, fun x hx => by cases hx; exact hl⟩

theorem parseMembers_ab (hq : RecA toks r) (h : Okay toks pos) : Aq toks pos (parseMembers r) (fun _ _ => True) any0 := by
  unfold parseMembers
  ab
macro_rules | `(tactic| ab_call) => `(tactic| with_reducible exact Ab.tail (by reach) (parseMembers_ab (by assumption) (by okay)))

theorem parseOptNames_ab {k : Kw} (h : Okay toks pos) (hk : k ≠ .ParenthesesOpen ∧ k ≠ .ParenthesesClose) : At0 toks pos (parseOptNames k) := by
  unfold parseOptNames
  exact Ab.eatsOther (Reach.refl h) hk (fun _ _ _ hr _ => Ab.tail hr (parseNameList_ab hr.fits).any) fun _ => Ab.pure (Reach.refl h) trivial

theorem extends_ab (h : Okay toks pos) : At0 toks pos (parseOptNames .Extends) := parseOptNames_ab h ⟨nofun, nofun⟩
macro_rules | `(tactic| ab_call) => `(tactic| with_reducible exact Ab.tail (by reach) (extends_ab (by okay)))
theorem implements_ab (h : Okay toks pos) : At0 toks pos (parseOptNames .Implements) := parseOptNames_ab h ⟨nofun, nofun⟩
macro_rules | `(tactic| ab_call) => `(tactic| with_reducible exact Ab.tail (by reach) (implements_ab (by okay)))

theorem parseOoDeclaration_ab (hq : RecA toks r) (h : Okay toks pos) : At0 toks pos (parseOoDeclaration r) := by
  unfold parseOoDeclaration
  refine Ab.eatsOther (Reach.refl h) ⟨nofun, nofun⟩ (fun _ _ _ hr _ => ?_) fun _ => ?_
  · ab
  refine Ab.eatsOther (Reach.refl h) ⟨nofun, nofun⟩ (fun _ _ _ hr _ => ?_) fun _ => ?_
  · ab
  refine Ab.bind (parseClassModifiers_ab h) (Reach.refl h) ?_ fun _ _ _ _ => trivial
  intro ms p hr _ _ hl
  refine Ab.expectOther hr ⟨nofun, nofun⟩ trivial ?_
  intro _ _ _ hr _
  ab
macro_rules | `(tactic| ab_call) => `(tactic| with_reducible exact Ab.tail (by reach) (parseOoDeclaration_ab (by assumption) (by okay)))

/-! ## Statements -/

theorem parseCatches_ab (hq : RecA toks r) (h : Okay toks pos) : Aq toks pos (parseCatches r) (fun _ _ => True) any0 := by
  unfold parseCatches
  ab
macro_rules | `(tactic| ab_call) => `(tactic| with_reducible exact Ab.tail (by reach) (parseCatches_ab (by assumption) (by okay)))

theorem parseTry_ab {t : TokSpan} (hq : RecA toks r) (h : Okay toks pos) (h0 : 0 < pos) : At0 toks pos (parseTry r t) := by
  unfold parseTry
  ab

theorem parseUnset_ab {t : TokSpan} (hq : RecA toks r) (h : Okay toks pos) : Aq toks pos (parseUnset r t) (fun _ _ => True) any0 := by
  unfold parseUnset
  ab
macro_rules | `(tactic| ab_call) => `(tactic| with_reducible exact Ab.tail (by reach) (parseUnset_ab (by assumption) (by okay)))

theorem parseForeach_ab {t : TokSpan} (hq : RecA toks r) (h : Okay toks pos) : Aq toks pos (parseForeach r t) (fun _ _ => True) any0 := by
  unfold parseForeach
  ab
macro_rules | `(tactic| ab_call) => `(tactic| with_reducible exact Ab.tail (by reach) (parseForeach_ab (by assumption) (by okay)))

theorem parseFor_ab {t : TokSpan} (hq : RecA toks r) (h : Okay toks pos) : Aq toks pos (parseFor r t) (fun _ _ => True) any0 := by
  unfold parseFor
  ab
macro_rules | `(tactic| ab_call) => `(tactic| with_reducible exact Ab.tail (by reach) (parseFor_ab (by assumption) (by okay)))

theorem parseCaseHead_ab (hq : RecA toks r) (h : Okay toks pos) : Aq toks pos (parseCaseHead r) (fun _ _ => True) any0 := by
  unfold parseCaseHead
  ab
macro_rules | `(tactic| ab_call) => `(tactic| with_reducible exact Ab.tail (by reach) (parseCaseHead_ab (by assumption) (by okay)))

theorem switchStep_ab {s : List Case × List Expr} (hq : RecA toks r) (h : Okay toks pos) : Aq toks pos (switchStep r s) (fun _ _ => True) any0 := by
  unfold switchStep
  ab
macro_rules | `(tactic| ab_call) => `(tactic| with_reducible exact Ab.tail (by reach) (switchStep_ab (by assumption) (by okay)))

theorem parseSwitch_ab {t : TokSpan} (hq : RecA toks r) (h : Okay toks pos) : Aq toks pos (parseSwitch r t) (fun _ _ => True) any0 := by
  unfold parseSwitch
  ab
macro_rules | `(tactic| ab_call) => `(tactic| with_reducible exact Ab.tail (by reach) (parseSwitch_ab (by assumption) (by okay)))

theorem parseParenExpr_ab (hq : RecA toks r) (h : Okay toks pos) : Aq toks pos (parseParenExpr r) (Inst toks) any0 := by
  unfold parseParenExpr
  ab
macro_rules | `(tactic| ab_call) => `(tactic| with_reducible exact Ab.tail (by reach) (parseParenExpr_ab (by assumption) (by okay)))
macro_rules | `(tactic| ab_call) => `(tactic| with_reducible exact Ab.tail (by reach) (Ab.any (parseParenExpr_ab (by assumption) (by okay))))

theorem parseDo_ab {t : TokSpan} (hq : RecA toks r) (h : Okay toks pos) : Aq toks pos (parseDo r t) (fun _ _ => True) any0 := by
  unfold parseDo
  ab
macro_rules | `(tactic| ab_call) => `(tactic| with_reducible exact Ab.tail (by reach) (parseDo_ab (by assumption) (by okay)))

theorem parseWhile_ab {t : TokSpan} (hq : RecA toks r) (h : Okay toks pos) : Aq toks pos (parseWhile r t) (fun _ _ => True) any0 := by
  unfold parseWhile
  ab
macro_rules | `(tactic| ab_call) => `(tactic| with_reducible exact Ab.tail (by reach) (parseWhile_ab (by assumption) (by okay)))


/-- A branch of `if` without `else`. -/
def IfAlone (s : Stmt) : Prop := ∃ c b sp, s = .mk (.ite c b []) sp

theorem parseIfBranch_ab {n : Nat} (hq : RecA toks r) (h : Okay toks pos) : Aq toks pos (parseIfBranch r n) (fun s _ => IfAlone s) any0 := by
  unfold parseIfBranch
  refine Ab.bindE (parseParenExpr_ab hq h) (Reach.refl h) ?_
  intro c p hr _ _ _
  refine Ab.bindT (parseStatementExtractBlock_ab hq hr.fits) hr ?_
  rintro ⟨b, sp⟩ p hr _ _
  exact Ab.pure hr ⟨_, _, _, rfl⟩

/-- What the branches look like. -/
def IfList (toks : List TokSpan) (ss : List Stmt) (p : Nat) : Prop :=
  (ss ≠ [] ∧ ∀ s, s ∈ ss → IfAlone s) ∨
  (∃ i, i < p ∧ (kinds toks)[i]? = some (.k .Else) ∧ ∃ init b sp, ss = init ++ [.mk (.block b) sp] ∧ ∀ s, s ∈ init → IfAlone s) ∨
  (ss ≠ [] ∧ Cause (kinds toks) .unreachable)

theorem IfList.mono {ss : List Stmt} {p q : Nat} (h : IfList toks ss p) (hq : p ≤ q) : IfList toks ss q := by
  rcases h with h | ⟨i, hi, h⟩ | h
  · exact .inl h
  · exact .inr (.inl ⟨i, by omega, h⟩)
  · exact .inr (.inr h)

theorem ifStep_ab {ss : List Stmt} (hq : RecA toks r) (h : Okay toks pos) (hs : IfList toks ss pos) :
    Aq toks pos (ifStep r ss) (fun y p => (∀ x, y = .inl x → IfList toks x p) ∧ ∀ x, y = .inr x → IfList toks x p) any0 := by
  unfold ifStep
  refine Ab.eatOther (Reach.refl h) ⟨nofun, nofun⟩ ?_ fun _ => ?_
  · intro t ht hk hr _
    refine Ab.bind (parseIfBranch_ab hq hr.fits) hr ?_ fun _ _ _ _ => trivial
    intro s p hr _ _ hb
    refine Ab.pure hr ⟨fun x hx => ?_, nofun⟩
    cases hx
    rcases hs with ⟨_, h1⟩ | ⟨i, hi, h1, _⟩ | ⟨_, h1⟩
    · refine .inl ⟨by simp, fun x hx => ?_⟩
      rcases List.mem_append.1 hx with hx | hx
      · exact h1 x hx
      · rw [List.mem_singleton.1 hx]; exact hb
    · exact .inr (.inr ⟨by simp, .elses i pos hi h1 (.inr (at_kind ht hk))⟩)
    · exact .inr (.inr ⟨by simp, h1⟩)
  · refine Ab.eatOther (Reach.refl h) ⟨nofun, nofun⟩ ?_ fun _ => Ab.pure (Reach.refl h) ⟨nofun, fun x hx => by cases hx; exact hs⟩
    intro t ht hk hr _
    refine Ab.bindT (parseStatementExtractBlock_ab hq hr.fits) hr ?_
    rintro ⟨b, sp⟩ p hr hp _
    refine Ab.pure hr ⟨fun x hx => ?_, nofun⟩
    cases hx
    rcases hs with ⟨_, h1⟩ | ⟨i, hi, h1, _⟩ | ⟨_, h1⟩
    · exact .inr (.inl ⟨pos, hp, at_kind ht hk, ss, _, _, rfl, h1⟩)
    · exact .inr (.inr ⟨by simp, .elses i pos hi h1 (.inl (at_kind ht hk))⟩)
    · exact .inr (.inr ⟨by simp, h1⟩)

theorem nestIfs_some {acc : Stmt} {l : List Stmt} (ha : (∃ b sp, acc = .mk (.block b) sp) ∨ ∃ c b e sp, acc = .mk (.ite c b e) sp)
    (hl : ∀ s, s ∈ l → IfAlone s) : ∃ s, nestIfs acc l = some s := by
  induction l generalizing acc with
  | nil => exact ⟨acc, rfl⟩
  | cons el els ih =>
    obtain ⟨c, b, sp, rfl⟩ := hl el (List.mem_cons_self ..)
    have hl' : ∀ s, s ∈ els → IfAlone s := fun s hs => hl s (List.mem_cons_of_mem _ hs)
    rcases ha with ⟨b', sp', rfl⟩ | ⟨c', b', e', sp', rfl⟩
    · exact ih (.inr ⟨_, _, _, _, rfl⟩) hl'
    · exact ih (.inr ⟨_, _, _, _, rfl⟩) hl'

theorem parseIf_ab {t : TokSpan} (hq : RecA toks r) (h : Okay toks pos) : At0 toks pos (parseIf r t) := by
  unfold parseIf
  refine Ab.bind (parseIfBranch_ab hq h) (Reach.refl h) ?_ fun _ _ _ _ => trivial
  intro first p hr _ _ hb
  refine Ab.bind (E0 := any0) (V := fun ss p => IfList toks ss p) (Ab.loop (fun ss p => IfList toks ss p) hr.here
    (.inl ⟨nofun, fun s hs => by rw [List.mem_singleton.1 hs]; exact hb⟩) fun ss p hr hs => Ab.tail hr (ifStep_ab hq hr.fits hs)) hr ?_
    fun _ _ _ _ => trivial
  intro ss p hr _ _ hs
  have fin : ∀ last rest, ss.reverse = last :: rest → (∃ s, nestIfs last rest = some s) ∨ Cause (kinds toks) .unreachable := by
    intro last rest he
    rcases hs with ⟨_, h1⟩ | ⟨_, _, _, init, b, sp, h1, h2⟩ | ⟨_, h1⟩
    · have hm : ∀ s, s ∈ last :: rest → IfAlone s := fun s hs => h1 s (by rw [← he] at hs; exact List.mem_reverse.1 hs)
      obtain ⟨c, b, sp, e⟩ := hm last (List.mem_cons_self ..)
      exact .inl (nestIfs_some (.inr ⟨_, _, _, _, e⟩) fun s hs => hm s (List.mem_cons_of_mem _ hs))
    · rw [h1, List.reverse_append] at he
      cases he
      exact .inl (nestIfs_some (.inl ⟨_, _, rfl⟩) fun s hs => h2 s (List.mem_reverse.1 hs))
    · exact .inr h1
  have hne : ss ≠ [] := by
    rcases hs with h | ⟨_, _, _, _, _, _, h, _⟩ | h
    · exact h.1
    · rw [h]; simp
    · exact h.1
  cases he : ss.reverse with
  | nil => exact absurd (List.reverse_eq_nil_iff.1 he) hne
  | cons last rest =>
    dsimp only
    rcases fin last rest he with ⟨s, hs⟩ | hc
    · rw [hs]; exact Ab.pure hr trivial
    · cases nestIfs last rest with
      | some s => exact Ab.pure hr trivial
      | none => exact Ab.cause hc
theorem parseBlock_ab {t : TokSpan} (hq : RecA toks r) (h : Okay toks pos) : Aq toks pos (parseBlock r t) (fun _ _ => True) any0 := by
  unfold parseBlock
  ab
macro_rules | `(tactic| ab_call) => `(tactic| with_reducible exact Ab.tail (by reach) (parseBlock_ab (by assumption) (by okay)))


theorem simpleStmt_ab {t : TokSpan} {m : P StmtK} (hq : RecA toks r) (h : Okay toks pos) (hm : simpleStmt r t = some m) : At0 toks pos m := by
  unfold simpleStmt at hm
  split at hm <;> cases hm
  all_goals ab

theorem simple_paren {t : TokSpan} {m : P StmtK} (hm : simpleStmt r t = some m) : t.tok ≠ .k .ParenthesesOpen ∧ t.tok ≠ .k .ParenthesesClose := by
  unfold simpleStmt at hm
  refine ⟨fun e => ?_, fun e => ?_⟩ <;> rw [e] at hm <;> cases hm

theorem parseExprStmt_ab {store : Option PErr} (hq : RecA toks r) (h : Okay toks pos) : Aq toks pos (parseExprStmt r store) (fun _ _ => True) any0 := by
  unfold parseExprStmt
  ab
macro_rules | `(tactic| ab_call) => `(tactic| with_reducible exact Ab.tail (by reach) (parseExprStmt_ab (by assumption) (by okay)))


theorem parseOtherStmt_ab {store : Option PErr} (hq : RecA toks r) (h : Okay toks pos) : At0 toks pos (parseOtherStmt r store) := by
  unfold parseOtherStmt
  refine Ab.attemptT (parseOoDeclaration_ab hq h) (Reach.refl h) (fun _ _ hr _ _ => Ab.pure hr trivial) ?_
  intro e p hr _ _
  refine Ab.peek ?_
  intro o ho
  cases o with
  | none => exact Ab.err hr trivial
  | some t =>
    dsimp only
    cases hm : simpleStmt r t with
    | some m =>
      have hp := simple_paren hm
      have hr' := hr.pass (t := t.tok) (by rw [ho]; rfl) hp.1 hp.2
      refine Ab.getPos (Ab.setPos (Ab.bindT (simpleStmt_ab hq hr'.fits hm) hr' ?_))
      ab
    | none => exact Ab.getPos (Ab.tail hr (parseExprStmt_ab hq hr.fits))

theorem tryDecl_ab {m : P Stmt} (hq : RecA toks r) (h : Okay toks pos) (hr : Reach toks (dep toks pos) pos (pos + 1)) (hm : At0 toks (pos + 1) m) :
    At0 toks pos (tryDecl r m) := by
  unfold tryDecl
  refine Ab.getPos (Ab.setPos (Ab.attemptT hm hr (fun _ _ hr _ _ => Ab.pure hr trivial) ?_))
  intro e p _ _ _
  exact Ab.setPos (parseOtherStmt_ab hq h)

theorem parseStatement_ab (hq : RecA toks r) (h : Okay toks pos) : At0 toks pos (parseStatement r) := by
  unfold parseStatement
  refine Ab.peek ?_
  intro o ho
  split
  · next k sp =>
    have hstep : k ≠ .ParenthesesOpen ∧ k ≠ .ParenthesesClose → Reach toks (dep toks pos) pos (pos + 1) := fun hk =>
      (Reach.refl h).pass (t := .k k) (by rw [ho]; rfl) (by intro h; cases h; exact hk.1 rfl) (by intro h; cases h; exact hk.2 rfl)
    refine Ab.getPos ?_
    refine Ab.ite (fun hk => Ab.setPos ?_) fun _ => ?_
    · exact Ab.pure (hstep (by rw [hk]; exact ⟨nofun, nofun⟩)) trivial
    refine Ab.ite (fun hk => Ab.setPos ?_) fun _ => ?_
    · have hr := hstep (by rw [hk]; exact ⟨nofun, nofun⟩)
      exact Ab.tail hr (parseBlock_ab hq hr.fits)
    refine Ab.ite (fun hk => Ab.setPos ?_) fun _ => ?_
    · have hr := hstep (by rw [hk]; exact ⟨nofun, nofun⟩)
      exact Ab.tail hr (parseTry_ab hq hr.fits (Nat.succ_pos _))
    refine Ab.ite (fun hk => Ab.setPos ?_) fun _ => ?_
    · have hr := hstep (by rw [hk]; exact ⟨nofun, nofun⟩)
      exact Ab.tail hr (parseUnset_ab hq hr.fits)
    refine Ab.ite (fun hk => Ab.setPos ?_) fun _ => ?_
    · have hr := hstep (by rw [hk]; exact ⟨nofun, nofun⟩)
      exact Ab.tail hr (parseForeach_ab hq hr.fits)
    refine Ab.ite (fun hk => Ab.setPos ?_) fun _ => ?_
    · have hr := hstep (by rw [hk]; exact ⟨nofun, nofun⟩)
      exact Ab.tail hr (parseFor_ab hq hr.fits)
    refine Ab.ite (fun hk => Ab.setPos ?_) fun _ => ?_
    · have hr := hstep (by rw [hk]; exact ⟨nofun, nofun⟩)
      exact Ab.tail hr (parseSwitch_ab hq hr.fits)
    refine Ab.ite (fun hk => Ab.setPos ?_) fun _ => ?_
    · have hr := hstep (by rw [hk]; exact ⟨nofun, nofun⟩)
      exact Ab.tail hr (parseIf_ab hq hr.fits)
    refine Ab.ite (fun hk => Ab.setPos ?_) fun _ => ?_
    · have hr := hstep (by rw [hk]; exact ⟨nofun, nofun⟩)
      exact Ab.tail hr (parseWhile_ab hq hr.fits)
    refine Ab.ite (fun hk => Ab.setPos ?_) fun _ => ?_
    · have hr := hstep (by rw [hk]; exact ⟨nofun, nofun⟩)
      exact Ab.tail hr (parseDo_ab hq hr.fits)
    refine Ab.ite (fun hk => ?_) fun _ => ?_
    · have hr := hstep (by rw [hk]; exact ⟨nofun, nofun⟩)
      exact tryDecl_ab hq h hr (parseStaticVarDecl_ab hq hr.fits)
    refine Ab.ite (fun hk => ?_) fun _ => ?_
    · have hr := hstep (by rw [hk]; exact ⟨nofun, nofun⟩)
      exact tryDecl_ab hq h hr (parseGlobalVarDecl_ab hr.fits)
    refine Ab.ite (fun hk => ?_) fun _ => ?_
    · have hr := hstep (by rw [hk]; exact ⟨nofun, nofun⟩)
      refine tryDecl_ab hq h hr (Ab.bindT (parseFunctionNamed_ab hq hr.fits (FnHead.begin ho (by rw [hk]))) hr.here ?_)
      rintro ⟨_, _, _⟩ p hr _ _
      exact Ab.pure hr trivial
    exact parseOtherStmt_ab hq h
  · exact parseOtherStmt_ab hq h
macro_rules | `(tactic| ab_call) => `(tactic| with_reducible exact Ab.tail (by reach) (parseStatement_ab (by assumption) (by okay)))

theorem recN_ab {n : Nat} : RecA toks (recN n) := by
  induction n with
  | zero => exact ⟨fun _ _ _ => trivial, fun _ _ => trivial⟩
  | succ n ih => exact ⟨fun _ _ h => parseExpression_ab ih h, fun _ h => parseStatement_ab ih h⟩

theorem parseTopUse_ab {t : TokSpan} (h : Okay toks pos) : At0 toks pos (parseTopUse t) := by
  unfold parseTopUse
  ab
macro_rules | `(tactic| ab_call) => `(tactic| with_reducible exact Ab.tail (by reach) (parseTopUse_ab (by okay)))

theorem parseTopStatement_ab (hq : RecA toks r) (h : Okay toks pos) : Aq toks pos (parseTopStatement r) (fun _ _ => True) any0 := by
  unfold parseTopStatement
  ab
macro_rules | `(tactic| ab_call) => `(tactic| with_reducible exact Ab.tail (by reach) (parseTopStatement_ab (by assumption) (by okay)))

theorem parseTopStatementList_ab (hq : RecA toks r) (h : Okay toks pos) : At0 toks pos (parseTopStatementList r) := by
  unfold parseTopStatementList
  refine Ab.tokCount (Ab.subP nothing_of fun _ => ?_)
  ab

/-- The parser panics for one of the reasons only. -/
theorem parser_faults {n : Nat} {q : Panic} (h : parseTopStatementList (recN n) toks 0 = .panic q) : Fault toks q := by
  have := parseTopStatementList_ab (toks := toks) (pos := 0) (recN_ab (n := n)) (.inl (Nat.zero_le _))
  unfold At0 Aq Ab at this
  rw [h] at this
  exact this

end Pico
