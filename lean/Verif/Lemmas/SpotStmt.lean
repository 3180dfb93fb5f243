import Verif.Lemmas.SpotOper
import Verif.Lemmas.ReadStmt
/-!
# Statements with their ranges are readings of their tokens
-/
namespace Pico
open P

macro_rules | `(tactic| pl_call) => `(tactic| first
  | with_reducible exact parseVariable_spot (by assumption) _
  | with_reducible exact parseNameList_spot
  | with_reducible exact parseIdentifier_spot)

section
variable {r : Rec} (hr : RecZ r)
include hr

omit hr in
theorem Cov.target (e : Expr) : Cov e.target e.spots := by
  obtain ⟨k, sp⟩ := e
  cases k with
  | reference e =>
    show Cov (.item (.kw [.Ampersand]) :: e.spots) (.start sp.start :: ((.item (.kw [.Ampersand]) :: e.spots) ++ [.stop sp.stop]))
    exact .drop (Cov.left _ _)
  | _ => exact .refl _

theorem parseForeachVariable_spot : Yz [] (parseForeachVariable r) Expr.target := by
  intro toks pre p
  unfold parseForeachVariable
  pl
  · refine Lz.pure ?_
    intro h _
    refine h.cov ?_
    simp only [Expr.target]
    pl_cov
  · refine Lz.pure ?_
    intro h _
    refine h.cov ?_
    refine (Cov.app _ (Cov.target _)).trans ?_
    pl_cov

theorem parseStatementExtractBlock_spot : Yz [] (parseStatementExtractBlock r) (fun x => stmtsSpots x.1 ++ [.stop x.2.stop]) := by
  intro toks pre p
  unfold parseStatementExtractBlock
  pl

theorem parseStaticVarDecl_spot (start : Span) : Yz (tokSpots start (.kw [.Static])) (parseStaticVarDecl r start) Stmt.spots := by
  have hl : Yz [] (loop (fun (vars : List (Text × Option Expr)) => do
      let (v, _) ← expectVariable
      let value : Option Expr ← (do
        if ← eats .Equal then
          let e ← r.expr .None
          return some e
        else return none)
      if ← eats .Comma then return .inl (vars ++ [(v, value)])
      else return .inr (vars ++ [(v, value)])) []) staticsSpots := by
    refine Yz.loop0 (I := staticsSpots) ?_ rfl
    intro vs toks pre p
    pl
  intro toks pre p
  unfold parseStaticVarDecl
  simp only [tokSpots]
  refine Lz.bind ?_
  refine Lz.callB hl ?_
  intro _ _
  pl

omit hr in
theorem parseGlobalVarDecl_spot (start : Span) : Yz (tokSpots start (.kw [.Global])) (parseGlobalVarDecl start) Stmt.spots := by
  have hl : Yz [] (loop (fun (vars : List Variable) => do
      let (v, _) ← parseSimpleVariable
      if ← eats .Comma then return .inl (vars ++ [v]) else return .inr (vars ++ [v])) []) variablesSpots := by
    refine Yz.loop0 (I := variablesSpots) ?_ rfl
    intro vs toks pre p
    pl
  intro toks pre p
  unfold parseGlobalVarDecl
  simp only [tokSpots]
  refine Lz.bind ?_
  refine Lz.callB hl ?_
  intro _ _
  pl

end

macro_rules | `(tactic| pl_call) => `(tactic| first
  | with_reducible exact parseForeachVariable_spot (by assumption)
  | with_reducible exact parseStatementExtractBlock_spot (by assumption))

/-- The spots of the head of a case. -/
def headSpots : Option (Option Expr) → List Spot
  | none => []
  | some ce => optSpots ce

/-! ## Classes -/

theorem parseMemberModifiers_spot : Yz [] parseMemberModifiers (fun _ => []) := by
  unfold parseMemberModifiers
  refine Yz.loop0 (I := fun _ => []) ?_ rfl
  intro vs toks pre p
  pl

theorem parseAbsoluteTraitMethodReference_spot :
    Yz [] parseAbsoluteTraitMethodReference (fun x => [.item (.path x.1), .item (.ident x.2)]) := by
  intro toks pre p
  unfold parseAbsoluteTraitMethodReference
  pl

macro_rules | `(tactic| pl_call) => `(tactic| first
  | with_reducible exact parseMemberModifiers_spot
  | with_reducible exact parseAbsoluteTraitMethodReference_spot)

theorem parseTraitMethod_spot : Yz [] parseTraitMethod (fun x => its (methodMarks x)) := by
  intro toks pre p
  unfold parseTraitMethod
  pl
  all_goals
    refine Lz.pure ?_
    intro h _
    refine h.cov ?_
    simp only [methodMarks]
    pl_cov

theorem traitAdaptStep_spot (s : Bool × List TraitUse) :
    Yz (its (adaptMarks s.2)) (traitAdaptStep s) (Sum.elim (fun s => its (adaptMarks s.2)) (fun s => its (adaptMarks s))) := by
  intro toks pre p
  obtain ⟨first, uses⟩ := s
  have key : ∀ q, Lz toks p (pre ++ its (adaptMarks uses)) q (do
      match ← parseTraitMethod with
      | none => return .inr uses
      | some (path, name) =>
        let names : Option (List Path) ← (if path.isSome then do
            if ← eats .Insteadof then
              let ns ← parseNameList
              return some ns
            else return none
          else return none)
        match names, path with
        | some ns, some p => return .inl (false, uses ++ [.insteadOf p name ns])
        | _, _ =>
          if ← eats .As then
            match ← eatString with
            | some (a, _) => return .inl (false, uses ++ [.asAlias path name MemberModifiers.none (some a)])
            | none => abort .unimplemented
          else return .inl (false, uses)) (fun a q => Located toks 0 (pre ++ Sum.elim (fun s => its (adaptMarks s.2)) (fun s => its (adaptMarks s)) a) (2 * q)) := by
    intro q
    refine Lz.bind ?_
    refine Lz.callB parseTraitMethod_spot ?_
    intro a q
    cases a with
    | none => dsimp only; pl
    | some x =>
      obtain ⟨path, name⟩ := x
      simp only [methodMarks]
      cases path with
      | none =>
        simp only [Option.isSome_none, Bool.false_eq_true, reduceIte]
        pl
      | some p0 =>
        simp only [Option.isSome_some, reduceIte]
        pl
  unfold traitAdaptStep
  dsimp only
  cases first with
  | true =>
    simp only [Bool.not_true, Bool.false_eq_true, reduceIte]
    exact key p
  | false =>
    simp only [Bool.not_false, reduceIte]
    refine Lz.bind ?_
    refine Lz.expectB (by decide) ?_
    intro t
    refine Lz.weaken (key _) (Cov.left _ _)

theorem parseTraitUse_spot : Yz [.item (.kw [.Use])] parseTraitUse declsSpots := by
  have hl : Yz [] (loop traitAdaptStep (true, [])) (fun s => its (adaptMarks s)) :=
    Yz.loop0 (I := fun s => its (adaptMarks s.2)) traitAdaptStep_spot rfl
  intro toks pre p
  unfold parseTraitUse
  pl
  refine Lz.callB hl ?_
  intro _ _
  pl

section
variable {r : Rec} (hr : RecZ r)
include hr

theorem parseClassConsts_spot (ms : MemberModifiers) : Yz [] (parseClassConsts r ms) declsSpots := by
  unfold parseClassConsts
  refine Yz.loop0 (I := declsSpots) ?_ rfl
  intro vs toks pre p
  pl

theorem parseProperties_spot (ms : MemberModifiers) : Yz [] (parseProperties r ms) declsSpots := by
  unfold parseProperties
  refine Yz.loop0 (I := declsSpots) ?_ rfl
  intro vs toks pre p
  pl

end

macro_rules | `(tactic| pl_call) => `(tactic| first
  | with_reducible exact parseClassConsts_spot (by assumption) _
  | with_reducible exact parseProperties_spot (by assumption) _)

section
variable {r : Rec} (hr : RecZ r)
include hr

theorem parseClassStatement_spot : Yz [] (parseClassStatement r) declsSpots := by
  intro toks pre p
  unfold parseClassStatement
  pl
  · rename_i t _
    refine Lz.weaken (X' := pre ++ [.item (.kw [.Use])]) ?_ (by pl_cov)
    exact Lz.call1 parseTraitUse_spot fun _ _ h _ => h
  · rename_i t _
    refine Lz.weaken (X' := pre ++ [.start t.span.start, .item (.kw [.Function])]) ?_ (by pl_cov)
    refine Lz.call1B (parseFunctionNamed_spot hr _ _) ?_
    intro _ _
    pl

theorem parseClassStatementList_spot : Yz [] (parseClassStatementList r) (fun x => declsSpots x.1) := by
  have hc := parseClassStatement_spot hr
  have hl : ∀ last, Yz [] (loop (fun (members : List Member) => do
      let p ← getPos
      if p ≤ last then
        match ← attempt (parseClassStatement r) with
        | .ok ms => return .inl (members ++ ms)
        | .error e => return .inr (members, some e)
      else return .inr (members, none)) []) (fun x => declsSpots x.1) := by
    intro last
    refine Yz.loop0 (I := declsSpots) ?_ rfl
    intro ss toks pre p
    refine Lz.bind ?_
    refine Lz.getPosB ?_
    intro _ _
    split
    · refine Lz.bind ?_
      refine Lz.attemptB hc ?_ ?_
      · intro _ _; dsimp only; pl
      · intro _ _; dsimp only; pl
    · pl
  intro toks pre p
  unfold parseClassStatementList
  refine Lz.bind ?_
  refine Lz.tokCountB ?_
  intro n
  refine Lz.bind ?_
  refine Lz.subPB ?_
  intro last _
  refine Lz.call (hl last) ?_
  intro a q h _
  refine h.cov ?_
  pl_cov

end

/-- Class modifiers stand directly one behind the other. -/
theorem parseClassModifiers_at (toks : List TokSpan) (hpl : Straight toks) (p : Nat) : Wr toks p p parseClassModifiers
    (fun ms q => q = p + ms.length ∧ (ms ≠ [] → ∃ t, toks[p]? = some t ∧ t.tok ≠ .k .NsSeparator)) := by
  have h0 : ∀ q, Located toks 0 [] (2 * q) := fun q => Nat.zero_le _
  have step : ∀ n (ms0 : List ClassModifier) q, q = p + ms0.length →
      (ms0 ≠ [] → ∃ t, toks[p]? = some t ∧ t.tok ≠ .k .NsSeparator) →
      Wr toks q q (P.loopN (fun (ms : List ClassModifier) => do
        if ← eats .Abstract then return .inl (ms ++ [.Abstract])
        else if ← eats .Final then return .inl (ms ++ [.Final])
        else return .inr ms) n ms0)
        (fun ms q => q = p + ms.length ∧ (ms ≠ [] → ∃ t, toks[p]? = some t ∧ t.tok ≠ .k .NsSeparator)) := by
    intro n
    induction n with
    | zero => intro ms0 q _ _; trivial
    | succ n ih =>
      intro ms0 q hq hf
      have more : ∀ (m : ClassModifier) (t : TokSpan) (k : Kw), toks[q]? = some t → t.tok = .k k → k ≠ .NsSeparator →
          Wr toks q (q + 1) (P.loopN (fun (ms : List ClassModifier) => do
            if ← eats .Abstract then return .inl (ms ++ [.Abstract])
            else if ← eats .Final then return .inl (ms ++ [.Final])
            else return .inr ms) n (ms0 ++ [m]))
          (fun ms q => q = p + ms.length ∧ (ms ≠ [] → ∃ t, toks[p]? = some t ∧ t.tok ≠ .k .NsSeparator)) := by
        intro m t k ht htk hk
        refine (ih (ms0 ++ [m]) (q + 1) (by simp; omega) ?_).imp (by omega) fun _ _ _ h => h
        intro _
        by_cases hm : ms0 = []
        · subst hm
          have : q = p := by simpa using hq
          subst this
          exact ⟨t, ht, by rw [htk]; intro hc; cases hc; exact hk rfl⟩
        · exact hf hm
      have key : Lz toks q [] q (P.loopN (fun (ms : List ClassModifier) => do
            if ← eats .Abstract then return .inl (ms ++ [.Abstract])
            else if ← eats .Final then return .inl (ms ++ [.Final])
            else return .inr ms) (n + 1) ms0)
          (fun ms q => q = p + ms.length ∧ (ms ≠ [] → ∃ t, toks[p]? = some t ∧ t.tok ≠ .k .NsSeparator)) := by
        rw [P.loopN]
        refine Lz.bind ?_
        refine Lz.bind ?_
        unfold eats
        refine Lz.bind ?_
        refine Lz.eatB' ?_ ?_
        · intro t ht htk
          refine Lz.pureB ?_
          simp only [Option.isSome_some, reduceIte]
          refine Lz.pureB ?_
          exact fun _ _ _ => more .Abstract t _ ht htk (by decide)
        · refine Lz.pureB ?_
          simp only [Option.isSome_none, Bool.false_eq_true, reduceIte]
          refine Lz.bind ?_
          refine Lz.bind ?_
          refine Lz.eatB' ?_ ?_
          · intro t ht htk
            refine Lz.pureB ?_
            simp only [Option.isSome_some, reduceIte]
            refine Lz.pureB ?_
            exact fun _ _ _ => more .Final t _ ht htk (by decide)
          · refine Lz.pureB ?_
            simp only [Option.isSome_none, Bool.false_eq_true, reduceIte]
            refine Lz.pureB ?_
            refine Lz.pure ?_
            intro _ _
            exact ⟨hq, hf⟩
      exact key hpl (h0 q) (Nat.le_refl q)
  exact step _ [] p rfl (fun h => absurd rfl h)

theorem headed_cov (k : Kw) (ps : List Path) : Cov (its (headedMarks k ps)) (.item (.kw [k]) :: its (pathsMarks ps)) := by
  cases ps with
  | nil => exact Cov.nil _
  | cons p ps => exact Cov.refl _

theorem extends_ne : Kw.Extends ≠ .NsSeparator := by decide

theorem implements_ne : Kw.Implements ≠ .NsSeparator := by decide

theorem parseOptNames_spot (k : Kw) (hk : k ≠ .NsSeparator) : Yz [] (parseOptNames k) (fun x => its (headedMarks k x)) := by
  intro toks pre p
  unfold parseOptNames
  refine Lz.bind ?_
  refine Lz.eatsB hk ?_ ?_
  · intro t _
    simp only [reduceIte]
    refine Lz.call parseNameList_spot ?_
    intro a q h _
    refine h.cov ?_
    refine (Cov.app _ (headed_cov k a)).trans ?_
    pl_cov
  · pl

macro_rules | `(tactic| pl_call) => `(tactic| first
  | with_reducible exact parseClassStatementList_spot (by assumption)
  | with_reducible exact parseOptNames_spot .Extends extends_ne
  | with_reducible exact parseOptNames_spot .Implements implements_ne)

section
variable {r : Rec} (hr : RecZ r)
include hr

theorem parseMembers_spot : Yz [] (parseMembers r) (fun x => declsSpots x.1 ++ [.stop x.2]) := by
  intro toks pre p
  unfold parseMembers
  pl

end

macro_rules | `(tactic| pl_call) => `(tactic| first
  | with_reducible exact parseMembers_spot (by assumption))

section
variable {r : Rec} (hr : RecZ r)
include hr

theorem parseOoDeclaration_spot : Yz [] (parseOoDeclaration r) Stmt.spots := by
  intro toks pre p
  unfold parseOoDeclaration
  rw [List.append_nil]
  refine Lz.bind ?_
  refine Lz.eatsB (by decide) ?_ ?_
  · intro t ht
    simp only [reduceIte]
    refine Lz.bind ?_
    refine Lz.tokBackB ?_
    intro t' _ ht'
    have : t' = t := by
      rw [Nat.add_sub_cancel, Nat.sub_zero, ht] at ht'
      exact (Option.some.inj ht').symm
    subst this
    pl
  simp only [Bool.false_eq_true, reduceIte]
  refine Lz.bind ?_
  refine Lz.eatsB (by decide) ?_ ?_
  · intro t ht
    simp only [reduceIte]
    refine Lz.bind ?_
    refine Lz.tokBackB ?_
    intro t' _ ht'
    have : t' = t := by
      rw [Nat.add_sub_cancel, Nat.sub_zero, ht] at ht'
      exact (Option.some.inj ht').symm
    subst this
    pl
  simp only [Bool.false_eq_true, reduceIte]
  refine Lz.bind ?_
  intro hpl h1 h2
  refine (parseClassModifiers_at toks hpl p).imp h2 ?_
  intro ms q hq ⟨hq1, hq2⟩
  refine (?_ : Lz toks p pre q _ _) hpl (h1.mono (Nat.le_refl _) (by omega)) (by omega)
  refine Lz.bind ?_
  unfold expect
  refine Lz.bind ?_
  refine Lz.eatB' ?_ (Lz.errHere _)
  intro c hc hck
  refine Lz.pureB ?_
  refine Lz.bind ?_
  refine Lz.tokBackB ?_
  intro t _ ht
  have ht : toks[p]? = some t := by
    rw [Nat.add_sub_cancel, hq1, Nat.add_sub_cancel] at ht
    exact ht
  have hs : Located toks 0 (pre ++ [.start t.span.start, .item (.kw [.Class])]) (2 * (q + 1)) := by
    have htk : t.tok ≠ .k .NsSeparator := by
      by_cases hm : ms = []
      · subst hm
        have : q = p := by simpa using hq1
        subst this
        rw [hc] at ht
        cases ht
        rw [hck]
        nofun
      · obtain ⟨u, hu, hn⟩ := hq2 hm
        rw [ht] at hu
        cases hu
        exact hn
    have h3 := h1.add (c := 2 * p + 1) (by omega) (.start ⟨t, ht, .inl ⟨htk, rfl⟩⟩)
    have h4 := h3.add (c := 2 * q + 1) (by omega)
      (Between.read (m := .kw [.Class]) (Between.cons hc (Between.nil toks (q + 1))) nofun (by rw [hck]; exact .kw (by simp)))
    simpa [List.append_assoc] using h4
  intro _ _ hlo
  refine (?_ : Lz toks p (pre ++ [.start t.span.start, .item (.kw [.Class])]) (q + 1) _ _) hpl hs hlo
  pl

/-! ## Statements -/

theorem parseCatches_spot : Yz [] (parseCatches r) catchesSpots := by
  unfold parseCatches
  refine Yz.loop0 (I := catchesSpots) ?_ rfl
  intro vs toks pre p
  pl

end

macro_rules | `(tactic| pl_call) => `(tactic| first
  | with_reducible exact parseOoDeclaration_spot (by assumption)
  | with_reducible exact parseCatches_spot (by assumption))

section
variable {r : Rec} (hr : RecZ r)
include hr

theorem parseTry_spot (t : TokSpan) : Yz (tokSpots t.span (.kw [.Try])) (parseTry r t) Stmt.spots := by
  intro toks pre p
  unfold parseTry
  simp only [tokSpots]
  pl

theorem parseUnset_spot (t : TokSpan) : Yz (tokSpots t.span (.kw [.Unset])) (parseUnset r t) Stmt.spots := by
  have hl : Yz [] (loop (fun (vars : List Expr) => do
      let v ← parseVariable r false none
      if ← eats .Comma then return .inl (vars ++ [v]) else return .inr (vars ++ [v])) []) exprsSpots := by
    refine Yz.loop0 (I := exprsSpots) ?_ rfl
    intro vs toks pre p
    pl
  intro toks pre p
  unfold parseUnset
  simp only [tokSpots]
  pl
  refine Lz.callB hl ?_
  intro _ _
  pl

theorem parseForeach_spot (t : TokSpan) : Yz (tokSpots t.span (.kw [.Foreach])) (parseForeach r t) Stmt.spots := by
  intro toks pre p
  unfold parseForeach
  simp only [tokSpots]
  pl

theorem parseFor_spot (t : TokSpan) : Yz (tokSpots t.span (.kw [.For])) (parseFor r t) Stmt.spots := by
  intro toks pre p
  unfold parseFor
  simp only [tokSpots]
  pl

theorem parseCaseHead_spot : Yz [] (parseCaseHead r) headSpots := by
  intro toks pre p
  unfold parseCaseHead
  pl
  all_goals
    refine Lz.pure ?_
    intro h _
    refine h.cov ?_
    simp only [headSpots]
    pl_cov

theorem switchStep_spot (s : List Case × List Expr) :
    Yz (casesSpots s.1 ++ exprsSpots s.2) (switchStep r s)
      (Sum.elim (fun s => casesSpots s.1 ++ exprsSpots s.2) (fun s => casesSpots s.1 ++ exprsSpots s.2)) := by
  intro toks pre p
  obtain ⟨cs, conds⟩ := s
  unfold switchStep
  refine Lz.bind ?_
  refine Lz.callB (parseCaseHead_spot hr) ?_
  intro a q
  cases a with
  | none => dsimp only; pl
  | some ce =>
    have fin : ∀ (sep : Bool) (q : Nat) (X : List Spot), Cov (pre ++ (casesSpots cs ++ exprsSpots conds) ++ optSpots ce) X →
        Lz toks p X q (if (!sep) = true then errHere [.k .Colon, .k .SemiColon]
        else do
          let (body, _) ← parseInnerStatementList r
          let conds : List Expr :=
            match ce with
            | some e => conds ++ [e]
            | none => conds
          if body.isEmpty then return .inl (cs, conds)
          else return .inl (cs ++ [.mk conds ce.isNone body], []))
        (fun a q => Located toks 0 (pre ++ Sum.elim (fun (s : List Case × List Expr) => casesSpots s.1 ++ exprsSpots s.2) (fun (s : List Case × List Expr) => casesSpots s.1 ++ exprsSpots s.2) a) (2 * q)) := by
      intro sep q X hX
      refine Lz.weaken ?_ hX
      refine Lz.ite (fun _ => ?_) (fun _ => ?_)
      · exact Lz.errHere _
      · refine Lz.bind ?_
        refine Lz.callB (parseInnerStatementList_spot hr) ?_
        rintro ⟨body, err⟩ q
        cases ce with
        | none => dsimp only; pl
        | some e => dsimp only; pl
    simp only [headSpots]
    refine Lz.bind ?_
    refine Lz.bind ?_
    refine Lz.eatsB (by decide) ?_ ?_
    · intro _ _
      simp only [reduceIte]
      refine Lz.pureB ?_
      exact fin true _ _ (Cov.left _ _)
    · simp only [Bool.false_eq_true, reduceIte]
      refine Lz.eatsB (by decide) ?_ ?_
      · intro _ _
        exact fin true _ _ (Cov.left _ _)
      · exact fin false _ _ (Cov.refl _)

omit hr in
theorem casesSpots_rest (es : List Expr) : casesSpots (es.map fun c => .mk [c] false []) = exprsSpots es := by
  induction es with
  | nil => rfl
  | cons e es ih => simp [casesSpots, Case.spots, exprsSpots, stmtsSpots, ih]

theorem parseSwitch_spot (t : TokSpan) : Yz (tokSpots t.span (.kw [.Switch])) (parseSwitch r t) Stmt.spots := by
  have hl : Yz [] (loop (switchStep r) ([], [])) (fun s => casesSpots s.1 ++ exprsSpots s.2) :=
    Yz.loop0 (I := fun s => casesSpots s.1 ++ exprsSpots s.2) (switchStep_spot hr) rfl
  intro toks pre p
  unfold parseSwitch
  simp only [tokSpots]
  pl
  refine Lz.callB hl ?_
  rintro ⟨cs, conds⟩ q
  pl
  refine Lz.pure ?_
  intro h _
  refine h.cov ?_
  simp only [Stmt.spots, StmtK.spots, casesSpots_append, casesSpots_rest]
  pl_cov

theorem parseParenExpr_spot : Yz [] (parseParenExpr r) Expr.spots := by
  intro toks pre p
  unfold parseParenExpr
  pl

end

macro_rules | `(tactic| pl_call) => `(tactic| first
  | with_reducible exact parseParenExpr_spot (by assumption))

theorem nestIf_cov {a e s : Stmt} (h : nestIf a e = some s) : Cov s.spots (e.spots ++ a.spots) := by
  unfold nestIf at h
  split at h
  · cases h; pl_cov
  · cases h; pl_cov
  · cases h

theorem nestIfs_cov (es : List Stmt) : ∀ {a s : Stmt}, nestIfs a es = some s → Cov s.spots (stmtsSpots es.reverse ++ a.spots) := by
  induction es with
  | nil => intro a s h; cases h; exact .refl _
  | cons e es ih =>
    intro a s h
    rw [nestIfs] at h
    split at h
    · rename_i a' ha
      refine (ih h).trans ?_
      refine (Cov.app _ (nestIf_cov ha)).trans ?_
      rw [List.reverse_cons, stmtsSpots_append, stmtsSpots, stmtsSpots, List.append_nil, List.append_assoc]
      exact .refl _
    · cases h

section
variable {r : Rec} (hr : RecZ r)
include hr

theorem parseDo_spot (t : TokSpan) : Yz (tokSpots t.span (.kw [.Do])) (parseDo r t) Stmt.spots := by
  intro toks pre p
  unfold parseDo
  simp only [tokSpots]
  pl

theorem parseWhile_spot (t : TokSpan) : Yz (tokSpots t.span (.kw [.While])) (parseWhile r t) Stmt.spots := by
  intro toks pre p
  unfold parseWhile
  simp only [tokSpots]
  pl

theorem parseIfBranch_spot (start : Nat) : Yz [.start start, .item (.kw [.If, .ElseIf])] (parseIfBranch r start) Stmt.spots := by
  intro toks pre p
  unfold parseIfBranch
  pl

theorem ifStep_spot (ss : List Stmt) : Yz (stmtsSpots ss) (ifStep r ss) (Sum.elim stmtsSpots stmtsSpots) := by
  intro toks pre p
  unfold ifStep
  refine Lz.bind ?_
  refine Lz.eatB (.kw [.If, .ElseIf]) (.kw (k := .ElseIf) (by decide)) (by decide) ?_ ?_
  · intro t _
    dsimp only
    refine Lz.bind ?_
    refine Lz.weaken (X' := pre ++ stmtsSpots ss ++ [.start t.span.start, .item (.kw [.If, .ElseIf])]) ?_ (by pl_cov)
    refine Lz.call1B (parseIfBranch_spot hr _) ?_
    intro _ _
    pl
  · pl

theorem parseIf_spot (t : TokSpan) : Yz (tokSpots t.span (.kw [.If, .ElseIf])) (parseIf r t) Stmt.spots := by
  intro toks pre p
  unfold parseIf
  simp only [tokSpots]
  refine Lz.bind ?_
  refine Lz.weaken (X' := pre ++ [.start t.span.start, .item (.kw [.If, .ElseIf])]) ?_ (by pl_cov)
  refine Lz.call1B (parseIfBranch_spot hr _) ?_
  intro s q
  refine Lz.bind ?_
  have hl := Yz.loop (I := stmtsSpots) (f := stmtsSpots) (ifStep_spot hr) [s]
  rw [show stmtsSpots [s] = s.spots by simp [stmtsSpots]] at hl
  refine Lz.call1B hl ?_
  intro ss q
  split
  · exact Lz.abort _
  · rename_i last rest hrev
    split
    · rename_i st hst
      refine Lz.pure ?_
      intro h _
      refine h.cov ?_
      refine Cov.app _ ((nestIfs_cov _ hst).trans ?_)
      have : ss = rest.reverse ++ [last] := by
        have := congrArg List.reverse hrev
        simpa using this
      rw [this]
      pl_cov
    · exact Lz.abort _

theorem parseBlock_spot (t : TokSpan) : Yz (tokSpots t.span (.kw [.CurlyBracesOpen])) (parseBlock r t) Stmt.spots := by
  intro toks pre p
  unfold parseBlock
  simp only [tokSpots]
  pl

theorem simpleStmt_spot {t : TokSpan} {m : P StmtK} (h : simpleStmt r t = some m) :
    ∃ a, Fits a [t.tok] ∧ t.tok ≠ .k .NsSeparator ∧ Yz (tokSpots t.span a) m (fun k => .start t.span.start :: k.spots) := by
  obtain ⟨tok, sp⟩ := t
  unfold simpleStmt at h
  dsimp only at h
  split at h
  · cases h
    refine ⟨.kw [.Echo], .kw (by simp), nofun, ?_⟩
    intro toks pre p
    simp only [tokSpots]
    pl
  · cases h
    refine ⟨.kw [.Return], .kw (by simp), nofun, ?_⟩
    intro toks pre p
    simp only [tokSpots]
    pl
  · cases h
    refine ⟨.kw [.Continue], .kw (by simp), nofun, ?_⟩
    intro toks pre p
    simp only [tokSpots]
    pl
  · cases h
    refine ⟨.kw [.Break], .kw (by simp), nofun, ?_⟩
    intro toks pre p
    simp only [tokSpots]
    pl
  · cases h
    refine ⟨.kw [.Throw], .kw (by simp), nofun, ?_⟩
    intro toks pre p
    simp only [tokSpots]
    pl
  · cases h
    refine ⟨.str _, .html _, nofun, ?_⟩
    intro toks pre p
    simp only [tokSpots]
    pl
  · cases h

theorem parseExprStmt_spot (store : Option PErr) : Yz [] (parseExprStmt r store) Stmt.spots := by
  intro toks pre p
  unfold parseExprStmt
  pl

end

macro_rules | `(tactic| pl_call) => `(tactic| first
  | with_reducible exact parseExprStmt_spot (by assumption) _)

section
variable {r : Rec} (hr : RecZ r)
include hr

theorem parseOtherStmt_spot (store : Option PErr) : Yz [] (parseOtherStmt r store) Stmt.spots := by
  intro toks pre p
  unfold parseOtherStmt
  refine Lz.bind ?_
  refine Lz.attemptB (parseOoDeclaration_spot hr) ?_ ?_
  · intro _ _; dsimp only; pl
  · intro e q
    dsimp only
    refine Lz.bind ?_
    refine Lz.peekB ?_
    intro x hx
    split
    · exact Lz.errHere _
    · rename_i t
      split
      · rename_i m hm
        obtain ⟨a, ha, hn, hy⟩ := simpleStmt_spot hr hm
        refine Lz.bind ?_
        refine Lz.getPosB ?_
        intro _ _
        refine Lz.bind ?_
        refine Lz.takeB hx a hn ha ?_
        refine Lz.bind ?_
        refine Lz.call1B hy ?_
        intro _ _
        pl
      · pl

theorem tryDecl_spot {toks : List TokSpan} {lo p : Nat} {pre : List Spot} {m : P Stmt} {t : TokSpan} {a : Mark}
    (hm : Yz (tokSpots t.span a) m Stmt.spots) (ht : toks[p]? = some t) (hn : t.tok ≠ .k .NsSeparator) (ha : Fits a [t.tok]) :
    Lz toks lo pre p (tryDecl r m) (fun a q => Located toks 0 (pre ++ a.spots) (2 * q)) := by
  unfold tryDecl
  refine Lz.bind ?_
  refine Lz.getPosB ?_
  intro h1 h2
  refine Lz.bind ?_
  refine Lz.takeB ht a hn ha ?_
  refine Lz.bind ?_
  refine Lz.attempt1B hm ?_ ?_
  · intro s q
    exact Lz.pure fun h _ => h
  · intro e q
    dsimp only
    refine Lz.bind ?_
    refine Lz.backB h1 h2 ?_
    exact Lz.call (parseOtherStmt_spot hr _) fun _ _ h _ => h

theorem parseStatement_spot : Yz [] (parseStatement r) Stmt.spots := by
  intro toks pre p
  have other : Lz toks p pre p (parseOtherStmt r none) (fun a q => Located toks 0 (pre ++ a.spots) (2 * q)) :=
    Lz.call (parseOtherStmt_spot hr _) fun _ _ h _ => h
  rw [List.append_nil]
  unfold parseStatement
  refine Lz.bind ?_
  refine Lz.peekB ?_
  intro x hx
  split
  · rename_i k sp
    dsimp only
    refine Lz.bind ?_
    refine Lz.getPosB ?_
    intro _ _
    refine Lz.ite (fun hk => ?_) (fun _ => ?_)
    · refine Lz.bind ?_
      refine Lz.takeB hx (.kw [k]) (by rw [hk]; nofun) (.kw (by simp)) ?_
      pl
    refine Lz.ite (fun hk => ?_) (fun _ => ?_)
    · refine Lz.bind ?_
      refine Lz.takeB hx (.kw [.CurlyBracesOpen]) (by rw [hk]; nofun) (by rw [hk]; exact .kw (by simp)) ?_
      exact Lz.call1 (parseBlock_spot hr _) fun _ _ h _ => h
    refine Lz.ite (fun hk => ?_) (fun _ => ?_)
    · subst hk
      refine Lz.bind ?_
      refine Lz.takeB hx (.kw [.Try]) nofun (.kw (by simp)) ?_
      exact Lz.call1 (parseTry_spot hr _) fun _ _ h _ => h
    refine Lz.ite (fun hk => ?_) (fun _ => ?_)
    · subst hk
      refine Lz.bind ?_
      refine Lz.takeB hx (.kw [.Unset]) nofun (.kw (by simp)) ?_
      exact Lz.call1 (parseUnset_spot hr _) fun _ _ h _ => h
    refine Lz.ite (fun hk => ?_) (fun _ => ?_)
    · subst hk
      refine Lz.bind ?_
      refine Lz.takeB hx (.kw [.Foreach]) nofun (.kw (by simp)) ?_
      exact Lz.call1 (parseForeach_spot hr _) fun _ _ h _ => h
    refine Lz.ite (fun hk => ?_) (fun _ => ?_)
    · subst hk
      refine Lz.bind ?_
      refine Lz.takeB hx (.kw [.For]) nofun (.kw (by simp)) ?_
      exact Lz.call1 (parseFor_spot hr _) fun _ _ h _ => h
    refine Lz.ite (fun hk => ?_) (fun _ => ?_)
    · subst hk
      refine Lz.bind ?_
      refine Lz.takeB hx (.kw [.Switch]) nofun (.kw (by simp)) ?_
      exact Lz.call1 (parseSwitch_spot hr _) fun _ _ h _ => h
    refine Lz.ite (fun hk => ?_) (fun _ => ?_)
    · subst hk
      refine Lz.bind ?_
      refine Lz.takeB hx (.kw [.If, .ElseIf]) nofun (.kw (by simp)) ?_
      exact Lz.call1 (parseIf_spot hr _) fun _ _ h _ => h
    refine Lz.ite (fun hk => ?_) (fun _ => ?_)
    · subst hk
      refine Lz.bind ?_
      refine Lz.takeB hx (.kw [.While]) nofun (.kw (by simp)) ?_
      exact Lz.call1 (parseWhile_spot hr _) fun _ _ h _ => h
    refine Lz.ite (fun hk => ?_) (fun _ => ?_)
    · subst hk
      refine Lz.bind ?_
      refine Lz.takeB hx (.kw [.Do]) nofun (.kw (by simp)) ?_
      exact Lz.call1 (parseDo_spot hr _) fun _ _ h _ => h
    refine Lz.ite (fun hk => ?_) (fun _ => ?_)
    · subst hk
      exact tryDecl_spot hr (parseStaticVarDecl_spot hr sp) hx nofun (.kw (by simp))
    refine Lz.ite (fun hk => ?_) (fun _ => ?_)
    · subst hk
      exact tryDecl_spot hr (parseGlobalVarDecl_spot sp) hx nofun (.kw (by simp))
    refine Lz.ite (fun hk => ?_) (fun _ => ?_)
    · subst hk
      refine tryDecl_spot hr (a := .kw [.Function]) ?_ hx nofun (.kw (by simp))
      intro toks pre p
      refine Lz.bind ?_
      refine Lz.weaken (X' := pre ++ [.start sp.start, .item (.kw [.Function])]) ?_ (by simp only [tokSpots]; pl_cov)
      refine Lz.call1B (parseFunctionNamed_spot hr _ _) ?_
      intro _ _
      pl
    · exact other
  · exact other

end

theorem recN_spot (n : Nat) : RecZ (recN n) := by
  induction n with
  | zero => exact ⟨fun _ _ _ _ => Lz.noFuel, fun _ _ _ => Lz.noFuel⟩
  | succ n ih => exact ⟨parseExpression_spot ih, parseStatement_spot ih⟩

theorem parseTopUse_spot (t : TokSpan) : Yz (tokSpots t.span (.kw [.Use])) (parseTopUse t) Stmt.spots := by
  have hl : Yz [] (loop (fun (cs : List UseClause) => do
      let abs ← eats .NsSeparator
      let (path, _) ← parseNamespaceName
      let alias_ : Option Text ← (do
        if ← eats .As then
          let (a, _) ← expectString
          return some a
        else return none)
      let cs := cs ++ [⟨{ path with isAbsolute := abs }, alias_⟩]
      if ← eats .Comma then return .inl cs else return .inr cs) []) (fun x => its (clausesMarks x)) := by
    refine Yz.loop0 (I := fun x => its (clausesMarks x)) ?_ rfl
    intro cs toks pre p
    refine Lz.nameB ?_
    intro abs path sp q _
    pl
  intro toks pre p
  unfold parseTopUse
  simp only [tokSpots]
  refine Lz.bind ?_
  refine Lz.callB hl ?_
  intro _ _
  pl

section
variable {r : Rec} (hr : RecZ r)
include hr

omit hr in
theorem Cov.top (s : Stmt) : Cov s.topSpots s.spots := by
  obtain ⟨k, sp⟩ := s
  cases k with
  | decl d =>
    cases d with
    | «namespace» p =>
      simp only [Stmt.topSpots]
      pl_cov
    | _ => exact .refl _
  | _ => exact .refl _

theorem parseTopStatement_spot : Yz [] (parseTopStatement r) Stmt.topSpots := by
  intro toks pre p
  unfold parseTopStatement
  pl
  · refine Lz.pure ?_
    intro h _
    refine h.cov ?_
    simp only [Stmt.topSpots]
    pl_cov
  · rw [List.append_nil]
    exact Lz.call1 (parseTopUse_spot _) fun _ _ h _ => h.cov (Cov.app _ (Cov.top _))
  · rw [List.append_nil]
    exact Lz.call (parseStatement_spot hr) fun _ _ h _ => h.cov (Cov.app _ (Cov.top _))

omit hr in
theorem treeSpots_append (a b : List Stmt) : treeSpots (a ++ b) = treeSpots a ++ treeSpots b := List.flatMap_append ..

omit hr in
theorem treeSpots_one (s : Stmt) : treeSpots [s] = s.topSpots := by simp [treeSpots]

theorem parseTopStatementList_spot : Yz [] (parseTopStatementList r) treeSpots := by
  have hc := parseTopStatement_spot hr
  have hl : ∀ last, Yz [] (loop (fun (stmts : List Stmt) => do
      let p ← getPos
      if p ≤ last then
        let s ← parseTopStatement r
        return .inl (stmts ++ [s])
      else return .inr stmts) []) treeSpots := by
    intro last
    refine Yz.loop0 (I := treeSpots) ?_ rfl
    intro ss toks pre p
    refine Lz.bind ?_
    refine Lz.getPosB ?_
    intro _ _
    split
    · refine Lz.bind ?_
      refine Lz.callB hc ?_
      intro _ _
      refine Lz.pure ?_
      intro h _
      refine h.cov ?_
      rw [Sum.elim_inl, treeSpots_append, treeSpots_one, List.append_assoc]
      exact .refl _
    · pl
  intro toks pre p
  unfold parseTopStatementList
  refine Lz.bind ?_
  refine Lz.tokCountB ?_
  intro n
  refine Lz.bind ?_
  refine Lz.subPB ?_
  intro last _
  refine Lz.call (hl last) ?_
  intro a q h _
  refine h.cov ?_
  rw [List.append_nil]
  exact .refl _

end

end Pico
