import Verif.Lemmas.ReadOper
/-!
# Statements are readings of their tokens
-/
namespace Pico
open P

macro_rules | `(tactic| rd_call) => `(tactic| first
  | with_reducible exact parseVariable_read (by assumption) _
  | with_reducible exact parseNameList_read
  | with_reducible exact parseIdentifier_read)

section
variable {r : Rec} (hr : RecY r)
include hr

theorem parseForeachVariable_read : Y [] (parseForeachVariable r) Expr.marks := by
  intro toks pre p
  unfold parseForeachVariable
  rd

theorem parseStatementExtractBlock_read : Y [] (parseStatementExtractBlock r) (fun x => stmtsMarks x.1) := by
  intro toks pre p
  unfold parseStatementExtractBlock
  rd

theorem parseStaticVarDecl_read (start : Span) : Y [.kw [.Static]] (parseStaticVarDecl r start) Stmt.marks := by
  have hl : Y [] (loop (fun (vars : List (Text × Option Expr)) => do
      let (v, _) ← expectVariable
      let value : Option Expr ← (do
        if ← eats .Equal then
          let e ← r.expr .None
          return some e
        else return none)
      if ← eats .Comma then return .inl (vars ++ [(v, value)])
      else return .inr (vars ++ [(v, value)])) []) staticsMarks := by
    refine Y.loop0 (I := staticsMarks) ?_ rfl
    intro vs toks pre p
    rd
  intro toks pre p
  unfold parseStaticVarDecl
  refine Tr.bind ?_
  refine Tr.callB hl ?_
  intro _ _
  rd

omit hr in
theorem parseGlobalVarDecl_read (start : Span) : Y [.kw [.Global]] (parseGlobalVarDecl start) Stmt.marks := by
  have hl : Y [] (loop (fun (vars : List Variable) => do
      let (v, _) ← parseSimpleVariable
      if ← eats .Comma then return .inl (vars ++ [v]) else return .inr (vars ++ [v])) []) variablesMarks := by
    refine Y.loop0 (I := variablesMarks) ?_ rfl
    intro vs toks pre p
    rd
  intro toks pre p
  unfold parseGlobalVarDecl
  refine Tr.bind ?_
  refine Tr.callB hl ?_
  intro _ _
  rd

end

macro_rules | `(tactic| rd_call) => `(tactic| first
  | with_reducible exact parseForeachVariable_read (by assumption)
  | with_reducible exact parseStatementExtractBlock_read (by assumption))

/-- The marks of the head of a case. -/
def headMarks : Option (Option Expr) → List Mark
  | none => []
  | some ce => optMarks ce

theorem Tr.ite {α : Type} {toks : List TokSpan} {lo p : Nat} {X : List Mark} {c : Prop} [Decidable c] {m n : P α}
    {Q : α → Nat → Prop} (h1 : c → Tr toks lo X p m Q) (h2 : ¬ c → Tr toks lo X p n Q) :
    Tr toks lo X p (if c then m else n) Q := by
  split
  · exact h1 ‹_›
  · exact h2 ‹_›

/-! ## Classes -/

theorem parseMemberModifiers_read : Y [] parseMemberModifiers (fun _ => []) := by
  unfold parseMemberModifiers
  refine Y.loop0 (I := fun _ => []) ?_ rfl
  intro vs toks pre p
  rd

theorem parseAbsoluteTraitMethodReference_read :
    Y [] parseAbsoluteTraitMethodReference (fun x => [.path x.1, .ident x.2]) := by
  intro toks pre p
  unfold parseAbsoluteTraitMethodReference
  rd

macro_rules | `(tactic| rd_call) => `(tactic| first
  | with_reducible exact parseMemberModifiers_read
  | with_reducible exact parseAbsoluteTraitMethodReference_read)

/-- The marks of the method an adaptation applies to. -/
def methodMarks : Option (Option Path × Text) → List Mark
  | none => []
  | some (p, n) => optPathMarks p ++ [.ident n]

theorem parseTraitMethod_read : Y [] parseTraitMethod methodMarks := by
  intro toks pre p
  unfold parseTraitMethod
  rd
  all_goals
    refine Tr.pure ?_
    intro h _
    refine h.sub ?_
    simp only [methodMarks]
    rd_sub

theorem traitAdaptStep_read (s : Bool × List TraitUse) :
    Y (adaptMarks s.2) (traitAdaptStep s) (Sum.elim (fun s => adaptMarks s.2) adaptMarks) := by
  intro toks pre p
  obtain ⟨first, uses⟩ := s
  have key : ∀ q, Tr toks p (pre ++ adaptMarks uses) q (do
      match ← parseTraitMethod with
      | none => return .inr uses
      | some (path, name) =>
        let names : Option (List Path) ← (if path.isSome then do
            if ← eats .Insteadof then
              let ns ← parseNameList
              return some ns
            else return none
          else return none)
        match names, path with
        | some ns, some p => return .inl (false, uses ++ [.insteadOf p name ns])
        | _, _ =>
          if ← eats .As then
            match ← eatString with
            | some (a, _) => return .inl (false, uses ++ [.asAlias path name MemberModifiers.none (some a)])
            | none => abort .unimplemented
          else return .inl (false, uses)) (fun a q => ReadOff (pre ++ Sum.elim (fun s => adaptMarks s.2) adaptMarks a) (upto toks q)) := by
    intro q
    refine Tr.bind ?_
    refine Tr.callB parseTraitMethod_read ?_
    intro a q
    cases a with
    | none => dsimp only; rd
    | some x =>
      obtain ⟨path, name⟩ := x
      simp only [methodMarks]
      cases path with
      | none =>
        simp only [Option.isSome_none, Bool.false_eq_true, reduceIte]
        rd
      | some p0 =>
        simp only [Option.isSome_some, reduceIte]
        rd
  unfold traitAdaptStep
  dsimp only
  cases first with
  | true =>
    simp only [Bool.not_true, Bool.false_eq_true, reduceIte]
    exact key p
  | false =>
    simp only [Bool.not_false, reduceIte]
    refine Tr.bind ?_
    refine Tr.expectB ?_
    intro t
    refine Tr.weaken (key _) (List.sublist_append_left _ _)

theorem parseTraitUse_read : Y [.kw [.Use]] parseTraitUse declsMarks := by
  have hl : Y [] (loop traitAdaptStep (true, [])) adaptMarks :=
    Y.loop0 (I := fun s => adaptMarks s.2) traitAdaptStep_read rfl
  intro toks pre p
  unfold parseTraitUse
  rd
  refine Tr.callB hl ?_
  intro _ _
  rd

section
variable {r : Rec} (hr : RecY r)
include hr

theorem parseClassConsts_read (ms : MemberModifiers) : Y [] (parseClassConsts r ms) declsMarks := by
  unfold parseClassConsts
  refine Y.loop0 (I := declsMarks) ?_ rfl
  intro vs toks pre p
  rd

theorem parseProperties_read (ms : MemberModifiers) : Y [] (parseProperties r ms) declsMarks := by
  unfold parseProperties
  refine Y.loop0 (I := declsMarks) ?_ rfl
  intro vs toks pre p
  rd

end

macro_rules | `(tactic| rd_call) => `(tactic| first
  | with_reducible exact parseClassConsts_read (by assumption) _
  | with_reducible exact parseProperties_read (by assumption) _)

section
variable {r : Rec} (hr : RecY r)
include hr

theorem parseClassStatement_read : Y [] (parseClassStatement r) declsMarks := by
  intro toks pre p
  unfold parseClassStatement
  rd
  exact Tr.call1 parseTraitUse_read fun _ _ h _ => h.sub (by rd_sub)

theorem parseClassStatementList_read : Y [] (parseClassStatementList r) (fun x => declsMarks x.1) := by
  have hc := parseClassStatement_read hr
  have hl : ∀ last, Y [] (loop (fun (members : List Member) => do
      let p ← getPos
      if p ≤ last then
        match ← attempt (parseClassStatement r) with
        | .ok ms => return .inl (members ++ ms)
        | .error e => return .inr (members, some e)
      else return .inr (members, none)) []) (fun x => declsMarks x.1) := by
    intro last
    refine Y.loop0 (I := declsMarks) ?_ rfl
    intro ss toks pre p
    refine Tr.bind ?_
    refine Tr.getPosB ?_
    intro _ _
    split
    · refine Tr.bind ?_
      refine Tr.attemptB hc ?_ ?_
      · intro _ _; dsimp only; rd
      · intro _ _; dsimp only; rd
    · rd
  intro toks pre p
  unfold parseClassStatementList
  refine Tr.bind ?_
  refine Tr.tokCountB ?_
  intro n
  refine Tr.bind ?_
  refine Tr.subPB ?_
  intro last
  refine Tr.call (hl last) ?_
  intro a q h _
  refine h.sub ?_
  rd_sub

end

theorem parseClassModifiers_read : Y [] parseClassModifiers (fun _ => []) := by
  unfold parseClassModifiers
  refine Y.loop0 (I := fun _ => []) ?_ rfl
  intro vs toks pre p
  rd

theorem headed_sub (k : Kw) (ps : List Path) : (headedMarks k ps).Sublist (.kw [k] :: pathsMarks ps) := by
  cases ps with
  | nil => exact List.nil_sublist _
  | cons p ps => exact List.Sublist.refl _

theorem parseOptNames_read (k : Kw) : Y [] (parseOptNames k) (headedMarks k) := by
  intro toks pre p
  unfold parseOptNames
  rd
  refine Tr.call parseNameList_read ?_
  intro a q h _
  refine h.sub ?_
  simp only [List.append_assoc, List.nil_append, List.append_nil, List.cons_append]
  exact (List.append_sublist_append_left _).2 (headed_sub k a)

macro_rules | `(tactic| rd_call) => `(tactic| first
  | with_reducible exact parseClassStatementList_read (by assumption)
  | with_reducible exact parseClassModifiers_read
  | with_reducible exact parseOptNames_read _)

section
variable {r : Rec} (hr : RecY r)
include hr

theorem parseMembers_read : Y [] (parseMembers r) (fun x => declsMarks x.1) := by
  intro toks pre p
  unfold parseMembers
  rd

end

macro_rules | `(tactic| rd_call) => `(tactic| first
  | with_reducible exact parseMembers_read (by assumption))

section
variable {r : Rec} (hr : RecY r)
include hr

theorem parseOoDeclaration_read : Y [] (parseOoDeclaration r) Stmt.marks := by
  intro toks pre p
  unfold parseOoDeclaration
  rd

/-! ## Statements -/

theorem parseCatches_read : Y [] (parseCatches r) catchesMarks := by
  unfold parseCatches
  refine Y.loop0 (I := catchesMarks) ?_ rfl
  intro vs toks pre p
  rd

end

macro_rules | `(tactic| rd_call) => `(tactic| first
  | with_reducible exact parseOoDeclaration_read (by assumption)
  | with_reducible exact parseCatches_read (by assumption))

section
variable {r : Rec} (hr : RecY r)
include hr

theorem parseTry_read (t : TokSpan) : Y [.kw [.Try]] (parseTry r t) Stmt.marks := by
  intro toks pre p
  unfold parseTry
  rd

theorem parseUnset_read (t : TokSpan) : Y [.kw [.Unset]] (parseUnset r t) Stmt.marks := by
  have hl : Y [] (loop (fun (vars : List Expr) => do
      let v ← parseVariable r false none
      if ← eats .Comma then return .inl (vars ++ [v]) else return .inr (vars ++ [v])) []) exprsMarks := by
    refine Y.loop0 (I := exprsMarks) ?_ rfl
    intro vs toks pre p
    rd
  intro toks pre p
  unfold parseUnset
  rd
  refine Tr.callB hl ?_
  intro _ _
  rd

theorem parseForeach_read (t : TokSpan) : Y [.kw [.Foreach]] (parseForeach r t) Stmt.marks := by
  intro toks pre p
  unfold parseForeach
  rd

theorem parseFor_read (t : TokSpan) : Y [.kw [.For]] (parseFor r t) Stmt.marks := by
  intro toks pre p
  unfold parseFor
  rd

theorem parseCaseHead_read : Y [] (parseCaseHead r) headMarks := by
  intro toks pre p
  unfold parseCaseHead
  rd
  all_goals
    refine Tr.pure ?_
    intro h _
    refine h.sub ?_
    simp only [headMarks]
    rd_sub

theorem switchStep_read (s : List Case × List Expr) :
    Y (casesMarks s.1 ++ exprsMarks s.2) (switchStep r s)
      (Sum.elim (fun s => casesMarks s.1 ++ exprsMarks s.2) (fun s => casesMarks s.1 ++ exprsMarks s.2)) := by
  intro toks pre p
  obtain ⟨cs, conds⟩ := s
  unfold switchStep
  refine Tr.bind ?_
  refine Tr.callB (parseCaseHead_read hr) ?_
  intro a q
  cases a with
  | none => dsimp only; rd
  | some ce =>
    have fin : ∀ (sep : Bool) (q : Nat) (X : List Mark), (pre ++ (casesMarks cs ++ exprsMarks conds) ++ optMarks ce).Sublist X →
        Tr toks p X q (if (!sep) = true then errHere [.k .Colon, .k .SemiColon]
        else do
          let (body, _) ← parseInnerStatementList r
          let conds : List Expr :=
            match ce with
            | some e => conds ++ [e]
            | none => conds
          if body.isEmpty then return .inl (cs, conds)
          else return .inl (cs ++ [.mk conds ce.isNone body], []))
        (fun a q => ReadOff (pre ++ Sum.elim (fun (s : List Case × List Expr) => casesMarks s.1 ++ exprsMarks s.2) (fun (s : List Case × List Expr) => casesMarks s.1 ++ exprsMarks s.2) a) (upto toks q)) := by
      intro sep q X hX
      refine Tr.weaken ?_ hX
      refine Tr.ite (fun _ => ?_) (fun _ => ?_)
      · exact Tr.errHere _
      · refine Tr.bind ?_
        refine Tr.callB (parseInnerStatementList_read hr) ?_
        rintro ⟨body, err⟩ q
        cases ce with
        | none => dsimp only; rd
        | some e => dsimp only; rd
    simp only [headMarks]
    refine Tr.bind ?_
    refine Tr.bind ?_
    refine Tr.eatsB ?_ ?_
    · simp only [reduceIte]
      refine Tr.pureB ?_
      exact fin true _ _ (List.sublist_append_left _ _)
    · simp only [Bool.false_eq_true, reduceIte]
      refine Tr.eatsB ?_ ?_
      · exact fin true _ _ (List.sublist_append_left _ _)
      · exact fin false _ _ (List.Sublist.refl _)

omit hr in
theorem casesMarks_rest (es : List Expr) : casesMarks (es.map fun c => .mk [c] false []) = exprsMarks es := by
  induction es with
  | nil => rfl
  | cons e es ih => simp [casesMarks, Case.marks, exprsMarks, stmtsMarks, ih]

theorem parseSwitch_read (t : TokSpan) : Y [.kw [.Switch]] (parseSwitch r t) Stmt.marks := by
  have hl : Y [] (loop (switchStep r) ([], [])) (fun s => casesMarks s.1 ++ exprsMarks s.2) :=
    Y.loop0 (I := fun s => casesMarks s.1 ++ exprsMarks s.2) (switchStep_read hr) rfl
  intro toks pre p
  unfold parseSwitch
  rd
  refine Tr.callB hl ?_
  rintro ⟨cs, conds⟩ q
  rd
  refine Tr.pure ?_
  intro h _
  refine h.sub ?_
  simp only [Stmt.marks, StmtK.marks, casesMarks_append, casesMarks_rest]
  rd_sub

theorem parseParenExpr_read : Y [] (parseParenExpr r) Expr.marks := by
  intro toks pre p
  unfold parseParenExpr
  rd

end

macro_rules | `(tactic| rd_call) => `(tactic| first
  | with_reducible exact parseParenExpr_read (by assumption))

theorem nestIf_marks {a e s : Stmt} (h : nestIf a e = some s) : s.marks = e.marks ++ a.marks := by
  unfold nestIf at h
  split at h
  · cases h; simp [Stmt.marks, StmtK.marks, stmtsMarks]
  · cases h; simp [Stmt.marks, StmtK.marks, stmtsMarks]
  · cases h

theorem nestIfs_marks (es : List Stmt) : ∀ {a s : Stmt}, nestIfs a es = some s → s.marks = stmtsMarks es.reverse ++ a.marks := by
  induction es with
  | nil => intro a s h; cases h; rfl
  | cons e es ih =>
    intro a s h
    rw [nestIfs] at h
    split at h
    · rename_i a' ha
      rw [ih h, nestIf_marks ha]
      simp [stmtsMarks_append, stmtsMarks]
    · cases h

section
variable {r : Rec} (hr : RecY r)
include hr

theorem parseDo_read (t : TokSpan) : Y [.kw [.Do]] (parseDo r t) Stmt.marks := by
  intro toks pre p
  unfold parseDo
  rd

theorem parseWhile_read (t : TokSpan) : Y [.kw [.While]] (parseWhile r t) Stmt.marks := by
  intro toks pre p
  unfold parseWhile
  rd

theorem parseIfBranch_read (start : Nat) : Y [.kw [.If, .ElseIf]] (parseIfBranch r start) Stmt.marks := by
  intro toks pre p
  unfold parseIfBranch
  rd

theorem ifStep_read (ss : List Stmt) : Y (stmtsMarks ss) (ifStep r ss) (Sum.elim stmtsMarks stmtsMarks) := by
  intro toks pre p
  unfold ifStep
  refine Tr.bind ?_
  refine Tr.eatB (.kw [.If, .ElseIf]) (.kw (by simp)) ?_ ?_
  · intro t
    dsimp only
    refine Tr.bind ?_
    refine Tr.call1B (parseIfBranch_read hr _) ?_
    intro _ _
    rd
  · rd

theorem parseIf_read (t : TokSpan) : Y [.kw [.If, .ElseIf]] (parseIf r t) Stmt.marks := by
  intro toks pre p
  unfold parseIf
  refine Tr.bind ?_
  refine Tr.call1B (parseIfBranch_read hr _) ?_
  intro s q
  refine Tr.bind ?_
  have hl := Y.loop (I := stmtsMarks) (f := stmtsMarks) (ifStep_read hr) [s]
  rw [show stmtsMarks [s] = s.marks by simp [stmtsMarks]] at hl
  refine Tr.call1B hl ?_
  intro ss q
  split
  · exact Tr.abort _
  · rename_i last rest hrev
    split
    · rename_i st hst
      refine Tr.pure ?_
      intro h _
      refine h.sub ?_
      rw [nestIfs_marks _ hst]
      have : ss = rest.reverse ++ [last] := by
        have := congrArg List.reverse hrev
        simpa using this
      rw [this]
      rd_sub
    · exact Tr.abort _

theorem parseBlock_read (t : TokSpan) : Y [] (parseBlock r t) Stmt.marks := by
  intro toks pre p
  unfold parseBlock
  rd

theorem simpleStmt_read {t : TokSpan} {m : P StmtK} (h : simpleStmt r t = some m) :
    ∃ a, Fits a [t.tok] ∧ Y [a] m StmtK.marks := by
  obtain ⟨tok, sp⟩ := t
  unfold simpleStmt at h
  dsimp only at h
  split at h
  · cases h
    refine ⟨.kw [.Echo], .kw (by simp), ?_⟩
    intro toks pre p
    rd
  · cases h
    refine ⟨.kw [.Return], .kw (by simp), ?_⟩
    intro toks pre p
    rd
  · cases h
    refine ⟨.kw [.Continue], .kw (by simp), ?_⟩
    intro toks pre p
    rd
  · cases h
    refine ⟨.kw [.Break], .kw (by simp), ?_⟩
    intro toks pre p
    rd
  · cases h
    refine ⟨.kw [.Throw], .kw (by simp), ?_⟩
    intro toks pre p
    rd
  · cases h
    refine ⟨.str _, .html _, ?_⟩
    intro toks pre p
    rd
  · cases h

theorem parseExprStmt_read (store : Option PErr) : Y [] (parseExprStmt r store) Stmt.marks := by
  intro toks pre p
  unfold parseExprStmt
  rd

end

macro_rules | `(tactic| rd_call) => `(tactic| first
  | with_reducible exact parseExprStmt_read (by assumption) _)

section
variable {r : Rec} (hr : RecY r)
include hr

theorem parseOtherStmt_read (store : Option PErr) : Y [] (parseOtherStmt r store) Stmt.marks := by
  intro toks pre p
  unfold parseOtherStmt
  refine Tr.bind ?_
  refine Tr.attemptB (parseOoDeclaration_read hr) ?_ ?_
  · intro _ _; dsimp only; rd
  · intro e q
    dsimp only
    refine Tr.bind ?_
    refine Tr.peekB ?_
    intro x hx
    split
    · exact Tr.errHere _
    · rename_i t
      split
      · rename_i m hm
        obtain ⟨a, ha, hy⟩ := simpleStmt_read hr hm
        refine Tr.bind ?_
        refine Tr.getPosB ?_
        intro _ _
        refine Tr.bind ?_
        refine Tr.takeB hx a ha ?_
        refine Tr.bind ?_
        refine Tr.call1B hy ?_
        intro _ _
        rd
      · rd

theorem tryDecl_read {toks : List TokSpan} {lo p : Nat} {pre : List Mark} {m : P Stmt} {t : TokSpan} {a : Mark}
    (hm : Y [a] m Stmt.marks) (ht : toks[p]? = some t) (ha : Fits a [t.tok]) :
    Tr toks lo pre p (tryDecl r m) (fun a q => ReadOff (pre ++ a.marks) (upto toks q)) := by
  unfold tryDecl
  refine Tr.bind ?_
  refine Tr.getPosB ?_
  intro h1 h2
  refine Tr.bind ?_
  refine Tr.takeB ht a ha ?_
  refine Tr.bind ?_
  refine Tr.attempt1B hm ?_ ?_
  · intro s q
    exact Tr.pure fun h _ => h
  · intro e q
    dsimp only
    refine Tr.bind ?_
    refine Tr.backB h1 h2 ?_
    exact Tr.call (parseOtherStmt_read hr _) fun _ _ h _ => h

theorem parseStatement_read : Y [] (parseStatement r) Stmt.marks := by
  intro toks pre p
  have other : Tr toks p pre p (parseOtherStmt r none) (fun a q => ReadOff (pre ++ a.marks) (upto toks q)) :=
    Tr.call (parseOtherStmt_read hr _) fun _ _ h _ => h
  rw [List.append_nil]
  unfold parseStatement
  refine Tr.bind ?_
  refine Tr.peekB ?_
  intro x hx
  split
  · rename_i k sp
    dsimp only
    refine Tr.bind ?_
    refine Tr.getPosB ?_
    intro _ _
    refine Tr.ite (fun hk => ?_) (fun _ => ?_)
    · refine Tr.bind ?_
      refine Tr.dropB ?_
      rd
    refine Tr.ite (fun hk => ?_) (fun _ => ?_)
    · refine Tr.bind ?_
      refine Tr.dropB ?_
      exact Tr.call (parseBlock_read hr _) fun _ _ h _ => h
    refine Tr.ite (fun hk => ?_) (fun _ => ?_)
    · subst hk
      refine Tr.bind ?_
      refine Tr.takeB hx (.kw [.Try]) (.kw (by simp)) ?_
      exact Tr.call1 (parseTry_read hr _) fun _ _ h _ => h
    refine Tr.ite (fun hk => ?_) (fun _ => ?_)
    · subst hk
      refine Tr.bind ?_
      refine Tr.takeB hx (.kw [.Unset]) (.kw (by simp)) ?_
      exact Tr.call1 (parseUnset_read hr _) fun _ _ h _ => h
    refine Tr.ite (fun hk => ?_) (fun _ => ?_)
    · subst hk
      refine Tr.bind ?_
      refine Tr.takeB hx (.kw [.Foreach]) (.kw (by simp)) ?_
      exact Tr.call1 (parseForeach_read hr _) fun _ _ h _ => h
    refine Tr.ite (fun hk => ?_) (fun _ => ?_)
    · subst hk
      refine Tr.bind ?_
      refine Tr.takeB hx (.kw [.For]) (.kw (by simp)) ?_
      exact Tr.call1 (parseFor_read hr _) fun _ _ h _ => h
    refine Tr.ite (fun hk => ?_) (fun _ => ?_)
    · subst hk
      refine Tr.bind ?_
      refine Tr.takeB hx (.kw [.Switch]) (.kw (by simp)) ?_
      exact Tr.call1 (parseSwitch_read hr _) fun _ _ h _ => h
    refine Tr.ite (fun hk => ?_) (fun _ => ?_)
    · subst hk
      refine Tr.bind ?_
      refine Tr.takeB hx (.kw [.If, .ElseIf]) (.kw (by simp)) ?_
      exact Tr.call1 (parseIf_read hr _) fun _ _ h _ => h
    refine Tr.ite (fun hk => ?_) (fun _ => ?_)
    · subst hk
      refine Tr.bind ?_
      refine Tr.takeB hx (.kw [.While]) (.kw (by simp)) ?_
      exact Tr.call1 (parseWhile_read hr _) fun _ _ h _ => h
    refine Tr.ite (fun hk => ?_) (fun _ => ?_)
    · subst hk
      refine Tr.bind ?_
      refine Tr.takeB hx (.kw [.Do]) (.kw (by simp)) ?_
      exact Tr.call1 (parseDo_read hr _) fun _ _ h _ => h
    refine Tr.ite (fun hk => ?_) (fun _ => ?_)
    · subst hk
      exact tryDecl_read hr (parseStaticVarDecl_read hr sp) hx (.kw (by simp))
    refine Tr.ite (fun hk => ?_) (fun _ => ?_)
    · subst hk
      exact tryDecl_read hr (parseGlobalVarDecl_read sp) hx (.kw (by simp))
    refine Tr.ite (fun hk => ?_) (fun _ => ?_)
    · subst hk
      refine tryDecl_read hr (a := .kw [.Function]) ?_ hx (.kw (by simp))
      intro toks pre p
      rd
    · exact other
  · exact other

end

theorem recN_read (n : Nat) : RecY (recN n) := by
  induction n with
  | zero => exact ⟨fun _ _ _ _ => Tr.noFuel, fun _ _ _ => Tr.noFuel⟩
  | succ n ih => exact ⟨parseExpression_read ih, parseStatement_read ih⟩

theorem parseTopUse_read (t : TokSpan) : Y [.kw [.Use]] (parseTopUse t) Stmt.marks := by
  have hl : Y [] (loop (fun (cs : List UseClause) => do
      let abs ← eats .NsSeparator
      let (path, _) ← parseNamespaceName
      let alias_ : Option Text ← (do
        if ← eats .As then
          let (a, _) ← expectString
          return some a
        else return none)
      let cs := cs ++ [⟨{ path with isAbsolute := abs }, alias_⟩]
      if ← eats .Comma then return .inl cs else return .inr cs) []) clausesMarks := by
    refine Y.loop0 (I := clausesMarks) ?_ rfl
    intro cs toks pre p
    refine Tr.nameB ?_
    intro abs path sp q _
    rd
  intro toks pre p
  unfold parseTopUse
  refine Tr.bind ?_
  refine Tr.callB hl ?_
  intro _ _
  rd

section
variable {r : Rec} (hr : RecY r)
include hr

theorem parseTopStatement_read : Y [] (parseTopStatement r) Stmt.marks := by
  intro toks pre p
  unfold parseTopStatement
  rd
  · exact Tr.call1 (parseTopUse_read _) fun _ _ h _ => h.sub (by rd_sub)
  · exact Tr.call (parseStatement_read hr) fun _ _ h _ => h.sub (by rd_sub)

theorem parseTopStatementList_read : Y [] (parseTopStatementList r) stmtsMarks := by
  have hc := parseTopStatement_read hr
  have hl : ∀ last, Y [] (loop (fun (stmts : List Stmt) => do
      let p ← getPos
      if p ≤ last then
        let s ← parseTopStatement r
        return .inl (stmts ++ [s])
      else return .inr stmts) []) stmtsMarks := by
    intro last
    refine Y.loop0 (I := stmtsMarks) ?_ rfl
    intro ss toks pre p
    refine Tr.bind ?_
    refine Tr.getPosB ?_
    intro _ _
    split
    · refine Tr.bind ?_
      refine Tr.callB hc ?_
      intro _ _
      rd
    · rd
  intro toks pre p
  unfold parseTopStatementList
  refine Tr.bind ?_
  refine Tr.tokCountB ?_
  intro n
  refine Tr.bind ?_
  refine Tr.subPB ?_
  intro last
  refine Tr.call (hl last) ?_
  intro a q h _
  refine h.sub ?_
  rd_sub

end

end Pico
