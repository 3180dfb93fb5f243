import Verif.Lemmas.ParserRelOper

/-!
# Statements: parsing does not look at positions
-/

namespace Pico
open P

variable [Lo]

macro_rules | `(tactic| rel_leaf) => `(tactic| (refine Alike.mk ?_; simp only [Stmt.erase, StmtK.erase, Decl.erase, Member.erase,
  eraseStmts, eraseStmts_append, eraseMembers, eraseMembers_append, eraseStaticVars, eraseStaticVars_append, eraseCatches,
  eraseCatches_append, Catch.erase, eraseBody, eraseCases, eraseCases_append, Case.erase, eraseExprs, eraseExprs_append,
  eraseOpt, Expr.erase, ExprK.erase, eraseVariables, Variable.erase, *]; done))

macro_rules | `(tactic| rel_call) => `(tactic| first
  | with_reducible exact parseInnerStatementList_rel (by assumption)
  | with_reducible exact parseBraced_rel (by assumption)
  | with_reducible exact parseFunctionNamed_rel (by assumption) _ _ _
  | with_reducible exact parseVariable_rel (by assumption) false OptRel.none)

theorem parseMemberModifiers_rel : PRel Eq parseMemberModifiers parseMemberModifiers := by
  unfold parseMemberModifiers
  refine PRel.loop (T := Eq) ?_ rfl
  rel

theorem parseClassModifiers_rel : PRel Eq parseClassModifiers parseClassModifiers := by
  unfold parseClassModifiers
  refine PRel.loop (T := Eq) ?_ rfl
  rel

theorem parseAbsoluteTraitMethodReference_rel :
    PRel Eq parseAbsoluteTraitMethodReference parseAbsoluteTraitMethodReference := by
  unfold parseAbsoluteTraitMethodReference
  refine PRel.bind parseName_rel ?_
  intro x y h
  cases h
  dsimp only
  rel

theorem parseTraitMethod_rel : PRel Eq parseTraitMethod parseTraitMethod := by
  unfold parseTraitMethod
  refine PRel.bind PRel.getPos ?_
  relv
  refine PRel.bind (PRel.attempt parseAbsoluteTraitMethodReference_rel) ?_
  relv
  · rel
  · rel

theorem traitAdaptStep_rel (s : Bool × List TraitUse) : PRel (SumRel Eq Eq) (traitAdaptStep s) (traitAdaptStep s) := by
  obtain ⟨first, uses⟩ := s
  have tail : PRel (SumRel Eq Eq) (do
      match ← parseTraitMethod with
      | none => return .inr uses
      | some (path, name) =>
        let names : Option (List Path) ← (if path.isSome then do
            if ← eats .Insteadof then
              let ns ← parseNameList
              return some ns
            else return none
          else return none)
        match names, path with
        | some ns, some p => return .inl (false, uses ++ [.insteadOf p name ns])
        | _, _ =>
          if ← eats .As then
            match ← eatString with
            | some (a, _) => return .inl (false, uses ++ [.asAlias path name MemberModifiers.none (some a)])
            | none => abort .unimplemented
          else return .inl (false, uses) : P ((Bool × List TraitUse) ⊕ List TraitUse)) (do
      match ← parseTraitMethod with
      | none => return .inr uses
      | some (path, name) =>
        let names : Option (List Path) ← (if path.isSome then do
            if ← eats .Insteadof then
              let ns ← parseNameList
              return some ns
            else return none
          else return none)
        match names, path with
        | some ns, some p => return .inl (false, uses ++ [.insteadOf p name ns])
        | _, _ =>
          if ← eats .As then
            match ← eatString with
            | some (a, _) => return .inl (false, uses ++ [.asAlias path name MemberModifiers.none (some a)])
            | none => abort .unimplemented
          else return .inl (false, uses) : P ((Bool × List TraitUse) ⊕ List TraitUse)) := by
    refine PRel.bind parseTraitMethod_rel ?_
    intro x y h
    cases h
    rcases x with _ | ⟨path, name⟩
    · rel
    · dsimp only
      refine PRel.bind (R := Eq) (by rel) ?_
      intro x y h
      cases h
      rcases x with _ | ns <;> rcases path with _ | p <;> rel
  unfold traitAdaptStep
  cases first with
  | true => exact tail
  | false =>
    refine PRel.bind PRel.expect ?_
    intro _ _ _
    exact tail

macro_rules | `(tactic| rel_call) => `(tactic| first
  | with_reducible exact parseMemberModifiers_rel
  | with_reducible exact parseClassModifiers_rel)

theorem parseTraitUse_rel : PRel (Alike eraseMembers) parseTraitUse parseTraitUse := by
  unfold parseTraitUse
  refine PRel.bind parseNameList_rel ?_
  relv
  refine PRel.bind PRel.eats ?_
  relv
  refine PRel.ite (PRel.pure ⟨rfl⟩) ?_
  refine PRel.bind PRel.expect ?_
  relv
  refine PRel.bind PRel.eats ?_
  relv
  refine PRel.ite (PRel.pure ⟨rfl⟩) ?_
  refine PRel.bind (R := Eq) (PRel.loop (T := Eq) ?_ rfl) ?_
  · intro x y h
    cases h
    exact traitAdaptStep_rel _
  · rel

theorem parseOptNames_rel (k : Kw) : PRel Eq (parseOptNames k) (parseOptNames k) := by
  unfold parseOptNames
  rel

macro_rules | `(tactic| rel_call) => `(tactic| with_reducible exact parseOptNames_rel _)

/-- One round of the loop in `parseTopStatementList`. -/
def topRound (r : Rec) (last : Nat) (stmts : List Stmt) : P (List Stmt ⊕ List Stmt) := do
  let p ← getPos
  if p ≤ last then
    let s ← parseTopStatement r
    return .inl (stmts ++ [s])
  else return .inr stmts

section
variable {r : Rec} (hr : RecRel r)
include hr

theorem parseForeachVariable_rel : PRel EEq (parseForeachVariable r) (parseForeachVariable r) := by
  unfold parseForeachVariable
  refine PRel.bind PRel.eats ?_
  relv
  refine PRel.bind (parseVariable_rel hr false .none) ?_
  intro x y h
  refine PRel.ite ?_ (PRel.pure ⟨h.eq⟩)
  refine PRel.bind (PRel.subP' h.left h.right) ?_
  intro _ _ _
  refine PRel.pure ⟨?_⟩
  simp only [Expr.erase, ExprK.erase, h.eq]

omit hr in
def blockOf : Stmt → List Stmt
  | .mk (.block b) _ => b
  | .mk k sp => [.mk k sp]

omit hr in
theorem blockOf_erase (s : Stmt) : eraseStmts (blockOf s) = blockOf s.erase := by
  obtain ⟨k, sp⟩ := s
  cases k <;> rfl

theorem parseStatementExtractBlock_rel :
    PRel (PairRel (Alike eraseStmts) Anyhow) (parseStatementExtractBlock r) (parseStatementExtractBlock r) := by
  have : parseStatementExtractBlock r = (r.stmt >>= fun s => pure (blockOf s, s.span)) := by
    unfold parseStatementExtractBlock
    congr 1
    funext s
    obtain ⟨k, sp⟩ := s
    cases k <;> rfl
  rw [this]
  refine PRel.bind hr.stmt ?_
  intro x y h
  refine PRel.pure (.mk ⟨?_⟩ .mk)
  rw [blockOf_erase, blockOf_erase, h.eq]

theorem parseStaticVarDecl_rel (sp sp' : Span) :
    PRel SEq (parseStaticVarDecl r sp) (parseStaticVarDecl r sp') := by
  unfold parseStaticVarDecl
  refine PRel.bind (R := Alike eraseStaticVars) (PRel.loop (T := Alike eraseStaticVars) ?_ ⟨rfl⟩) ?_
  · relv
    refine PRel.bind PRel.expectVariable ?_
    relv
    refine PRel.bind (R := Alike eraseOpt) (by rel) ?_
    rel
  · rel

omit hr in
theorem parseGlobalVarDecl_rel (sp sp' : Span) : PRel SEq (parseGlobalVarDecl sp) (parseGlobalVarDecl sp') := by
  unfold parseGlobalVarDecl
  refine PRel.bind (R := Eq) (PRel.loop (T := Eq) ?_ rfl) ?_
  · relv
    refine PRel.bind parseSimpleVariable_rel ?_
    rintro _ _ ⟨n, sp, sp', rfl, rfl, h, h'⟩
    dsimp only
    rel
  · rel

theorem parseClassConsts_rel (ms : MemberModifiers) :
    PRel (Alike eraseMembers) (parseClassConsts r ms) (parseClassConsts r ms) := by
  unfold parseClassConsts
  refine PRel.loop (T := Alike eraseMembers) ?_ ⟨rfl⟩
  rel

theorem parseProperties_rel (ms : MemberModifiers) :
    PRel (Alike eraseMembers) (parseProperties r ms) (parseProperties r ms) := by
  unfold parseProperties
  refine PRel.loop (T := Alike eraseMembers) ?_ ⟨rfl⟩
  relv
  refine PRel.bind PRel.expectVariable ?_
  relv
  refine PRel.bind (R := Alike eraseOpt) (by rel) ?_
  rel

theorem parseClassStatement_rel : PRel (Alike eraseMembers) (parseClassStatement r) (parseClassStatement r) := by
  have hp := @parseProperties_rel _ r hr
  have hc := @parseClassConsts_rel _ r hr
  unfold parseClassStatement
  refine PRel.bind PRel.eats ?_
  relv
  refine PRel.ite ?_ ?_
  · refine PRel.bind (hp _) ?_
    rel
  · refine PRel.bind parseMemberModifiers_rel ?_
    relv
    refine PRel.bind PRel.eats ?_
    relv
    refine PRel.ite parseTraitUse_rel ?_
    refine PRel.bind PRel.eat ?_
    relv
    · refine PRel.bind (R := Alike eraseMembers) ?_ ?_
      · refine PRel.bind PRel.eats ?_
        relv
        exact PRel.ite (hc _) (hp _)
      · rel
    · refine PRel.bind (parseFunctionNamed_rel hr _ _ _) ?_
      intro x y h
      cases h
      dsimp only
      rel

theorem parseClassStatementList_rel :
    PRel (PairRel (Alike eraseMembers) Eq) (parseClassStatementList r) (parseClassStatementList r) := by
  have hp := parseClassStatement_rel hr
  unfold parseClassStatementList
  refine PRel.bind PRel.tokCount ?_
  relv
  refine PRel.bind PRel.subP ?_
  relv
  refine PRel.loop (T := Alike eraseMembers) ?_ ⟨rfl⟩
  relv
  refine PRel.bind PRel.getPos ?_
  relv
  refine PRel.ite ?_ ?_
  · refine PRel.bind (PRel.attempt hp) ?_
    rel
  · rel

theorem parseMembers_rel : PRel (PairRel (Alike eraseMembers) Anyhow) (parseMembers r) (parseMembers r) := by
  have hp := parseClassStatementList_rel hr
  unfold parseMembers
  refine PRel.bind PRel.expect ?_
  relv
  refine PRel.bind hp ?_
  rel

theorem parseOoDeclaration_rel : PRel SEq (parseOoDeclaration r) (parseOoDeclaration r) := by
  have hm := parseMembers_rel hr
  unfold parseOoDeclaration
  refine PRel.bind PRel.eats ?_
  relv
  refine PRel.ite ?_ ?_
  · refine PRel.bind PRel.tokBack ?_
    relv
    refine PRel.bind PRel.expectString ?_
    relv
    refine PRel.bind hm ?_
    rel
  refine PRel.bind PRel.eats ?_
  relv
  refine PRel.ite ?_ ?_
  · refine PRel.bind PRel.tokBack ?_
    relv
    refine PRel.bind PRel.expectString ?_
    relv
    refine PRel.bind (parseOptNames_rel _) ?_
    relv
    refine PRel.bind hm ?_
    rel
  refine PRel.bind parseClassModifiers_rel ?_
  relv
  refine PRel.bind PRel.expect ?_
  relv
  refine PRel.bind PRel.tokBack ?_
  relv
  refine PRel.bind PRel.expectString ?_
  relv
  refine PRel.bind (R := Eq) ?_ ?_
  · refine PRel.bind PRel.eats ?_
    relv
    refine PRel.ite ?_ ?_
    · refine PRel.bind parseName_rel ?_
      intro x y h
      cases h
      dsimp only
      rel
    · rel
  relv
  refine PRel.bind (parseOptNames_rel _) ?_
  relv
  refine PRel.bind hm ?_
  rel

theorem parseCatches_rel : PRel (Alike eraseCatches) (parseCatches r) (parseCatches r) := by
  unfold parseCatches
  refine PRel.loop (T := Alike eraseCatches) ?_ ⟨rfl⟩
  relv
  refine PRel.bind PRel.eats ?_
  relv
  refine PRel.ite ?_ ?_
  · refine PRel.bind PRel.expect ?_
    relv
    refine PRel.bind parseName_rel ?_
    intro x y h
    cases h
    dsimp only
    rel
  · rel

theorem parseTry_rel (t t' : TokSpan) : PRel SEq (parseTry r t) (parseTry r t') := by
  have hc := parseCatches_rel hr
  unfold parseTry
  refine PRel.bind (parseBraced_rel hr) ?_
  relv
  refine PRel.bind hc ?_
  relv
  refine PRel.bind (R := Alike eraseBody) (by rel) ?_
  rel

theorem parseUnset_rel (t t' : TokSpan) : PRel SEq (parseUnset r t) (parseUnset r t') := by
  unfold parseUnset
  refine PRel.bind PRel.expect ?_
  relv
  refine PRel.bind (R := Alike eraseExprs) (PRel.loop (T := Alike eraseExprs) ?_ ⟨rfl⟩) ?_
  · rel
  · rel

theorem parseForeach_rel (t t' : TokSpan) : PRel SEq (parseForeach r t) (parseForeach r t') := by
  have hv := parseForeachVariable_rel hr
  have hb := parseStatementExtractBlock_rel hr
  unfold parseForeach
  refine PRel.bind PRel.expect ?_
  relv
  refine PRel.bind hr.expr ?_
  relv
  refine PRel.bind PRel.expect ?_
  relv
  refine PRel.bind hv ?_
  relv
  refine PRel.bind (R := PairRel (Alike eraseOpt) EEq) ?_ ?_
  · refine PRel.bind PRel.eats ?_
    relv
    refine PRel.ite ?_ ?_
    · refine PRel.bind hv ?_
      rel
    · rel
  relv
  refine PRel.bind PRel.expect ?_
  relv
  refine PRel.bind hb ?_
  rel

theorem parseFor_rel (t t' : TokSpan) : PRel SEq (parseFor r t) (parseFor r t') := by
  have hb := parseStatementExtractBlock_rel hr
  unfold parseFor
  refine PRel.bind PRel.expect ?_
  relv
  refine PRel.bind (parseOptExpression_rel hr _) ?_
  relv
  refine PRel.bind PRel.expect ?_
  relv
  refine PRel.bind (parseOptExpression_rel hr _) ?_
  relv
  refine PRel.bind PRel.expect ?_
  relv
  refine PRel.bind (parseOptExpression_rel hr _) ?_
  relv
  refine PRel.bind PRel.expect ?_
  relv
  refine PRel.bind hb ?_
  rel

theorem parseCaseHead_rel : PRel (OptRel (OptRel EEq)) (parseCaseHead r) (parseCaseHead r) := by
  unfold parseCaseHead
  rel

omit hr in
theorem isEmpty_erase {a b : List Stmt} (h : eraseStmts a = eraseStmts b) : a.isEmpty = b.isEmpty := by
  cases a <;> cases b <;> first | rfl | (simp [eraseStmts] at h)

theorem switchStep_rel {s s' : List Case × List Expr} (h : PairRel (Alike eraseCases) (Alike eraseExprs) s s') :
    PRel (SumRel (PairRel (Alike eraseCases) (Alike eraseExprs)) (PairRel (Alike eraseCases) (Alike eraseExprs)))
      (switchStep r s) (switchStep r s') := by
  unfold switchStep
  refine PRel.bind (parseCaseHead_rel hr) ?_
  intro x y hxy
  cases hxy with
  | none => exact PRel.pure (.inr h)
  | some hce =>
    dsimp only
    refine PRel.bind (R := Eq) (by rel) ?_
    intro c d hcd
    cases hcd
    refine PRel.ite PRel.errHere ?_
    refine PRel.bind (parseInnerStatementList_rel hr) ?_
    intro u v huv
    cases huv with
    | mk h1 h2 =>
      dsimp only
      rw [isEmpty_erase h1.eq]
      obtain ⟨h1⟩ := h1
      cases h with
      | mk ha hb =>
        obtain ⟨ha⟩ := ha
        obtain ⟨hb⟩ := hb
        cases hce with
        | none => refine PRel.ite ?_ ?_ <;> rel
        | some he =>
          obtain ⟨he⟩ := he
          simp only [Option.isNone]
          refine PRel.ite ?_ ?_ <;> rel

omit hr in
theorem eraseCases_conds {a b : List Expr} (h : eraseExprs a = eraseExprs b) :
    eraseCases (a.map fun c => .mk [c] false []) = eraseCases (b.map fun c => .mk [c] false []) := by
  have : ∀ a : List Expr, eraseCases (a.map fun c => .mk [c] false []) = (eraseExprs a).map fun c => .mk [c] false [] := by
    intro a
    induction a with
    | nil => rfl
    | cons x a ih => simp only [List.map_cons, eraseCases, Case.erase, eraseExprs, eraseStmts, ih]
  rw [this, this, h]

theorem parseSwitch_rel (t t' : TokSpan) : PRel SEq (parseSwitch r t) (parseSwitch r t') := by
  unfold parseSwitch
  refine PRel.bind PRel.expect ?_
  relv
  refine PRel.bind hr.expr ?_
  relv
  refine PRel.bind PRel.expect ?_
  relv
  refine PRel.bind PRel.expect ?_
  relv
  refine PRel.bind (PRel.loop (fun _ _ h => switchStep_rel hr h) (.mk ⟨rfl⟩ ⟨rfl⟩)) ?_
  intro x y h
  cases h with
  | mk h1 h2 =>
    have h3 := eraseCases_conds h2.eq
    obtain ⟨h1⟩ := h1
    dsimp only
    rel

theorem parseParenExpr_rel : PRel EEq (parseParenExpr r) (parseParenExpr r) := by
  unfold parseParenExpr
  rel

theorem parseDo_rel (t t' : TokSpan) : PRel SEq (parseDo r t) (parseDo r t') := by
  unfold parseDo
  refine PRel.bind (parseStatementExtractBlock_rel hr) ?_
  relv
  refine PRel.bind PRel.expect ?_
  relv
  refine PRel.bind (parseParenExpr_rel hr) ?_
  rel

theorem parseWhile_rel (t t' : TokSpan) : PRel SEq (parseWhile r t) (parseWhile r t') := by
  unfold parseWhile
  refine PRel.bind (parseParenExpr_rel hr) ?_
  relv
  refine PRel.bind (parseStatementExtractBlock_rel hr) ?_
  rel

theorem parseIfBranch_rel (t t' : Nat) : PRel SEq (parseIfBranch r t) (parseIfBranch r t') := by
  unfold parseIfBranch
  refine PRel.bind (parseParenExpr_rel hr) ?_
  relv
  refine PRel.bind (parseStatementExtractBlock_rel hr) ?_
  rel

theorem ifStep_rel {s s' : List Stmt} (h : Alike eraseStmts s s') :
    PRel (SumRel (Alike eraseStmts) (Alike eraseStmts)) (ifStep r s) (ifStep r s') := by
  unfold ifStep
  refine PRel.bind PRel.eat ?_
  relv
  · refine PRel.bind PRel.eat ?_
    relv
    · rel
    · refine PRel.bind (parseStatementExtractBlock_rel hr) ?_
      rel
  · refine PRel.bind (parseIfBranch_rel hr _ _) ?_
    rel

omit hr in
theorem nestIf_erase (a e : Stmt) : (nestIf a e).map Stmt.erase = nestIf a.erase e.erase := by
  obtain ⟨k, sp⟩ := a
  obtain ⟨k', sp'⟩ := e
  cases k <;> try rfl
  all_goals
    cases k' <;> try rfl
    rename_i l
    cases l <;> rfl

omit hr in
theorem nestIfs_erase (a : Stmt) (es : List Stmt) : (nestIfs a es).map Stmt.erase = nestIfs a.erase (eraseStmts es) := by
  induction es generalizing a with
  | nil => rfl
  | cons e es ih =>
    have h := nestIf_erase a e
    rw [nestIfs, eraseStmts, nestIfs, ← h]
    cases nestIf a e with
    | none => rfl
    | some x => exact ih x

omit hr in
theorem eraseStmts_map (es : List Stmt) : eraseStmts es = es.map Stmt.erase := by
  induction es with
  | nil => rfl
  | cons e es ih => rw [eraseStmts, ih]; rfl

theorem parseIf_rel (t t' : TokSpan) : PRel SEq (parseIf r t) (parseIf r t') := by
  unfold parseIf
  refine PRel.bind (parseIfBranch_rel hr _ _) ?_
  intro x y h
  refine PRel.bind (PRel.loop (fun _ _ h => ifStep_rel hr h) (⟨by simp only [eraseStmts, h.eq]⟩ : Alike eraseStmts [x] [y])) ?_
  intro u v huv
  have h' : eraseStmts u.reverse = eraseStmts v.reverse := by
    rw [eraseStmts_map, eraseStmts_map, List.map_reverse, List.map_reverse, ← eraseStmts_map, ← eraseStmts_map, huv.eq]
  revert h'
  generalize u.reverse = a
  generalize v.reverse = b
  intro h'
  cases a with
  | nil =>
    cases b with
    | nil => exact PRel.abort
    | cons b bs => simp [eraseStmts] at h'
  | cons a as =>
    cases b with
    | nil => simp [eraseStmts] at h'
    | cons b bs =>
      rw [eraseStmts, eraseStmts] at h'
      injection h' with h1 h2
      have h3 := nestIfs_erase a as
      rw [h1, h2, ← nestIfs_erase b bs] at h3
      dsimp only
      revert h3
      generalize nestIfs a as = p
      generalize nestIfs b bs = q
      intro h3
      cases p with
      | none =>
        cases q with
        | none => exact PRel.abort
        | some q => simp at h3
      | some p =>
        cases q with
        | none => simp at h3
        | some q => exact PRel.pure ⟨by simpa using h3⟩

theorem parseBlock_rel (t t' : TokSpan) : PRel SEq (parseBlock r t) (parseBlock r t') := by
  unfold parseBlock
  rel

theorem simpleStmt_rel {t t' : TokSpan} (h : TRel t t') :
    OptRel (PRel (Alike StmtK.erase)) (simpleStmt r t) (simpleStmt r t') := by
  cases h with
  | mk tok l l' =>
    cases tok with
    | k k => cases k <;> first | exact .none | exact .some (by rel)
    | inlineHtml s => exact .some (PRel.ret ⟨rfl⟩)
    | _ => exact .none

theorem parseExprStmt_rel (store : Option PErr) : PRel SEq (parseExprStmt r store) (parseExprStmt r store) := by
  unfold parseExprStmt
  rel

theorem parseOtherStmt_rel (store : Option PErr) : PRel SEq (parseOtherStmt r store) (parseOtherStmt r store) := by
  unfold parseOtherStmt
  refine PRel.bind (PRel.attempt (parseOoDeclaration_rel hr)) ?_
  intro x y hxy
  cases hxy with
  | ok h => exact PRel.pure h
  | error e =>
    dsimp only
    refine PRel.bind PRel.peek ?_
    intro x y hxy
    cases hxy with
    | none => exact PRel.errHere
    | @some t t' h =>
      have hs := simpleStmt_rel hr h
      dsimp only
      revert hs
      generalize simpleStmt r t = a
      generalize simpleStmt r t' = b
      intro hs
      cases hs with
      | none =>
        refine PRel.bind PRel.getPos ?_
        intro _ _ hp
        obtain ⟨rfl, hp⟩ := hp
        exact parseExprStmt_rel hr _
      | some hm =>
        refine PRel.bind PRel.getPos ?_
        intro _ _ hp
        obtain ⟨rfl, hp⟩ := hp
        refine PRel.bind (PRel.setPos (by omega)) ?_
        intro _ _ _
        refine PRel.bind hm ?_
        intro k k' hk
        obtain ⟨hk⟩ := hk
        refine PRel.bind PRel.expect ?_
        intro _ _ _
        refine PRel.bind PRel.lastEnd ?_
        intro _ _ _
        exact PRel.pure ⟨by simp only [Stmt.erase, hk]⟩

theorem tryDecl_rel {m m' : P Stmt} (h : PRel SEq m m') : PRel SEq (tryDecl r m) (tryDecl r m') := by
  unfold tryDecl
  refine PRel.bind PRel.getPos ?_
  relv
  refine PRel.bind (PRel.setPos (by omega)) ?_
  relv
  refine PRel.bind (PRel.attempt h) ?_
  intro x y hxy
  cases hxy with
  | ok h => exact PRel.pure h
  | error e =>
    refine PRel.bind (PRel.setPos (by omega)) ?_
    intro _ _ _
    exact parseOtherStmt_rel hr _

theorem parseStatement_rel : PRel SEq (parseStatement r) (parseStatement r) := by
  have h0 := parseOtherStmt_rel hr none
  unfold parseStatement
  refine PRel.bind PRel.peek ?_
  intro x y hxy
  cases hxy with
  | none => exact h0
  | some h =>
    cases h with
    | mk tok l l' =>
      cases tok with
      | k k =>
        dsimp only
        refine PRel.bind PRel.getPos ?_
        intro p0 _ hp
        obtain ⟨rfl, hp⟩ := hp
        have go : ∀ {m m' : P Stmt}, PRel SEq m m' → PRel SEq (do P.setPos (p0 + 1); m) (do P.setPos (p0 + 1); m') :=
          fun h => PRel.bind (PRel.setPos (by omega)) fun _ _ _ => h
        refine PRel.ite (go (PRel.pure ⟨rfl⟩)) ?_
        refine PRel.ite (go (parseBlock_rel hr _ _)) ?_
        refine PRel.ite (go (parseTry_rel hr _ _)) ?_
        refine PRel.ite (go (parseUnset_rel hr _ _)) ?_
        refine PRel.ite (go (parseForeach_rel hr _ _)) ?_
        refine PRel.ite (go (parseFor_rel hr _ _)) ?_
        refine PRel.ite (go (parseSwitch_rel hr _ _)) ?_
        refine PRel.ite (go (parseIf_rel hr _ _)) ?_
        refine PRel.ite (go (parseWhile_rel hr _ _)) ?_
        refine PRel.ite (go (parseDo_rel hr _ _)) ?_
        refine PRel.ite (tryDecl_rel hr (parseStaticVarDecl_rel hr _ _)) ?_
        refine PRel.ite (tryDecl_rel hr (parseGlobalVarDecl_rel _ _)) ?_
        refine PRel.ite (tryDecl_rel hr ?_) h0
        refine PRel.bind (parseFunctionNamed_rel hr _ _ _) ?_
        intro x y h
        cases h with
        | mk n h => exact PRel.pure ⟨by simp only [Stmt.erase, StmtK.erase, Decl.erase, h]⟩
      | _ => exact h0

theorem parseTopUse_rel (t t' : TokSpan) : PRel SEq (parseTopUse t) (parseTopUse t') := by
  unfold parseTopUse
  refine PRel.bind (R := Eq) (PRel.loop (T := Eq) ?_ rfl) ?_
  · relv
    refine PRel.bind PRel.eats ?_
    relv
    refine PRel.bind parseNamespaceName_rel ?_
    intro x y h
    cases h
    dsimp only
    refine PRel.bind (R := Eq) (by rel) ?_
    rel
  · rel

theorem parseTopStatement_rel : PRel SEq (parseTopStatement r) (parseTopStatement r) := by
  unfold parseTopStatement
  refine PRel.bind PRel.eat ?_
  relv
  · refine PRel.bind PRel.eat ?_
    relv
    · exact parseStatement_rel hr
    · exact parseTopUse_rel hr _ _
  · refine PRel.bind parseNamespaceName_rel ?_
    intro x y h
    cases h
    dsimp only
    rel

theorem topRound_rel (last : Nat) : ∀ ss ss', Alike eraseStmts ss ss' →
    PRel (SumRel (Alike eraseStmts) (Alike eraseStmts)) (topRound r last ss) (topRound r last ss') := by
  have ht := parseTopStatement_rel hr
  unfold topRound
  relv
  refine PRel.bind PRel.getPos ?_
  relv
  refine PRel.ite ?_ ?_
  · refine PRel.bind ht ?_
    rel
  · rel

theorem parseTopStatementList_rel : PRel (Alike eraseStmts) (parseTopStatementList r) (parseTopStatementList r) := by
  unfold parseTopStatementList
  refine PRel.bind PRel.tokCount ?_
  relv
  refine PRel.bind PRel.subP ?_
  relv
  exact PRel.loop (T := Alike eraseStmts) (topRound_rel hr _) ⟨rfl⟩

end

theorem recN_rel (n : Nat) : RecRel (recN n) := by
  induction n with
  | zero => exact ⟨fun _ => PRel.noFuel, PRel.noFuel⟩
  | succ n ih => exact ⟨fun p => parseExpression_rel ih p, parseStatement_rel ih⟩

end Pico
