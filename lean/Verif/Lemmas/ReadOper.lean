import Verif.Lemmas.ReadExpr
/-!
# Strings, scalars, functions, operators are readings of their tokens
-/
namespace Pico
open P

/-! ## Strings with interpolation -/

/-- The parts of a string are read, and the pending text stands just before the position. -/
def Pending (toks : List TokSpan) (pre : List Mark) (s : Encaps) (p : Nat) : Prop :=
  ∃ (q : Nat) (xs : List Text), q ≤ p ∧ ReadOff (pre ++ exprsMarks s.parts) (upto toks q) ∧
    upto toks p = upto toks q ++ xs.map Token.encaps ∧ s.str = xs.flatten

theorem Pending.closed {toks : List TokSpan} {pre : List Mark} {s : Encaps} {p : Nat} (h : Pending toks pre s p) :
    ReadOff (pre ++ exprsMarks s.parts ++ [.str s.str]) (upto toks p) := by
  obtain ⟨q, xs, _, h1, h2, h3⟩ := h
  rw [h2, h3]
  exact .read h1 (.str xs)

theorem Pending.of {toks : List TokSpan} {pre : List Mark} {s : Encaps} {p : Nat}
    (h : ReadOff (pre ++ exprsMarks s.parts) (upto toks p)) (hs : s.str = []) : Pending toks pre s p :=
  ⟨p, [], Nat.le_refl p, h, by simp, by simpa using hs⟩

/-- What is known after a round. -/
def AfterRound (toks : List TokSpan) (pre : List Mark) : Encaps ⊕ Encaps → Nat → Prop
  | .inl s, p => Pending toks pre s p
  | .inr s, p => ReadOff (pre ++ exprsMarks s.parts ++ [.str s.str]) (upto toks p)

theorem Tr.flushB {toks : List TokSpan} {lo p : Nat} {X : List Mark} {β : Type} {s : Encaps} {k : Encaps → P β}
    {Q : β → Nat → Prop}
    (h : ∀ s' : Encaps, s'.str = [] → (exprsMarks s'.parts).Sublist (exprsMarks s.parts ++ [.str s.str]) →
      Tr toks lo X p (k s') Q) : Tr toks lo X p s.flush (fun a q => Wr toks lo q (k a) Q) := by
  unfold Encaps.flush
  split
  · rename_i hs
    exact Tr.retB (h s (by simpa using hs) (List.sublist_append_left _ _))
  · split
    · exact Tr.abort _
    · refine Tr.retB (h _ rfl ?_)
      rd_sub

section
variable {r : Rec} (hr : RecY r)
include hr

theorem encapsStep_read (toks : List TokSpan) (pre : List Mark) (s : Encaps) (p : Nat) (hJ : Pending toks pre s p) :
    Wr toks p p (encapsStep r s) (AfterRound toks pre) := by
  have key : Tr toks p (pre ++ exprsMarks s.parts ++ [.str s.str]) p (encapsStep r s) (AfterRound toks pre) := by
    unfold encapsStep
    refine Tr.bind ?_
    refine Tr.eatEncapsB ?_ ?_
    · intro x sp hx
      dsimp only
      refine Tr.pure ?_
      intro _ _
      obtain ⟨q, xs, h0, h1, h2, h3⟩ := hJ
      refine ⟨q, xs ++ [x], by omega, h1, ?_, ?_⟩
      · rw [upto_succ hx, h2]; simp
      · show s.str ++ x = _
        rw [h3]; simp
    · dsimp only
      refine Tr.bind ?_
      refine Tr.eatB (.kw [.DollarCurlyBracesOpen]) (.kw (by simp)) ?_ ?_
      · intro t
        dsimp only
        refine Tr.bind ?_
        refine Tr.flushB ?_
        intro s' hs' hsub
        refine Tr.bind ?_
        unfold encapsDollar
        refine Tr.weaken (X' := pre ++ exprsMarks s'.parts ++ [.kw [.DollarCurlyBracesOpen]]) ?_
          (List.Sublist.append_right (by simpa [List.append_assoc] using hsub) _)
        refine Tr.bind ?_
        refine Tr.attemptB parseIdentifier_read ?_ ?_
        · rintro ⟨name, span⟩ q
          dsimp only
          refine Tr.conv ?_ Fits.ident_var
          refine Tr.bind ?_
          refine Tr.call1B (parseVariable_some hr false (.mk (.var (.name name)) span)) ?_
          intro e q
          rd
          refine Tr.pure ?_
          intro h _
          refine Pending.of (h.sub ?_) hs'
          rd_sub
        · intro e q
          rd
          refine Tr.pure ?_
          intro h _
          refine Pending.of (h.sub ?_) hs'
          rd_sub
      · dsimp only
        refine Tr.bind ?_
        refine Tr.eatB (.kw [.CurlyBracesOpen]) (.kw (by simp)) ?_ ?_
        · intro t
          dsimp only
          refine Tr.bind ?_
          refine Tr.flushB ?_
          intro s' hs' hsub
          refine Tr.weaken (X' := pre ++ exprsMarks s'.parts) ?_ ?_
          · rd
            refine Tr.pure ?_
            intro h _
            refine Pending.of (h.sub ?_) hs'
            rd_sub
          · refine List.Sublist.trans ?_ (List.sublist_append_left _ _)
            simpa [List.append_assoc] using hsub
        · dsimp only
          refine Tr.bind ?_
          refine Tr.attemptB (parseVariable_read hr false) ?_ ?_
          · intro e q
            dsimp only
            refine Tr.bind ?_
            refine Tr.flushB ?_
            intro s' hs' hsub
            refine Tr.weaken (X' := pre ++ exprsMarks s'.parts ++ e.marks) ?_ ?_
            · refine Tr.pure ?_
              intro h _
              refine Pending.of (h.sub ?_) hs'
              rd_sub
            · refine List.Sublist.append_right ?_ _
              simpa [List.append_assoc] using hsub
          · intro e q
            exact Tr.pure fun h _ => h
  exact key hJ.closed (Nat.le_refl p)

theorem encapsLoop_read (toks : List TokSpan) (pre : List Mark) (n : Nat) : ∀ (s : Encaps) (p : Nat), Pending toks pre s p →
    Wr toks p p (P.loopN (encapsStep r) n s)
      (fun s q => ReadOff (pre ++ exprsMarks s.parts ++ [.str s.str]) (upto toks q)) := by
  induction n with
  | zero => intro s p _; trivial
  | succ n ih =>
    intro s p h
    rw [P.loopN]
    refine Wr.bind ?_
    refine (encapsStep_read hr toks pre s p h).imp (Nat.le_refl p) ?_
    intro a q hq ha
    cases a with
    | inl s' => exact (ih s' q ha).imp hq fun _ _ _ h => h
    | inr s' => exact ⟨hq, ha⟩

end

theorem concatParts_marks (parts : List Expr) (e : Expr) : (concatParts parts e).marks = exprsMarks parts ++ e.marks := by
  unfold concatParts
  rw [List.foldl_reverse]
  induction parts with
  | nil => rfl
  | cons x ps ih => simp only [List.foldr_cons, Expr.marks, ExprK.marks, opMarks, exprsMarks, List.append_nil, ih, List.append_assoc]

section
variable {r : Rec} (hr : RecY r)
include hr

theorem parseEncapsList_read : Y [] (parseEncapsList r) Expr.marks := by
  intro toks pre p
  unfold parseEncapsList
  refine Tr.bind ?_
  intro h1 h2
  refine (encapsLoop_read hr toks pre (toks.length + 2) ⟨[], [], none, 0⟩ p ?_).imp h2 ?_
  · exact Pending.of (by simpa [exprsMarks] using h1) rfl
  intro s q hq hs
  have key : Tr toks p (pre ++ exprsMarks s.parts ++ [.str s.str]) q (if s.str.isEmpty then
      match s.parts.getLast? with
      | some last => return concatParts s.parts.dropLast last
      | none => do
        match ← eatEncaps with
        | some _ => abort .unreachable
        | none => errHere [.encaps []]
    else
      match s.startPos with
      | none => abort .unwrap
      | some st => return concatParts s.parts (.mk (.str s.str) (mkSpan st s.endPos)))
      (fun a q => ReadOff (pre ++ a.marks) (upto toks q)) := by
    split
    · split
      · rename_i last hl
        refine Tr.pure ?_
        intro h _
        refine h.sub ?_
        rw [concatParts_marks]
        obtain ⟨ys, hy⟩ := List.getLast?_eq_some_iff.1 hl
        rw [hy, List.dropLast_concat]
        rd_sub
      · rd
    · split
      · rd
      · refine Tr.pure ?_
        intro h _
        refine h.sub ?_
        rw [concatParts_marks]
        rd_sub
  exact key hs hq

end

macro_rules | `(tactic| rd_call) => `(tactic| first
  | with_reducible exact parseEncapsList_read (by assumption))

theorem Fits.empty : Fits (.str []) [] := Fits.str []

theorem ReadOff.empty {X : List Mark} {ts : List Token} (h : ReadOff X ts) : ReadOff (X ++ [.str []]) ts := by
  have := ReadOff.read h Fits.empty
  rwa [List.append_nil] at this

section
variable {r : Rec} (hr : RecY r)
include hr

theorem parseScalar_read : Y [] (parseScalar r) Expr.marks := by
  intro toks pre p
  unfold parseScalar
  refine Tr.bind ?_
  refine Tr.peekB ?_
  intro x hx
  refine Tr.bind ?_
  refine Tr.getPosB ?_
  intro h0 hlo
  refine Tr.bind ?_
  cases x with
  | none => refine Tr.dropB ?_; rd
  | some t =>
    obtain ⟨tok, sp⟩ := t
    have other : Tr toks p (pre ++ []) (p + 1) (do
        P.setPos p
        match ← attempt (parseDereferencableScalar r) with
        | .ok e => return e
        | .error _ => parseConstant) (fun a q => ReadOff (pre ++ a.marks) (upto toks q)) := by
      rd
    cases tok with
    | int v => refine Tr.takeB hx (.int v) (.int v) ?_; rd
    | double l => refine Tr.takeB hx (.double l) (.double l) ?_; rd
    | k k =>
      cases k with
      | MagicLine => refine Tr.takeB hx (.const .MagicLine) (.magic rfl) ?_; rd
      | MagicFile => refine Tr.takeB hx (.const .MagicFile) (.magic rfl) ?_; rd
      | MagicDir => refine Tr.takeB hx (.const .MagicDir) (.magic rfl) ?_; rd
      | MagicTrait => refine Tr.takeB hx (.const .MagicTrait) (.magic rfl) ?_; rd
      | MagicMethod => refine Tr.takeB hx (.const .MagicMethod) (.magic rfl) ?_; rd
      | MagicFunction => refine Tr.takeB hx (.const .MagicFunction) (.magic rfl) ?_; rd
      | MagicClass => refine Tr.takeB hx (.const .MagicClass) (.magic rfl) ?_; rd
      | DoubleQuote =>
        refine Tr.dropB ?_
        dsimp only
        rd
        refine Tr.pure ?_
        intro h _
        refine h.empty.sub ?_
        rd_sub
      | HereDocStart =>
        refine Tr.dropB ?_
        dsimp only
        rd
      | _ => exact Tr.dropB other
    | _ => exact Tr.dropB other

end

macro_rules | `(tactic| rd_call) => `(tactic| first
  | with_reducible exact parseScalar_read (by assumption))

/-! ## Functions -/

/-- Marks of a result. -/
def okMarks {α : Type} (f : α → List Mark) : Except PErr α → List Mark
  | .ok a => f a
  | .error _ => []

theorem parseTypeHint_read : Y [] parseTypeHint (okMarks hintMarks) := by
  intro toks pre p
  unfold parseTypeHint
  rd
  all_goals
    refine Tr.pure ?_
    intro h _
    refine h.sub ?_
    simp only [okMarks]
    rd_sub

macro_rules | `(tactic| rd_norm) => `(tactic| simp only [List.append_assoc, List.cons_append, List.nil_append, List.append_nil,
  Sum.elim_inl, Sum.elim_inr, okMarks,
  Expr.marks, ExprK.marks, Variable.marks, optMarks, exprsMarks, itemsMarks, indicesMarks, membersMarks, FnDecl.refMarks,
  FnDecl.marks, paramsMarks, Param.marks, defaultMarks, optBlockMarks, Stmt.marks, stmtsMarks, StmtK.marks, finallyMarks,
  catchesMarks, Catch.marks, casesMarks, Case.marks, Decl.marks, staticsMarks, variablesMarks, declsMarks, Member.marks,
  pathsMarks, headedMarks, optPathMarks, aliasMarks, clausesMarks, adaptMarks, captureMarks, flagMarks, hintMarks,
  kind_marks, exprsMarks_append, itemsMarks_append, indicesMarks_append, membersMarks_append, paramsMarks_append,
  stmtsMarks_append, catchesMarks_append, casesMarks_append, declsMarks_append, staticsMarks_append,
  variablesMarks_append, pathsMarks_append, clausesMarks_append, adaptMarks_append, captureMarks_append,
  beforeMarks, behindMarks, Option.toList, Path.identifier, ite_true, ite_false, Bool.false_eq_true, reduceIte])

section
variable {r : Rec} (hr : RecY r)
include hr

theorem parseDefault_read : Y [] (parseDefault r) (okMarks defaultMarks) := by
  intro toks pre p
  unfold parseDefault
  rd

theorem parseParameterList_read : Y [] (parseParameterList r) (fun x => paramsMarks x.1) := by
  unfold parseParameterList
  refine Y.loop0 (I := paramsMarks) ?_ rfl
  intro params toks pre p
  refine Tr.bind ?_
  refine Tr.callB parseTypeHint_read ?_
  intro a q
  cases a with
  | error e => dsimp only; rd
  | ok ty =>
    dsimp only
    rd
    all_goals
      refine Tr.callB (parseDefault_read hr) ?_
      intro a q
      cases a with
      | error e => dsimp only; rd
      | ok d => dsimp only; rd

theorem parseInnerStatementList_read : Y [] (parseInnerStatementList r) (fun x => stmtsMarks x.1) := by
  have hl : ∀ last, Y [] (loop (fun (stmts : List Stmt) => do
      let p ← getPos
      if p ≤ last then
        match ← attempt r.stmt with
        | .ok s => return .inl (stmts ++ [s])
        | .error e => return .inr (stmts, some e)
      else return .inr (stmts, none)) []) (fun x => stmtsMarks x.1) := by
    intro last
    refine Y.loop0 (I := stmtsMarks) ?_ rfl
    intro ss toks pre p
    rd
  intro toks pre p
  unfold parseInnerStatementList
  refine Tr.bind ?_
  refine Tr.tokCountB ?_
  intro n
  refine Tr.bind ?_
  refine Tr.subPB ?_
  intro last
  refine Tr.call (hl last) ?_
  intro a q h _
  refine h.sub ?_
  rd_sub

end

theorem Tr.expectOrB {toks : List TokSpan} {lo p : Nat} {X : List Mark} {β : Type} {kw : Kw} {e : Option PErr} {k : TokSpan → P β}
    {Q : β → Nat → Prop} (h : ∀ t, Tr toks lo X (p + 1) (k t) Q) :
    Tr toks lo X p (expectOr kw e) (fun a q => Wr toks lo q (k a) Q) := by
  unfold expectOr
  refine Tr.bind ?_
  refine Tr.eatB' ?_ ?_
  · intro t _ _
    exact Tr.pureB (h t)
  · cases e
    · exact Tr.errHere _
    · exact Tr.fail _

macro_rules | `(tactic| rd1) => `(tactic| (with_reducible refine Tr.expectOrB ?_; intro _))

macro_rules | `(tactic| rd_call) => `(tactic| first
  | with_reducible exact parseInnerStatementList_read (by assumption)
  | with_reducible exact parseParameterList_read (by assumption))

section
variable {r : Rec} (hr : RecY r)
include hr

theorem parseBraced_read : Y [] (parseBraced r) stmtsMarks := by
  intro toks pre p
  unfold parseBraced
  rd

end

theorem parseUseVars_read : Y [] parseUseVars captureMarks := by
  have hl : Y [] (loop (fun (vars : List (Bool × Text)) => do
      let isRef ← eats .Ampersand
      let (v, _) ← expectVariable
      if ← eats .Comma then return .inl (vars ++ [(isRef, v)])
      else return .inr (vars ++ [(isRef, v)])) []) captureMarks := by
    refine Y.loop0 (I := captureMarks) ?_ rfl
    intro vs toks pre p
    rd
  intro toks pre p
  unfold parseUseVars
  rd
  refine Tr.callB hl ?_
  intro _ _
  rd

macro_rules | `(tactic| rd_call) => `(tactic| first
  | with_reducible exact parseBraced_read (by assumption)
  | with_reducible exact parseUseVars_read)

section
variable {r : Rec} (hr : RecY r)
include hr

theorem parseFunctionTail_read (closure abs ref : Bool) (Z : List Mark) :
    Y (flagMarks .Ampersand ref ++ Z) (parseFunctionTail r closure abs ref) (fun x => x.1.refMarks ++ Z ++ x.1.marks) := by
  intro toks pre p
  unfold parseFunctionTail
  rd

theorem parseFunctionNamed_read (start : Span) (abs : Bool) :
    Y [] (parseFunctionNamed r start abs) (fun x => x.2.1.refMarks ++ .word x.1 :: x.2.1.marks) := by
  intro toks pre p
  unfold parseFunctionNamed
  refine Tr.bind ?_
  refine Tr.eatsB ?_ ?_
  · refine Tr.bind ?_
    refine Tr.expectStringB ?_
    intro s sp
    dsimp only
    refine Tr.bind ?_
    refine Tr.weaken (X' := pre ++ (flagMarks .Ampersand true ++ [.word s])) ?_ (by rd_sub)
    refine Tr.call1B (parseFunctionTail_read hr false abs true [.word s]) ?_
    intro a q
    rd
  · refine Tr.bind ?_
    refine Tr.expectStringB ?_
    intro s sp
    dsimp only
    refine Tr.bind ?_
    refine Tr.weaken (X' := pre ++ (flagMarks .Ampersand false ++ [.word s])) ?_ (by rd_sub)
    refine Tr.call1B (parseFunctionTail_read hr false abs false [.word s]) ?_
    intro a q
    rd

theorem parseClosure_read (start : Span) : Y [.kw [.Function]] (parseClosure r start) Expr.marks := by
  intro toks pre p
  unfold parseClosure
  refine Tr.bind ?_
  refine Tr.eatsB ?_ ?_
  · refine Tr.bind ?_
    refine Tr.weaken (X' := pre ++ [.kw [.Function]] ++ (flagMarks .Ampersand true ++ [])) ?_ (by rd_sub)
    refine Tr.call1B (parseFunctionTail_read hr true false true []) ?_
    intro a q
    rd
  · refine Tr.bind ?_
    refine Tr.weaken (X' := pre ++ [.kw [.Function]] ++ (flagMarks .Ampersand false ++ [])) ?_ (by rd_sub)
    refine Tr.call1B (parseFunctionTail_read hr true false false []) ?_
    intro a q
    rd

end

macro_rules | `(tactic| rd_call) => `(tactic| first
  | with_reducible exact parseFunctionNamed_read (by assumption) _ _)

/-! ## Operators -/

section
variable {r : Rec} (hr : RecY r)
include hr

theorem parseNew_read (t : TokSpan) : Y [.kw [.New]] (parseNew r t) Expr.marks := by
  intro toks pre p
  unfold parseNew
  rd

theorem parseExit_read (t : TokSpan) : Y [.kw [.Exit]] (parseExit r t) Expr.marks := by
  intro toks pre p
  unfold parseExit
  rd

theorem parseYield_read (t : TokSpan) : Y [.kw [.Yield]] (parseYield r t) Expr.marks := by
  intro toks pre p
  unfold parseYield
  rd

theorem parseIsset_read (sp : Span) : Y [.kw [.Isset]] (parseIsset r sp) Expr.marks := by
  intro toks pre p
  unfold parseIsset
  rd

theorem parseEmpty_read (sp : Span) : Y [.kw [.Empty]] (parseEmpty r sp) Expr.marks := by
  intro toks pre p
  unfold parseEmpty
  rd

omit hr in
theorem cast_fits {k : Kw} {ty : Ty} (h : k.castTy = some ty) : Fits (castMark ty) [.k k] := by
  cases k <;> first | (cases h; exact .kw (by simp)) | cases h

omit hr in
theorem include_fits {k : Kw} {ty : IncludeTy} (h : k.includeTy = some ty) : Fits (includeMark ty) [.k k] := by
  cases k <;> first | (cases h; exact .kw (by simp)) | cases h

theorem parseInternal_read {k : Kw} {sp : Span} {m : P Expr} (h : parseInternal r k sp = some m) :
    ∃ a, Fits a [.k k] ∧ Y [a] m Expr.marks := by
  unfold parseInternal at h
  split at h
  · cases h
    exact ⟨.kw [k], .kw (by simp), fun _ _ _ => Tr.abort _⟩
  split at h
  · rename_i hk
    cases h
    exact ⟨.kw [.Isset], by rw [hk]; exact .kw (by simp), parseIsset_read hr sp⟩
  split at h
  · rename_i hk
    cases h
    exact ⟨.kw [.Empty], by rw [hk]; exact .kw (by simp), parseEmpty_read hr sp⟩
  split at h
  · rename_i ty hty
    cases h
    refine ⟨castMark ty, cast_fits hty, ?_⟩
    intro toks pre p
    rd
  · split at h
    · rename_i ty hty
      cases h
      refine ⟨includeMark ty, include_fits hty, ?_⟩
      intro toks pre p
      rd
    · cases h

theorem parseListTarget_read (t : TokSpan) : Y [.kw [.List]] (parseListTarget r t) Expr.marks := by
  intro toks pre p
  unfold parseListTarget
  rd

omit hr in
theorem assign_fits {k : Kw} {op : Op} (h : k.assignOp = some op) :
    Fits (if op = .Eq then .kw [.Equal] else compoundMark op) [.k k] := by
  cases k <;> first | (cases h; exact .kw (by simp)) | cases h

theorem parseAssign_read (target : Expr) : Y target.marks (parseAssign r target) Expr.marks := by
  intro toks pre p
  unfold parseAssign
  refine Tr.bind ?_
  refine Tr.peekTokB ?_
  intro x hx
  dsimp only
  split
  · rd
  · rename_i op hop
    cases htok : toks[p]? with
    | none => rw [htok] at hx; subst hx; cases hop
    | some t =>
      obtain ⟨tok, sp⟩ := t
      rw [htok] at hx
      subst hx
      have hop' : (tok.kw?.bind Kw.assignOp) = some op := hop
      cases tok with
      | k k =>
        have hk : k.assignOp = some op := hop'
        refine Tr.bind ?_
        refine Tr.getPosB ?_
        intro _ _
        refine Tr.bind ?_
        refine Tr.takeB htok _ (assign_fits hk) ?_
        refine Tr.bind ?_
        by_cases he : op = .Eq
        · subst he
          simp only [reduceIte]
          rd
          all_goals
            refine Tr.pure ?_
            intro h _
            refine h.sub ?_
            simp only [assignKind]
            rd_sub
        · rw [if_neg he, if_neg he]
          rd
          refine Tr.pure ?_
          intro h _
          refine h.sub ?_
          have : assignKind op false target = .compoundAssign target op := by
            funext e
            cases op <;> first | rfl | exact absurd rfl he
          rw [this]
          rd_sub
      | _ => cases hop'

end

macro_rules | `(tactic| rd_call) => `(tactic| first
  | with_reducible exact parseScalar_read (by assumption))

section
variable {r : Rec} (hr : RecY r)
include hr

theorem parseNonVariable_read (e : PErr) : Y [] (parseNonVariable r e) Expr.marks := by
  intro toks pre p
  unfold parseNonVariable
  rd

theorem parseVariableOrScalar_read : Y [] (parseVariableOrScalar r) Expr.marks := by
  intro toks pre p
  unfold parseVariableOrScalar
  refine Tr.bind ?_
  refine Tr.attemptB (parseVariable_read hr false) ?_ ?_
  · intro e q
    rw [List.append_nil]
    exact Tr.call1 (parseAssign_read hr e) fun _ _ h _ => h
  · intro e q
    dsimp only
    refine Tr.bind ?_
    refine Tr.eatB (.kw [.List]) (.kw (by simp)) ?_ ?_
    · intro t
      dsimp only
      refine Tr.bind ?_
      refine Tr.call1B (parseListTarget_read hr t) ?_
      intro x q
      rw [List.append_nil]
      exact Tr.call1 (parseAssign_read hr x) fun _ _ h _ => h
    · rw [List.append_nil]
      exact Tr.call (parseNonVariable_read hr e) fun _ _ h _ => h

theorem parseOtherExpression_read : Y [] (parseOtherExpression r) Expr.marks := by
  intro toks pre p
  have other : Tr toks p (pre ++ []) p (parseVariableOrScalar r) (fun a q => ReadOff (pre ++ a.marks) (upto toks q)) := by
    rw [List.append_nil]
    exact Tr.call (parseVariableOrScalar_read hr) fun _ _ h _ => h
  unfold parseOtherExpression
  refine Tr.bind ?_
  refine Tr.peekB ?_
  intro x hx
  split
  · rename_i k sp
    refine Tr.bind ?_
    refine Tr.getPosB ?_
    intro _ _
    rw [List.append_nil] at other ⊢
    split
    · rename_i hk
      subst hk
      refine Tr.bind ?_
      refine Tr.takeB hx (.kw [.New]) (.kw (by simp)) ?_
      exact Tr.call1 (parseNew_read hr _) fun _ _ h _ => h
    split
    · rename_i hk
      subst hk
      refine Tr.bind ?_
      refine Tr.takeB hx (.kw [.Clone]) (.kw (by simp)) ?_
      rd
    split
    · rename_i hk
      subst hk
      refine Tr.bind ?_
      refine Tr.takeB hx (.kw [.Exit]) (.kw (by simp)) ?_
      exact Tr.call1 (parseExit_read hr _) fun _ _ h _ => h
    split
    · rename_i hk
      subst hk
      refine Tr.bind ?_
      refine Tr.takeB hx (.kw [.Yield]) (.kw (by simp)) ?_
      exact Tr.call1 (parseYield_read hr _) fun _ _ h _ => h
    split
    · rename_i hk
      subst hk
      refine Tr.bind ?_
      refine Tr.takeB hx (.kw [.Function]) (.kw (by simp)) ?_
      exact Tr.call1 (parseClosure_read hr _) fun _ _ h _ => h
    split
    · rename_i m hm
      obtain ⟨a, ha, hy⟩ := parseInternal_read hr hm
      refine Tr.bind ?_
      refine Tr.takeB hx a ha ?_
      exact Tr.call1 hy fun _ _ h _ => h
    · exact other
  · exact other

end

macro_rules | `(tactic| rd_call) => `(tactic| first
  | with_reducible exact parseOtherExpression_read (by assumption))

section
variable {r : Rec} (hr : RecY r)
include hr

theorem parsePostfixExpression_read : Y [] (parsePostfixExpression r) Expr.marks := by
  intro toks pre p
  unfold parsePostfixExpression
  rd

theorem parseTernary_read (left : Expr) (prec : Prec) :
    Y (left.marks ++ [.kw [.QuestionMark]]) (parseTernary r left prec) Expr.marks := by
  intro toks pre p
  unfold parseTernary
  rd

theorem parseInstanceOf_read (left : Expr) :
    Y (left.marks ++ [.kw [.InstanceOf]]) (parseInstanceOf r left) Expr.marks := by
  intro toks pre p
  unfold parseInstanceOf
  rd

omit hr in
theorem binary_fits {k : Kw} {op : Op} (h : k.binaryOp = some op) : opMarks op = [] ∨ ∃ m, opMarks op = [m] ∧ Fits m [.k k] := by
  cases k <;> first
    | (cases h; exact .inl rfl)
    | (cases h; exact .inr ⟨_, rfl, .kw (by simp)⟩)
    | cases h

theorem parseBinaryRest_read (left : Expr) (k : Kw) (prec : Prec) (op : Op) (h : k.binaryOp = some op) :
    Y (left.marks ++ opMarks op) (parseBinaryRest r left k prec) Expr.marks := by
  intro toks pre p
  unfold parseBinaryRest
  rw [h]
  dsimp only
  rd

theorem parseBinaryExpression_read (left : Expr) (prec : Prec) :
    Y left.marks (parseBinaryExpression r left prec) (orMarks left) := by
  intro toks pre p
  unfold parseBinaryExpression
  refine Tr.bind ?_
  refine Tr.peekTokB ?_
  intro x hx
  dsimp only
  split
  · exact Tr.pure fun h _ => h
  · rename_i k hk
    cases htok : toks[p]? with
    | none => rw [htok] at hx; subst hx; cases hk
    | some t =>
      obtain ⟨tok, sp⟩ := t
      rw [htok] at hx
      subst hx
      have hk' : tok.kw? = some k := hk
      cases tok with
      | k k' =>
        cases hk'
        split
        · exact Tr.pure fun h _ => h
        split
        · exact Tr.pure fun h _ => h
        refine Tr.bind ?_
        refine Tr.getPosB ?_
        intro _ _
        refine Tr.bind ?_
        split
        · rename_i hq
          subst hq
          refine Tr.takeB htok (.kw [.QuestionMark]) (.kw (by simp)) ?_
          refine Tr.bind ?_
          rw [List.append_assoc]
          refine Tr.call1B (parseTernary_read hr left _) ?_
          intro e q
          exact Tr.pure fun h _ => h
        split
        · rename_i hq
          subst hq
          refine Tr.takeB htok (.kw [.InstanceOf]) (.kw (by simp)) ?_
          refine Tr.bind ?_
          rw [List.append_assoc]
          refine Tr.call1B (parseInstanceOf_read hr left) ?_
          intro e q
          exact Tr.pure fun h _ => h
        · cases hop : k.binaryOp with
          | none =>
            refine Tr.dropB ?_
            refine Tr.bind ?_
            unfold parseBinaryRest
            rw [hop]
            exact Tr.abort _
          | some op =>
            rcases binary_fits hop with h0 | ⟨m, h1, h2⟩
            · refine Tr.dropB ?_
              refine Tr.bind ?_
              have hy := fun pr => parseBinaryRest_read hr left k pr op hop
              simp only [h0, List.append_nil] at hy
              refine Tr.call1B (hy _) ?_
              intro e q
              exact Tr.pure fun h _ => h
            · refine Tr.takeB htok m h2 ?_
              refine Tr.bind ?_
              have hy := fun pr => parseBinaryRest_read hr left k pr op hop
              simp only [h1] at hy
              rw [List.append_assoc]
              refine Tr.call1B (hy _) ?_
              intro e q
              exact Tr.pure fun h _ => h
      | _ => cases hk'

omit hr in
theorem prefix_fits {k : Kw} {op : UnaryOp} (h : k.prefixOp = some op) :
    ∃ m, beforeMarks op = [m] ∧ behindMarks op = [] ∧ Fits m [.k k] := by
  cases k <;> first | (cases h; exact ⟨_, rfl, rfl, .kw (by simp)⟩) | cases h

theorem parseOperand_read : Y [] (parseOperand r) Expr.marks := by
  intro toks pre p
  unfold parseOperand
  refine Tr.bind ?_
  refine Tr.peekB ?_
  intro x hx
  split
  · exact Tr.errHere _
  · rename_i tok sp
    split
    · rename_i op hop
      cases tok with
      | k k =>
        obtain ⟨m, h1, h2, h3⟩ := prefix_fits (show k.prefixOp = some op from hop)
        refine Tr.bind ?_
        refine Tr.getPosB ?_
        intro _ _
        refine Tr.bind ?_
        refine Tr.takeB hx m h3 ?_
        rd
        refine Tr.pure ?_
        intro h _
        refine h.sub ?_
        simp only [Expr.marks, ExprK.marks, h1, h2]
        rd_sub
      | _ => cases hop
    · rw [List.append_nil]
      exact Tr.call (parsePostfixExpression_read hr) fun _ _ h _ => h

theorem parseExpression_read (prec : Prec) : Y [] (parseExpression r prec) Expr.marks := by
  intro toks pre p
  unfold parseExpression
  refine Tr.bind ?_
  refine Tr.callB (parseOperand_read hr) ?_
  intro e q
  rw [List.append_nil]
  refine Tr.call1 (Y.loop (I := Expr.marks) (f := Expr.marks) ?_ e) fun _ _ h _ => h
  intro left toks pre p
  refine Tr.bind ?_
  refine Tr.attempt1B (parseBinaryExpression_read hr left prec) ?_ ?_
  · intro a q
    cases a with
    | none => exact Tr.pure fun h _ => h
    | some l => exact Tr.pure fun h _ => h
  · intro e q
    exact Tr.pure fun h _ => h

end

end Pico
