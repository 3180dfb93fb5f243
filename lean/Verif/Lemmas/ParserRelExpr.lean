import Verif.Lemmas.ParserRel

/-!
# Expressions: parsing does not look at positions (continued)
-/

namespace Pico
open P

variable [Lo]

macro_rules | `(tactic| rel_call) => `(tactic| with_reducible exact parseConstant_rel)

section
variable {r : Rec} (hr : RecRel r)
include hr

theorem parseArrayPairList_rel : PRel (Alike eraseItems) (parseArrayPairList r) (parseArrayPairList r) := by
  unfold parseArrayPairList
  refine PRel.loop (T := Alike eraseItems) ?_ ⟨rfl⟩
  relv
  refine PRel.bind (PRel.attempt hr.expr) ?_
  relv
  · rel
  · refine PRel.bind (R := PairRel (Alike eraseOpt) EEq) ?_ ?_ <;> rel

theorem parseDereferencableScalar_rel :
    PRel VRel (parseDereferencableScalar r) (parseDereferencableScalar r) := by
  have := parseArrayPairList_rel hr
  unfold parseDereferencableScalar
  refine PRel.bind PRel.eat ?_
  relv
  · refine PRel.bind PRel.eat ?_
    relv
    · rel
    · refine PRel.bind this ?_
      rel
  · refine PRel.bind PRel.expect ?_
    relv
    refine PRel.bind this ?_
    rel

theorem parseBaseVariable_rel (so : Bool) : PRel VRel (parseBaseVariable r so) (parseBaseVariable r so) := by
  have := parseDereferencableScalar_rel hr
  unfold parseBaseVariable
  refine PRel.bind (R := OptRel KRel) ?_ ?_
  · rel
  · relv
    · refine PRel.bind (PRel.attempt parseSimpleVariableExpr_rel) ?_
      relv
      · refine PRel.ite (deepestUnpack_rel _) ?_
        refine PRel.bind (PRel.attempt this) ?_
        rel
      · rel
    · rel

end

/-- The parts of a static member. -/
inductive ScopedRel : Expr × Expr × Span → Expr × Expr × Span → Prop
  | mk {a b c d : Expr} {sp sp' : Span} (h : VRel a b) (h' : EEq c d) (l : 1 ≤ sp.start) (l' : 1 ≤ sp'.start) :
    ScopedRel (a, c, sp) (b, d, sp')

theorem constScopedTail_rel (so : Bool) {a b : Expr} (h : VRel a b) :
    PRel (OptRel ScopedRel) (constScopedTail so a) (constScopedTail so b) := by
  unfold constScopedTail
  refine PRel.bind (PRel.attempt parseSimpleVariableExpr_rel) ?_
  intro x y hxy
  cases hxy with
  | ok hx => exact PRel.pure (.some (.mk h ⟨hx.eq⟩ h.left h.right))
  | error e =>
    refine PRel.ite (PRel.pure .none) ?_
    refine PRel.bind parseIdentifierAsExpr_rel ?_
    intro x y hx
    refine PRel.bind PRel.nextIs ?_
    intro c d hc
    cases hc
    exact PRel.ite (PRel.pure (.some (.mk h hx h.left h.right))) (PRel.pure .none)

theorem parseConstScoped_rel (so : Bool) : PRel ScopedRel (parseConstScoped so) (parseConstScoped so) := by
  unfold parseConstScoped
  refine PRel.bind PRel.getPos ?_
  relv
  refine PRel.bind (R := OptRel ScopedRel) ?_ ?_
  · refine PRel.bind (PRel.attempt parseClassName_rel) ?_
    intro x y hxy
    cases hxy with
    | error e => exact PRel.pure .none
    | ok hx =>
      refine PRel.bind PRel.eats ?_
      intro c d hc
      cases hc
      exact PRel.ite (constScopedTail_rel so hx) (PRel.pure .none)
  · intro x y h
    cases h with
    | none => rel
    | some h => exact PRel.pure h

theorem parseFnCallBaseItem_rel (so : Bool) : PRel VRel (parseFnCallBaseItem so) (parseFnCallBaseItem so) := by
  unfold parseFnCallBaseItem
  refine PRel.ite PRel.errHere ?_
  refine PRel.bind PRel.getPos ?_
  relv
  refine PRel.bind (R := OptRel VRel) ?_ ?_
  · rel
  · rel

theorem addArrayIdx_erase (e : Expr) (i : Option Expr) (s : Nat) :
    (addArrayIdx e i s).erase = addArrayIdx e.erase (eraseOpt i) 0 := by
  obtain ⟨k, sp⟩ := e
  cases k <;> simp only [addArrayIdx, Expr.erase, ExprK.erase, eraseOpts_append, eraseOpts] <;> rfl

theorem addObjMember_erase (e p : Expr) (s : Nat) :
    (addObjMember e p s).erase = addObjMember e.erase p.erase 0 := by
  obtain ⟨k, sp⟩ := e
  cases k <;> simp only [addObjMember, Expr.erase, ExprK.erase, eraseExprs_append, eraseExprs] <;> rfl

theorem addStaticMember_erase (e p : Expr) (s : Nat) :
    (addStaticMember e p s).erase = addStaticMember e.erase p.erase 0 := by
  obtain ⟨k, sp⟩ := e
  cases k <;> simp only [addStaticMember, Expr.erase, ExprK.erase, eraseExprs_append, eraseExprs] <;> rfl

theorem addArrayIdx_start (e : Expr) (i : Option Expr) (s : Nat) : (addArrayIdx e i s).span.start = e.span.start := by
  unfold addArrayIdx
  split <;> rfl

theorem addObjMember_start (e p : Expr) (s : Nat) : (addObjMember e p s).span.start = e.span.start := by
  unfold addObjMember
  split <;> rfl

theorem addStaticMember_start (e p : Expr) (s : Nat) : (addStaticMember e p s).span.start = e.span.start := by
  unfold addStaticMember
  split <;> rfl

/-- The same expression up to positions and, under the condition `c`, behind an open tag. -/
structure WRel (c : Prop) (a b : Expr) : Prop where
  eq : a.erase = b.erase
  left : c → 1 ≤ a.span.start
  right : c → 1 ≤ b.span.start

theorem appendixStatic_rel {c : Prop} {e e' : Expr} (h : WRel c e e') : PRel (OptRel (WRel c)) (appendixStatic e) (appendixStatic e') := by
  unfold appendixStatic
  refine PRel.bind PRel.eats ?_
  intro _ _ hb
  cases hb
  refine PRel.ite ?_ (PRel.pure .none)
  refine PRel.bind (PRel.attempt parseSimpleVariableExpr_rel) ?_
  intro x y hxy
  cases hxy with
  | error e => rel
  | ok hx =>
    refine PRel.bind PRel.lastEnd ?_
    intro _ _ _
    refine PRel.pure (.some ⟨?_, ?_, ?_⟩)
    · rw [addStaticMember_erase, addStaticMember_erase, h.eq, hx.eq]
    · rw [addStaticMember_start]; exact h.left
    · rw [addStaticMember_start]; exact h.right

section
variable {r : Rec} (hr : RecRel r)
include hr

theorem parseVariableBase_rel (so : Bool) : PRel VRel (parseVariableBase r so) (parseVariableBase r so) := by
  unfold parseVariableBase
  refine PRel.bind PRel.getPos ?_
  relv
  refine PRel.bind (PRel.attempt (parseConstScoped_rel so)) ?_
  intro x y hxy
  cases hxy with
  | ok h =>
    cases h with
    | mk h h' l l' =>
      have := h.eq
      have := h'.eq
      dsimp only
      rel
  | error e =>
    refine PRel.bind (PRel.attempt (parseFnCallBaseItem_rel so)) ?_
    intro x y hxy
    cases hxy with
    | ok h => exact PRel.pure h
    | error e =>
      refine PRel.bind (PRel.attempt (parseBaseVariable_rel hr so)) ?_
      intro x y hxy
      cases hxy with
      | ok h => exact PRel.pure h
      | error e => rel

theorem appendixIndex_rel {c : Prop} {e e' : Expr} (h : WRel c e e') : PRel (OptRel (WRel c)) (appendixIndex r e) (appendixIndex r e') := by
  unfold appendixIndex
  refine PRel.bind PRel.eats ?_
  intro _ _ hb
  cases hb
  refine PRel.ite ?_ (PRel.pure .none)
  refine PRel.bind (parseOptExpression_rel hr _) ?_
  intro x y hx
  refine PRel.bind PRel.eats ?_
  intro _ _ hb
  cases hb
  refine PRel.ite ?_ (PRel.pure .none)
  refine PRel.bind PRel.lastEnd ?_
  intro _ _ _
  refine PRel.pure (.some ⟨?_, ?_, ?_⟩)
  · rw [addArrayIdx_erase, addArrayIdx_erase, h.eq, hx.eq]
  · rw [addArrayIdx_start]; exact h.left
  · rw [addArrayIdx_start]; exact h.right

theorem appendixMember_rel {c : Prop} {e e' : Expr} (h : WRel c e e') :
    PRel (OptRel (WRel c)) (appendixMember r e) (appendixMember r e') := by
  unfold appendixMember
  refine PRel.bind PRel.eats ?_
  intro _ _ hb
  cases hb
  refine PRel.ite ?_ (PRel.pure .none)
  refine PRel.bind (PRel.attempt (parsePropertyName_rel hr)) ?_
  intro x y hxy
  cases hxy with
  | error e => rel
  | ok hx =>
    refine PRel.bind PRel.lastEnd ?_
    intro _ _ _
    refine PRel.pure (.some ⟨?_, ?_, ?_⟩)
    · rw [addObjMember_erase, addObjMember_erase, h.eq, hx.eq]
    · rw [addObjMember_start]; exact h.left
    · rw [addObjMember_start]; exact h.right

theorem appendixCall_rel (so : Bool) {c : Prop} {e e' : Expr} (h : WRel c e e') :
    PRel (OptRel (WRel c)) (appendixCall r so e) (appendixCall r so e') := by
  unfold appendixCall
  obtain ⟨h1, h2, h3⟩ := h
  rel
  exact .some ⟨by rel_eq, h2, h3⟩

theorem appendixStep_rel (so : Bool) {c : Prop} {e e' : Expr} (h : WRel c e e') :
    PRel (SumRel (WRel c) (WRel c)) (appendixStep r so e) (appendixStep r so e') := by
  unfold appendixStep
  refine PRel.bind (appendixIndex_rel hr h) ?_
  intro x y hxy
  cases hxy with
  | some h => exact PRel.pure (.inl h)
  | none =>
    refine PRel.bind (appendixMember_rel hr h) ?_
    intro x y hxy
    cases hxy with
    | some h => exact PRel.pure (.inl h)
    | none =>
      refine PRel.bind (appendixStatic_rel h) ?_
      intro x y hxy
      cases hxy with
      | some h => exact PRel.pure (.inl h)
      | none =>
        refine PRel.bind (appendixCall_rel hr so h) ?_
        intro x y hxy
        cases hxy with
        | some h => exact PRel.pure (.inl h)
        | none => exact PRel.pure (.inr h)

theorem parseVariable_rel (so : Bool) {b b' : Option Expr} (h : OptRel VRel b b') :
    PRel VRel (parseVariable r so b) (parseVariable r so b') := by
  unfold parseVariable
  refine PRel.bind (R := VRel) ?_ ?_
  · cases h with
    | none => exact parseVariableBase_rel hr so
    | some h => exact PRel.pure h
  · intro x y h
    exact (PRel.loop (T := WRel True) (fun _ _ h => appendixStep_rel hr so h) ⟨h.eq, fun _ => h.left, fun _ => h.right⟩).weaken
      fun _ _ h => ⟨h.eq, h.left trivial, h.right trivial⟩

/-- Nothing need be known of the position of the expression at the beginning. -/
theorem parseVariableFrom_rel (so : Bool) {e e' : Expr} (h : EEq e e') :
    PRel EEq (parseVariable r so (some e)) (parseVariable r so (some e')) := by
  unfold parseVariable
  refine PRel.bind (R := EEq) (PRel.pure h) ?_
  intro x y h
  exact (PRel.loop (T := WRel False) (fun _ _ h => appendixStep_rel hr so h) ⟨h.eq, nofun, nofun⟩).weaken fun _ _ h => ⟨h.eq⟩

theorem parseClassNameReference_rel : PRel EEq (parseClassNameReference r) (parseClassNameReference r) := by
  unfold parseClassNameReference
  refine PRel.bind (PRel.attempt parseClassName_rel) ?_
  intro x y hxy
  cases hxy with
  | ok h => exact PRel.pure ⟨h.eq⟩
  | error e => exact (parseVariable_rel hr true .none).weaken fun _ _ h => ⟨h.eq⟩

end

/-! ## Interpolated strings -/

inductive EncRel : Encaps → Encaps → Prop
  | mk (str : Text) {ps ps' : List Expr} {st st' : Option Nat} {n n' : Nat} (h : eraseExprs ps = eraseExprs ps')
    (h' : OptRel Anyhow st st') : EncRel ⟨str, ps, st, n⟩ ⟨str, ps', st', n'⟩

theorem flush_rel {s s' : Encaps} (h : EncRel s s') : PRel EncRel s.flush s'.flush := by
  unfold Encaps.flush
  cases h with
  | mk str h h' =>
    dsimp only
    refine PRel.ite (PRel.ret (.mk str h h')) ?_
    cases h' with
    | none => exact PRel.abort
    | some h' => exact PRel.ret (.mk _ (by rel_eq) (.some .mk))

section
variable {r : Rec} (hr : RecRel r)
include hr

theorem encapsDollar_rel {s s' : Encaps} (h : EncRel s s') {t t' : TokSpan} (ht : KRel t t') :
    PRel EncRel (encapsDollar r s t) (encapsDollar r s' t') := by
  unfold encapsDollar
  cases h with
  | mk str h h' =>
    refine PRel.bind (PRel.attempt parseIdentifier_rel) ?_
    intro x y hxy
    cases hxy with
    | ok hn =>
      cases hn with
      | mk h1 h2 =>
        subst h1
        dsimp only
        refine PRel.bind (parseVariableFrom_rel hr false ⟨rfl⟩) ?_
        intro _ _ he
        have := he.eq
        refine PRel.bind PRel.expect ?_
        intro _ _ _
        exact PRel.pure (.mk _ (by rel_eq) (by rel_leaf))
    | error e =>
      refine PRel.bind hr.expr ?_
      intro _ _ he
      have := he.eq
      refine PRel.bind PRel.expect ?_
      intro _ _ _
      exact PRel.pure (.mk _ (by rel_eq) (by rel_leaf))

theorem encapsStep_rel {s s' : Encaps} (h : EncRel s s') :
    PRel (SumRel EncRel EncRel) (encapsStep r s) (encapsStep r s') := by
  unfold encapsStep
  refine PRel.bind PRel.eatEncaps ?_
  intro x y hxy
  cases hxy with
  | some hn =>
    cases hn with
    | mk x l l' =>
      cases h with
      | mk str h h' => exact PRel.pure (.inl (.mk _ h (.some .mk)))
  | none =>
    refine PRel.bind PRel.eat ?_
    intro x y hxy
    cases hxy with
    | some ht =>
      refine PRel.bind (flush_rel h) ?_
      intro x y hx
      refine PRel.bind (encapsDollar_rel hr hx ht) ?_
      intro x y hx
      exact PRel.pure (.inl hx)
    | none =>
      refine PRel.bind PRel.eat ?_
      intro x y hxy
      cases hxy with
      | some ht =>
        refine PRel.bind (flush_rel h) ?_
        intro x y hx
        refine PRel.bind hr.expr ?_
        intro _ _ he
        have := he.eq
        refine PRel.bind PRel.expect ?_
        intro _ _ _
        cases hx with
        | mk str h h' => exact PRel.pure (.inl (.mk _ (by rel_eq) (.some .mk)))
      | none =>
        refine PRel.bind (PRel.attempt (parseVariable_rel hr false .none)) ?_
        intro x y hxy
        cases hxy with
        | error e => exact PRel.pure (.inr h)
        | ok he =>
          have := he.eq
          refine PRel.bind (flush_rel h) ?_
          intro x y hx
          cases hx with
          | mk str h h' => exact PRel.pure (.inl (.mk _ (by rel_eq) (.some .mk)))

end

theorem concatParts_erase (ps : List Expr) (i : Expr) : (concatParts ps i).erase =
    (eraseExprs ps).foldr (fun p acc => .mk (.binary .Concat p acc) Span.new) i.erase := by
  unfold concatParts
  rw [List.foldl_reverse]
  induction ps with
  | nil => rfl
  | cons p ps ih => simp only [List.foldr_cons, eraseExprs, Expr.erase, ExprK.erase, ih]

theorem eraseExprs_getLast {ps ps' : List Expr} (h : eraseExprs ps = eraseExprs ps') :
    OptRel EEq ps.getLast? ps'.getLast? := by
  have : ps.getLast?.map Expr.erase = ps'.getLast?.map Expr.erase := by
    rw [← List.getLast?_map, ← List.getLast?_map, ← eraseExprs_map, ← eraseExprs_map, h]
  revert this
  generalize ps.getLast? = a
  generalize ps'.getLast? = b
  intro h
  cases a with
  | none =>
    cases b with
    | none => exact .none
    | some b => simp at h
  | some a =>
    cases b with
    | none => simp at h
    | some b => exact .some ⟨by simpa using h⟩

theorem eraseExprs_dropLast {ps ps' : List Expr} (h : eraseExprs ps = eraseExprs ps') :
    eraseExprs ps.dropLast = eraseExprs ps'.dropLast := by
  rw [eraseExprs_map, eraseExprs_map, List.map_dropLast, List.map_dropLast, ← eraseExprs_map, ← eraseExprs_map, h]

section
variable {r : Rec} (hr : RecRel r)
include hr

theorem parseEncapsList_rel : PRel EEq (parseEncapsList r) (parseEncapsList r) := by
  unfold parseEncapsList
  refine PRel.bind (R := EncRel) (PRel.loop (T := EncRel) (fun _ _ h => encapsStep_rel hr h) (.mk _ rfl .none)) ?_
  intro x y h
  cases h with
  | mk str h h' =>
    dsimp only
    refine PRel.ite ?_ ?_
    · have h1 := eraseExprs_getLast h
      have h2 := eraseExprs_dropLast h
      revert h1
      generalize List.getLast? _ = a
      generalize List.getLast? _ = b
      intro h1
      cases h1 with
      | none => rel
      | some h1 =>
        refine PRel.pure ⟨?_⟩
        rw [concatParts_erase, concatParts_erase, h2, h1.eq]
    · cases h' with
      | none => exact PRel.abort
      | some _ =>
        refine PRel.pure ⟨?_⟩
        rw [concatParts_erase, concatParts_erase, h]
        rfl

theorem parseScalar_rel : PRel EEq (parseScalar r) (parseScalar r) := by
  have hd := parseDereferencableScalar_rel hr
  have he := parseEncapsList_rel hr
  unfold parseScalar
  refine PRel.bind PRel.peek ?_
  intro x y hxy
  refine PRel.bind PRel.getPos ?_
  intro p0 _ hp
  obtain ⟨rfl, hp⟩ := hp
  refine PRel.bind (PRel.setPos (by omega)) ?_
  intro _ _ _
  cases hxy with
  | none => rel
  | some h =>
    cases h with
    | mk tok l l' =>
      have other : PRel EEq (do
            P.setPos p0
            match ← attempt (parseDereferencableScalar r) with
            | .ok e => return e
            | .error _ => parseConstant) (do
            P.setPos p0
            match ← attempt (parseDereferencableScalar r) with
            | .ok e => return e
            | .error _ => parseConstant) := by
        refine PRel.bind (PRel.setPos (by omega)) ?_
        relv
        refine PRel.bind (PRel.attempt hd) ?_
        rel
      cases tok with
      | int v => rel
      | double v => rel
      | k k =>
        cases k <;> first
          | exact other
          | (rel; done)
          | (dsimp only
             refine PRel.bind he ?_
             rel
             done)
          | (dsimp only
             refine PRel.bind PRel.eat ?_
             relv
             · refine PRel.bind he ?_
               rel
             · rel
             done)
      | _ => exact other

end

end Pico
