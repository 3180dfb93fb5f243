import Verif.Lemmas.ReadTac
import Verif.Lemmas.GramBase
/-!
# Expressions are readings of their tokens
-/
namespace Pico
open P

section
variable {r : Rec} (hr : RecY r)
include hr

theorem parseOptExpression_read (prec : Prec) : Y [] (parseOptExpression r prec) optMarks := by
  intro toks pre p
  unfold parseOptExpression
  rd

end

theorem parseSimpleVariable_read : Y [] parseSimpleVariable (fun x => x.1.marks) := by
  intro toks pre p
  unfold parseSimpleVariable
  rd

macro_rules | `(tactic| rd_call) => `(tactic| first
  | with_reducible exact parseOptExpression_read (by assumption) _
  | with_reducible exact parseSimpleVariable_read)

theorem parseSimpleVariableExpr_read : Y [] parseSimpleVariableExpr Expr.marks := by
  intro toks pre p
  unfold parseSimpleVariableExpr
  rd

macro_rules | `(tactic| rd_call) => `(tactic| first
  | with_reducible exact parseSimpleVariableExpr_read)

section
variable {r : Rec} (hr : RecY r)
include hr

theorem parseExpressionList_read : Y [] (parseExpressionList r) exprsMarks := by
  unfold parseExpressionList
  refine Y.loop0 (I := exprsMarks) ?_ rfl
  intro args toks pre p
  rd

theorem parseArgumentList_read :
    Y [] (parseArgumentList r) (fun args => .kw [.ParenthesesOpen] :: exprsMarks args) := by
  have hl : Y [] (loop (fun (args : List Expr) => do
      let start ← eat .Ellipsis
      let arg ← r.expr .None
      let arg : Expr :=
        match start with
        | some t => .mk (.unpack arg) { arg.span with start := t.span.start }
        | none => arg
      if ← eats .Comma then return .inl (args ++ [arg]) else return .inr (args ++ [arg])) []) exprsMarks := by
    refine Y.loop0 (I := exprsMarks) ?_ rfl
    intro args toks pre p
    rd
  intro toks pre p
  unfold parseArgumentList
  rd
  refine Tr.callB hl ?_
  intro _ _
  rd

theorem parsePropertyName_read : Y [] (parsePropertyName r) Expr.marks := by
  intro toks pre p
  unfold parsePropertyName
  rd
  refine Tr.conv ?_ Fits.word_path
  rd

end

/-! ## Names -/

theorem fragments_read (toks : List TokSpan) (n : Nat) : ∀ (p : Nat) (acc : List (Text × Span)),
    Wr toks p p (P.loopN (fun (frags : List (Text × Span)) => do
      match ← eatString with
      | none => errHere [.string []]
      | some f =>
        let frags := frags ++ [f]
        let old ← getPos
        match ← eat .NsSeparator with
        | none => return .inr frags
        | some _ =>
          match ← eatString with
          | some _ =>
            let p ← getPos
            P.setPos (p - 1)
            return .inl frags
          | none =>
            P.setPos old
            return .inr frags) n acc) (fun fr q => ∃ ns id, fr.map Prod.fst = acc.map Prod.fst ++ ns ++ [id] ∧
      upto toks q = upto toks p ++ nameToks ns id) := by
  induction n with
  | zero => intro p acc; trivial
  | succ n ih =>
    intro p acc
    have h0 : ∀ q, ReadOff [] (upto toks q) := fun q => by simpa using ReadOff.nil.skips (upto toks q)
    have key : Tr toks p [] p (P.loopN (fun (frags : List (Text × Span)) => do
      match ← eatString with
      | none => errHere [.string []]
      | some f =>
        let frags := frags ++ [f]
        let old ← getPos
        match ← eat .NsSeparator with
        | none => return .inr frags
        | some _ =>
          match ← eatString with
          | some _ =>
            let p ← getPos
            P.setPos (p - 1)
            return .inl frags
          | none =>
            P.setPos old
            return .inr frags) (n + 1) acc) (fun fr q => ∃ ns id, fr.map Prod.fst = acc.map Prod.fst ++ ns ++ [id] ∧
      upto toks q = upto toks p ++ nameToks ns id) := by
      rw [P.loopN]
      refine Tr.bind ?_
      refine Tr.bind ?_
      refine Tr.eatStringB ?_ (Tr.errHere _)
      intro s sp hx
      dsimp only
      refine Tr.bind ?_
      refine Tr.getPosB ?_
      intro _ hlo
      refine Tr.bind ?_
      refine Tr.eatB' ?_ ?_
      · intro t ht htk
        dsimp only
        refine Tr.bind ?_
        refine Tr.eatStringB ?_ ?_
        · intro s2 sp2 hx2
          dsimp only
          refine Tr.bind ?_
          refine Tr.getPosB ?_
          intro _ _
          refine Tr.bind ?_
          refine Tr.backB (X0 := []) (old := p + 1 + 1) (h0 _) (by omega) ?_
          refine Tr.pure ?_
          intro _ _
          refine (ih (p + 1 + 1) (acc ++ [(s, sp)])).imp (by omega) ?_
          rintro fr q hq ⟨ns, id, h1, h2⟩
          refine ⟨s :: ns, id, ?_, ?_⟩
          · rw [h1]; simp
          · rw [h2, upto_succ ht, upto_succ hx, htk]
            simp [nameToks]
        · dsimp only
          refine Tr.bind ?_
          refine Tr.backB (X0 := []) (h0 _) (by omega) ?_
          refine Tr.pure ?_
          intro _ _
          refine ⟨by omega, [], s, by simp, ?_⟩
          rw [upto_succ hx]
          rfl
      · dsimp only
        refine Tr.pure ?_
        intro _ _
        refine ⟨by omega, [], s, by simp, ?_⟩
        rw [upto_succ hx]
        rfl
    exact key (h0 p) (Nat.le_refl p)

theorem parseNamespaceName_exact (toks : List TokSpan) (p : Nat) :
    Wr toks p p parseNamespaceName (fun x q => ∃ ns id, x.1 = qualPath false ns id ∧
      upto toks q = upto toks p ++ nameToks ns id) := by
  unfold parseNamespaceName
  refine Wr.bind ?_
  refine (fragments_read toks _ p []).imp (Nat.le_refl p) ?_
  rintro fr q hq ⟨ns, id, h1, h2⟩
  simp only [List.map_nil, List.nil_append] at h1
  have hinit : fr.dropLast.map Prod.fst = ns := by
    rw [List.map_dropLast, h1]; simp
  have hlast : fr.getLast?.map Prod.fst = some id := by
    rw [← List.getLast?_map, h1]; simp
  cases hl : fr.getLast? with
  | none => rw [hl] at hlast; cases hlast
  | some last =>
    cases hh : fr.head? with
    | none => rw [List.head?_eq_none_iff.1 hh] at hl; cases hl
    | some first =>
      rw [hl] at hlast
      have hid : last.1 = id := by simpa using hlast
      dsimp only
      rw [hinit, hid]
      refine ⟨hq, ns, id, ?_, h2⟩
      cases ns with
      | nil => simp [qualPath, Path.identifier]
      | cons x ns => simp [qualPath, joinNs_eq]

variable {toks : List TokSpan} {lo p : Nat} {X : List Mark}

/-- A qualified name, read where it may be absolute. -/
theorem Tr.nameB {β : Type} {k : Bool → Path × Span → P β} {Q : β → Nat → Prop}
    (h : ∀ abs path sp q, path.isAbsolute = false → Tr toks lo (X ++ [.path { path with isAbsolute := abs }]) q (k abs (path, sp)) Q) :
    Tr toks lo X p (eats .NsSeparator >>= fun abs => parseNamespaceName >>= fun x => k abs x) Q := by
  intro h1 h2
  have h0 : ∀ q, ReadOff [] (upto toks q) := fun q => by simpa using ReadOff.nil.skips (upto toks q)
  have key : Tr toks lo [] p (eats .NsSeparator >>= fun abs => parseNamespaceName >>= fun x => k abs x) Q := by
    refine Tr.bind ?_
    unfold eats
    refine Tr.bind ?_
    refine Tr.eatB' ?_ ?_
    · intro t ht htk
      refine Tr.pureB ?_
      refine Tr.bind ?_
      intro _ _
      refine (parseNamespaceName_exact toks (p + 1)).imp (by omega) ?_
      rintro ⟨path, sp⟩ q hq ⟨ns, id, e1, e2⟩
      refine h true path sp q (by rw [show path = qualPath false ns id from e1]; rfl) ?_ (by omega)
      have hf : Fits (.path { path with isAbsolute := true }) (qualToks true ns id) := by
        have e1' : path = qualPath false ns id := e1
        rw [e1']
        exact .path (.name (.qual true ns id))
      have := ReadOff.read h1 hf
      rw [e2, upto_succ ht, htk]
      simpa [qualToks] using this
    · refine Tr.pureB ?_
      refine Tr.bind ?_
      intro _ _
      refine (parseNamespaceName_exact toks p).imp (by omega) ?_
      rintro ⟨path, sp⟩ q hq ⟨ns, id, e1, e2⟩
      refine h false path sp q (by rw [show path = qualPath false ns id from e1]; rfl) ?_ (by omega)
      have hf : Fits (.path { path with isAbsolute := false }) (qualToks false ns id) := by
        have e1' : path = qualPath false ns id := e1
        rw [e1']
        exact .path (.name (.qual false ns id))
      have := ReadOff.read h1 hf
      rw [e2]
      simpa [qualToks] using this
  exact key (h0 p) h2

theorem parseNamespaceName_read : Y [] parseNamespaceName (fun x => [.path x.1]) := by
  intro toks pre p h1 h2
  refine (parseNamespaceName_exact toks p).imp (Nat.le_refl p) ?_
  rintro ⟨path, sp⟩ q hq ⟨ns, id, e1, e2⟩
  have hf : Fits (.path path) (qualToks false ns id) := by
    have e1' : path = qualPath false ns id := e1
    rw [e1']
    exact .path (.name (.qual false ns id))
  have := ReadOff.read h1 hf
  rw [e2]
  simpa [qualToks] using this

theorem Path.abs_eta (x : Path) (h : x.isAbsolute = false) : { x with isAbsolute := false } = x := by
  cases x; simp at h; simp [h]

theorem parseName_read : Y [] parseName (fun x => [.path x.1]) := by
  intro toks pre p
  unfold parseName
  refine Tr.nameB ?_
  intro abs path sp q ha
  dsimp only
  cases abs with
  | true => rd
  | false => rw [Path.abs_eta path ha]; rd

macro_rules | `(tactic| rd_call) => `(tactic| first
  | with_reducible exact parseExpressionList_read (by assumption)
  | with_reducible exact parseArgumentList_read (by assumption)
  | with_reducible exact parsePropertyName_read (by assumption)
  | with_reducible exact parseNamespaceName_read
  | with_reducible exact parseName_read)

theorem parseNameAsExpr_read : Y [] parseNameAsExpr Expr.marks := by
  intro toks pre p
  unfold parseNameAsExpr
  rd

theorem parseNameList_read : Y [] parseNameList pathsMarks := by
  unfold parseNameList
  refine Y.loop0 (I := pathsMarks) ?_ rfl
  intro args toks pre p
  rd

macro_rules | `(tactic| rd_call) => `(tactic| first
  | with_reducible exact parseNameAsExpr_read
  | with_reducible exact parseNameList_read)

theorem Fits.static_path : ∀ us, Fits (.kw [.Static]) us → Fits (.path ⟨false, none, c!"static"⟩) us := by
  intro us h
  cases h with
  | kw h =>
    cases List.mem_singleton.1 h
    exact .path (.name .static)

theorem parseClassName_read : Y [] parseClassName Expr.marks := by
  intro toks pre p
  unfold parseClassName
  rd
  refine Tr.conv ?_ Fits.static_path
  rd

theorem memberWords_all : ∀ k : Kw, k.isReservedNonModifier = true → ∀ s, k.repr? = some s → (s, k) ∈ memberWords := by
  intro k
  cases k <;> first | (intro h; cases h; done) | (intro _ s h; cases h <;> decide)

theorem parseIdentifier_read : Y [] parseIdentifier (fun x => [.ident x.1]) := by
  intro toks pre p
  unfold parseIdentifier
  refine Tr.bind ?_
  refine Tr.peekB ?_
  intro x hx
  split
  · refine Tr.bind ?_
    refine Tr.getPosB ?_
    intro _ _
    refine Tr.bind ?_
    refine Tr.takeB hx (.ident _) (.ident (.word _)) ?_
    rd
  · rename_i k sp
    split
    · rename_i hk
      refine Tr.bind ?_
      refine Tr.getPosB ?_
      intro _ _
      refine Tr.bind ?_
      cases hs : k.repr? with
      | none =>
        refine Tr.dropB ?_
        rd
      | some s =>
        refine Tr.takeB hx (.ident s) (.ident (.reserved _ _ (memberWords_all _ hk _ hs))) ?_
        dsimp only
        rd
    · rd
  · rd

macro_rules | `(tactic| rd_call) => `(tactic| first
  | with_reducible exact parseClassName_read
  | with_reducible exact parseIdentifier_read)

theorem parseIdentifierAsExpr_read : Y [] parseIdentifierAsExpr Expr.marks := by
  intro toks pre p
  unfold parseIdentifierAsExpr
  rd
  refine Tr.conv ?_ Fits.ident_path
  rd

theorem builtin_word {s : Text} {c : Const} (h : builtinConst s = some c) : constSpelling c = some (s.map lowerAscii) := by
  unfold builtinConst at h
  dsimp only at h
  split at h
  · cases h; simp_all [constSpelling]
  · split at h
    · cases h; simp_all [constSpelling]
    · split at h
      · cases h; simp_all [constSpelling]
      · cases h

theorem Tr.resolveB {α : Type} {e : Expr} {m : P α} {Q : α → Nat → Prop}
    (h : Tr toks lo (X ++ (resolveConst e).marks) p m Q) : Tr toks lo (X ++ e.marks) p m Q := by
  obtain ⟨k, sp⟩ := e
  cases k with
  | path q =>
    unfold resolveConst at h
    dsimp only at h
    split at h
    · rename_i hn
      split at h
      · rename_i c hc
        refine Tr.conv (b := .const c) h ?_
        intro us hf
        cases hf with
        | path hs => exact .const hs (by simpa using hn) (builtin_word hc)
      · exact h
    · exact h
  | _ => exact h

macro_rules | `(tactic| rd_call) => `(tactic| first
  | with_reducible exact parseIdentifierAsExpr_read)

theorem parseConstant_read : Y [] parseConstant Expr.marks := by
  intro toks pre p
  unfold parseConstant
  refine Tr.bind ?_
  refine Tr.callB parseClassName_read ?_
  intro name q
  refine Tr.resolveB ?_
  dsimp only
  generalize resolveConst name = name
  rd

section
variable {r : Rec} (hr : RecY r)
include hr

theorem parseArrayPairList_read : Y [] (parseArrayPairList r) itemsMarks := by
  unfold parseArrayPairList
  refine Y.loop0 (I := itemsMarks) ?_ rfl
  intro args toks pre p
  rd

end

macro_rules | `(tactic| rd_call) => `(tactic| first
  | with_reducible exact parseArrayPairList_read (by assumption)
  | with_reducible exact parseConstant_read)

section
variable {r : Rec} (hr : RecY r)
include hr

theorem parseDereferencableScalar_read : Y [] (parseDereferencableScalar r) Expr.marks := by
  intro toks pre p
  unfold parseDereferencableScalar
  refine Tr.bind ?_
  refine Tr.eatB (.kw [.Array, .SquareBracketOpen]) (.kw (by simp)) ?_ ?_
  · intro t
    rd
  · dsimp only
    refine Tr.bind ?_
    refine Tr.eatB (.kw [.Array, .SquareBracketOpen]) (.kw (by simp)) ?_ ?_
    · intro t
      rd
    · rd

end

macro_rules | `(tactic| rd_call) => `(tactic| first
  | with_reducible exact parseDereferencableScalar_read (by assumption))

section
variable {r : Rec} (hr : RecY r)
include hr

theorem parseBaseVariable_read (b : Bool) : Y [] (parseBaseVariable r b) Expr.marks := by
  intro toks pre p
  unfold parseBaseVariable
  rd

end

theorem constScopedTail_read (b : Bool) (cls : Expr) :
    Y (cls.marks ++ [.kw [.ScopeOp]]) (constScopedTail b cls)
      (fun x => match x with | some (c, v, _) => c.marks ++ .kw [.ScopeOp] :: v.marks | none => []) := by
  intro toks pre p
  unfold constScopedTail
  rd

theorem parseConstScoped_read (b : Bool) :
    Y [] (parseConstScoped b) (fun x => x.1.marks ++ .kw [.ScopeOp] :: x.2.1.marks) := by
  intro toks pre p
  unfold parseConstScoped
  rd
  rw [List.append_assoc]
  refine Tr.call1B (constScopedTail_read b _) ?_
  intro a q
  cases a with
  | none => rd
  | some x => rd

theorem parseFnCallBaseItem_read (b : Bool) : Y [] (parseFnCallBaseItem b) Expr.marks := by
  intro toks pre p
  unfold parseFnCallBaseItem
  rd

macro_rules | `(tactic| rd_call) => `(tactic| first
  | with_reducible exact parseBaseVariable_read (by assumption) _
  | with_reducible exact parseConstScoped_read _
  | with_reducible exact parseFnCallBaseItem_read _)

theorem addArrayIdx_marks (e : Expr) (i : Option Expr) (stop : Nat) :
    (addArrayIdx e i stop).marks = e.marks ++ .kw [.SquareBracketOpen] :: optMarks i := by
  unfold addArrayIdx
  split
  · rd_norm
  · rd_norm

theorem addObjMember_marks (e m : Expr) (stop : Nat) :
    (addObjMember e m stop).marks = e.marks ++ .kw [.ObjectOp] :: m.marks := by
  unfold addObjMember
  split
  · rd_norm
  · rd_norm

theorem addStaticMember_marks (e m : Expr) (stop : Nat) :
    (addStaticMember e m stop).marks = e.marks ++ .kw [.ScopeOp] :: m.marks := by
  unfold addStaticMember
  split
  · rd_norm
  · rd_norm

/-- The marks of an extended expression, or of the expression itself. -/
def orMarks (e : Expr) : Option Expr → List Mark
  | some e' => e'.marks
  | none => e.marks

section
variable {r : Rec} (hr : RecY r)
include hr

theorem parseVariableBase_read (b : Bool) : Y [] (parseVariableBase r b) Expr.marks := by
  intro toks pre p
  unfold parseVariableBase
  rd

theorem appendixIndex_read (e : Expr) : Y e.marks (appendixIndex r e) (orMarks e) := by
  intro toks pre p
  unfold appendixIndex
  rd
  all_goals
    refine Tr.pure ?_
    intro h _
    refine ReadOff.sub h ?_
    simp only [orMarks, addArrayIdx_marks]
    rd_sub

theorem appendixMember_read (e : Expr) : Y e.marks (appendixMember r e) (orMarks e) := by
  intro toks pre p
  unfold appendixMember
  rd
  all_goals
    refine Tr.pure ?_
    intro h _
    refine ReadOff.sub h ?_
    simp only [orMarks, addObjMember_marks]
    rd_sub

theorem appendixCall_read (b : Bool) (e : Expr) : Y e.marks (appendixCall r b e) (orMarks e) := by
  intro toks pre p
  unfold appendixCall
  rd
  all_goals
    refine Tr.pure ?_
    intro h _
    refine ReadOff.sub h ?_
    simp only [orMarks]
    rd_sub

end

theorem appendixStatic_read (e : Expr) : Y e.marks (appendixStatic e) (orMarks e) := by
  intro toks pre p
  unfold appendixStatic
  rd
  all_goals
    refine Tr.pure ?_
    intro h _
    refine ReadOff.sub h ?_
    simp only [orMarks, addStaticMember_marks]
    rd_sub

section
variable {r : Rec} (hr : RecY r)
include hr

theorem appendixStep_read (b : Bool) (e : Expr) :
    Y e.marks (appendixStep r b e) (Sum.elim Expr.marks Expr.marks) := by
  intro toks pre p
  unfold appendixStep
  refine Tr.bind ?_
  refine Tr.call1B (appendixIndex_read hr e) ?_
  intro a q
  cases a with
  | some e' => dsimp only [orMarks]; rd
  | none =>
    dsimp only [orMarks]
    refine Tr.bind ?_
    refine Tr.call1B (appendixMember_read hr e) ?_
    intro a q
    cases a with
    | some e' => dsimp only [orMarks]; rd
    | none =>
      dsimp only [orMarks]
      refine Tr.bind ?_
      refine Tr.call1B (appendixStatic_read e) ?_
      intro a q
      cases a with
      | some e' => dsimp only [orMarks]; rd
      | none =>
        dsimp only [orMarks]
        refine Tr.bind ?_
        refine Tr.call1B (appendixCall_read hr b e) ?_
        intro a q
        cases a with
        | some e' => dsimp only [orMarks]; rd
        | none => dsimp only [orMarks]; rd

theorem parseVariable_some (b : Bool) (e : Expr) : Y e.marks (parseVariable r b (some e)) Expr.marks := by
  intro toks pre p
  unfold parseVariable
  refine Tr.bind ?_
  refine Tr.pureB ?_
  exact Tr.call1 (Y.loop (appendixStep_read hr b) e) fun _ _ h _ => h

theorem parseVariable_read (b : Bool) : Y [] (parseVariable r b none) Expr.marks := by
  intro toks pre p
  unfold parseVariable
  refine Tr.bind ?_
  refine Tr.callB (parseVariableBase_read hr b) ?_
  intro e q
  rw [List.append_nil]
  exact Tr.call1 (Y.loop (appendixStep_read hr b) e) fun _ _ h _ => h

end

macro_rules | `(tactic| rd_call) => `(tactic| first
  | with_reducible exact parseVariable_read (by assumption) _)

section
variable {r : Rec} (hr : RecY r)
include hr

theorem parseClassNameReference_read : Y [] (parseClassNameReference r) Expr.marks := by
  intro toks pre p
  unfold parseClassNameReference
  rd

end

macro_rules | `(tactic| rd_call) => `(tactic| first
  | with_reducible exact parseClassNameReference_read (by assumption))

end Pico
