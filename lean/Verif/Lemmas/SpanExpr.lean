import Verif.Lemmas.SpanBase
/-!
# Ranges of nodes are made of ranges of tokens: expressions
-/
set_option linter.unusedSimpArgs false
set_option linter.unusedVariables false
set_option maxHeartbeats 1000000
namespace Pico
open P

variable {r : Rec} {toks : List TokSpan} {B : Nat} {D : Prop}

theorem parseOptExpression_rg {prec : Prec} (hb : Bounded B D toks) (hr : BRec r toks B D) :
    Gv (parseOptExpression r prec) toks (fun x => SpAll B D (optSpans x)) := by
  intro pos Q h1
  unfold parseOptExpression
  rgo <;> rgp
set_option hygiene false in
macro_rules | `(tactic| rg_call) => `(tactic|
  with_reducible refine Gv.use (parseOptExpression_rg hb hr) ?_)

theorem parseSimpleVariable_rg (hb : Bounded B D toks) :
    Gv parseSimpleVariable toks (fun x => SpAll B D x.1.spans ∧ SpOk B D x.2) := by
  intro pos Q h1
  unfold parseSimpleVariable
  rgo <;> rgp
set_option hygiene false in
macro_rules | `(tactic| rg_call) => `(tactic|
  with_reducible refine Gv.use (parseSimpleVariable_rg hb) ?_)

theorem parseSimpleVariableExpr_rg (hb : Bounded B D toks) :
    Gv parseSimpleVariableExpr toks (BE B D) := by
  intro pos Q h1
  unfold parseSimpleVariableExpr
  rgo <;> rgp
set_option hygiene false in
macro_rules | `(tactic| rg_call) => `(tactic|
  with_reducible refine Gv.use (parseSimpleVariableExpr_rg hb) ?_)

theorem parseExpressionList_rg (hb : Bounded B D toks) (hr : BRec r toks B D) :
    Gv (parseExpressionList r) toks (fun x => SpAll B D (exprsSpans x)) := by
  intro pos Q h1
  unfold parseExpressionList
  refine Ret.loop (fun s => SpAll B D (exprsSpans s)) (by rgp) ?_
  intro s q hs
  rgo <;> rgp
set_option hygiene false in
macro_rules | `(tactic| rg_call) => `(tactic|
  with_reducible refine Gv.use (parseExpressionList_rg hb hr) ?_)

theorem parseArgumentList_rg (hb : Bounded B D toks) (hr : BRec r toks B D) :
    Gv (parseArgumentList r) toks (fun x => SpAll B D (exprsSpans x)) := by
  intro pos Q h1
  unfold parseArgumentList
  rgo
  · rgp
  · refine Ret.loop (fun s => SpAll B D (exprsSpans s)) (by rgp) ?_
    intro s q hs
    rgo <;> rgp
set_option hygiene false in
macro_rules | `(tactic| rg_call) => `(tactic|
  with_reducible refine Gv.use (parseArgumentList_rg hb hr) ?_)

theorem parsePropertyName_rg (hb : Bounded B D toks) (hr : BRec r toks B D) :
    Gv (parsePropertyName r) toks (BE B D) := by
  intro pos Q h1
  unfold parsePropertyName
  rgo <;> rgp
set_option hygiene false in
macro_rules | `(tactic| rg_call) => `(tactic|
  with_reducible refine Gv.use (parsePropertyName_rg hb hr) ?_)

theorem namespaceFragments_rg (hb : Bounded B D toks) :
    Gv namespaceFragments toks (fun l => ∀ f ∈ l, SpOk B D f.2) := by
  intro pos Q h1
  unfold namespaceFragments
  refine Ret.loop (fun l => ∀ f ∈ l, SpOk B D f.2) nofun ?_
  intro s q hs
  rgo
  all_goals
    rename_i f hf
    rcases List.mem_append.1 hf with hf | hf
    · exact hs f hf
    · rw [List.mem_singleton.1 hf]; assumption
set_option hygiene false in
macro_rules | `(tactic| rg_call) => `(tactic|
  with_reducible refine Gv.use (namespaceFragments_rg hb) ?_)

theorem parseNamespaceName_rg (hb : Bounded B D toks) :
    Gv parseNamespaceName toks (fun x => SpOk B D x.2) := by
  intro pos Q h1
  unfold parseNamespaceName
  rgo
  rename_i hl _ _ _ _ h2 h3
  exact ⟨(hl _ (List.mem_of_mem_head? h2)).1, (hl _ (List.mem_of_getLast? h3)).2.1, fun _ => rfl⟩
set_option hygiene false in
macro_rules | `(tactic| rg_call) => `(tactic|
  with_reducible refine Gv.use (parseNamespaceName_rg hb) ?_)

theorem parseName_rg (hb : Bounded B D toks) :
    Gv parseName toks (fun x => SpOk B D x.2) := by
  intro pos Q h1
  unfold parseName
  rgo <;> rgp
set_option hygiene false in
macro_rules | `(tactic| rg_call) => `(tactic|
  with_reducible refine Gv.use (parseName_rg hb) ?_)

theorem parseNameAsExpr_rg (hb : Bounded B D toks) :
    Gv parseNameAsExpr toks (BE B D) := by
  intro pos Q h1
  unfold parseNameAsExpr
  rgo <;> rgp
set_option hygiene false in
macro_rules | `(tactic| rg_call) => `(tactic|
  with_reducible refine Gv.use (parseNameAsExpr_rg hb) ?_)

theorem parseNameList_rg (hb : Bounded B D toks) :
    Gv parseNameList toks (fun _ => True) := by
  intro pos Q h1
  unfold parseNameList
  refine Ret.loop (fun s => True) trivial ?_
  intro s q hs
  rgo <;> rgp
set_option hygiene false in
macro_rules | `(tactic| rg_call) => `(tactic|
  with_reducible refine Gv.use (parseNameList_rg hb) ?_)

theorem parseClassName_rg (hb : Bounded B D toks) :
    Gv parseClassName toks (BE B D) := by
  intro pos Q h1
  unfold parseClassName
  rgo <;> rgp
set_option hygiene false in
macro_rules | `(tactic| rg_call) => `(tactic|
  with_reducible refine Gv.use (parseClassName_rg hb) ?_)

theorem parseIdentifier_rg (hb : Bounded B D toks) :
    Gv parseIdentifier toks (fun x => SpOk B D x.2) := by
  intro pos Q h1
  unfold parseIdentifier
  rgo
  · rgp
  · rename_i hk _ _ _ _ _
    clear h1
    simp_all [TkOk, SpOk]
    intro hd
    rename_i hx _ _ _
    refine hx.2.2 hd ?_
    rintro rfl
    simp_all [Kw.isReservedNonModifier]
set_option hygiene false in
macro_rules | `(tactic| rg_call) => `(tactic|
  with_reducible refine Gv.use (parseIdentifier_rg hb) ?_)

theorem parseIdentifierAsExpr_rg (hb : Bounded B D toks) :
    Gv parseIdentifierAsExpr toks (BE B D) := by
  intro pos Q h1
  unfold parseIdentifierAsExpr
  rgo <;> rgp
set_option hygiene false in
macro_rules | `(tactic| rg_call) => `(tactic|
  with_reducible refine Gv.use (parseIdentifierAsExpr_rg hb) ?_)

theorem resolveConst_rg {e : Expr} (h : BE B D e) : BE B D (resolveConst e) := by
  unfold resolveConst
  split
  · split
    · split
      · rgp
      · exact h
    · exact h
  · exact h

theorem parseConstant_rg (hb : Bounded B D toks) :
    Gv parseConstant toks (BE B D) := by
  intro pos Q h1
  unfold parseConstant
  rgo
  · rename_i ha _ _ _ _ _ _ hb
    have h2 := resolveConst_rg ha
    clear ha
    rgp
  · rename_i ha
    exact resolveConst_rg ha
set_option hygiene false in
macro_rules | `(tactic| rg_call) => `(tactic|
  with_reducible refine Gv.use (parseConstant_rg hb) ?_)

theorem parseArrayPairList_rg (hb : Bounded B D toks) (hr : BRec r toks B D) :
    Gv (parseArrayPairList r) toks (fun x => SpAll B D (itemsSpans x)) := by
  intro pos Q h1
  unfold parseArrayPairList
  refine Ret.loop (fun s => SpAll B D (itemsSpans s)) (by rgp) ?_
  intro s q hs
  rgo <;> rgp
set_option hygiene false in
macro_rules | `(tactic| rg_call) => `(tactic|
  with_reducible refine Gv.use (parseArrayPairList_rg hb hr) ?_)

theorem parseDereferencableScalar_rg (hb : Bounded B D toks) (hr : BRec r toks B D) :
    Gv (parseDereferencableScalar r) toks (BE B D) := by
  intro pos Q h1
  unfold parseDereferencableScalar
  rgo <;> rgp
set_option hygiene false in
macro_rules | `(tactic| rg_call) => `(tactic|
  with_reducible refine Gv.use (parseDereferencableScalar_rg hb hr) ?_)

theorem deepestUnpack_rg {α : Type} {store : Option PErr} :
    Gv (deepestUnpack (α := α) store) toks (fun _ => False) := deepestUnpack_sh
macro_rules | `(tactic| rg_call) => `(tactic|
  with_reducible refine Gv.use deepestUnpack_rg ?_)
macro_rules | `(tactic| rg_call) => `(tactic| with_reducible contradiction)

theorem parseBaseVariable_rg {b : Bool} (hb : Bounded B D toks) (hr : BRec r toks B D) :
    Gv (parseBaseVariable r b) toks (BE B D) := by
  intro pos Q h1
  unfold parseBaseVariable
  rgo <;> rgp
set_option hygiene false in
macro_rules | `(tactic| rg_call) => `(tactic|
  with_reducible refine Gv.use (parseBaseVariable_rg hb hr) ?_)

theorem constScopedTail_rg {b : Bool} {cls : Expr} (hb : Bounded B D toks) (hc : BE B D cls) :
    Gv (constScopedTail b cls) toks (OptP (fun x => BE B D x.1 ∧ BE B D x.2.1 ∧ SpOk B D x.2.2)) := by
  intro pos Q h1
  unfold constScopedTail
  rgo <;> rgp
set_option hygiene false in
macro_rules | `(tactic| rg_call) => `(tactic|
  with_reducible refine Gv.opt (constScopedTail_rg hb ?_) ?_ ?_)

theorem parseConstScoped_rg {b : Bool} (hb : Bounded B D toks) :
    Gv (parseConstScoped b) toks (fun x => BE B D x.1 ∧ BE B D x.2.1 ∧ SpOk B D x.2.2) := by
  intro pos Q h1
  unfold parseConstScoped
  rgo <;> rgp
set_option hygiene false in
macro_rules | `(tactic| rg_call) => `(tactic|
  with_reducible refine Gv.use (parseConstScoped_rg hb) ?_)

theorem parseFnCallBaseItem_rg {b : Bool} (hb : Bounded B D toks) :
    Gv (parseFnCallBaseItem b) toks (BE B D) := by
  intro pos Q h1
  unfold parseFnCallBaseItem
  rgo <;> rgp
set_option hygiene false in
macro_rules | `(tactic| rg_call) => `(tactic|
  with_reducible refine Gv.use (parseFnCallBaseItem_rg hb) ?_)

theorem parseVariableBase_rg {b : Bool} (hb : Bounded B D toks) (hr : BRec r toks B D) :
    Gv (parseVariableBase r b) toks (BE B D) := by
  intro pos Q h1
  unfold parseVariableBase
  rgo <;> rgp
set_option hygiene false in
macro_rules | `(tactic| rg_call) => `(tactic|
  with_reducible refine Gv.use (parseVariableBase_rg hb hr) ?_)

theorem addArrayIdx_rg {e : Expr} {idx : Option Expr} {stop : Nat} (h : BE B D e) (hi : SpAll B D (optSpans idx)) (hs : stop ≤ B) :
    BE B D (addArrayIdx e idx stop) := by
  obtain ⟨k, sp⟩ := e
  unfold addArrayIdx
  split <;> rgp

theorem addObjMember_rg {e p : Expr} {stop : Nat} (h : BE B D e) (hi : BE B D p) (hs : stop ≤ B) : BE B D (addObjMember e p stop) := by
  obtain ⟨k, sp⟩ := e
  unfold addObjMember
  split <;> rgp

theorem addStaticMember_rg {e p : Expr} {stop : Nat} (h : BE B D e) (hi : BE B D p) (hs : stop ≤ B) : BE B D (addStaticMember e p stop) := by
  obtain ⟨k, sp⟩ := e
  unfold addStaticMember
  split <;> rgp

theorem appendixIndex_rg {e : Expr} (hb : Bounded B D toks) (hr : BRec r toks B D) (he : BE B D e) :
    Gv (appendixIndex r e) toks (OptP (BE B D)) := by
  intro pos Q h1
  unfold appendixIndex
  rgo
  exact addArrayIdx_rg (by assumption) (by assumption) (by assumption)
set_option hygiene false in
macro_rules | `(tactic| rg_call) => `(tactic|
  with_reducible refine Gv.opt (appendixIndex_rg hb hr ?_) ?_ ?_)

theorem appendixMember_rg {e : Expr} (hb : Bounded B D toks) (hr : BRec r toks B D) (he : BE B D e) :
    Gv (appendixMember r e) toks (OptP (BE B D)) := by
  intro pos Q h1
  unfold appendixMember
  rgo
  exact addObjMember_rg (by assumption) (by assumption) (by assumption)
set_option hygiene false in
macro_rules | `(tactic| rg_call) => `(tactic|
  with_reducible refine Gv.opt (appendixMember_rg hb hr ?_) ?_ ?_)

theorem appendixStatic_rg {e : Expr} (hb : Bounded B D toks) (he : BE B D e) :
    Gv (appendixStatic e) toks (OptP (BE B D)) := by
  intro pos Q h1
  unfold appendixStatic
  rgo
  exact addStaticMember_rg (by assumption) (by assumption) (by assumption)
set_option hygiene false in
macro_rules | `(tactic| rg_call) => `(tactic|
  with_reducible refine Gv.opt (appendixStatic_rg hb ?_) ?_ ?_)

theorem appendixCall_rg {b : Bool} {e : Expr} (hb : Bounded B D toks) (hr : BRec r toks B D) (he : BE B D e) :
    Gv (appendixCall r b e) toks (OptP (BE B D)) := by
  intro pos Q h1
  unfold appendixCall
  rgo <;> rgp
set_option hygiene false in
macro_rules | `(tactic| rg_call) => `(tactic|
  with_reducible refine Gv.opt (appendixCall_rg hb hr ?_) ?_ ?_)

theorem appendixLoop_rg {b : Bool} {e : Expr} (hb : Bounded B D toks) (hr : BRec r toks B D) (he : BE B D e) :
    Gv (P.loop (appendixStep r b) e) toks (BE B D) := by
  intro pos Q h1
  refine Ret.loop (fun s => BE B D s) he ?_
  intro s q hs
  unfold appendixStep
  rgo <;> rgp
set_option hygiene false in
macro_rules | `(tactic| rg_call) => `(tactic|
  with_reducible refine Gv.use (appendixLoop_rg hb hr ?_) ?_)

theorem parseVariable_none_rg {b : Bool} (hb : Bounded B D toks) (hr : BRec r toks B D) :
    Gv (parseVariable r b none) toks (BE B D) := by
  intro pos Q h1
  unfold parseVariable
  rgo <;> rgp
set_option hygiene false in
macro_rules | `(tactic| rg_call) => `(tactic|
  with_reducible refine Gv.use (parseVariable_none_rg hb hr) ?_)

theorem parseVariable_some_rg {b : Bool} {e : Expr} (hb : Bounded B D toks) (hr : BRec r toks B D) (he : BE B D e) :
    Gv (parseVariable r b (some e)) toks (BE B D) := by
  intro pos Q h1
  unfold parseVariable
  rgo <;> rgp
set_option hygiene false in
macro_rules | `(tactic| rg_call) => `(tactic|
  with_reducible refine Gv.use (parseVariable_some_rg hb hr ?_) ?_)

theorem parseClassNameReference_rg (hb : Bounded B D toks) (hr : BRec r toks B D) :
    Gv (parseClassNameReference r) toks (BE B D) := by
  intro pos Q h1
  unfold parseClassNameReference
  rgo <;> rgp
set_option hygiene false in
macro_rules | `(tactic| rg_call) => `(tactic|
  with_reducible refine Gv.use (parseClassNameReference_rg hb hr) ?_)

/-- The state of the loop over the pieces of a string. -/
def EncSp (B : Nat) (D : Prop) (s : Encaps) : Prop :=
  SpAll B D (exprsSpans s.parts) ∧ (∀ x, s.startPos = some x → x ≤ B) ∧ s.endPos ≤ B

theorem EncSp.text {s : Encaps} {x : Text} {sp : Span} {e : Nat} (h : EncSp B D s) (hx : SpOk B D sp) (he : e ≤ B) :
    EncSp B D { str := s.str ++ x, parts := s.parts, startPos := some (s.startPos.getD sp.start), endPos := e } := by
  refine ⟨h.1, fun y hy => ?_, he⟩
  cases hy
  cases hs : s.startPos with
  | none => exact hx.1
  | some z => exact h.2.1 z hs

theorem EncSp.piece {s : Encaps} {e : Expr} {x : Nat} (h : EncSp B D s) (he : BE B D e) (hx : x ≤ B) :
    EncSp B D { str := s.str, parts := s.parts ++ [e], startPos := some x, endPos := x } := by
  refine ⟨?_, fun y hy => ?_, hx⟩
  · rw [exprsSpans_append]
    exact spAll_append.2 ⟨h.1, spAll_append.2 ⟨he.1, spAll_nil.2 trivial⟩⟩
  · cases hy; exact hx

theorem flush_rg {s : Encaps} (hb : Bounded B D toks) (h : EncSp B D s) :
    Gv s.flush toks (EncSp B D) := by
  intro pos Q h1
  unfold Encaps.flush
  rgo
  · exact h
  · rename_i st hs
    refine ⟨?_, h.2.1, h.2.2⟩
    have h3 := h.1
    have h4 := h.2.1 _ hs
    have h5 := h.2.2
    clear h1 h
    rgp
set_option hygiene false in
macro_rules | `(tactic| rg_call) => `(tactic|
  with_reducible refine Gv.use (flush_rg hb ?_) ?_)

theorem encapsDollar_rg {s : Encaps} {t : TokSpan} (hb : Bounded B D toks) (hr : BRec r toks B D) (h : EncSp B D s) (ht : SpOk B D t.span) :
    Gv (encapsDollar r s t) toks (EncSp B D) := by
  intro pos Q h1
  obtain ⟨ha, hb', hc⟩ := h
  unfold encapsDollar
  rgo
  all_goals first
    | (refine ⟨?_, hb', hc⟩
       clear hb' h1
       rgp
       done)
    | rgp
set_option hygiene false in
macro_rules | `(tactic| rg_call) => `(tactic|
  with_reducible refine Gv.use (encapsDollar_rg hb hr ?_ ?_) ?_)

theorem concatParts_rg {ps : List Expr} {e : Expr} (h : SpAll B D (exprsSpans ps)) (he : BE B D e) : BE B D (concatParts ps e) := by
  unfold concatParts
  have key : ∀ (l : List Expr) (a : Expr), SpAll B D (exprsSpans l) → BE B D a →
      BE B D (l.foldl (fun acc part =>
        .mk (.binary .Concat part acc) (mkSpan part.span.start acc.span.stop)) a) := by
    intro l
    induction l with
    | nil => intro a _ ha; exact ha
    | cons x l ih =>
      intro a hl ha
      obtain ⟨h3, h2⟩ := spAll_append.1 hl
      have h3 := BE.of h3
      refine ih _ h2 ?_
      clear ih hl h2
      rgp
  refine key _ _ ?_ he
  clear he key
  induction ps with
  | nil => exact h
  | cons x l ih =>
    rw [List.reverse_cons, exprsSpans_append]
    obtain ⟨h1, h2⟩ := spAll_append.1 h
    exact spAll_append.2 ⟨ih h2, spAll_append.2 ⟨h1, spAll_nil.2 trivial⟩⟩

theorem exprsSpans_split {ps : List Expr} {e : Expr} (h : SpAll B D (exprsSpans ps)) (hl : ps.getLast? = some e) :
    SpAll B D (exprsSpans ps.dropLast) ∧ BE B D e := by
  have h' : ps = ps.dropLast ++ [e] := by
    cases hps : ps with
    | nil => simp [hps] at hl
    | cons x l =>
      have := List.dropLast_concat_getLast (l := ps) (by simp [hps])
      rw [List.getLast?_eq_some_getLast (by simp [hps])] at hl
      rw [← hps]
      conv => lhs; rw [← this]
      rw [Option.some.inj hl]
  rw [h', exprsSpans_append] at h
  obtain ⟨h1, h2⟩ := spAll_append.1 h
  exact ⟨h1, BE.of (spAll_append.1 h2).1⟩

theorem encapsLoop_rg (hb : Bounded B D toks) (hr : BRec r toks B D) :
    Gv (P.loop (encapsStep r) ⟨[], [], none, 0⟩) toks (EncSp B D) := by
  intro pos Q h1
  refine Ret.loop (fun (s : Encaps) => EncSp B D s) ⟨spAll_nil.2 trivial, nofun, Nat.zero_le _⟩ ?_
  intro s q hs
  unfold encapsStep
  rgo
  all_goals first
    | assumption
    | exact hs.text (by assumption) hs.2.2
    | exact hs.text (by assumption) (by rgp)
    | exact EncSp.piece (by assumption) (by assumption) (by rgp)
    | rgp
set_option hygiene false in
macro_rules | `(tactic| rg_call) => `(tactic|
  with_reducible refine Gv.use (encapsLoop_rg hb hr) ?_)

theorem parseEncapsList_rg (hb : Bounded B D toks) (hr : BRec r toks B D) :
    Gv (parseEncapsList r) toks (BE B D) := by
  intro pos Q h1
  unfold parseEncapsList
  rgo
  · rename_i hs _ _ _ hl
    obtain ⟨h2, h3⟩ := exprsSpans_split hs.1 hl
    exact concatParts_rg h2 h3
  · rename_i hs _ _ _ hl
    refine concatParts_rg hs.1 ?_
    have h2 := hs.2.1 _ hl
    have h3 := hs.2.2
    clear hs
    rgp
set_option hygiene false in
macro_rules | `(tactic| rg_call) => `(tactic|
  with_reducible refine Gv.use (parseEncapsList_rg hb hr) ?_)

theorem parseScalar_rg (hb : Bounded B D toks) (hr : BRec r toks B D) :
    Gv (parseScalar r) toks (BE B D) := by
  intro pos Q h1
  unfold parseScalar
  rgo <;> rgp
set_option hygiene false in
macro_rules | `(tactic| rg_call) => `(tactic|
  with_reducible refine Gv.use (parseScalar_rg hb hr) ?_)

theorem parseTypeHint_rg (hb : Bounded B D toks) :
    Gv parseTypeHint toks (fun _ => True) := by
  intro pos Q h1
  unfold parseTypeHint
  rgo <;> rgp
set_option hygiene false in
macro_rules | `(tactic| rg_call) => `(tactic|
  with_reducible refine Gv.use (parseTypeHint_rg hb) ?_)

theorem parseDefault_rg (hb : Bounded B D toks) (hr : BRec r toks B D) :
    Gv (parseDefault r) toks (fun x => ∀ d, x = .ok d → SpAll B D (optSpans d)) := by
  intro pos Q h1
  unfold parseDefault
  rgo
  all_goals (rename_i h; cases h; rgp)
set_option hygiene false in
macro_rules | `(tactic| rg_call) => `(tactic|
  with_reducible refine Gv.use (parseDefault_rg hb hr) ?_)

theorem parseParameterList_rg (hb : Bounded B D toks) (hr : BRec r toks B D) :
    Gv (parseParameterList r) toks (fun x => SpAll B D (paramsSpans x.1)) := by
  intro pos Q h1
  unfold parseParameterList
  refine Ret.loop (fun s => SpAll B D (paramsSpans s)) (by rgp) ?_
  intro s q hs
  rgo <;> rgp
set_option hygiene false in
macro_rules | `(tactic| rg_call) => `(tactic|
  with_reducible refine Gv.use (parseParameterList_rg hb hr) ?_)

theorem parseInnerStatementList_rg (hb : Bounded B D toks) (hr : BRec r toks B D) :
    Gv (parseInnerStatementList r) toks (fun x => SpAll B D (stmtsSpans x.1)) := by
  intro pos Q h1
  unfold parseInnerStatementList
  rgo
  refine Ret.loop (fun s => SpAll B D (stmtsSpans s)) (by rgp) ?_
  intro s q hs
  rgo <;> rgp
set_option hygiene false in
macro_rules | `(tactic| rg_call) => `(tactic|
  with_reducible refine Gv.use (parseInnerStatementList_rg hb hr) ?_)

theorem expectOr_rg {k : Kw} {err : Option PErr} (hb : Bounded B D toks) :
    Gv (expectOr k err) toks (fun t => t.span.start ≤ B ∧ t.span.stop ≤ B) := by
  intro pos Q h1
  unfold expectOr
  rgo <;> rgp
set_option hygiene false in
macro_rules | `(tactic| rg_call) => `(tactic|
  with_reducible refine Gv.use (expectOr_rg hb) ?_)

theorem parseBraced_rg (hb : Bounded B D toks) (hr : BRec r toks B D) :
    Gv (parseBraced r) toks (fun x => SpAll B D (stmtsSpans x)) := by
  intro pos Q h1
  unfold parseBraced
  rgo <;> rgp
set_option hygiene false in
macro_rules | `(tactic| rg_call) => `(tactic|
  with_reducible refine Gv.use (parseBraced_rg hb hr) ?_)

theorem parseUseVars_rg (hb : Bounded B D toks) :
    Gv parseUseVars toks (fun _ => True) := by
  intro pos Q h1
  unfold parseUseVars
  rgo
  · refine Ret.loop (fun _ => True) trivial ?_
    intro s q hs
    rgo <;> trivial
  all_goals trivial
set_option hygiene false in
macro_rules | `(tactic| rg_call) => `(tactic|
  with_reducible refine Gv.use (parseUseVars_rg hb) ?_)

theorem parseFunctionTail_rg {cl aa rr : Bool} (hb : Bounded B D toks) (hr : BRec r toks B D) :
    Gv (parseFunctionTail r cl aa rr) toks (fun x => SpAll B D x.1.spans ∧ x.2 ≤ B) := by
  intro pos Q h1
  unfold parseFunctionTail
  rgo <;> rgp
set_option hygiene false in
macro_rules | `(tactic| rg_call) => `(tactic|
  with_reducible refine Gv.use (parseFunctionTail_rg hb hr) ?_)

theorem parseFunctionNamed_rg {sp : Span} {aa : Bool} (hb : Bounded B D toks) (hr : BRec r toks B D) (hs : SpOk B D sp) :
    Gv (parseFunctionNamed r sp aa) toks (fun x => SpAll B D x.2.1.spans ∧ SpOk B D x.2.2) := by
  intro pos Q h1
  unfold parseFunctionNamed
  rgo <;> rgp
set_option hygiene false in
macro_rules | `(tactic| rg_call) => `(tactic|
  with_reducible refine Gv.use (parseFunctionNamed_rg hb hr ?_) ?_)

theorem parseClosure_rg {sp : Span} (hb : Bounded B D toks) (hr : BRec r toks B D) (hs : SpOk B D sp) :
    Gv (parseClosure r sp) toks (BE B D) := by
  intro pos Q h1
  unfold parseClosure
  rgo <;> rgp
set_option hygiene false in
macro_rules | `(tactic| rg_call) => `(tactic|
  with_reducible refine Gv.use (parseClosure_rg hb hr ?_) ?_)

theorem parseNew_rg {t : TokSpan} (hb : Bounded B D toks) (hr : BRec r toks B D) (ht : SpOk B D t.span) :
    Gv (parseNew r t) toks (BE B D) := by
  intro pos Q h1
  unfold parseNew
  rgo <;> rgp
set_option hygiene false in
macro_rules | `(tactic| rg_call) => `(tactic|
  with_reducible refine Gv.use (parseNew_rg hb hr ?_) ?_)

theorem parseExit_rg {t : TokSpan} (hb : Bounded B D toks) (hr : BRec r toks B D) (ht : SpOk B D t.span) :
    Gv (parseExit r t) toks (BE B D) := by
  intro pos Q h1
  unfold parseExit
  rgo <;> rgp
set_option hygiene false in
macro_rules | `(tactic| rg_call) => `(tactic|
  with_reducible refine Gv.use (parseExit_rg hb hr ?_) ?_)

theorem parseYield_rg {t : TokSpan} (hb : Bounded B D toks) (hr : BRec r toks B D) (ht : SpOk B D t.span) :
    Gv (parseYield r t) toks (BE B D) := by
  intro pos Q h1
  unfold parseYield
  rgo <;> rgp
set_option hygiene false in
macro_rules | `(tactic| rg_call) => `(tactic|
  with_reducible refine Gv.use (parseYield_rg hb hr ?_) ?_)

theorem parseIsset_rg {sp : Span} (hb : Bounded B D toks) (hr : BRec r toks B D) (hs : SpOk B D sp) :
    Gv (parseIsset r sp) toks (BE B D) := by
  intro pos Q h1
  unfold parseIsset
  rgo <;> rgp
set_option hygiene false in
macro_rules | `(tactic| rg_call) => `(tactic|
  with_reducible refine Gv.use (parseIsset_rg hb hr ?_) ?_)

theorem parseEmpty_rg {sp : Span} (hb : Bounded B D toks) (hr : BRec r toks B D) (hs : SpOk B D sp) :
    Gv (parseEmpty r sp) toks (BE B D) := by
  intro pos Q h1
  unfold parseEmpty
  rgo <;> rgp
set_option hygiene false in
macro_rules | `(tactic| rg_call) => `(tactic|
  with_reducible refine Gv.use (parseEmpty_rg hb hr ?_) ?_)

theorem parseInternal_rg {k : Kw} {sp : Span} {m : P Expr} (hb : Bounded B D toks) (hr : BRec r toks B D) (hs : SpOk B D sp)
    (hm : parseInternal r k sp = some m) : Gv m toks (BE B D) := by
  intro pos Q h1
  unfold parseInternal at hm
  split at hm
  · cases hm; rgo
  split at hm
  · cases hm; rgo <;> rgp
  split at hm
  · cases hm; rgo <;> rgp
  split at hm
  · cases hm; rgo <;> rgp
  split at hm
  · cases hm; rgo <;> rgp
  · cases hm
set_option hygiene false in
macro_rules | `(tactic| rg_call) => `(tactic|
  with_reducible refine Gv.use (parseInternal_rg hb hr ?_ (by assumption)) ?_)

theorem parseListTarget_rg {t : TokSpan} (hb : Bounded B D toks) (hr : BRec r toks B D) (ht : SpOk B D t.span) :
    Gv (parseListTarget r t) toks (BE B D) := by
  intro pos Q h1
  unfold parseListTarget
  rgo <;> rgp
set_option hygiene false in
macro_rules | `(tactic| rg_call) => `(tactic|
  with_reducible refine Gv.use (parseListTarget_rg hb hr ?_) ?_)

theorem assignKind_rg {op : Op} {b : Bool} {l e : Expr} {sp : Span} (hl : BE B D l) (he : BE B D e) (hs : SpOk B D sp) :
    BE B D (.mk (assignKind op b l e) sp) := by
  unfold assignKind
  split <;> rgp

theorem parseAssign_rg {t : Expr} (hb : Bounded B D toks) (hr : BRec r toks B D) (ht : BE B D t) :
    Gv (parseAssign r t) toks (BE B D) := by
  intro pos Q h1
  unfold parseAssign
  rgo
  all_goals first
    | assumption
    | exact assignKind_rg (by assumption) (by assumption) ⟨by rgp, by assumption, fun _ => rfl⟩
set_option hygiene false in
macro_rules | `(tactic| rg_call) => `(tactic|
  with_reducible refine Gv.use (parseAssign_rg hb hr ?_) ?_)

theorem parseNonVariable_rg {err : PErr} (hb : Bounded B D toks) (hr : BRec r toks B D) :
    Gv (parseNonVariable r err) toks (BE B D) := by
  intro pos Q h1
  unfold parseNonVariable
  rgo <;> rgp
set_option hygiene false in
macro_rules | `(tactic| rg_call) => `(tactic|
  with_reducible refine Gv.use (parseNonVariable_rg hb hr) ?_)

theorem parseVariableOrScalar_rg (hb : Bounded B D toks) (hr : BRec r toks B D) :
    Gv (parseVariableOrScalar r) toks (BE B D) := by
  intro pos Q h1
  unfold parseVariableOrScalar
  rgo <;> rgp
set_option hygiene false in
macro_rules | `(tactic| rg_call) => `(tactic|
  with_reducible refine Gv.use (parseVariableOrScalar_rg hb hr) ?_)

theorem parseOtherExpression_rg (hb : Bounded B D toks) (hr : BRec r toks B D) :
    Gv (parseOtherExpression r) toks (BE B D) := by
  intro pos Q h1
  unfold parseOtherExpression
  rgo
  all_goals try (rgp; done)
  rename_i ht _ _ _ he _ _ _ _ _ _ _ hm
  cases he
  exact ⟨ht.1, ht.2.1, fun hd => ht.2.2 hd fun e => by cases e; cases hm⟩
set_option hygiene false in
macro_rules | `(tactic| rg_call) => `(tactic|
  with_reducible refine Gv.use (parseOtherExpression_rg hb hr) ?_)

theorem parsePostfixExpression_rg (hb : Bounded B D toks) (hr : BRec r toks B D) :
    Gv (parsePostfixExpression r) toks (BE B D) := by
  intro pos Q h1
  unfold parsePostfixExpression
  rgo <;> rgp
set_option hygiene false in
macro_rules | `(tactic| rg_call) => `(tactic|
  with_reducible refine Gv.use (parsePostfixExpression_rg hb hr) ?_)

theorem parseTernary_rg {e : Expr} {prec : Prec} (hb : Bounded B D toks) (hr : BRec r toks B D) (he : BE B D e) :
    Gv (parseTernary r e prec) toks (BE B D) := by
  intro pos Q h1
  unfold parseTernary
  rgo <;> rgp
set_option hygiene false in
macro_rules | `(tactic| rg_call) => `(tactic|
  with_reducible refine Gv.use (parseTernary_rg hb hr ?_) ?_)

theorem parseInstanceOf_rg {e : Expr} (hb : Bounded B D toks) (hr : BRec r toks B D) (he : BE B D e) :
    Gv (parseInstanceOf r e) toks (BE B D) := by
  intro pos Q h1
  unfold parseInstanceOf
  rgo <;> rgp
set_option hygiene false in
macro_rules | `(tactic| rg_call) => `(tactic|
  with_reducible refine Gv.use (parseInstanceOf_rg hb hr ?_) ?_)

theorem parseBinaryRest_rg {e : Expr} {k : Kw} {prec : Prec} (hb : Bounded B D toks) (hr : BRec r toks B D) (he : BE B D e) :
    Gv (parseBinaryRest r e k prec) toks (BE B D) := by
  intro pos Q h1
  unfold parseBinaryRest
  rgo <;> rgp
set_option hygiene false in
macro_rules | `(tactic| rg_call) => `(tactic|
  with_reducible refine Gv.use (parseBinaryRest_rg hb hr ?_) ?_)

theorem parseBinaryExpression_rg {e : Expr} {prec : Prec} (hb : Bounded B D toks) (hr : BRec r toks B D) (he : BE B D e) :
    Gv (parseBinaryExpression r e prec) toks (OptP (BE B D)) := by
  intro pos Q h1
  unfold parseBinaryExpression
  rgo <;> rgp
set_option hygiene false in
macro_rules | `(tactic| rg_call) => `(tactic|
  with_reducible refine Gv.opt (parseBinaryExpression_rg hb hr ?_) ?_ ?_)

theorem parseOperand_rg (hb : Bounded B D toks) (hr : BRec r toks B D) :
    Gv (parseOperand r) toks (BE B D) := by
  intro pos Q h1
  unfold parseOperand
  rgo <;> rgp
set_option hygiene false in
macro_rules | `(tactic| rg_call) => `(tactic|
  with_reducible refine Gv.use (parseOperand_rg hb hr) ?_)

theorem parseExpression_rg {prec : Prec} (hb : Bounded B D toks) (hr : BRec r toks B D) :
    Gv (parseExpression r prec) toks (BE B D) := by
  intro pos Q h1
  unfold parseExpression
  rgo
  rename_i he
  refine Ret.loop (fun s => BE B D s) he ?_
  intro s q hs
  rgo <;> rgp
set_option hygiene false in
macro_rules | `(tactic| rg_call) => `(tactic|
  with_reducible refine Gv.use (parseExpression_rg hb hr) ?_)

end Pico
