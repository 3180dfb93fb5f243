import Verif.Lemmas.SpotExpr
import Verif.Lemmas.ReadOper
/-!
# Strings, scalars, functions, operators with their ranges are readings of their tokens
-/
namespace Pico
open P

/-! ## Strings with interpolation -/

/-- The pieces of a string. -/
def partsSpots (es : List Expr) : List Spot := es.flatMap Expr.piece

theorem partsSpots_append (a b : List Expr) : partsSpots (a ++ b) = partsSpots a ++ partsSpots b := List.flatMap_append ..

theorem partsSpots_one (e : Expr) : partsSpots [e] = e.piece := by simp [partsSpots]

/-- The pieces of a string, with the pending text. -/
def closedSpots (s : Encaps) : List Spot :=
  partsSpots s.parts ++ (if s.str = [] then [] else [.edge (s.startPos.getD 0), .item (.str s.str), .stop s.endPos])

/-- The parts of a string are read, and the pending text stands just before the position. -/
def PendingAt (toks : List TokSpan) (pre : List Spot) (s : Encaps) (p : Nat) : Prop :=
  ∃ (q : Nat) (xs : List Text), Between toks q (xs.map Token.encaps) p ∧ s.str = xs.flatten ∧
    Located toks 0 (pre ++ partsSpots s.parts) (2 * q) ∧
    match s.startPos with
    | none => xs = [] ∧ s.endPos = 0
    | some st => Located toks 0 (pre ++ partsSpots s.parts ++ [.edge st]) (2 * q + 1) ∧
        (∃ k u, k < p ∧ toks[k]? = some u ∧ u.span.stop = s.endPos) ∧ (xs ≠ [] → EndsAt toks p s.endPos)

theorem PendingAt.closed {toks : List TokSpan} {pre : List Spot} {s : Encaps} {p : Nat} (h : PendingAt toks pre s p) :
    Located toks 0 (pre ++ closedSpots s) (2 * p) := by
  obtain ⟨q, xs, h1, h2, h3, h4⟩ := h
  have hq : q ≤ p := by have := h1.1; omega
  unfold closedSpots
  by_cases hs : s.str = []
  · rw [if_pos hs, List.append_nil]
    exact h3.mono (Nat.le_refl _) (by omega)
  · rw [if_neg hs]
    have hx : xs ≠ [] := by
      intro hc
      rw [hc] at h2
      exact hs (by simpa using h2)
    cases hst : s.startPos with
    | none => rw [hst] at h4; exact absurd h4.1 hx
    | some st =>
      rw [hst] at h4
      obtain ⟨h5, -, h6⟩ := h4
      have h7 := h5.add (Nat.le_refl _) (Between.read (m := .str s.str) h1 (by simpa using hx) (by rw [h2]; exact .str xs))
      have h8 := h7.add (Nat.le_refl _) (.stop (h6 hx))
      simpa [List.append_assoc] using h8

theorem Located.last_stop {toks : List TokSpan} {X : List Spot} {x p : Nat} (h : Located toks 0 (X ++ [.stop x]) (2 * p)) :
    ∃ k u, k < p ∧ toks[k]? = some u ∧ u.span.stop = x := by
  obtain ⟨c, -, d, e, h1, h2, h3⟩ := Located.app.1 h
  have h3 : e ≤ 2 * p := h3
  cases h2 with
  | @stop i _ h =>
    obtain ⟨j, t, rfl, ht, h4 | ⟨-, -, k, u, h5, h6, h7⟩⟩ := h
    · exact ⟨j, t, by omega, ht, h4⟩
    · exact ⟨k, u, by omega, h6, h7⟩

theorem PendingAt.fresh {toks : List TokSpan} {pre : List Spot} {s : Encaps} {p x : Nat}
    (h : Located toks 0 (pre ++ partsSpots s.parts ++ [.stop x]) (2 * p)) (hs : s.str = []) (h1 : s.startPos = some x)
    (h2 : s.endPos = x) : PendingAt toks pre s p := by
  refine ⟨p, [], Between.nil toks p, by simpa using hs, ?_, ?_⟩
  · exact h.cov (Cov.left _ _)
  · rw [h1, h2]
    refine ⟨?_, h.last_stop, fun h => absurd rfl h⟩
    exact (h.cov (Cov.app _ (.edgeStop (.refl _)))).mono (Nat.le_refl _) (by omega)

theorem PendingAt.none {toks : List TokSpan} {pre : List Spot} {p : Nat} (h : Located toks 0 pre (2 * p)) :
    PendingAt toks pre ⟨[], [], .none, 0⟩ p := by
  refine ⟨p, [], Between.nil toks p, rfl, ?_, rfl, rfl⟩
  simpa [partsSpots] using h

/-- More text. -/
theorem PendingAt.more {toks : List TokSpan} {pre : List Spot} {s : Encaps} {p : Nat} {x : Text} {sp : Span}
    (h : PendingAt toks pre s p) (hx : toks[p]? = some ⟨.encaps x, sp⟩) :
    PendingAt toks pre { s with
      startPos := some (s.startPos.getD sp.start)
      endPos := if s.endPos < sp.stop then sp.stop else s.endPos
      str := s.str ++ x } (p + 1) := by
  obtain ⟨q, xs, h1, h2, h3, h4⟩ := h
  refine ⟨q, xs ++ [x], ?_, ?_, h3, ?_⟩
  · obtain ⟨h5, h6⟩ := h1
    rw [List.length_map] at h5 h6
    subst h5
    refine ⟨by simp; omega, ?_⟩
    rw [List.length_map, List.length_append, List.take_add, List.map_append, h6, List.map_append]
    congr 1
    obtain ⟨hlt, he⟩ := List.getElem?_eq_some_iff.1 hx
    rw [List.drop_drop, List.drop_eq_getElem_cons hlt, he]
    rfl
  · show s.str ++ x = _
    rw [h2]; simp
  · dsimp only
    cases hst : s.startPos with
    | none =>
      rw [hst] at h4
      obtain ⟨rfl, h5⟩ := h4
      have hq : p = q := h1.1
      subst hq
      have he : (if s.endPos < sp.stop then sp.stop else s.endPos) = sp.stop := by rw [h5]; split <;> omega
      rw [he]
      refine ⟨?_, ⟨p, _, by omega, hx, rfl⟩, fun _ => ⟨p, _, rfl, hx, .inl rfl⟩⟩
      exact h3.add (by omega) (.edgeStart ⟨_, hx, .inl ⟨nofun, rfl⟩⟩)
    | some st =>
      rw [hst] at h4
      obtain ⟨h5, ⟨k, u, h6, h7, h8⟩, h9⟩ := h4
      refine ⟨h5, ?_, fun _ => ?_⟩
      · split
        · exact ⟨p, _, by omega, hx, rfl⟩
        · exact ⟨k, u, by omega, h7, h8⟩
      · split
        · exact ⟨p, _, rfl, hx, .inl rfl⟩
        · exact ⟨p, _, rfl, hx, .inr ⟨⟨_, rfl⟩, by dsimp only; omega, k, u, by omega, h7, h8⟩⟩

/-- What is known after a round. -/
def AfterSpot (toks : List TokSpan) (pre : List Spot) : Encaps ⊕ Encaps → Nat → Prop
  | .inl s, p => PendingAt toks pre s p
  | .inr s, p => Located toks 0 (pre ++ closedSpots s) (2 * p)

theorem Lz.flushB {toks : List TokSpan} {lo p : Nat} {X : List Spot} {β : Type} {s : Encaps} {k : Encaps → P β}
    {Q : β → Nat → Prop}
    (h : ∀ s' : Encaps, s'.str = [] → partsSpots s'.parts = closedSpots s →
      Lz toks lo X p (k s') Q) : Lz toks lo X p s.flush (fun a q => Wr toks lo q (k a) Q) := by
  unfold Encaps.flush
  split
  · rename_i hs
    have hs : s.str = [] := by simpa using hs
    exact Lz.retB (h s hs (by rw [closedSpots, if_pos hs, List.append_nil]))
  · rename_i hs
    have hs : s.str ≠ [] := by simpa using hs
    split
    · exact Lz.abort _
    · rename_i st hst
      refine Lz.retB (h _ rfl ?_)
      rw [closedSpots, if_neg hs, hst]
      dsimp only
      rw [partsSpots_append, partsSpots_one]
      simp only [Expr.piece, ExprK.pieceStart, ExprK.spots, mkSpan, List.cons_append, List.nil_append, Option.getD_some]

section
variable {r : Rec} (hr : RecZ r)
include hr

theorem encapsStep_spot (toks : List TokSpan) (pre : List Spot) (s : Encaps) (p : Nat) (hpl : Straight toks) (hJ : PendingAt toks pre s p) :
    Wr toks p p (encapsStep r s) (AfterSpot toks pre) := by
  have key : Lz toks p (pre ++ closedSpots s) p (encapsStep r s) (AfterSpot toks pre) := by
    unfold encapsStep
    refine Lz.bind ?_
    refine Lz.eatEncapsB ?_ ?_
    · intro x sp hx
      dsimp only
      refine Lz.pure ?_
      intro _ _
      exact hJ.more hx
    · dsimp only
      refine Lz.bind ?_
      refine Lz.eatB' ?_ ?_
      · intro t ht htk
        exact absurd htk (hpl t (List.mem_of_getElem? ht)).2
      · dsimp only
        refine Lz.bind ?_
        refine Lz.eatB (.kw [.CurlyBracesOpen]) (.kw (k := .CurlyBracesOpen) (by decide)) (by decide) ?_ ?_
        · intro t _
          dsimp only
          refine Lz.bind ?_
          refine Lz.flushB ?_
          intro s' hs' hsub
          pl
          refine Lz.pure ?_
          intro h _
          refine PendingAt.fresh (h.cov ?_) hs' rfl rfl
          dsimp only
          rw [partsSpots_append, partsSpots_one, hsub]
          pl_cov
        · dsimp only
          refine Lz.bind ?_
          refine Lz.attemptB (parseVariable_spot hr false) ?_ ?_
          · intro e q
            dsimp only
            refine Lz.bind ?_
            refine Lz.flushB ?_
            intro s' hs' hsub
            refine Lz.pure ?_
            intro h _
            refine PendingAt.fresh (h.cov ?_) hs' rfl rfl
            dsimp only
            rw [partsSpots_append, partsSpots_one, hsub]
            pl_cov
          · intro e q
            exact Lz.pure fun h _ => h
  exact key hpl hJ.closed (Nat.le_refl p)

theorem encapsLoop_spot (toks : List TokSpan) (pre : List Spot) (n : Nat) (hpl : Straight toks) : ∀ (s : Encaps) (p : Nat),
    PendingAt toks pre s p →
    Wr toks p p (P.loopN (encapsStep r) n s) (fun s q => Located toks 0 (pre ++ closedSpots s) (2 * q)) := by
  induction n with
  | zero => intro s p _; trivial
  | succ n ih =>
    intro s p h
    rw [P.loopN]
    refine Wr.bind ?_
    refine (encapsStep_spot hr toks pre s p hpl h).imp (Nat.le_refl p) ?_
    intro a q hq ha
    cases a with
    | inl s' => exact (ih s' q ha).imp hq fun _ _ _ h => h
    | inr s' => exact ⟨hq, ha⟩

end

theorem Cov.edgePiece {k : ExprK} {x : Nat} {a : List Spot} : Cov (.edge x :: k.pieceStart x :: a) (k.pieceStart x :: a) := by
  intro toks i j hl
  obtain ⟨c, d, h1, h2, h3⟩ := hl
  have hcd : c = d := h2.edge (by unfold ExprK.pieceStart; split <;> rfl)
  subst hcd
  exact ⟨c, c, h1, Cov1.piece_edge k x _ _ _ h2, c, c, Nat.le_refl c, h2, h3⟩

theorem concatParts_cov (parts : List Expr) (e : Expr) : Cov (concatParts parts e).piece (partsSpots parts ++ e.piece) := by
  unfold concatParts
  rw [List.foldl_reverse]
  induction parts with
  | nil => exact .refl _
  | cons x ps ih =>
    rw [List.foldr_cons]
    generalize List.foldr (fun part acc => Expr.mk (ExprK.binary Op.Concat part acc) (mkSpan part.span.start acc.span.stop)) e ps = acc at ih
    have h1 : partsSpots (x :: ps) ++ e.piece = x.piece ++ (partsSpots ps ++ e.piece) := by
      simp [partsSpots]
    rw [h1]
    refine Cov.trans ?_ (Cov.app x.piece ih)
    simp only [Expr.piece, ExprK.spots, reduceIte, mkSpan]
    rw [show (ExprK.binary Op.Concat x acc).pieceStart x.span.start = .edge x.span.start from rfl, expr_piece x, expr_piece acc]
    simp only [List.append_assoc, List.cons_append, List.nil_append]
    refine Cov.trans Cov.edgePiece ?_
    pl_cov

section
variable {r : Rec} (hr : RecZ r)
include hr

theorem parseEncapsList_spot : Yz [] (parseEncapsList r) Expr.piece := by
  intro toks pre p
  unfold parseEncapsList
  refine Lz.bind ?_
  intro hpl h1 h2
  refine (encapsLoop_spot hr toks pre (toks.length + 2) hpl ⟨[], [], none, 0⟩ p ?_).imp h2 ?_
  · exact PendingAt.none (by simpa using h1)
  intro s q hq hs
  have key : Lz toks p (pre ++ closedSpots s) q (if s.str.isEmpty then
      match s.parts.getLast? with
      | some last => return concatParts s.parts.dropLast last
      | none => do
        match ← eatEncaps with
        | some _ => abort .unreachable
        | none => errHere [.encaps []]
    else
      match s.startPos with
      | none => abort .unwrap
      | some st => return concatParts s.parts (.mk (.str s.str) (mkSpan st s.endPos)))
      (fun a q => Located toks 0 (pre ++ a.piece) (2 * q)) := by
    split
    · split
      · rename_i last hl
        refine Lz.pure ?_
        intro h _
        refine h.cov ?_
        refine Cov.app _ ((concatParts_cov _ _).trans ?_)
        obtain ⟨ys, hy⟩ := List.getLast?_eq_some_iff.1 hl
        unfold closedSpots
        rw [hy, List.dropLast_concat, partsSpots_append, partsSpots_one]
        exact Cov.left _ _
      · pl
    · rename_i hne
      have hne : s.str ≠ [] := by simpa using hne
      split
      · pl
      · rename_i st hst
        refine Lz.pure ?_
        intro h _
        refine h.cov ?_
        refine Cov.app _ ((concatParts_cov _ _).trans ?_)
        unfold closedSpots
        rw [if_neg hne, hst]
        exact .refl _
  exact key hpl hs hq

end

macro_rules | `(tactic| pl_call) => `(tactic| first
  | with_reducible exact parseEncapsList_spot (by assumption))

theorem Fits.noText : Fits (.str []) [] := Fits.str []

theorem Lz.noText {toks : List TokSpan} {lo p : Nat} {X : List Spot} {α : Type} {m : P α} {Q : α → Nat → Prop}
    (h : Lz toks lo (X ++ [.item (.str [])]) p m Q) : Lz toks lo X p m Q :=
  fun h0 h1 h2 => h h0 (h1.add (Nat.le_refl _) (.none Fits.noText)) h2

section
variable {r : Rec} (hr : RecZ r)
include hr

theorem parseScalar_spot : Yz [] (parseScalar r) Expr.spots := by
  intro toks pre p
  unfold parseScalar
  refine Lz.bind ?_
  refine Lz.peekB ?_
  intro x hx
  refine Lz.bind ?_
  refine Lz.getPosB ?_
  intro h0 hlo
  refine Lz.bind ?_
  cases x with
  | none => refine Lz.dropB ?_; pl
  | some t =>
    obtain ⟨tok, sp⟩ := t
    have other : Lz toks p (pre ++ []) (p + 1) (do
        P.setPos p
        match ← attempt (parseDereferencableScalar r) with
        | .ok e => return e
        | .error _ => parseConstant) (fun a q => Located toks 0 (pre ++ a.spots) (2 * q)) := by
      pl
    cases tok with
    | int v => refine Lz.takeB hx (.int v) nofun (.int v) ?_; pl
    | double l => refine Lz.takeB hx (.double l) nofun (.double l) ?_; pl
    | k k =>
      cases k with
      | MagicLine => refine Lz.takeB hx (.const .MagicLine) nofun (.magic rfl) ?_; pl
      | MagicFile => refine Lz.takeB hx (.const .MagicFile) nofun (.magic rfl) ?_; pl
      | MagicDir => refine Lz.takeB hx (.const .MagicDir) nofun (.magic rfl) ?_; pl
      | MagicTrait => refine Lz.takeB hx (.const .MagicTrait) nofun (.magic rfl) ?_; pl
      | MagicMethod => refine Lz.takeB hx (.const .MagicMethod) nofun (.magic rfl) ?_; pl
      | MagicFunction => refine Lz.takeB hx (.const .MagicFunction) nofun (.magic rfl) ?_; pl
      | MagicClass => refine Lz.takeB hx (.const .MagicClass) nofun (.magic rfl) ?_; pl
      | DoubleQuote =>
        refine Lz.takeB hx (.kw [.DoubleQuote]) nofun (.kw (by simp)) ?_
        dsimp only
        refine Lz.noText ?_
        pl
      | HereDocStart =>
        refine Lz.takeB hx (.kw [.HereDocStart]) nofun (.kw (by simp)) ?_
        dsimp only
        pl
      | _ => exact Lz.dropB other
    | _ => exact Lz.dropB other

end

macro_rules | `(tactic| pl_call) => `(tactic| first
  | with_reducible exact parseScalar_spot (by assumption))

/-! ## Functions -/

theorem parseTypeHint_spot : Yz [] parseTypeHint (okSpots fun x => its (hintMarks x)) := by
  intro toks pre p
  unfold parseTypeHint
  pl
  all_goals
    refine Lz.pure ?_
    intro h _
    refine h.cov ?_
    simp only [okSpots]
    pl_cov

section
variable {r : Rec} (hr : RecZ r)
include hr

theorem parseDefault_spot : Yz [] (parseDefault r) (okSpots defaultSpots) := by
  intro toks pre p
  unfold parseDefault
  pl

theorem parseParameterList_spot : Yz [] (parseParameterList r) (fun x => paramsSpots x.1) := by
  unfold parseParameterList
  refine Yz.loop0 (I := paramsSpots) ?_ rfl
  intro params toks pre p
  refine Lz.bind ?_
  refine Lz.callB parseTypeHint_spot ?_
  intro a q
  cases a with
  | error e => dsimp only; pl
  | ok ty =>
    dsimp only
    pl
    all_goals
      refine Lz.callB (parseDefault_spot hr) ?_
      intro a q
      cases a with
      | error e => dsimp only; pl
      | ok d => dsimp only; pl

theorem parseInnerStatementList_spot : Yz [] (parseInnerStatementList r) (fun x => stmtsSpots x.1) := by
  have hl : ∀ last, Yz [] (loop (fun (stmts : List Stmt) => do
      let p ← getPos
      if p ≤ last then
        match ← attempt r.stmt with
        | .ok s => return .inl (stmts ++ [s])
        | .error e => return .inr (stmts, some e)
      else return .inr (stmts, none)) []) (fun x => stmtsSpots x.1) := by
    intro last
    refine Yz.loop0 (I := stmtsSpots) ?_ rfl
    intro ss toks pre p
    pl
  intro toks pre p
  unfold parseInnerStatementList
  refine Lz.bind ?_
  refine Lz.tokCountB ?_
  intro n
  refine Lz.bind ?_
  refine Lz.subPB ?_
  intro last _
  refine Lz.call (hl last) ?_
  intro a q h _
  refine h.cov ?_
  pl_cov

end

theorem Lz.expectOrB {toks : List TokSpan} {lo p : Nat} {X : List Spot} {β : Type} {kw : Kw} {e : Option PErr} {k : TokSpan → P β}
    {Q : β → Nat → Prop} (hk : kw ≠ .NsSeparator)
    (h : ∀ t, Lz toks lo (X ++ [.start t.span.start, .item (.kw [kw]), .stop t.span.stop]) (p + 1) (k t) Q) :
    Lz toks lo X p (expectOr kw e) (fun a q => Wr toks lo q (k a) Q) := by
  unfold expectOr
  refine Lz.bind ?_
  refine Lz.eatB (.kw [kw]) (Fits.kw (k := kw) List.mem_cons_self) hk ?_ ?_
  · intro t _
    exact Lz.pureB (h t)
  · cases e
    · exact Lz.errHere _
    · exact Lz.fail _

macro_rules | `(tactic| pl1) => `(tactic| (with_reducible refine Lz.expectOrB (by decide) ?_; intro _))

macro_rules | `(tactic| pl_call) => `(tactic| first
  | with_reducible exact parseInnerStatementList_spot (by assumption)
  | with_reducible exact parseParameterList_spot (by assumption))

section
variable {r : Rec} (hr : RecZ r)
include hr

theorem parseBraced_spot : Yz [] (parseBraced r) stmtsSpots := by
  intro toks pre p
  unfold parseBraced
  pl

end

theorem parseUseVars_spot : Yz [] parseUseVars (fun x => its (captureMarks x)) := by
  have hl : Yz [] (loop (fun (vars : List (Bool × Text)) => do
      let isRef ← eats .Ampersand
      let (v, _) ← expectVariable
      if ← eats .Comma then return .inl (vars ++ [(isRef, v)])
      else return .inr (vars ++ [(isRef, v)])) []) (fun x => its (captureMarks x)) := by
    refine Yz.loop0 (I := fun x => its (captureMarks x)) ?_ rfl
    intro vs toks pre p
    pl
  intro toks pre p
  unfold parseUseVars
  pl
  refine Lz.callB hl ?_
  intro _ _
  pl

macro_rules | `(tactic| pl_call) => `(tactic| first
  | with_reducible exact parseBraced_spot (by assumption)
  | with_reducible exact parseUseVars_spot)

section
variable {r : Rec} (hr : RecZ r)
include hr

theorem parseFunctionTail_spot (closure abs ref : Bool) (Z : List Spot) :
    Yz (its (flagMarks .Ampersand ref) ++ Z) (parseFunctionTail r closure abs ref)
      (fun x => x.1.refSpots ++ Z ++ (x.1.spots ++ [.stop x.2])) := by
  intro toks pre p
  unfold parseFunctionTail
  pl

theorem parseFunctionNamed_spot (start : Span) (abs : Bool) :
    Yz [.start start.start, .item (.kw [.Function])] (parseFunctionNamed r start abs)
      (fun x => .start x.2.2.start :: .item (.kw [.Function]) ::
        (x.2.1.refSpots ++ .item (.word x.1) :: (x.2.1.spots ++ [.stop x.2.2.stop]))) := by
  intro toks pre p
  unfold parseFunctionNamed
  refine Lz.bind ?_
  refine Lz.eatsB (by decide) ?_ ?_
  · intro t _
    refine Lz.bind ?_
    refine Lz.expectStringB ?_
    intro s sp
    dsimp only
    refine Lz.bind ?_
    refine Lz.weaken (X' := pre ++ [.start start.start, .item (.kw [.Function])] ++ (its (flagMarks .Ampersand true) ++ [.item (.word s)])) ?_ (by pl_cov)
    refine Lz.call1B (parseFunctionTail_spot hr false abs true [.item (.word s)]) ?_
    intro a q
    pl
  · refine Lz.bind ?_
    refine Lz.expectStringB ?_
    intro s sp
    dsimp only
    refine Lz.bind ?_
    refine Lz.weaken (X' := pre ++ [.start start.start, .item (.kw [.Function])] ++ (its (flagMarks .Ampersand false) ++ [.item (.word s)])) ?_ (by pl_cov)
    refine Lz.call1B (parseFunctionTail_spot hr false abs false [.item (.word s)]) ?_
    intro a q
    pl

theorem parseClosure_spot (start : Span) : Yz (tokSpots start (.kw [.Function])) (parseClosure r start) Expr.spots := by
  intro toks pre p
  unfold parseClosure
  refine Lz.bind ?_
  refine Lz.eatsB (by decide) ?_ ?_
  · intro t _
    refine Lz.bind ?_
    refine Lz.weaken (X' := pre ++ [.start start.start, .item (.kw [.Function])] ++ (its (flagMarks .Ampersand true) ++ [])) ?_ (by simp only [tokSpots]; pl_cov)
    refine Lz.call1B (parseFunctionTail_spot hr true false true []) ?_
    intro a q
    pl
  · refine Lz.bind ?_
    refine Lz.weaken (X' := pre ++ [.start start.start, .item (.kw [.Function])] ++ (its (flagMarks .Ampersand false) ++ [])) ?_ (by simp only [tokSpots]; pl_cov)
    refine Lz.call1B (parseFunctionTail_spot hr true false false []) ?_
    intro a q
    pl

end

/-! ## Operators -/

section
variable {r : Rec} (hr : RecZ r)
include hr

theorem parseNew_spot (t : TokSpan) : Yz (tokSpots t.span (.kw [.New])) (parseNew r t) Expr.spots := by
  intro toks pre p
  unfold parseNew
  simp only [tokSpots]
  pl

theorem parseExit_spot (t : TokSpan) : Yz (tokSpots t.span (.kw [.Exit])) (parseExit r t) Expr.spots := by
  intro toks pre p
  unfold parseExit
  simp only [tokSpots]
  pl

theorem parseYield_spot (t : TokSpan) : Yz (tokSpots t.span (.kw [.Yield])) (parseYield r t) Expr.spots := by
  intro toks pre p
  unfold parseYield
  simp only [tokSpots]
  pl

theorem parseIsset_spot (sp : Span) : Yz (tokSpots sp (.kw [.Isset])) (parseIsset r sp) Expr.spots := by
  intro toks pre p
  unfold parseIsset
  simp only [tokSpots]
  pl

theorem parseEmpty_spot (sp : Span) : Yz (tokSpots sp (.kw [.Empty])) (parseEmpty r sp) Expr.spots := by
  intro toks pre p
  unfold parseEmpty
  simp only [tokSpots]
  pl

theorem parseInternal_spot {k : Kw} {sp : Span} {m : P Expr} (h : parseInternal r k sp = some m) :
    ∃ a, Fits a [.k k] ∧ k ≠ .NsSeparator ∧ Yz (tokSpots sp a) m Expr.spots := by
  unfold parseInternal at h
  split at h
  · cases h
    exact ⟨.kw [k], .kw (by simp), by rintro rfl; contradiction, fun _ _ _ => Lz.abort _⟩
  split at h
  · rename_i hk
    cases h
    exact ⟨.kw [.Isset], by rw [hk]; exact .kw (by simp), by rw [hk]; decide, parseIsset_spot hr sp⟩
  split at h
  · rename_i hk
    cases h
    exact ⟨.kw [.Empty], by rw [hk]; exact .kw (by simp), by rw [hk]; decide, parseEmpty_spot hr sp⟩
  split at h
  · rename_i ty hty
    cases h
    refine ⟨castMark ty, cast_fits hty, (by rintro rfl; cases hty), ?_⟩
    intro toks pre p
    simp only [tokSpots]
    pl
  · split at h
    · rename_i ty hty
      cases h
      refine ⟨includeMark ty, include_fits hty, (by rintro rfl; cases hty), ?_⟩
      intro toks pre p
      simp only [tokSpots]
      pl
    · cases h

theorem parseListTarget_spot (t : TokSpan) : Yz (tokSpots t.span (.kw [.List])) (parseListTarget r t) Expr.spots := by
  intro toks pre p
  unfold parseListTarget
  simp only [tokSpots]
  pl

theorem parseAssign_spot (target : Expr) : Yz target.spots (parseAssign r target) Expr.spots := by
  intro toks pre p
  unfold parseAssign
  refine Lz.bind ?_
  refine Lz.peekTokB ?_
  intro x hx
  dsimp only
  split
  · pl
  · rename_i op hop
    cases htok : toks[p]? with
    | none => rw [htok] at hx; subst hx; cases hop
    | some t =>
      obtain ⟨tok, sp⟩ := t
      rw [htok] at hx
      subst hx
      have hop' : (tok.kw?.bind Kw.assignOp) = some op := hop
      cases tok with
      | k k =>
        have hk : k.assignOp = some op := hop'
        refine Lz.bind ?_
        refine Lz.getPosB ?_
        intro _ _
        refine Lz.bind ?_
        refine Lz.takeB htok _ (by intro hc; cases hc; cases hk) (assign_fits hk) ?_
        refine Lz.bind ?_
        by_cases he : op = .Eq
        · subst he
          simp only [reduceIte]
          pl
          all_goals
            refine Lz.pure ?_
            intro h _
            refine h.cov ?_
            simp only [assignKind]
            pl_cov
        · rw [if_neg he, if_neg he]
          pl
          refine Lz.pure ?_
          intro h _
          refine h.cov ?_
          have : assignKind op false target = .compoundAssign target op := by
            funext e
            cases op <;> first | rfl | exact absurd rfl he
          rw [this]
          pl_cov
      | _ => cases hop'

end

macro_rules | `(tactic| pl_call) => `(tactic| first
  | with_reducible exact parseScalar_spot (by assumption))

section
variable {r : Rec} (hr : RecZ r)
include hr

theorem parseNonVariable_spot (e : PErr) : Yz [] (parseNonVariable r e) Expr.spots := by
  intro toks pre p
  unfold parseNonVariable
  pl

theorem parseVariableOrScalar_spot : Yz [] (parseVariableOrScalar r) Expr.spots := by
  intro toks pre p
  unfold parseVariableOrScalar
  refine Lz.bind ?_
  refine Lz.attemptB (parseVariable_spot hr false) ?_ ?_
  · intro e q
    rw [List.append_nil]
    exact Lz.call1 (parseAssign_spot hr e) fun _ _ h _ => h
  · intro e q
    dsimp only
    refine Lz.bind ?_
    refine Lz.eatB (.kw [.List]) (.kw (k := .List) (by simp)) (by decide) ?_ ?_
    · intro t _
      dsimp only
      refine Lz.bind ?_
      refine Lz.call1B (parseListTarget_spot hr t) ?_
      intro x q
      rw [List.append_nil]
      exact Lz.call1 (parseAssign_spot hr x) fun _ _ h _ => h
    · rw [List.append_nil]
      exact Lz.call (parseNonVariable_spot hr e) fun _ _ h _ => h

theorem parseOtherExpression_spot : Yz [] (parseOtherExpression r) Expr.spots := by
  intro toks pre p hpl; revert hpl; refine fun hpl => (?_ : Lz toks p (pre ++ []) p (parseOtherExpression r) _) hpl
  have other : Lz toks p (pre ++ []) p (parseVariableOrScalar r) (fun a q => Located toks 0 (pre ++ a.spots) (2 * q)) := by
    rw [List.append_nil]
    exact Lz.call (parseVariableOrScalar_spot hr) fun _ _ h _ => h
  unfold parseOtherExpression
  refine Lz.bind ?_
  refine Lz.peekB ?_
  intro x hx
  split
  · rename_i k sp
    refine Lz.bind ?_
    refine Lz.getPosB ?_
    intro _ _
    rw [List.append_nil] at other ⊢
    split
    · rename_i hk
      subst hk
      refine Lz.bind ?_
      refine Lz.takeB hx (.kw [.New]) nofun (.kw (by simp)) ?_
      exact Lz.call1 (parseNew_spot hr _) fun _ _ h _ => h
    split
    · rename_i hk
      subst hk
      refine Lz.bind ?_
      exact absurd rfl (hpl _ (List.mem_of_getElem? hx)).1
    split
    · rename_i hk
      subst hk
      refine Lz.bind ?_
      refine Lz.takeB hx (.kw [.Exit]) nofun (.kw (by simp)) ?_
      exact Lz.call1 (parseExit_spot hr _) fun _ _ h _ => h
    split
    · rename_i hk
      subst hk
      refine Lz.bind ?_
      refine Lz.takeB hx (.kw [.Yield]) nofun (.kw (by simp)) ?_
      exact Lz.call1 (parseYield_spot hr _) fun _ _ h _ => h
    split
    · rename_i hk
      subst hk
      refine Lz.bind ?_
      refine Lz.takeB hx (.kw [.Function]) nofun (.kw (by simp)) ?_
      exact Lz.call1 (parseClosure_spot hr _) fun _ _ h _ => h
    split
    · rename_i m hm
      obtain ⟨a, ha, hn, hy⟩ := parseInternal_spot hr hm
      refine Lz.bind ?_
      refine Lz.takeB hx a (by intro hc; cases hc; exact hn rfl) ha ?_
      exact Lz.call1 hy fun _ _ h _ => h
    · exact other
  · exact other

end

macro_rules | `(tactic| pl_call) => `(tactic| first
  | with_reducible exact parseOtherExpression_spot (by assumption))

section
variable {r : Rec} (hr : RecZ r)
include hr

theorem parsePostfixExpression_spot : Yz [] (parsePostfixExpression r) Expr.spots := by
  intro toks pre p
  unfold parsePostfixExpression
  pl

theorem parseTernary_spot (left : Expr) (prec : Prec) :
    Yz (left.spots ++ [.item (.kw [.QuestionMark])]) (parseTernary r left prec) Expr.spots := by
  intro toks pre p
  unfold parseTernary
  pl

theorem parseInstanceOf_spot (left : Expr) :
    Yz (left.spots ++ [.item (.kw [.InstanceOf])]) (parseInstanceOf r left) Expr.spots := by
  intro toks pre p
  unfold parseInstanceOf
  pl

theorem parseBinaryRest_spot (left : Expr) (k : Kw) (prec : Prec) (op : Op) (h : k.binaryOp = some op) :
    Yz (left.spots ++ its (opMarks op)) (parseBinaryRest r left k prec) Expr.spots := by
  intro toks pre p
  unfold parseBinaryRest
  rw [h]
  dsimp only
  pl
  refine Lz.pure ?_
  intro h _
  refine h.cov ?_
  by_cases ho : op = .Concat
  · subst ho
    simp only [opMarks]
    pl_cov
  · simp only [Expr.spots, ExprK.spots, if_neg ho]
    pl_cov

theorem parseBinaryExpression_spot (left : Expr) (prec : Prec) :
    Yz left.spots (parseBinaryExpression r left prec) (orSpots left) := by
  intro toks pre p
  unfold parseBinaryExpression
  refine Lz.bind ?_
  refine Lz.peekTokB ?_
  intro x hx
  dsimp only
  split
  · exact Lz.pure fun h _ => h
  · rename_i k hk
    cases htok : toks[p]? with
    | none => rw [htok] at hx; subst hx; cases hk
    | some t =>
      obtain ⟨tok, sp⟩ := t
      rw [htok] at hx
      subst hx
      have hk' : tok.kw? = some k := hk
      cases tok with
      | k k' =>
        cases hk'
        split
        · exact Lz.pure fun h _ => h
        split
        · exact Lz.pure fun h _ => h
        refine Lz.bind ?_
        refine Lz.getPosB ?_
        intro _ _
        refine Lz.bind ?_
        split
        · rename_i hq
          subst hq
          refine Lz.takeB htok (.kw [.QuestionMark]) nofun (.kw (by simp)) ?_
          refine Lz.bind ?_
          refine Lz.weaken (X' := pre ++ (left.spots ++ [.item (.kw [.QuestionMark])])) ?_ (by pl_cov)
          refine Lz.call1B (parseTernary_spot hr left _) ?_
          intro e q
          exact Lz.pure fun h _ => h
        split
        · rename_i hq
          subst hq
          refine Lz.takeB htok (.kw [.InstanceOf]) nofun (.kw (by simp)) ?_
          refine Lz.bind ?_
          refine Lz.weaken (X' := pre ++ (left.spots ++ [.item (.kw [.InstanceOf])])) ?_ (by pl_cov)
          refine Lz.call1B (parseInstanceOf_spot hr left) ?_
          intro e q
          exact Lz.pure fun h _ => h
        · cases hop : k.binaryOp with
          | none =>
            refine Lz.dropB ?_
            refine Lz.bind ?_
            unfold parseBinaryRest
            rw [hop]
            exact Lz.abort _
          | some op =>
            rcases binary_fits hop with h0 | ⟨m, h1, h2⟩
            · refine Lz.dropB ?_
              refine Lz.bind ?_
              have hy := fun pr => parseBinaryRest_spot hr left k pr op hop
              simp only [h0, its_nil, List.append_nil] at hy
              refine Lz.call1B (hy _) ?_
              intro e q
              exact Lz.pure fun h _ => h
            · refine Lz.takeB htok m (by intro hc; cases hc; cases hop) h2 ?_
              refine Lz.bind ?_
              have hy := fun pr => parseBinaryRest_spot hr left k pr op hop
              simp only [h1, its_nil, its_cons] at hy
              refine Lz.weaken (X' := pre ++ (left.spots ++ [.item m])) ?_ (by pl_cov)
              refine Lz.call1B (hy _) ?_
              intro e q
              exact Lz.pure fun h _ => h
      | _ => cases hk'

theorem parseOperand_spot : Yz [] (parseOperand r) Expr.spots := by
  intro toks pre p
  unfold parseOperand
  refine Lz.bind ?_
  refine Lz.peekB ?_
  intro x hx
  split
  · exact Lz.errHere _
  · rename_i tok sp
    split
    · rename_i op hop
      cases tok with
      | k k =>
        obtain ⟨m, h1, h2, h3⟩ := prefix_fits (show k.prefixOp = some op from hop)
        refine Lz.bind ?_
        refine Lz.getPosB ?_
        intro _ _
        refine Lz.bind ?_
        refine Lz.takeB hx m (by intro hc; cases hc; cases hop) h3 ?_
        pl
        refine Lz.pure ?_
        intro h _
        refine h.cov ?_
        simp only [Expr.spots, ExprK.spots, h1, h2]
        pl_cov
      | _ => cases hop
    · rw [List.append_nil]
      exact Lz.call (parsePostfixExpression_spot hr) fun _ _ h _ => h

theorem parseExpression_spot (prec : Prec) : Yz [] (parseExpression r prec) Expr.spots := by
  intro toks pre p
  unfold parseExpression
  refine Lz.bind ?_
  refine Lz.callB (parseOperand_spot hr) ?_
  intro e q
  rw [List.append_nil]
  refine Lz.call1 (Yz.loop (I := Expr.spots) (f := Expr.spots) ?_ e) fun _ _ h _ => h
  intro left toks pre p
  refine Lz.bind ?_
  refine Lz.attempt1B (parseBinaryExpression_spot hr left prec) ?_ ?_
  · intro a q
    cases a with
    | none => exact Lz.pure fun h _ => h
    | some l => exact Lz.pure fun h _ => h
  · intro e q
    exact Lz.pure fun h _ => h

end

end Pico
