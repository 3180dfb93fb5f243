import Verif.Lemmas.SpotTac
import Verif.Lemmas.ReadExpr
/-!
# Expressions with their ranges are readings of their tokens
-/
namespace Pico
open P

section
variable {r : Rec} (hr : RecZ r)
include hr

theorem parseOptExpression_spot (prec : Prec) : Yz [] (parseOptExpression r prec) optSpots := by
  intro toks pre p
  unfold parseOptExpression
  pl

end

theorem parseSimpleVariable_spot : Yz [] parseSimpleVariable (fun x => .start x.2.start :: (x.1.spots ++ [.stop x.2.stop])) := by
  intro toks pre p
  unfold parseSimpleVariable
  pl

macro_rules | `(tactic| pl_call) => `(tactic| first
  | with_reducible exact parseOptExpression_spot (by assumption) _
  | with_reducible exact parseSimpleVariable_spot)

theorem parseSimpleVariableExpr_spot : Yz [] parseSimpleVariableExpr Expr.spots := by
  intro toks pre p
  unfold parseSimpleVariableExpr
  pl

macro_rules | `(tactic| pl_call) => `(tactic| first
  | with_reducible exact parseSimpleVariableExpr_spot)

section
variable {r : Rec} (hr : RecZ r)
include hr

theorem parseExpressionList_spot : Yz [] (parseExpressionList r) exprsSpots := by
  unfold parseExpressionList
  refine Yz.loop0 (I := exprsSpots) ?_ rfl
  intro args toks pre p
  pl

theorem parseArgumentList_spot :
    Yz [] (parseArgumentList r) (fun args => .item (.kw [.ParenthesesOpen]) :: exprsSpots args) := by
  have hl : Yz [] (loop (fun (args : List Expr) => do
      let start ← eat .Ellipsis
      let arg ← r.expr .None
      let arg : Expr :=
        match start with
        | some t => .mk (.unpack arg) { arg.span with start := t.span.start }
        | none => arg
      if ← eats .Comma then return .inl (args ++ [arg]) else return .inr (args ++ [arg])) []) exprsSpots := by
    refine Yz.loop0 (I := exprsSpots) ?_ rfl
    intro args toks pre p
    pl
  intro toks pre p
  unfold parseArgumentList
  pl
  refine Lz.callB hl ?_
  intro _ _
  pl

theorem parsePropertyName_spot : Yz [] (parsePropertyName r) Expr.spots := by
  intro toks pre p
  unfold parsePropertyName
  pl
  refine Lz.conv ?_ Fits.word_path
  pl

end

/-! ## Names -/

/-- The tokens `us` stand from `p` to `q`. -/
def Between (toks : List TokSpan) (p : Nat) (us : List Token) (q : Nat) : Prop :=
  q = p + us.length ∧ ((toks.drop p).take us.length).map TokSpan.tok = us

theorem Between.nil (toks : List TokSpan) (p : Nat) : Between toks p [] p := ⟨rfl, rfl⟩

theorem Between.cons {toks : List TokSpan} {p q : Nat} {us : List Token} {t : TokSpan} (ht : toks[p]? = some t)
    (h : Between toks (p + 1) us q) : Between toks p (t.tok :: us) q := by
  obtain ⟨h1, h2⟩ := h
  refine ⟨by simp; omega, ?_⟩
  obtain ⟨hlt, rfl⟩ := List.getElem?_eq_some_iff.1 ht
  rw [List.drop_eq_getElem_cons hlt, List.length_cons, List.take_succ_cons, List.map_cons, h2]

theorem Between.read {toks : List TokSpan} {p q : Nat} {us : List Token} {m : Mark} (h : Between toks p us q) (hn : us ≠ [])
    (hm : Fits m us) : ReadAt toks (.item m) (2 * p + 1) (2 * q) := by
  obtain ⟨rfl, h2⟩ := h
  exact .item hm hn h2

/-- What the fragments of a name are. -/
def Fragments (toks : List TokSpan) (p : Nat) (acc fr : List (Text × Span)) (q : Nat) : Prop :=
  ∃ ns id first last, fr.map Prod.fst = acc.map Prod.fst ++ ns ++ [id] ∧ (acc ++ [first]) <+: fr ∧ fr.getLast? = some last ∧
    toks[p]? = some ⟨.string first.1, first.2⟩ ∧ 1 ≤ q ∧ toks[q - 1]? = some ⟨.string last.1, last.2⟩ ∧
    Between toks p (nameToks ns id) q

theorem fragments_spot (toks : List TokSpan) (n : Nat) : ∀ (p : Nat) (acc : List (Text × Span)), Straight toks →
    Wr toks p p (P.loopN (fun (frags : List (Text × Span)) => do
      match ← eatString with
      | none => errHere [.string []]
      | some f =>
        let frags := frags ++ [f]
        let old ← getPos
        match ← eat .NsSeparator with
        | none => return .inr frags
        | some _ =>
          match ← eatString with
          | some _ =>
            let p ← getPos
            P.setPos (p - 1)
            return .inl frags
          | none =>
            P.setPos old
            return .inr frags) n acc) (fun fr q => Fragments toks p acc fr q) := by
  induction n with
  | zero => intro p acc _; trivial
  | succ n ih =>
    intro p acc hpl
    have h0 : ∀ q, Located toks 0 [] (2 * q) := fun q => Nat.zero_le _
    have key : Lz toks p [] p (P.loopN (fun (frags : List (Text × Span)) => do
      match ← eatString with
      | none => errHere [.string []]
      | some f =>
        let frags := frags ++ [f]
        let old ← getPos
        match ← eat .NsSeparator with
        | none => return .inr frags
        | some _ =>
          match ← eatString with
          | some _ =>
            let p ← getPos
            P.setPos (p - 1)
            return .inl frags
          | none =>
            P.setPos old
            return .inr frags) (n + 1) acc) (fun fr q => Fragments toks p acc fr q) := by
      rw [P.loopN]
      refine Lz.bind ?_
      refine Lz.bind ?_
      refine Lz.eatStringB ?_ (Lz.errHere _)
      intro s sp hx
      have hone : Fragments toks p acc (acc ++ [(s, sp)]) (p + 1) :=
        ⟨[], s, (s, sp), (s, sp), by simp, List.prefix_refl _, by simp, hx, by omega, by simpa using hx,
          Between.cons hx (Between.nil ..)⟩
      dsimp only
      refine Lz.bind ?_
      refine Lz.getPosB ?_
      intro _ hlo
      refine Lz.bind ?_
      refine Lz.eatB' ?_ ?_
      · intro t ht htk
        dsimp only
        refine Lz.bind ?_
        refine Lz.eatStringB ?_ ?_
        · intro s2 sp2 hx2
          dsimp only
          refine Lz.bind ?_
          refine Lz.getPosB ?_
          intro _ _
          refine Lz.bind ?_
          refine Lz.backB (X0 := []) (old := p + 1 + 1) (h0 _) (by omega) ?_
          refine Lz.pure ?_
          intro _ _
          refine (ih (p + 1 + 1) (acc ++ [(s, sp)]) hpl).imp (by omega) ?_
          rintro fr q hq ⟨ns, id, first, last, h1, h2, h3, h4, h5, h6, h7⟩
          refine ⟨s :: ns, id, (s, sp), last, ?_, ?_, h3, hx, h5, h6, ?_⟩
          · rw [h1]; simp
          · exact (List.prefix_append _ _).trans h2
          · have := Between.cons hx (Between.cons ht h7)
            rw [htk] at this
            simpa [nameToks] using this
        · dsimp only
          refine Lz.bind ?_
          refine Lz.backB (X0 := []) (h0 _) (by omega) ?_
          refine Lz.pure ?_
          intro _ _
          exact ⟨by omega, hone⟩
      · dsimp only
        refine Lz.pure ?_
        intro _ _
        exact ⟨by omega, hone⟩
    exact key hpl (h0 p) (Nat.le_refl p)

theorem parseNamespaceName_at (toks : List TokSpan) (p : Nat) (hpl : Straight toks) :
    Wr toks p p parseNamespaceName (fun x q => ∃ ns id t, x.1 = qualPath false ns id ∧
      Between toks p (nameToks ns id) q ∧ toks[p]? = some t ∧ (∃ s, t.tok = .string s) ∧ t.span.start = x.2.start ∧
      EndsAt toks q x.2.stop) := by
  unfold parseNamespaceName
  refine Wr.bind ?_
  refine (fragments_spot toks _ p [] hpl).imp (Nat.le_refl p) ?_
  rintro fr q hq ⟨ns, id, first, last, h1, h2, h3, h4, h5, h6, h7⟩
  simp only [List.map_nil, List.nil_append] at h1 h2
  have hinit : fr.dropLast.map Prod.fst = ns := by
    rw [List.map_dropLast, h1]; simp
  have hlast : fr.getLast?.map Prod.fst = some id := by
    rw [← List.getLast?_map, h1]; simp
  have hh : fr.head? = some first := by
    obtain ⟨u, rfl⟩ := h2
    rfl
  rw [h3] at hlast
  have hid : last.1 = id := by simpa using hlast
  rw [hh, h3]
  dsimp only
  rw [hinit, hid]
  refine ⟨hq, ns, id, _, ?_, h7, h4, ⟨_, rfl⟩, rfl, q - 1, _, by omega, h6, .inl rfl⟩
  cases ns with
  | nil => simp [qualPath, Path.identifier]
  | cons x ns => simp [qualPath, joinNs_eq]

variable {toks : List TokSpan} {lo p : Nat} {X : List Spot}

theorem nameToks_ne (ns : List Text) (id : Text) : nameToks ns id ≠ [] := by
  cases ns <;> simp [nameToks]

/-- A qualified name, read where it may be absolute. -/
theorem Lz.nameB {β : Type} {k : Bool → Path × Span → P β} {Q : β → Nat → Prop}
    (h : ∀ abs path sp q, path.isAbsolute = false → Lz toks lo (X ++ [.item (.path { path with isAbsolute := abs })]) q (k abs (path, sp)) Q) :
    Lz toks lo X p (eats .NsSeparator >>= fun abs => parseNamespaceName >>= fun x => k abs x) Q := by
  intro hpl h1 h2
  have h0 : ∀ q, Located toks 0 [] (2 * q) := fun q => Nat.zero_le _
  have key : Lz toks lo [] p (eats .NsSeparator >>= fun abs => parseNamespaceName >>= fun x => k abs x) Q := by
    refine Lz.bind ?_
    unfold eats
    refine Lz.bind ?_
    refine Lz.eatB' ?_ ?_
    · intro t ht htk
      refine Lz.pureB ?_
      refine Lz.bind ?_
      intro _ _ _
      refine (parseNamespaceName_at toks (p + 1) hpl).imp (by omega) ?_
      rintro ⟨path, sp⟩ q hq ⟨ns, id, u, e1, e2, -⟩
      refine h true path sp q (by rw [show path = qualPath false ns id from e1]; rfl) hpl ?_ (by omega)
      have hf : Fits (.path { path with isAbsolute := true }) (qualToks true ns id) := by
        have e1' : path = qualPath false ns id := e1
        rw [e1']
        exact .path (.name (.qual true ns id))
      have := Between.cons ht e2
      rw [htk] at this
      exact h1.add (by omega) (Between.read this nofun hf)
    · refine Lz.pureB ?_
      refine Lz.bind ?_
      intro _ _ _
      refine (parseNamespaceName_at toks p hpl).imp (by omega) ?_
      rintro ⟨path, sp⟩ q hq ⟨ns, id, u, e1, e2, -⟩
      refine h false path sp q (by rw [show path = qualPath false ns id from e1]; rfl) hpl ?_ (by omega)
      have hf : Fits (.path { path with isAbsolute := false }) (qualToks false ns id) := by
        have e1' : path = qualPath false ns id := e1
        rw [e1']
        exact .path (.name (.qual false ns id))
      exact h1.add (by omega) (Between.read e2 (nameToks_ne ns id) hf)
  exact key hpl (h0 p) h2

theorem parseNamespaceName_spot : Yz [] parseNamespaceName (fun x => [.start x.2.start, .item (.path x.1), .stop x.2.stop]) := by
  intro toks pre p hpl h1 h2
  refine (parseNamespaceName_at toks p hpl).imp (Nat.le_refl p) ?_
  rintro ⟨path, sp⟩ q hq ⟨ns, id, u, e1, e2, e3, ⟨s, e4⟩, e5, e6⟩
  have hf : Fits (.path path) (qualToks false ns id) := by
    have e1' : path = qualPath false ns id := e1
    rw [e1']
    exact .path (.name (.qual false ns id))
  have h3 := h1.add (c := 2 * p + 1) (by omega) (.start ⟨u, e3, .inl ⟨by rw [e4]; nofun, e5⟩⟩)
  have h4 := h3.add (Nat.le_refl _) (Between.read e2 (nameToks_ne ns id) hf)
  have h5 := h4.add (Nat.le_refl _) (.stop e6)
  simpa [List.append_assoc] using h5

theorem Path.abs_eta' (x : Path) (h : x.isAbsolute = false) : { x with isAbsolute := false } = x := by
  cases x; simp at h; simp [h]

theorem parseName_spot : Yz [] parseName (fun x => [.start x.2.start, .item (.path x.1), .stop x.2.stop]) := by
  intro toks pre p hpl h1 h2
  have h0 : ∀ q, Located toks 0 [] (2 * q) := fun q => Nat.zero_le _
  have key : Lz toks p [] p parseName
      (fun x q => Located toks 0 (pre ++ [.start x.2.start, .item (.path x.1), .stop x.2.stop]) (2 * q)) := by
    unfold parseName
    refine Lz.bind ?_
    unfold eats
    refine Lz.bind ?_
    refine Lz.eatB' ?_ ?_
    · intro t ht htk
      refine Lz.pureB ?_
      refine Lz.bind ?_
      intro _ _ _
      refine (parseNamespaceName_at toks (p + 1) hpl).imp (by omega) ?_
      rintro ⟨path, sp⟩ q hq ⟨ns, id, u, e1, e2, e3, ⟨s, e4⟩, e5, e6⟩
      have e5 : u.span.start = sp.start := e5
      have key2 : Lz toks p [] q (do
          let s ← subP sp.start 1
          return ({ path with isAbsolute := true }, { sp with start := s }))
          (fun x q => Located toks 0 (pre ++ [.start x.2.start, .item (.path x.1), .stop x.2.stop]) (2 * q)) := by
        refine Lz.bind ?_
        refine Lz.subPB ?_
        intro n hn
        refine Lz.pure ?_
        intro _ _
        have hf : Fits (.path { path with isAbsolute := true }) (qualToks true ns id) := by
          have e1' : path = qualPath false ns id := e1
          rw [e1']
          exact .path (.name (.qual true ns id))
        have hb := Between.cons ht e2
        rw [htk] at hb
        have h3 := h1.add (c := 2 * p + 1) (by omega) (.start ⟨t, ht, .inr ⟨htk, u, e3, by rw [e5, hn]⟩⟩)
        have h4 := h3.add (Nat.le_refl _) (Between.read hb nofun hf)
        have h5 := h4.add (Nat.le_refl _) (.stop e6)
        simpa [List.append_assoc] using h5
      exact key2 hpl (h0 q) (by omega)
    · refine Lz.pureB ?_
      refine Lz.bind ?_
      intro _ _ _
      refine (parseNamespaceName_at toks p hpl).imp (by omega) ?_
      rintro ⟨path, sp⟩ q hq ⟨ns, id, u, e1, e2, e3, ⟨s, e4⟩, e5, e6⟩
      refine ⟨hq, ?_⟩
      have hf : Fits (.path path) (qualToks false ns id) := by
        have e1' : path = qualPath false ns id := e1
        rw [e1']
        exact .path (.name (.qual false ns id))
      have h3 := h1.add (c := 2 * p + 1) (by omega) (.start ⟨u, e3, .inl ⟨by rw [e4]; nofun, e5⟩⟩)
      have h4 := h3.add (Nat.le_refl _) (Between.read e2 (nameToks_ne ns id) hf)
      have h5 := h4.add (Nat.le_refl _) (.stop e6)
      simpa [List.append_assoc] using h5
  exact key hpl (h0 p) h2

macro_rules | `(tactic| pl_call) => `(tactic| first
  | with_reducible exact parseExpressionList_spot (by assumption)
  | with_reducible exact parseArgumentList_spot (by assumption)
  | with_reducible exact parsePropertyName_spot (by assumption)
  | with_reducible exact parseNamespaceName_spot
  | with_reducible exact parseName_spot)

theorem parseNameAsExpr_spot : Yz [] parseNameAsExpr Expr.spots := by
  intro toks pre p
  unfold parseNameAsExpr
  pl

theorem parseNameList_spot : Yz [] parseNameList (fun x => its (pathsMarks x)) := by
  unfold parseNameList
  refine Yz.loop0 (I := fun x => its (pathsMarks x)) ?_ rfl
  intro args toks pre p
  pl

macro_rules | `(tactic| pl_call) => `(tactic| first
  | with_reducible exact parseNameAsExpr_spot
  | with_reducible exact parseNameList_spot)

theorem parseClassName_spot : Yz [] parseClassName Expr.spots := by
  intro toks pre p
  unfold parseClassName
  pl
  refine Lz.conv ?_ Fits.static_path
  pl

theorem parseIdentifier_spot : Yz [] parseIdentifier (fun x => [.start x.2.start, .item (.ident x.1), .stop x.2.stop]) := by
  intro toks pre p
  unfold parseIdentifier
  refine Lz.bind ?_
  refine Lz.peekB ?_
  intro x hx
  split
  · refine Lz.bind ?_
    refine Lz.getPosB ?_
    intro _ _
    refine Lz.bind ?_
    refine Lz.takeB hx (.ident _) nofun (.ident (.word _)) ?_
    pl
  · rename_i k sp
    split
    · rename_i hk
      refine Lz.bind ?_
      refine Lz.getPosB ?_
      intro _ _
      refine Lz.bind ?_
      cases hs : k.repr? with
      | none =>
        refine Lz.dropB ?_
        pl
      | some s =>
        refine Lz.takeB hx (.ident s) ?_ (.ident (.reserved _ _ (memberWords_all _ hk _ hs))) ?_
        · intro hc
          cases hc
          cases hk
        dsimp only
        pl
    · pl
  · pl

macro_rules | `(tactic| pl_call) => `(tactic| first
  | with_reducible exact parseClassName_spot
  | with_reducible exact parseIdentifier_spot)

theorem parseIdentifierAsExpr_spot : Yz [] parseIdentifierAsExpr Expr.spots := by
  intro toks pre p
  unfold parseIdentifierAsExpr
  pl
  refine Lz.conv ?_ Fits.ident_path
  pl

theorem Lz.resolveB {α : Type} {e : Expr} {m : P α} {Q : α → Nat → Prop}
    (h : Lz toks lo (X ++ (resolveConst e).spots) p m Q) : Lz toks lo (X ++ e.spots) p m Q := by
  obtain ⟨k, sp⟩ := e
  cases k with
  | path q =>
    unfold resolveConst at h
    dsimp only at h
    split at h
    · rename_i hn
      split at h
      · rename_i c hc
        refine Lz.conv (b := .const c) h ?_
        intro us hf
        cases hf with
        | path hs => exact .const hs (by simpa using hn) (builtin_word hc)
      · exact h
    · exact h
  | _ => exact h

macro_rules | `(tactic| pl_call) => `(tactic| first
  | with_reducible exact parseIdentifierAsExpr_spot)

theorem parseConstant_spot : Yz [] parseConstant Expr.spots := by
  intro toks pre p
  unfold parseConstant
  refine Lz.bind ?_
  refine Lz.callB parseClassName_spot ?_
  intro name q
  refine Lz.resolveB ?_
  dsimp only
  generalize resolveConst name = name
  pl

section
variable {r : Rec} (hr : RecZ r)
include hr

theorem parseArrayPairList_spot : Yz [] (parseArrayPairList r) itemsSpots := by
  unfold parseArrayPairList
  refine Yz.loop0 (I := itemsSpots) ?_ rfl
  intro args toks pre p
  pl

end

macro_rules | `(tactic| pl_call) => `(tactic| first
  | with_reducible exact parseArrayPairList_spot (by assumption)
  | with_reducible exact parseConstant_spot)

section
variable {r : Rec} (hr : RecZ r)
include hr

theorem parseDereferencableScalar_spot : Yz [] (parseDereferencableScalar r) Expr.spots := by
  intro toks pre p
  unfold parseDereferencableScalar
  refine Lz.bind ?_
  refine Lz.eatB (.kw [.Array, .SquareBracketOpen]) (.kw (k := .Array) (by decide)) (by decide) ?_ ?_
  · intro t _
    pl
  · dsimp only
    refine Lz.bind ?_
    refine Lz.eatB (.kw [.Array, .SquareBracketOpen]) (.kw (k := .SquareBracketOpen) (by decide)) (by decide) ?_ ?_
    · intro t _
      pl
    · pl

end

macro_rules | `(tactic| pl_call) => `(tactic| first
  | with_reducible exact parseDereferencableScalar_spot (by assumption))

section
variable {r : Rec} (hr : RecZ r)
include hr

theorem parseBaseVariable_spot (b : Bool) : Yz [] (parseBaseVariable r b) Expr.spots := by
  intro toks pre p
  unfold parseBaseVariable
  pl

end

/-- The spots of a class constant or a static property. -/
def scopedSpots (x : Expr × Expr × Span) : List Spot :=
  .start x.2.2.start :: (x.1.spots ++ .item (.kw [.ScopeOp]) :: (x.2.1.spots ++ [.stop x.2.2.stop]))

theorem constScopedTail_spot (b : Bool) (cls : Expr) :
    Yz (cls.spots ++ [.item (.kw [.ScopeOp])]) (constScopedTail b cls)
      (fun x => match x with | some x => scopedSpots x | none => []) := by
  intro toks pre p
  unfold constScopedTail
  simp only [scopedSpots]
  pl

theorem parseConstScoped_spot (b : Bool) : Yz [] (parseConstScoped b) scopedSpots := by
  intro toks pre p
  unfold parseConstScoped
  pl
  rename_i x _ t _
  refine Lz.weaken (X' := pre ++ (x.spots ++ [.item (.kw [.ScopeOp])])) ?_ (by pl_cov)
  refine Lz.call1B (constScopedTail_spot b _) ?_
  intro a q
  cases a with
  | none => pl
  | some x => pl

theorem parseFnCallBaseItem_spot (b : Bool) : Yz [] (parseFnCallBaseItem b) Expr.spots := by
  intro toks pre p
  unfold parseFnCallBaseItem
  pl

macro_rules | `(tactic| pl_call) => `(tactic| first
  | with_reducible exact parseBaseVariable_spot (by assumption) _
  | with_reducible exact parseConstScoped_spot _
  | with_reducible exact parseFnCallBaseItem_spot _)

theorem addArrayIdx_cov (e : Expr) (m : Option Expr) (stop : Nat) :
    Cov (addArrayIdx e m stop).spots (e.spots ++ .item (.kw [.SquareBracketOpen]) :: (optSpots m ++ [.stop stop])) := by
  unfold addArrayIdx
  split
  · pl_cov
  · pl_cov

theorem addObjMember_cov (e : Expr) (m : Expr) (stop : Nat) :
    Cov (addObjMember e m stop).spots (e.spots ++ .item (.kw [.ObjectOp]) :: (m.spots ++ [.stop stop])) := by
  unfold addObjMember
  split
  · pl_cov
  · pl_cov

theorem addStaticMember_cov (e : Expr) (m : Expr) (stop : Nat) :
    Cov (addStaticMember e m stop).spots (e.spots ++ .item (.kw [.ScopeOp]) :: (m.spots ++ [.stop stop])) := by
  unfold addStaticMember
  split
  · pl_cov
  · pl_cov

/-- The spots of an extended expression, or of the expression itself. -/
def orSpots (e : Expr) : Option Expr → List Spot
  | some e' => e'.spots
  | none => e.spots

section
variable {r : Rec} (hr : RecZ r)
include hr

theorem parseVariableBase_spot (b : Bool) : Yz [] (parseVariableBase r b) Expr.spots := by
  intro toks pre p
  unfold parseVariableBase
  pl
  refine Lz.pure ?_
  intro h _
  refine Located.cov h ?_
  simp only [scopedSpots]
  pl_cov

theorem appendixIndex_spot (e : Expr) : Yz e.spots (appendixIndex r e) (orSpots e) := by
  intro toks pre p
  unfold appendixIndex
  pl
  all_goals
    refine Lz.pure ?_
    intro h _
    refine Located.cov h ?_
    simp only [orSpots]
    first
    | (refine (Cov.app _ (addArrayIdx_cov _ _ _)).trans ?_
       pl_cov
       done)
    | pl_cov

theorem appendixMember_spot (e : Expr) : Yz e.spots (appendixMember r e) (orSpots e) := by
  intro toks pre p
  unfold appendixMember
  pl
  all_goals
    refine Lz.pure ?_
    intro h _
    refine Located.cov h ?_
    simp only [orSpots]
    first
    | (refine (Cov.app _ (addObjMember_cov _ _ _)).trans ?_
       pl_cov
       done)
    | pl_cov

theorem appendixCall_spot (b : Bool) (e : Expr) : Yz e.spots (appendixCall r b e) (orSpots e) := by
  intro toks pre p
  unfold appendixCall
  pl
  all_goals
    refine Lz.pure ?_
    intro h _
    refine Located.cov h ?_
    simp only [orSpots]
    pl_cov

end

theorem appendixStatic_spot (e : Expr) : Yz e.spots (appendixStatic e) (orSpots e) := by
  intro toks pre p
  unfold appendixStatic
  pl
  all_goals
    refine Lz.pure ?_
    intro h _
    refine Located.cov h ?_
    simp only [orSpots]
    first
    | (refine (Cov.app _ (addStaticMember_cov _ _ _)).trans ?_
       pl_cov
       done)
    | pl_cov

section
variable {r : Rec} (hr : RecZ r)
include hr

theorem appendixStep_spot (b : Bool) (e : Expr) :
    Yz e.spots (appendixStep r b e) (Sum.elim Expr.spots Expr.spots) := by
  intro toks pre p
  unfold appendixStep
  refine Lz.bind ?_
  refine Lz.call1B (appendixIndex_spot hr e) ?_
  intro a q
  cases a with
  | some e' => dsimp only [orSpots]; pl
  | none =>
    dsimp only [orSpots]
    refine Lz.bind ?_
    refine Lz.call1B (appendixMember_spot hr e) ?_
    intro a q
    cases a with
    | some e' => dsimp only [orSpots]; pl
    | none =>
      dsimp only [orSpots]
      refine Lz.bind ?_
      refine Lz.call1B (appendixStatic_spot e) ?_
      intro a q
      cases a with
      | some e' => dsimp only [orSpots]; pl
      | none =>
        dsimp only [orSpots]
        refine Lz.bind ?_
        refine Lz.call1B (appendixCall_spot hr b e) ?_
        intro a q
        cases a with
        | some e' => dsimp only [orSpots]; pl
        | none => dsimp only [orSpots]; pl

theorem parseVariable_someSpot (b : Bool) (e : Expr) : Yz e.spots (parseVariable r b (some e)) Expr.spots := by
  intro toks pre p
  unfold parseVariable
  refine Lz.bind ?_
  refine Lz.pureB ?_
  exact Lz.call1 (Yz.loop (appendixStep_spot hr b) e) fun _ _ h _ => h

theorem parseVariable_spot (b : Bool) : Yz [] (parseVariable r b none) Expr.spots := by
  intro toks pre p
  unfold parseVariable
  refine Lz.bind ?_
  refine Lz.callB (parseVariableBase_spot hr b) ?_
  intro e q
  rw [List.append_nil]
  exact Lz.call1 (Yz.loop (appendixStep_spot hr b) e) fun _ _ h _ => h

end

macro_rules | `(tactic| pl_call) => `(tactic| first
  | with_reducible exact parseVariable_spot (by assumption) _)

section
variable {r : Rec} (hr : RecZ r)
include hr

theorem parseClassNameReference_spot : Yz [] (parseClassNameReference r) Expr.spots := by
  intro toks pre p
  unfold parseClassNameReference
  pl

end

macro_rules | `(tactic| pl_call) => `(tactic| first
  | with_reducible exact parseClassNameReference_spot (by assumption))

end Pico
