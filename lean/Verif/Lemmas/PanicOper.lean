import Verif.Lemmas.PanicExpr
/-!
# Why the parser panics: strings, functions and operators
-/
namespace Pico
open P

variable {toks : List TokSpan} {r : Rec} {base : Int} {lo pos : Nat}

/-! ## Strings -/

/-- What holds while the parts of a string are read. -/
def EncOk (toks : List TokSpan) (s : Encaps) (p : Nat) : Prop :=
  (s.str ≠ [] → s.startPos ≠ none) ∧ ∀ e, e ∈ s.parts → Inst toks e p

theorem EncOk.mono {s : Encaps} {p q : Nat} (h : EncOk toks s p) (hq : p ≤ q) : EncOk toks s q :=
  ⟨h.1, fun e he => (h.2 e he).mono hq⟩

theorem EncOk.push {s : Encaps} {p q : Nat} {e : Expr} {a : Option Nat} {b : Nat} (h : EncOk toks s p) (hs : s.str = []) (hq : p ≤ q)
    (he : Inst toks e q) : EncOk toks { s with startPos := a, endPos := b, parts := s.parts ++ [e] } q :=
  ⟨fun h => absurd hs h, fun x hx => by
    rcases List.mem_append.1 hx with hx | hx
    · exact (h.2 x hx).mono hq
    · rw [List.mem_singleton.1 hx]; exact he⟩

theorem flush_ab {s : Encaps} {E : Nat → Prop} (h : Okay toks pos) (hs : EncOk toks s pos) :
    Aq toks pos s.flush (fun s' p => p = pos ∧ s'.str = [] ∧ EncOk toks s' p) E := by
  unfold Encaps.flush
  refine Ab.ite ?_ ?_
  · intro he
    exact Ab.ret (Reach.refl h) ⟨rfl, List.isEmpty_iff.1 he, hs⟩
  · intro he
    have hn : s.str ≠ [] := fun h' => he (by rw [h']; rfl)
    cases hp : s.startPos with
    | none => exact absurd hp (hs.1 hn)
    | some st =>
      refine Ab.ret (Reach.refl h) ⟨rfl, rfl, fun h' => absurd rfl h', fun x hx => ?_⟩
      rcases List.mem_append.1 hx with hx | hx
      · exact hs.2 x hx
      · rw [List.mem_singleton.1 hx]; nofun

theorem encapsDollar_ab {s : Encaps} {t : TokSpan} (hq : RecA toks r) (h : Okay toks pos) (hy : NoYield toks pos) (hs : EncOk toks s pos)
    (he : s.str = []) : Aq toks pos (encapsDollar r s t) (EncOk toks) any0 := by
  unfold encapsDollar
  refine Ab.attempt (parseIdentifier_ab h hy) (Reach.refl h) ?_ ?_
  · rintro ⟨name, span⟩ p hr hp _ _
    refine Ab.bindE (parseVariable_more (p0 := pos) hq hr.fits nofun hp) hr ?_
    intro e q hr hq' _ hi
    refine Ab.expectOther hr ⟨nofun, nofun⟩ trivial ?_
    intro _ _ _ hr _
    exact Ab.pure hr (EncOk.push hs he (by omega) (hi.kind (by omega)))
  · rintro _ p hr _ _ rfl
    refine Ab.bindE (hq.1 _ _ h) hr ?_
    intro e q hr hq' _ hi
    refine Ab.expectOther hr ⟨nofun, nofun⟩ trivial ?_
    intro _ _ _ hr _
    exact Ab.pure hr (EncOk.push hs he (by omega) nofun)

/-- There is a quotation mark before. -/
def Opened (toks : List TokSpan) (pos : Nat) : Prop :=
  ∃ q, q < pos ∧ ((kinds toks)[q]? = some (.k .DoubleQuote) ∨ (kinds toks)[q]? = some (.k .HereDocStart))

theorem encapsStep_ab {s : Encaps} (hq : RecA toks r) (h : Okay toks pos) (ho : Opened toks pos) (hs : EncOk toks s pos) :
    Aq toks pos (encapsStep r s) (fun y p => (∀ x, y = .inl x → EncOk toks x p) ∧
      ∀ x, y = .inr x → EncOk toks x p ∧ ∀ s, (kinds toks)[p]? = some (.encaps s) → Cause (kinds toks) .unreachable) any0 := by
  unfold encapsStep
  refine Ab.eatEncaps (Reach.refl h) ?_ ?_
  · intro x sp ht hr _
    exact Ab.pure hr ⟨fun y hy => by cases hy; exact ⟨fun _ => nofun, fun e he => (hs.2 e he).mono (Nat.le_succ _)⟩, nofun⟩
  · intro hne
    refine Ab.eatOther (Reach.refl h) ⟨nofun, nofun⟩ ?_ ?_
    · intro t ht hk hr _
      refine Ab.bind (E0 := any0) (flush_ab hr.fits (hs.mono (Nat.le_succ _))) hr ?_ fun _ _ _ _ => trivial
      rintro s' p hr _ _ ⟨rfl, he, hs'⟩
      refine Ab.bind (encapsDollar_ab hq hr.fits (fun _ => .inl ⟨pos, rfl, .inr (.inl (at_kind ht hk))⟩) hs' he) hr ?_ fun _ _ _ _ => trivial
      intro s2 p hr _ _ hs2
      exact Ab.pure hr ⟨fun y hy => by cases hy; exact hs2, nofun⟩
    · intro _
      refine Ab.eatOther (Reach.refl h) ⟨nofun, nofun⟩ ?_ ?_
      · intro t ht hk hr _
        refine Ab.bind (E0 := any0) (flush_ab hr.fits (hs.mono (Nat.le_succ _))) hr ?_ fun _ _ _ _ => trivial
        rintro s' p hr _ _ ⟨rfl, he, hs'⟩
        refine Ab.bindE (hq.1 _ _ hr.fits) hr ?_
        intro e q hr _ _ hi
        refine Ab.expectOther hr ⟨nofun, nofun⟩ trivial ?_
        intro _ _ _ hr _
        exact Ab.pure hr ⟨fun y hy => by cases hy; exact hs'.push he (by omega) (hi.mono (by omega)), nofun⟩
      · intro _
        refine Ab.attempt (parseVariable_ab hq h) (Reach.refl h) ?_ ?_
        · intro e p hr hp _ hv
          refine Ab.bind (E0 := any0) (flush_ab hr.fits (hs.mono hp)) hr ?_ fun _ _ _ _ => trivial
          rintro s' p hr _ _ ⟨rfl, he, hs'⟩
          exact Ab.pure hr ⟨fun y hy => by cases hy; exact hs'.push he (Nat.le_refl _) hv.1, nofun⟩
        · intro _ p hr hp _ hst
          refine Ab.pure hr ⟨nofun, fun y hy => ?_⟩
          cases hy
          refine ⟨hs.mono hp, fun x hx => ?_⟩
          rcases hst with rfl | ⟨i, h1, h2, h3⟩
          · rw [kinds_get] at hx
            cases ht : toks[p]? with
            | none => rw [ht] at hx; cases hx
            | some u =>
              obtain ⟨tok, sp⟩ := u
              rw [ht] at hx
              cases hx
              exact absurd ht (hne x sp)
          · obtain ⟨q, hq, hq'⟩ := ho
            exact .quoted q i p x hq' (by omega) h3 h2 hx

theorem concatParts_inst {ps : List Expr} {e : Expr} {p : Nat} (he : Inst toks e p) : Inst toks (concatParts ps e) p := by
  unfold concatParts
  have key : ∀ (l : List Expr) (e : Expr), Inst toks e p → Inst toks (l.foldl (fun acc part =>
      Expr.mk (.binary .Concat part acc) (mkSpan part.span.start acc.span.stop)) e) p := by
    intro l
    induction l with
    | nil => intro e h; exact h
    | cons x l ih => intro e _; exact ih _ nofun
  exact key _ e he

theorem parseEncapsList_ab (hq : RecA toks r) (h : Okay toks pos) (ho : Opened toks pos) :
    Aq toks pos (parseEncapsList r) (Inst toks) any0 := by
  unfold parseEncapsList
  refine Ab.bind (E0 := any0) (V := fun x p => EncOk toks x p ∧ ∀ s, (kinds toks)[p]? = some (.encaps s) → Cause (kinds toks) .unreachable)
    (Ab.loop (fun s p => EncOk toks s p) (Reach.refl h) ⟨fun h => absurd rfl h, nofun⟩ ?_) (Reach.refl h) ?_ fun _ _ _ _ => trivial
  · intro s p hr hs
    obtain ⟨q, hq1, hq2⟩ := ho
    exact Ab.tail hr (encapsStep_ab hq hr.fits ⟨q, Nat.lt_of_lt_of_le hq1 hr.le, hq2⟩ hs)
  · rintro s p hr _ _ ⟨hs, hc⟩
    refine Ab.ite ?_ ?_
    · intro _
      cases hl : s.parts.getLast? with
      | some last => exact Ab.pure hr (concatParts_inst (hs.2 last (List.mem_of_getLast? hl)))
      | none =>
        refine Ab.eatEncaps hr ?_ fun _ => Ab.err hr trivial
        intro x sp ht _ _
        exact Ab.cause (hc x (at_kind ht rfl))
    · intro he
      cases hp : s.startPos with
      | none => exact absurd hp (hs.1 fun h' => he (by rw [h']; rfl))
      | some st => exact Ab.pure hr (concatParts_inst nofun)

theorem parseScalar_ab (hq : RecA toks r) (h : Okay toks pos) (hp : pos < toks.length ∨ Gone toks) :
    Aq toks pos (parseScalar r) (Inst toks) any0 := by
  unfold parseScalar
  refine Ab.peek ?_
  intro o ho
  refine Ab.getPos (Ab.setPos ?_)
  cases o with
  | none =>
    have hg : Gone toks := hp.resolve_left (by have := List.getElem?_eq_none_iff.1 ho; omega)
    exact Ab.err ((Reach.refl h).past ho hg) trivial
  | some t =>
    obtain ⟨tok, sp⟩ := t
    have hstep : tok ≠ .k .ParenthesesOpen → tok ≠ .k .ParenthesesClose → Reach toks (dep toks pos) pos (pos + 1) := fun h1 h2 =>
      (Reach.refl h).step ho (by rw [dep_other ho h1 h2]; exact Int.le_refl _)
    dsimp only
    split
    case h_10 =>
      have hr := hstep nofun nofun
      refine Ab.eatOther hr ⟨nofun, nofun⟩ (fun _ _ _ hr _ => Ab.pure hr nofun) fun _ => ?_
      refine Ab.bindE (parseEncapsList_ab hq hr.fits ⟨pos, Nat.lt_succ_self _, .inl (at_kind ho rfl)⟩) hr ?_
      ab
    case h_11 =>
      have hr := hstep nofun nofun
      refine Ab.bindE (parseEncapsList_ab hq hr.fits ⟨pos, Nat.lt_succ_self _, .inr (at_kind ho rfl)⟩) hr ?_
      ab
    case h_12 =>
      refine Ab.setPos (Ab.attempt (parseDereferencableScalar_ab hq h) (Reach.refl h) (fun _ _ hr _ _ hv => Ab.pure hr hv.1) ?_)
      intro _ p hr _ _ _
      exact Ab.tail hr (parseConstant_ab hr.fits)
    all_goals exact Ab.pure (hstep nofun nofun) nofun

/-! ## Functions -/

theorem parseTypeHint_ab (h : Okay toks pos) : At0 toks pos parseTypeHint := by
  unfold parseTypeHint
  ab
macro_rules | `(tactic| ab_call) => `(tactic| with_reducible exact Ab.tail (by reach) (parseTypeHint_ab (by okay)))

theorem parseDefault_ab {E : Nat → Prop} (hq : RecA toks r) (h : Okay toks pos) :
    Aq toks pos (parseDefault r) (fun _ p => p = pos ∨ pos < p ∧ (kinds toks)[pos]? = some (.k .Equal)) E := by
  unfold parseDefault
  refine Ab.eatsOther (Reach.refl h) ⟨nofun, nofun⟩ ?_ fun _ => Ab.pure (Reach.refl h) (.inl rfl)
  intro t ht hk hr _
  exact Ab.attempt (hq.1 _ _ hr.fits) hr (fun _ _ hr hp _ _ => Ab.pure hr (.inr ⟨by omega, at_kind ht hk⟩))
    fun _ _ hr hp _ _ => Ab.pure hr (.inr ⟨by omega, at_kind ht hk⟩)

/-- The last parameter is not followed by a comma. -/
def LastParam (toks : List TokSpan) (pos p : Nat) : Prop :=
  ∃ j v, pos ≤ j ∧ j < p ∧ (kinds toks)[j]? = some (.variable v) ∧ (p = j + 1 ∨ (kinds toks)[j + 1]? = some (.k .Equal)) ∧
    (kinds toks)[p]? ≠ some (.k .Comma)

theorem not_kind {i : Nat} {k : Kw} (h : ∀ u, toks[i]? = some u → u.tok ≠ .k k) : (kinds toks)[i]? ≠ some (.k k) := by
  rw [kinds_get]
  cases ht : toks[i]? with
  | none => nofun
  | some u => intro h'; exact h u ht (by simpa using h')

theorem parseParameterList_ab (hq : RecA toks r) (h : Okay toks pos) :
    Aq toks pos (parseParameterList r) (fun x p => x.2 = none → LastParam toks pos p) any0 := by
  unfold parseParameterList
  refine Ab.loop (fun _ _ => True) (Reach.refl h) trivial ?_
  intro ps p hr _
  refine Ab.bindT (parseTypeHint_ab hr.fits) hr ?_
  intro o p hr _ _
  cases o with
  | error e => exact Ab.pure hr ⟨nofun, fun a ha => by cases ha; nofun⟩
  | ok ty =>
    have key : ∀ {p} {b c : Bool}, Reach toks (dep toks pos) pos p → Ab toks (dep toks pos) pos p (do
        match ← eatVariable with
        | none =>
          let p ← getPos
          return .inr (ps, some ⟨[.variable []], p⟩)
        | some (name, _) =>
          match ← parseDefault r with
          | .error e => return .inr (ps, some e)
          | .ok d =>
            let params := ps ++ [.mk name b c ty d]
            if ← P.eats .Comma then return .inl params else return .inr (params, none))
        (fun (y : List Param ⊕ (List Param × Option PErr)) q => (∀ (x' : List Param), y = .inl x' → True) ∧ ∀ (a : List Param × Option PErr), y = .inr a → a.2 = none → LastParam toks pos q) any0 := by
      intro p b c hr
      refine Ab.eatVariable hr ?_ fun _ => Ab.getPos (Ab.pure hr ⟨nofun, fun a ha => by cases ha; nofun⟩)
      intro s sp ht hr' _
      refine Ab.bind (E0 := any0) (parseDefault_ab hq hr'.fits) hr' ?_ fun _ _ _ _ => trivial
      intro o q hr2 hp _ hd
      cases o with
      | error e => exact Ab.pure hr2 ⟨nofun, fun a ha => by cases ha; nofun⟩
      | ok d =>
        refine Ab.eatsOther hr2 ⟨nofun, nofun⟩ (fun _ _ _ hr3 _ => Ab.pure hr3 ⟨fun _ _ => trivial, nofun⟩) ?_
        intro hn
        refine Ab.pure hr2 ⟨nofun, fun a ha _ => ⟨p, s, hr.le, by omega, at_kind ht rfl, ?_, not_kind hn⟩⟩
        rcases hd with rfl | hd
        · exact .inl rfl
        · exact .inr hd.2
    refine Ab.eatsOther hr ⟨nofun, nofun⟩ (fun _ _ _ hr _ => ?_) fun _ => ?_
    · exact Ab.eatsOther hr ⟨nofun, nofun⟩ (fun _ _ _ hr _ => key hr) fun _ => key hr
    · exact Ab.eatsOther hr ⟨nofun, nofun⟩ (fun _ _ _ hr _ => key hr) fun _ => key hr

theorem nothing_of (h : toks.length < 1) : Fault toks .subOverflow :=
  .inl (.nothing (List.eq_nil_of_length_eq_zero (by rw [kinds_length]; omega)))

theorem parseInnerStatementList_ab (hq : RecA toks r) (h : Okay toks pos) : At0 toks pos (parseInnerStatementList r) := by
  unfold parseInnerStatementList
  refine Ab.tokCount (Ab.subP nothing_of fun _ => ?_)
  ab
macro_rules | `(tactic| ab_call) => `(tactic| with_reducible exact Ab.tail (by reach) (parseInnerStatementList_ab (by assumption) (by okay)))

theorem parseBraced_ab (hq : RecA toks r) (h : Okay toks pos) : Aq toks pos (parseBraced r) (fun _ _ => True) any0 := by
  unfold parseBraced
  ab
macro_rules | `(tactic| ab_call) => `(tactic| with_reducible exact Ab.tail (by reach) (parseBraced_ab (by assumption) (by okay)))

theorem parseUseVars_ab (h : Okay toks pos) : At0 toks pos parseUseVars := by
  unfold parseUseVars
  ab
macro_rules | `(tactic| ab_call) => `(tactic| with_reducible exact Ab.tail (by reach) (parseUseVars_ab (by okay)))

/-- The parameters of a function are next. -/
def FnHead (toks : List TokSpan) (pos : Nat) : Prop :=
  ∃ i, i < pos ∧ (kinds toks)[i]? = some (.k .Function) ∧
    ∀ k t, i < k → k < pos → (kinds toks)[k]? = some t → t = .k .Ampersand ∨ ∃ s, t = .string s

theorem FnHead.begin {i : Nat} {t : TokSpan} (ht : toks[i]? = some t) (hk : t.tok = .k .Function) : FnHead toks (i + 1) :=
  ⟨i, Nat.lt_succ_self _, at_kind ht hk, fun _ _ h1 h2 => absurd h1 (by omega)⟩

theorem FnHead.step {i : Nat} {t : TokSpan} (h : FnHead toks i) (ht : toks[i]? = some t) (hk : t.tok = .k .Ampersand ∨ ∃ s, t.tok = .string s) :
    FnHead toks (i + 1) := by
  obtain ⟨f, h1, h2, h3⟩ := h
  refine ⟨f, by omega, h2, fun k u h4 h5 hu => ?_⟩
  rcases Nat.lt_or_ge k i with hk' | hk'
  · exact h3 k u h4 hk' hu
  · rw [show k = i by omega, at_kind ht rfl] at hu
    cases hu
    exact hk

theorem parseFunctionTail_ab {c a b : Bool} (hq : RecA toks r) (h : Okay toks pos) (hf : FnHead toks pos) :
    At0 toks pos (parseFunctionTail r c a b) := by
  unfold parseFunctionTail
  refine Ab.expectOpen (Reach.refl h) trivial ?_
  intro t ht hk hr e
  refine Ab.bind (V := fun x p => Reach toks (dep toks (pos + 1)) (pos + 1) p ∧ (x.2 = none → LastParam toks (pos + 1) p))
    ((parseParameterList_ab hq hr.fits).weak (fun _ _ hr h => ⟨hr, h⟩) fun _ _ h => h) hr ?_ fun _ _ _ _ => trivial
  rintro ⟨ps, perr⟩ p hr hp _ ⟨hr1, hl⟩
  refine Ab.eatClose hr (by omega) ?_ ?_
  · intro _ _ _ hr _
    ab
  · intro hn
    cases perr with
    | some e => exact Ab.fail hr trivial
    | none =>
      obtain ⟨j, v, h1, h2, h3, h4, h5⟩ := hl rfl
      obtain ⟨i, hi, hi', hi2⟩ := hf
      refine Ab.cause (.param i pos j p v hi' hi hi2 ⟨at_kind ht hk, fun c h6 h7 => ?_⟩ (by omega) h2 h3 h4 h5 (not_kind hn))
      have := hr1.deep c h6 h7
      show dep toks pos < dep toks c
      omega

theorem parseFunctionNamed_ab {sp : Span} {a : Bool} (hq : RecA toks r) (h : Okay toks pos) (hf : FnHead toks pos) :
    At0 toks pos (parseFunctionNamed r sp a) := by
  unfold parseFunctionNamed
  have key : ∀ {p} {b : Bool}, Reach toks (dep toks pos) pos p → FnHead toks p → Ab toks (dep toks pos) pos p (do
      let (name, _) ← expectString
      let (decl, stop) ← parseFunctionTail r false a b
      return (name, decl, mkSpan sp.start stop)) (fun _ _ => True) any0 := by
    intro p b hr hf
    refine Ab.expectString hr trivial ?_
    intro s _ ht hr _
    refine Ab.bindT (parseFunctionTail_ab hq hr.fits (hf.step ht (.inr ⟨s, rfl⟩))) hr ?_
    ab
  refine Ab.eatsOther (Reach.refl h) ⟨nofun, nofun⟩ (fun t ht hk hr _ => ?_) fun _ => key (Reach.refl h) hf
  exact key hr (hf.step ht (.inl hk))

theorem parseClosure_ab {sp : Span} (hq : RecA toks r) (h : Okay toks pos) (hf : FnHead toks pos) :
    Aq toks pos (parseClosure r sp) (Inst toks) any0 := by
  unfold parseClosure
  have key : ∀ {p} {b : Bool}, Reach toks (dep toks pos) pos p → FnHead toks p → Ab toks (dep toks pos) pos p (do
      let (decl, stop) ← parseFunctionTail r true false b
      return .mk (.function decl) (mkSpan sp.start stop)) (Inst toks) any0 := by
    intro p b hr hf
    refine Ab.bindT (parseFunctionTail_ab hq hr.fits hf) hr ?_
    ab
  refine Ab.eatsOther (Reach.refl h) ⟨nofun, nofun⟩ (fun t ht hk hr _ => ?_) fun _ => key (Reach.refl h) hf
  exact key hr (hf.step ht (.inl hk))


/-! ## Operators -/

theorem parseNew_ab {t : TokSpan} (hq : RecA toks r) (h : Okay toks pos) (h0 : 0 < pos) : Aq toks pos (parseNew r t) (Inst toks) any0 := by
  unfold parseNew
  ab

theorem parseExit_ab {t : TokSpan} (hq : RecA toks r) (h : Okay toks pos) : Aq toks pos (parseExit r t) (Inst toks) any0 := by
  unfold parseExit
  ab
macro_rules | `(tactic| ab_call) => `(tactic| with_reducible exact Ab.tail (by reach) (parseExit_ab (by assumption) (by okay)))
macro_rules | `(tactic| ab_call) => `(tactic| with_reducible exact Ab.tail (by reach) (Ab.any (parseExit_ab (by assumption) (by okay))))

theorem parseYield_ab {t : TokSpan} (hq : RecA toks r) (h : Okay toks pos) (h0 : 0 < pos) : Aq toks pos (parseYield r t) (Inst toks) any0 := by
  unfold parseYield
  ab

theorem parseIsset_ab {sp : Span} (hq : RecA toks r) (h : Okay toks pos) : Aq toks pos (parseIsset r sp) (Inst toks) any0 := by
  unfold parseIsset
  ab
macro_rules | `(tactic| ab_call) => `(tactic| with_reducible exact Ab.tail (by reach) (parseIsset_ab (by assumption) (by okay)))
macro_rules | `(tactic| ab_call) => `(tactic| with_reducible exact Ab.tail (by reach) (Ab.any (parseIsset_ab (by assumption) (by okay))))

theorem parseEmpty_ab {sp : Span} (hq : RecA toks r) (h : Okay toks pos) : Aq toks pos (parseEmpty r sp) (Inst toks) any0 := by
  unfold parseEmpty
  ab
macro_rules | `(tactic| ab_call) => `(tactic| with_reducible exact Ab.tail (by reach) (parseEmpty_ab (by assumption) (by okay)))
macro_rules | `(tactic| ab_call) => `(tactic| with_reducible exact Ab.tail (by reach) (Ab.any (parseEmpty_ab (by assumption) (by okay))))

theorem parseInternal_ab {k : Kw} {sp sp' : Span} {m : P Expr} {i : Nat} (hq : RecA toks r) (h : Okay toks (i + 1)) (hi : toks[i]? = some ⟨.k k, sp'⟩)
    (hm : parseInternal r k sp = some m) : Aq toks (i + 1) m (Inst toks) any0 := by
  unfold parseInternal at hm
  split at hm
  · next hk =>
    subst hk
    cases hm
    exact Ab.cause (.unset i (at_kind hi rfl))
  · split at hm
    · cases hm
      exact parseIsset_ab hq h
    · split at hm
      · cases hm
        exact parseEmpty_ab hq h
      · split at hm
        · cases hm
          ab
        · split at hm
          · cases hm
            ab
          · cases hm

theorem internal_paren {k : Kw} {sp : Span} {m : P Expr} (hm : parseInternal r k sp = some m) : k ≠ .ParenthesesOpen ∧ k ≠ .ParenthesesClose := by
  refine ⟨?_, ?_⟩
  · rintro rfl
    have : parseInternal r .ParenthesesOpen sp = none := rfl
    rw [this] at hm; cases hm
  · rintro rfl
    have : parseInternal r .ParenthesesClose sp = none := rfl
    rw [this] at hm; cases hm

theorem parseListTarget_ab {t : TokSpan} (hq : RecA toks r) (h : Okay toks pos) : Aq toks pos (parseListTarget r t) (Inst toks) any0 := by
  unfold parseListTarget
  ab
macro_rules | `(tactic| ab_call) => `(tactic| with_reducible exact Ab.tail (by reach) (parseListTarget_ab (by assumption) (by okay)))
macro_rules | `(tactic| ab_call) => `(tactic| with_reducible exact Ab.tail (by reach) (Ab.any (parseListTarget_ab (by assumption) (by okay))))

theorem assign_paren {k : Kw} {o : Op} (h : k.assignOp = some o) : k ≠ .ParenthesesOpen ∧ k ≠ .ParenthesesClose :=
  ⟨fun e => (by rw [e] at h; cases h), fun e => (by rw [e] at h; cases h)⟩

/-- Consuming a token that is not a parenthesis. -/
theorem Reach.pass {t : Token} (hr : Reach toks base lo pos) (ht : toks[pos]?.map TokSpan.tok = some t) (h1 : t ≠ .k .ParenthesesOpen)
    (h2 : t ≠ .k .ParenthesesClose) : Reach toks base lo (pos + 1) := by
  cases hu : toks[pos]? with
  | none => rw [hu] at ht; cases ht
  | some u =>
    rw [hu] at ht
    have ht : u.tok = t := Option.some.inj ht
    exact hr.step hu (by rw [dep_other hu (by rw [ht]; exact h1) (by rw [ht]; exact h2)]; exact hr.floor)

theorem parseAssign_ab {target : Expr} (hq : RecA toks r) (h : Okay toks pos) (ht : Inst toks target pos) :
    Aq toks pos (parseAssign r target) (Inst toks) any0 := by
  unfold parseAssign
  refine Ab.peekTok ?_
  intro o ho
  dsimp only
  cases hop : (o.bind fun t => t.kw?.bind Kw.assignOp) with
  | none => exact Ab.pure (Reach.refl h) ht
  | some op =>
    have hr : Reach toks (dep toks pos) pos (pos + 1) := by
      cases o with
      | none => cases hop
      | some t =>
        cases t with
        | k k =>
          have := assign_paren (k := k) (o := op) hop
          exact (Reach.refl h).pass ho (by intro h; cases h; exact this.1 rfl) (by intro h; cases h; exact this.2 rfl)
        | _ => cases hop
    have key : ∀ {s : Span} {b : Bool} {e : Expr} {q : Nat}, Inst toks (.mk (assignKind op b target e) s) q := by
      intro s b e q h
      exfalso
      revert h
      unfold assignKind
      split <;> exact nofun
    refine Ab.getPos (Ab.setPos ?_)
    by_cases ho : op = .Eq
    · rw [if_pos ho]
      refine Ab.eatsOther hr ⟨nofun, nofun⟩ (fun _ _ _ hr _ => ?_) fun _ => ?_
      all_goals
        refine Ab.bindE (hq.1 _ _ hr.fits) hr ?_
        intro e p hr hp _ _
        exact Ab.lastEnd hr (by omega) fun _ => Ab.pure hr key
    · rw [if_neg ho]
      refine Ab.pureBind (Ab.bindE (hq.1 _ _ hr.fits) hr ?_)
      intro e p hr hp _ _
      exact Ab.lastEnd hr (by omega) fun _ => Ab.pure hr key

theorem parseNonVariable_ab {err : PErr} (hq : RecA toks r) (h : Okay toks pos) (hp : pos < toks.length ∨ Gone toks) :
    Aq toks pos (parseNonVariable r err) (Inst toks) any0 := by
  unfold parseNonVariable
  refine Ab.eatOpen (Reach.refl h) ?_ fun _ => ?_
  · intro t ht hk hr _
    ab
  · refine Ab.attempt (parseScalar_ab hq h hp) (Reach.refl h) (fun _ _ hr _ _ hv => Ab.pure hr hv) ?_
    intro _ p hr _ _ _
    exact Ab.unpack hr trivial

theorem Stuck.fits {p : Nat} (h : Stuck toks pos p) : p < toks.length ∨ Gone toks := by
  obtain ⟨i, _, _, h1, h2⟩ := h
  rcases Nat.lt_or_ge p toks.length with hp | hp
  · exact .inl hp
  · exact .inr ⟨i, h1, fun c h3 h4 => h2 c h3 (by omega)⟩

theorem parseVariableOrScalar_ab (hq : RecA toks r) (h : pos < toks.length) :
    Aq toks pos (parseVariableOrScalar r) (Inst toks) any0 := by
  have h' : Okay toks pos := .inl (Nat.le_of_lt h)
  unfold parseVariableOrScalar
  refine Ab.attempt (parseVariable_ab hq h') (Reach.refl h') ?_ ?_
  · intro e p hr _ _ hv
    exact Ab.tail hr (parseAssign_ab hq hr.fits hv.1)
  · intro err p hr _ _ hs
    refine Ab.eatOther hr ⟨nofun, nofun⟩ ?_ fun _ => ?_
    · intro t ht hk hr _
      refine Ab.bindE (parseListTarget_ab hq hr.fits) hr ?_
      intro e p hr _ _ hv
      exact Ab.tail hr (parseAssign_ab hq hr.fits hv)
    · refine Ab.tail hr (parseNonVariable_ab hq hr.fits ?_)
      rcases hs with rfl | hs
      · exact .inl h
      · exact hs.fits

theorem parseOtherExpression_ab (hq : RecA toks r) (h : pos < toks.length) :
    Aq toks pos (parseOtherExpression r) (Inst toks) any0 := by
  have h' : Okay toks pos := .inl (Nat.le_of_lt h)
  unfold parseOtherExpression
  refine Ab.peek ?_
  intro o ho
  split
  · next k sp =>
    have hstep : k ≠ .ParenthesesOpen ∧ k ≠ .ParenthesesClose → Reach toks (dep toks pos) pos (pos + 1) := fun hk =>
      (Reach.refl h').pass (t := .k k) (by rw [ho]; rfl) (by intro h; cases h; exact hk.1 rfl) (by intro h; cases h; exact hk.2 rfl)
    refine Ab.getPos ?_
    refine Ab.ite (fun hk => Ab.setPos ?_) fun _ => ?_
    · have hr := hstep (by rw [hk]; exact ⟨nofun, nofun⟩)
      exact Ab.tail hr (parseNew_ab hq hr.fits (Nat.succ_pos _))
    refine Ab.ite (fun hk => Ab.setPos ?_) fun _ => ?_
    · have hr := hstep (by rw [hk]; exact ⟨nofun, nofun⟩)
      ab
    refine Ab.ite (fun hk => Ab.setPos ?_) fun _ => ?_
    · have hr := hstep (by rw [hk]; exact ⟨nofun, nofun⟩)
      exact Ab.tail hr (parseExit_ab hq hr.fits)
    refine Ab.ite (fun hk => Ab.setPos ?_) fun _ => ?_
    · have hr := hstep (by rw [hk]; exact ⟨nofun, nofun⟩)
      exact Ab.tail hr (parseYield_ab hq hr.fits (Nat.succ_pos _))
    refine Ab.ite (fun hk => Ab.setPos ?_) fun _ => ?_
    · have hr := hstep (by rw [hk]; exact ⟨nofun, nofun⟩)
      exact Ab.tail hr (parseClosure_ab hq hr.fits (FnHead.begin ho (by rw [hk])))
    cases hm : parseInternal r k sp with
    | some m =>
      have hr := hstep (internal_paren hm)
      exact Ab.setPos (Ab.tail hr (parseInternal_ab hq hr.fits ho hm))
    | none => exact parseVariableOrScalar_ab hq h
  · exact parseVariableOrScalar_ab hq h

theorem parsePostfixExpression_ab (hq : RecA toks r) (h : pos < toks.length) :
    Aq toks pos (parsePostfixExpression r) (Inst toks) any0 := by
  have h' : Okay toks pos := .inl (Nat.le_of_lt h)
  unfold parsePostfixExpression
  refine Ab.bindE (parseOtherExpression_ab hq h) (Reach.refl h') ?_
  ab

theorem parseTernary_ab {left : Expr} {prec : Prec} (hq : RecA toks r) (h : Okay toks pos) : Aq toks pos (parseTernary r left prec) (Inst toks) any0 := by
  unfold parseTernary
  ab
macro_rules | `(tactic| ab_call) => `(tactic| with_reducible exact Ab.tail (by reach) (parseTernary_ab (by assumption) (by okay)))
macro_rules | `(tactic| ab_call) => `(tactic| with_reducible exact Ab.tail (by reach) (Ab.any (parseTernary_ab (by assumption) (by okay))))

theorem parseInstanceOf_ab {left : Expr} {i : Nat} {t : TokSpan} (hq : RecA toks r) (h : Okay toks (i + 1)) (hl : Inst toks left i)
    (ht : toks[i]? = some t) (hk : t.tok = .k .InstanceOf) : Aq toks (i + 1) (parseInstanceOf r left) (Inst toks) any0 := by
  unfold parseInstanceOf
  refine Ab.ite (fun hi => ?_) fun _ => ?_
  · obtain ⟨j, h1, h2⟩ := hl hi
    exact Ab.cause (.instanceOf j i h1 h2 (at_kind ht hk))
  · refine Ab.bindE (parseClassNameReference_ab hq h) (Reach.refl h) ?_
    intro e p hr hp _ _
    exact Ab.pure hr fun _ => ⟨i, hp, at_kind ht hk⟩

theorem binary_ops {k : Kw} {np : Prec} (h : k.precedence = some np) (h1 : k ≠ .QuestionMark) (h2 : k ≠ .InstanceOf) :
    (∃ op, k.binaryOp = some op) ∧ ∃ a, k.associativity = some a ∧
      ∃ p, (match a with | .right => Prec.fromNat? (np.toNat - 1) | .left => some np) = some p := by
  cases k <;> first
    | cases h; done
    | exact absurd rfl h1
    | exact absurd rfl h2
    | (cases h; exact ⟨⟨_, rfl⟩, _, rfl, _, rfl⟩)

theorem precedence_paren {k : Kw} {np : Prec} (h : k.precedence = some np) : k ≠ .ParenthesesOpen ∧ k ≠ .ParenthesesClose :=
  ⟨fun e => (by rw [e] at h; cases h), fun e => (by rw [e] at h; cases h)⟩

theorem parseBinaryRest_ab {left : Expr} {k : Kw} {np : Prec} (hq : RecA toks r) (h : Okay toks pos) (hk : k.precedence = some np)
    (h1 : k ≠ .QuestionMark) (h2 : k ≠ .InstanceOf) : Aq toks pos (parseBinaryRest r left k np) (Inst toks) any0 := by
  obtain ⟨⟨op, ho⟩, a, ha, p, hp⟩ := binary_ops hk h1 h2
  unfold parseBinaryRest
  rw [ho]
  dsimp only
  rw [ha]
  cases a with
  | left =>
    cases hp
    refine Ab.bindE (hq.1 _ _ h) (Reach.refl h) ?_
    ab
  | right =>
    dsimp only at hp ⊢
    rw [hp]
    refine Ab.bindE (hq.1 _ _ h) (Reach.refl h) ?_
    ab

theorem parseBinaryExpression_ab {left : Expr} {prec : Prec} (hq : RecA toks r) (h : Okay toks pos) (hl : Inst toks left pos) :
    Aq toks pos (parseBinaryExpression r left prec) (fun o p => ∀ e, o = some e → Inst toks e p) any0 := by
  unfold parseBinaryExpression
  refine Ab.peekTok ?_
  intro o ho
  dsimp only
  cases hk : o.bind Token.kw? with
  | none => exact Ab.pure (Reach.refl h) nofun
  | some k =>
    have ht : toks[pos]?.map TokSpan.tok = some (.k k) := by
      cases o with
      | none => cases hk
      | some t =>
        cases t with
        | k k' => cases hk; exact ho
        | _ => cases hk
    dsimp only
    cases hp : k.precedence with
    | none => exact Ab.pure (Reach.refl h) nofun
    | some np =>
      refine Ab.ite (fun _ => Ab.pure (Reach.refl h) nofun) fun _ => Ab.getPos (Ab.setPos ?_)
      have hpar := precedence_paren hp
      have hr := (Reach.refl h).pass ht (by intro h; cases h; exact hpar.1 rfl) (by intro h; cases h; exact hpar.2 rfl)
      refine Ab.bindE (Ab.ite (fun _ => parseTernary_ab hq hr.fits) fun h1 => Ab.ite (fun h2 => ?_) fun h2 => parseBinaryRest_ab hq hr.fits hp h1 h2) hr ?_
      · cases hu : toks[pos]? with
        | none => rw [hu] at ht; cases ht
        | some u =>
          rw [hu] at ht
          exact parseInstanceOf_ab hq hr.fits hl hu (by rw [← h2]; exact Option.some.inj ht)
      · intro e p hr _ _ he
        exact Ab.pure hr fun x hx => by cases hx; exact he

theorem prefix_paren {k : Kw} {o : UnaryOp} (h : k.prefixOp = some o) : k ≠ .ParenthesesOpen ∧ k ≠ .ParenthesesClose :=
  ⟨fun e => (by rw [e] at h; cases h), fun e => (by rw [e] at h; cases h)⟩

theorem parseOperand_ab (hq : RecA toks r) (h : Okay toks pos) : Aq toks pos (parseOperand r) (Inst toks) any0 := by
  unfold parseOperand
  refine Ab.peek ?_
  intro o ho
  cases o with
  | none => exact Ab.err (Reach.refl h) trivial
  | some t =>
    obtain ⟨tok, sp⟩ := t
    dsimp only
    cases hop : tok.kw?.bind Kw.prefixOp with
    | none => exact parsePostfixExpression_ab hq (lt_of_get ho)
    | some op =>
      have hr : Reach toks (dep toks pos) pos (pos + 1) := by
        cases tok with
        | k k =>
          have := prefix_paren (k := k) (o := op) hop
          exact (Reach.refl h).pass (t := .k k) (by rw [ho]; rfl) (by intro h; cases h; exact this.1 rfl) (by intro h; cases h; exact this.2 rfl)
        | _ => cases hop
      refine Ab.getPos (Ab.setPos (Ab.bindE (hq.1 _ _ hr.fits) hr ?_))
      ab

theorem parseExpression_ab {prec : Prec} (hq : RecA toks r) (h : Okay toks pos) : Aq toks pos (parseExpression r prec) (Inst toks) any0 := by
  unfold parseExpression
  refine Ab.bindE (parseOperand_ab hq h) (Reach.refl h) ?_
  intro left p hr _ _ hl
  refine Ab.loop (fun e p => Inst toks e p) hr hl ?_
  intro left p hr hl
  refine Ab.attempt (parseBinaryExpression_ab hq hr.fits hl) hr ?_ ?_
  · intro o p' hr hp _ ho
    cases o with
    | some l => exact Ab.pure hr ⟨fun x hx => by cases hx; exact ho l rfl, nofun⟩
    | none => exact Ab.pure hr ⟨nofun, fun x hx => by cases hx; exact hl.mono hp⟩
  · intro _ p' hr hp _ _
    exact Ab.pure hr ⟨nofun, fun x hx => by cases hx; exact hl.mono hp⟩

end Pico
