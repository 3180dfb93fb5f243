import Verif.Lemmas.RtExpr
/-!
# The printed form of indices, members and calls
-/
namespace Pico

variable {dbl : Text → Text}

/-! ### Indices -/

theorem idxs_piece (i : Nat) : ∀ idxs : List (Option Expr), (∀ e ∈ idxs, ∀ e', e = some e' → EClaim dbl e') →
    ∃ is ts, Piece 0 0 Any (cIdxs dbl i idxs) is ts ∧ ∀ simple b us e',
      Derives (.apps simple ((eraseOpts idxs).foldl withIndex b)) us e' → Derives (.apps simple b) (ts ++ us) e'
  | [], _ => ⟨[], [], .nil _, fun _ _ _ _ h => h⟩
  | none :: idxs, h => by
    obtain ⟨is, ts, hp, hd⟩ := idxs_piece i idxs fun e he => h e (List.mem_cons_of_mem _ he)
    refine ⟨_, _, (litA c!"[" [.k .SquareBracketOpen] 0 0 (by decide) rfl).free ((litA c!"]" [.k .SquareBracketClose] 0 0 (by decide) rfl).free hp), ?_⟩
    intro simple b us e' hd'
    exact .a_index .o_none (hd _ _ _ _ hd')
  | some e :: idxs, h => by
    obtain ⟨is, ts, hp, hd⟩ := idxs_piece i idxs fun e he => h e (List.mem_cons_of_mem _ he)
    obtain ⟨js, us, he⟩ := h _ (List.mem_cons_self ..) e rfl i
    obtain ⟨s, hs⟩ := he.any
    refine ⟨_, _, (litA c!"[" [.k .SquareBracketOpen] 0 0 (by decide) rfl).free
      (he.pc'.then ((litA c!"]" [.k .SquareBracketClose] 0 0 (by decide) rfl).free hp) (by decide)), ?_⟩
    intro simple b us' e' hd'
    have := DerivesX.a_index (.o_some hs) (hd _ _ _ _ hd')
    simpa using this

theorem foldl_index (e : Expr) (acc : List (Option Expr)) (sp : Span) : ∀ idxs, idxs ≠ [] →
    idxs.foldl withIndex (.mk (.arrayIdx e acc) sp) = bare (.arrayIdx e (acc ++ idxs))
  | [], h => absurd rfl h
  | [i], _ => rfl
  | i :: j :: is, _ => by
    rw [List.foldl_cons, show withIndex (.mk (.arrayIdx e acc) sp) i = bare (.arrayIdx e (acc ++ [i])) from rfl, foldl_index e _ _ (j :: is) nofun]
    simp

theorem isArrayIdx_erase {e : Expr} (h : e.isArrayIdx = false) (i : Option Expr) : withIndex e.erase i = bare (.arrayIdx e.erase [i]) := by
  obtain ⟨k, sp⟩ := e
  cases k with
  | arrayIdx => cases h
  | _ => rfl

theorem withIndexes {e : Expr} (h : e.isArrayIdx = false) : ∀ idxs, idxs ≠ [] → idxs.foldl withIndex e.erase = bare (.arrayIdx e.erase idxs)
  | [], hne => absurd rfl hne
  | [i], _ => isArrayIdx_erase h i
  | i :: j :: is, _ => by
    rw [List.foldl_cons, isArrayIdx_erase h, foldl_index _ _ _ (j :: is) nofun]
    rfl

theorem isVarName_unwrapped {e : Expr} (h : e.isVarName = true) : e.kind.bracketed = false := by
  obtain ⟨k, sp⟩ := e
  cases k with
  | var v => rfl
  | _ => cases h

/-- Behind a base comes something that begins with one of the signs `[`, `->`, `::`. -/
theorem EC.base {i : Nat} {b : Expr} {is : List Item} {ts : List Token} (h : EC dbl i b is ts) (hb : baseOk b = true) {x : Char} {t : Text}
    {cs : List Chunk} {js : List Item} {us : List Token} {P : Text → Prop} (hp : Piece 0 0 P (.text (x :: t) :: cs) js us) (hx : folChar x = true) :
    ∃ is' ts', Piece 0 0 P (cParens false b (cExpr dbl i b) ⧺ .text (x :: t) :: cs) is' (ts' ++ us) ∧ Starts (opLead b) is' ∧ leadFree (opLead b) = true ∧
      (∀ us e', Derives (.apps false b.erase) us e' → Derives .var (ts' ++ us) e') ∧
      (b.isVarName = true → ∀ us e', Derives (.apps true b.erase) us e' → Derives .cref (ts' ++ us) e') := by
  by_cases hv : b.isVarName = true
  · have hw := isVarName_unwrapped hv
    refine ⟨is ++ js, ts, ?_, ?_, ?_, h.vr (isVarName_isVar hv), h.cv⟩
    · rw [unwrapped_text _ _ _ hw]
      exact h.pc.then hp hx
    · rw [opLead, hw]; exact h.st.append
    · rw [opLead, hw]; exact h.nf
  · obtain ⟨is', ts', oc, hd⟩ := h.operand
    exact ⟨_, ts', oc.pc.then hp hx, oc.st.append, oc.nf, hd hb, fun h => absurd h hv⟩

theorem ec_arrayIdx {b : Expr} {idxs : List (Option Expr)} (hb : EClaim dbl b) (hk : baseOk b = true) (hm : b.isArrayIdx = false) (hne : idxs ≠ [])
    (hi : ∀ e ∈ idxs, ∀ e', e = some e' → EClaim dbl e') (sp : Span) : EClaim dbl (.mk (.arrayIdx b idxs) sp) := by
  intro i
  obtain ⟨js, us, hp, hd⟩ := idxs_piece i idxs hi
  obtain ⟨is, ts, hb⟩ := hb i
  have hne' : eraseOpts idxs ≠ [] := by cases idxs with
    | nil => exact absurd rfl hne
    | cons => exact nofun
  have hw := withIndexes hm (eraseOpts idxs) hne'
  have hp' : ∃ cs, cIdxs dbl i idxs = .text c!"[" :: cs := by
    cases idxs with
    | nil => exact absurd rfl hne
    | cons e es => cases e <;> exact ⟨_, rfl⟩
  obtain ⟨cs, hcs⟩ := hp'
  rw [hcs] at hp
  obtain ⟨is', ts', h1, h2, h3, h4, h5⟩ := hb.base hk hp rfl
  refine ⟨is', ts' ++ us, .ofVar ?_ h2 h3 rfl rfl ?_ nofun ?_⟩
  · have : cExpr dbl i (.mk (.arrayIdx b idxs) sp) = cParens false b (cExpr dbl i b) ⧺ cIdxs dbl i idxs := rfl
    rw [this, hcs]
    exact h1.mono fun _ _ => trivial
  · intro vs e' hd'
    rw [List.append_assoc]
    exact h4 _ _ (hd _ _ _ _ (by rw [hw]; exact hd'))
  · intro hc
    have := h5 hc (us ++ []) _ (hd true _ _ _ (by rw [hw]; exact .a_nil _ _))
    rwa [List.append_nil] at this

/-! ### Members -/

/-- What stands behind `->`. -/
def MemC (dbl : Text → Text) (e : Expr) : Prop := propName e = true ∨ simpleVar e = true ∨ (e.kind.bracketed = true ∧ EClaim dbl e)

theorem arrow_id {n : Text} {rest : Text} (h : isIdentifier n = true) : (Lexeme.sym c!"->" .ObjectOp).Before false (n ++ rest) := by
  cases n with
  | nil => cases h
  | cons c cs =>
    simp only [isIdentifier, Bool.and_eq_true] at h
    refine ⟨fun x hx => ?_, nofun, nofun⟩
    cases hx
    exact stops_id h.1.1 nofun

theorem mem_piece {e : Expr} (h : MemC dbl e) (i : Nat) : ∃ is ts, Piece 0 0 (Fo false) (w c!"->" ⧺ cParens true e (cExpr dbl i e)) is (.k .ObjectOp :: ts) ∧
    Derives .prop ts e.erase := by
  rcases h with h | h | ⟨hw, h⟩
  · obtain ⟨k, sp⟩ := e
    cases k with
    | path p =>
      simp only [propName, Bool.and_eq_true, Bool.not_eq_true', beq_iff_eq, propOk, bne_iff_ne] at h
      obtain ⟨⟨h1, h2⟩, h3, h4⟩ := h
      obtain ⟨abs, ns, id⟩ := p
      dsimp only at h1 h2 h3 h4
      subst h1 h2
      refine ⟨[.lex (.sym c!"->" .ObjectOp), .lex (.word id)], [.string id], ⟨?_, rfl, rfl, fun _ => rfl, fun rest hr => ?_, rfl⟩, .p_word id⟩
      · rw [unwrapped_text _ _ _ rfl]
        show chunkText (w c!"->" ⧺ cPath ⟨false, none, id⟩) = _
        simp [cPath, cnd, opt, w, chunkText, render, Item.text, Lexeme.text]
      · refine ⟨(by decide : _ ∈ symbols), ?_, ⟨h3, h4⟩, ⟨hr.ident, nofun⟩, trivial⟩
        show (Lexeme.sym c!"->" .ObjectOp).Before false ((id ++ []) ++ rest)
        rw [List.append_nil]
        exact arrow_id h3
    | _ => cases h
  · obtain ⟨k, sp⟩ := e
    cases k with
    | var v =>
      cases v with
      | name n =>
        refine ⟨[.lex (.sym c!"->" .ObjectOp), .lex (.var n)], [.variable n], ⟨?_, rfl, rfl, fun _ => rfl, fun rest hr => ?_, rfl⟩, .p_var n⟩
        · rw [unwrapped_text _ _ _ rfl]
          show chunkText (w c!"->" ⧺ w c!"$" ⧺ w n) = _
          simp [w, chunkText, render, Item.text, Lexeme.text]
        · refine ⟨(by decide : _ ∈ symbols), ⟨fun x hx => ?_, nofun, nofun⟩, h, hr.ident, trivial⟩
          cases hx
          decide
      | fetch e => cases h
    | _ => cases h
  · obtain ⟨is, ts, he⟩ := h i
    obtain ⟨s, hs⟩ := he.any
    have h1 : Piece 0 1 Any (w c!"->" ⧺ w c!"{") [.lex (.sym c!"->" .ObjectOp), .lex (.sym c!"{" .CurlyBracesOpen)] [.k .ObjectOp, .k .CurlyBracesOpen] :=
      ⟨rfl, rfl, rfl, fun _ => rfl, fun rest _ => ⟨(by decide : _ ∈ symbols), ⟨fun x hx => by cases hx; decide, nofun, nofun⟩, (by decide : _ ∈ symbols),
        ⟨fun x _ => solid_stops (by decide) x, nofun, nofun⟩, trivial⟩, rfl⟩
    have h2 := h1.free ((he.pc'.up 1).then (litA c!"}" [.k .CurlyBracesClose] 1 0 (by decide) rfl) (by decide))
    refine ⟨_, _, (h2.mono fun _ _ => trivial).text ?_, .p_expr hs⟩
    rw [wrapped_text _ _ _ hw]
    rfl

theorem mems_piece (i : Nat) : ∀ ms : List Expr, (∀ e ∈ ms, MemC dbl e) →
    ∃ is ts, Piece 0 0 (Fo false) (cMemberNames dbl i c!"->" true ms) is ts ∧ ∀ simple b us e',
      Derives (.apps simple ((eraseExprs ms).foldl withMember b)) us e' → Derives (.apps simple b) (ts ++ us) e'
  | [], _ => ⟨[], [], .nil _, fun _ _ _ _ h => h⟩
  | [m], h => by
    obtain ⟨js, us, he, hd⟩ := mem_piece (h m (by simp)) i
    refine ⟨_, _, he.text ?_, fun simple b us e' hd' => .a_member hd hd'⟩
    show chunkText (w c!"->" ⧺ cParens true m (cExpr dbl i m) ⧺ []) = _
    rw [List.append_nil]
  | m :: m2 :: ms, h => by
    obtain ⟨is, ts, hp, hd⟩ := mems_piece i (m2 :: ms) fun e he => h e (List.mem_cons_of_mem _ he)
    obtain ⟨js, us, he, hd2⟩ := mem_piece (h m (by simp)) i
    refine ⟨_, _, (he.then hp (by decide)).text ?_, ?_⟩
    · show chunkText (w c!"->" ⧺ cParens true m (cExpr dbl i m) ⧺ cMemberNames dbl i c!"->" true (m2 :: ms)) = _
      rw [← List.append_assoc]
      rfl
    · intro simple b us' e' hd'
      have := DerivesX.a_member hd2 (hd _ _ _ _ hd')
      simpa using this

theorem foldl_member (e : Expr) (acc : List Expr) (sp : Span) : ∀ ms, ms ≠ [] →
    ms.foldl withMember (.mk (.objMember e acc) sp) = bare (.objMember e (acc ++ ms))
  | [], h => absurd rfl h
  | [i], _ => rfl
  | i :: j :: is, _ => by
    rw [List.foldl_cons, show withMember (.mk (.objMember e acc) sp) i = bare (.objMember e (acc ++ [i])) from rfl, foldl_member e _ _ (j :: is) nofun]
    simp

theorem isObjMember_erase {e : Expr} (h : e.isObjMember = false) (i : Expr) : withMember e.erase i = bare (.objMember e.erase [i]) := by
  obtain ⟨k, sp⟩ := e
  cases k with
  | objMember => cases h
  | _ => rfl

theorem withMembers {e : Expr} (h : e.isObjMember = false) : ∀ ms, ms ≠ [] → ms.foldl withMember e.erase = bare (.objMember e.erase ms)
  | [], hne => absurd rfl hne
  | [i], _ => isObjMember_erase h i
  | i :: j :: is, _ => by
    rw [List.foldl_cons, isObjMember_erase h, foldl_member _ _ _ (j :: is) nofun]
    rfl

theorem eraseExprs_ne {es : List Expr} (h : es ≠ []) : eraseExprs es ≠ [] := by
  cases es with
  | nil => exact absurd rfl h
  | cons => exact nofun

theorem ec_objMember {b : Expr} {ms : List Expr} (hb : EClaim dbl b) (hk : baseOk b = true) (hm : b.isObjMember = false) (hne : ms ≠ [])
    (hi : ∀ e ∈ ms, MemC dbl e) (sp : Span) : EClaim dbl (.mk (.objMember b ms) sp) := by
  intro i
  obtain ⟨js, us, hp, hd⟩ := mems_piece i ms hi
  obtain ⟨is, ts, hb⟩ := hb i
  have hw := withMembers hm (eraseExprs ms) (eraseExprs_ne hne)
  have hp' : ∃ cs, cMemberNames dbl i c!"->" true ms = .text c!"->" :: cs := by
    cases ms with
    | nil => exact absurd rfl hne
    | cons e es => exact ⟨_, rfl⟩
  obtain ⟨cs, hcs⟩ := hp'
  rw [hcs] at hp
  obtain ⟨is', ts', h1, h2, h3, h4, h5⟩ := hb.base hk hp rfl
  refine ⟨is', ts' ++ us, .ofVar ?_ h2 h3 rfl rfl ?_ nofun ?_⟩
  · have : cExpr dbl i (.mk (.objMember b ms) sp) = cParens false b (cExpr dbl i b) ⧺ cMemberNames dbl i c!"->" true ms := rfl
    rw [this, hcs]
    exact h1
  · intro vs e' hd'
    rw [List.append_assoc]
    exact h4 _ _ (hd _ _ _ _ (by rw [hw]; exact hd'))
  · intro hc
    have := h5 hc (us ++ []) _ (hd true _ _ _ (by rw [hw]; exact .a_nil _ _))
    rwa [List.append_nil] at this

/-! ### Static members -/

theorem simpleVar_eq {m : Expr} (h : simpleVar m = true) : ∃ n sp, m = .mk (.var (.name n)) sp ∧ isIdentifier n = true := by
  obtain ⟨k, sp⟩ := m
  cases k with
  | var v =>
    cases v with
    | name n => exact ⟨n, sp, rfl, h⟩
    | fetch e => cases h
  | _ => cases h

theorem foldl_static (e : Expr) (acc : List Expr) (sp : Span) : ∀ ms, ms ≠ [] →
    ms.foldl withStatic (.mk (.staticMember e acc) sp) = bare (.staticMember e (acc ++ ms))
  | [], h => absurd rfl h
  | [i], _ => rfl
  | i :: j :: is, _ => by
    rw [List.foldl_cons, show withStatic (.mk (.staticMember e acc) sp) i = bare (.staticMember e (acc ++ [i])) from rfl, foldl_static e _ _ (j :: is) nofun]
    simp

theorem isStaticMember_erase {e : Expr} (h : e.isStaticMember = false) (i : Expr) : withStatic e.erase i = bare (.staticMember e.erase [i]) := by
  obtain ⟨k, sp⟩ := e
  cases k with
  | staticMember => cases h
  | _ => rfl

theorem withStatics {e : Expr} (h : e.isStaticMember = false) : ∀ ms, ms ≠ [] → ms.foldl withStatic e.erase = bare (.staticMember e.erase ms)
  | [], hne => absurd rfl hne
  | [i], _ => isStaticMember_erase h i
  | i :: j :: is, _ => by
    rw [List.foldl_cons, isStaticMember_erase h, foldl_static _ _ _ (j :: is) nofun]
    rfl

/-- Behind the first one. -/
theorem statics_tail (i : Nat) : ∀ (n : Text) (sp : Span) (ms : List Expr), isIdentifier n = true → ms.all simpleVar = true →
    ∃ is ts, Piece 0 0 (Fo false) (cMemberNames dbl i c!"::" false (.mk (.var (.name n)) sp :: ms)) is (.k .ScopeOp :: .variable n :: ts) ∧
      ∀ simple b us e', Derives (.apps simple ((eraseExprs ms).foldl withStatic b)) us e' → Derives (.apps simple b) (ts ++ us) e'
  | n, sp, [], hn, _ => by
    refine ⟨_, [], ((litA c!"::" [.k .ScopeOp] 0 0 (by decide) rfl).free (piece_var hn)).text ?_, fun _ _ _ _ h => h⟩
    show chunkText (w c!"::" ⧺ cParens false _ _ ⧺ []) = _
    rw [List.append_nil, unwrapped_text _ _ _ rfl]
    rfl
  | n, sp, m :: ms, hn, h => by
    rw [List.all_cons, Bool.and_eq_true] at h
    obtain ⟨n', sp', rfl, hn'⟩ := simpleVar_eq h.1
    obtain ⟨is, ts, hp, hd⟩ := statics_tail i n' sp' ms hn' h.2
    refine ⟨_, _, (((litA c!"::" [.k .ScopeOp] 0 0 (by decide) rfl).free (piece_var hn)).then hp (by decide)).text ?_, ?_⟩
    · show chunkText (w c!"::" ⧺ cParens false _ _ ⧺ cMemberNames dbl i c!"::" false (.mk (.var (.name n')) sp' :: ms)) = _
      rw [unwrapped_text _ _ _ rfl]
      rfl
    · intro simple b us e' hd'
      exact .a_static n' (hd _ _ _ _ hd')

theorem simpleVars_cons {ms : List Expr} (hne : ms ≠ []) (h : ms.all simpleVar = true) :
    ∃ n sp ms', ms = .mk (.var (.name n)) sp :: ms' ∧ isIdentifier n = true ∧ ms'.all simpleVar = true := by
  cases ms with
  | nil => exact absurd rfl hne
  | cons m ms =>
    rw [List.all_cons, Bool.and_eq_true] at h
    obtain ⟨n, sp, rfl, hn⟩ := simpleVar_eq h.1
    exact ⟨n, sp, ms, rfl, hn, h.2⟩

theorem ec_static {b : Expr} {ms : List Expr} (hb : EClaim dbl b) (hk : baseOk b = true) (hm : b.isStaticMember = false) (hne : ms ≠ [])
    (hv : ms.all simpleVar = true) (sp : Span) : EClaim dbl (.mk (.staticMember b ms) sp) := by
  intro i
  obtain ⟨n, sp', ms, rfl, hn, hv⟩ := simpleVars_cons hne hv
  obtain ⟨js, us, hp, hd⟩ := statics_tail (dbl := dbl) i n sp' ms hn hv
  obtain ⟨is, ts, hb⟩ := hb i
  have hw := withStatics hm (eraseExprs (.mk (.var (.name n)) sp' :: ms)) nofun
  obtain ⟨is', ts', h1, h2, h3, h4, h5⟩ := hb.base hk hp rfl
  have hnc : Expr.isClassConst (.mk (.staticMember b (.mk (.var (.name n)) sp' :: ms)) sp) = false := by
    obtain ⟨k, sp⟩ := b
    cases k <;> cases ms <;> rfl
  refine ⟨is', _, .ofVar h1 h2 h3 rfl hnc ?_ nofun ?_⟩
  · intro vs e' hd'
    rw [List.append_assoc]
    exact h4 _ _ (.a_static n (hd _ _ _ _ (by
      have : ((eraseExprs ms).foldl withStatic (withStatic b.erase (bare (.var (.name n))))) = _ := hw
      rw [this]; exact hd')))
  · intro hc
    have := h5 hc (.k .ScopeOp :: .variable n :: us ++ []) _ (.a_static n (hd true _ _ _ (by
      have : ((eraseExprs ms).foldl withStatic (withStatic b.erase (bare (.var (.name n))))) = _ := hw
      rw [this]; exact .a_nil _ _)))
    rwa [List.append_nil] at this

theorem lead_scope {p : Path} {sp sp' : Span} {ms : List Expr} :
    Expr.lead (.mk (.staticMember (.mk (.path p) sp') ms) sp) = if p.isAbsolute then .other else .word (firstSeg p) := rfl

theorem ec_scope {b : Expr} {ms : List Expr} (hb : scopeOk b = true) (hne : ms ≠ []) (hv : ms.all simpleVar = true) (sp : Span) :
    EClaim dbl (.mk (.staticMember b ms) sp) := by
  intro i
  obtain ⟨n, sp', ms, rfl, hn, hv⟩ := simpleVars_cons hne hv
  obtain ⟨k, bsp⟩ := b
  cases k with
  | path p =>
    simp only [scopeOk, Bool.and_eq_true] at hb
    obtain ⟨is, ts, hp, hc, hs⟩ := piece_class hb.1
    obtain ⟨js, us, hp', hd⟩ := statics_tail (dbl := dbl) i n sp' ms hn hv
    refine ⟨is ++ js, _, .ofVar ((hp.then hp' (by decide)).text ?_) ?_ ?_ rfl ?_ ?_ nofun nofun⟩
    · show chunkText (cParens false _ (cPath p) ⧺ _) = _
      rw [unwrapped_text _ _ _ rfl]
      rfl
    · rw [lead_scope]; exact hs.append
    · rw [lead_scope]; exact leadFree_path hb.2
    · cases ms <;> rfl
    · intro vs e' hd'
      rw [List.append_assoc]
      refine .v_static n hc (hd _ _ _ _ ?_)
      cases ms with
      | nil => exact hd'
      | cons m ms =>
        rw [foldl_static _ _ _ (eraseExprs (m :: ms)) nofun]
        exact hd'
  | _ => cases hb

theorem ec_classConst {b : Expr} {ms : List Expr} (hb : scopeOk b = true) (h : classConstOk b ms = true) (sp : Span) :
    EClaim dbl (.mk (.staticMember b ms) sp) := by
  intro i
  obtain ⟨k, bsp⟩ := b
  cases k with
  | path p =>
    match ms, h with
    | [.mk (.path m) msp], h =>
      simp only [scopeOk, Bool.and_eq_true] at hb
      simp only [classConstOk, Bool.and_eq_true, Bool.not_eq_true', beq_iff_eq] at h
      obtain ⟨⟨⟨h0, h1⟩, h2⟩, h3⟩ := h
      obtain ⟨abs, ns, m⟩ := m
      dsimp only at h1 h2 h3
      subst h1 h2
      obtain ⟨is, ts, hp, hc, hs⟩ := piece_class hb.1
      obtain ⟨kk, hm, hid⟩ := piece_ident (a := 0) h3
      have hp' := hp.then ((litA c!"::" [.k .ScopeOp] 0 0 (by decide) rfl).free hm) (by decide)
      refine ⟨_, _, ⟨hp'.text ?_, ?_, ?_, ?_, nofun, nofun, nofun, ?_⟩⟩
      · show chunkText (cParens false _ (cPath p) ⧺ w c!"::" ⧺ cParens false _ (cPath ⟨false, none, m⟩) ⧺ []) = _
        rw [List.append_nil, unwrapped_text _ _ _ rfl, unwrapped_text _ _ _ rfl]
        rfl
      · rw [lead_scope]; exact hs.append
      · rw [lead_scope]; exact leadFree_path hb.2
      · intro q
        have := DerivesX.e_classConst (lax := false) (p := q) hc hid
        rw [constOf_path h0] at this
        exact this
      · intro _ as es us e' ha hd
        have := DerivesX.v_scall hc hid ha hd
        simpa using this
    | [.mk (.var _) _], h => cases h
    | [], h => cases h
  | _ => cases hb

/-! ### Calls -/

theorem ec_callName {t : Expr} {args : List Expr} (ht : callee t = true) (ha : ∀ e ∈ args, ArgC dbl e) (sp : Span) :
    EClaim dbl (.mk (.call t args) sp) := by
  intro i
  obtain ⟨js, us, hp', hd'⟩ := args_piece i args ha
  obtain ⟨k, tsp⟩ := t
  cases k with
  | path p =>
    simp only [callee, callable, Bool.and_eq_true] at ht
    obtain ⟨is, hp, hs⟩ := piece_path (a := 0) ht.1
    refine ⟨is ++ js, _, .ofVar ((hp.then hp' (by decide)).mono fun _ _ => trivial) hs.append (leadFree_path ht.2) rfl rfl ?_ nofun nofun⟩
    intro vs e' hd
    have := DerivesX.v_call p.isAbsolute (nsSegs p) p.ident hd' (ts := vs) (e := e') (by rw [qualPath_self]; exact hd)
    simpa using this
  | _ => cases ht

theorem ec_call {t : Expr} {args : List Expr} (ht : EClaim dbl t) (hv : t.isVar = true ∨ t.isClassConst = true) (ha : ∀ e ∈ args, ArgC dbl e) (sp : Span) :
    EClaim dbl (.mk (.call t args) sp) := by
  intro i
  obtain ⟨is, ts, ht⟩ := ht i
  obtain ⟨js, us, hp', hd'⟩ := args_piece i args ha
  refine ⟨is ++ js, _, .ofVar ((ht.pc.then hp' (by decide)).mono fun _ _ => trivial) ht.st.append ht.nf rfl rfl ?_ nofun nofun⟩
  intro vs e' hd
  rw [List.append_assoc]
  rcases hv with hv | hv
  · exact ht.vr hv _ _ (.a_call hd' hd)
  · exact ht.sc hv _ _ _ _ hd' hd

end Pico
