import Verif.Lemmas.RtStmt
/-!
# The printed form of switches and declarations
-/
namespace Pico

variable {dbl : Text → Text}

/-! ### Switch -/

/-- The labels of a case; the last one has the statements. -/
def labels : List Expr → List Stmt → List (Option Expr × List Stmt)
  | [], _ => []
  | [e], b => [(some e, b)]
  | e :: es, b => (some e, []) :: labels es b

/-- The clauses of some cases. -/
def clausesOf : List Case → List (Option Expr × List Stmt)
  | [] => []
  | .mk conds d b :: cs => (if d then labels conds [] ++ [(none, b)] else labels conds b) ++ clausesOf cs

theorem conds_piece (i : Nat) : ∀ es : List Expr, (∀ e ∈ es, EClaim dbl e) → ∃ is ts, Piece 0 0 Any (cConds dbl i es) is ts ∧
    ∀ bs b us cl, (es = [] → bs = []) → Derives .stmts bs b → Derives .clauses us cl → Derives .clauses (ts ++ (bs ++ us)) (labels (eraseExprs es) b ++ cl)
  | [], _ => ⟨[], [], .nil _, fun bs b us cl h0 _ h => by rw [h0 rfl]; exact h⟩
  | [e], h => by
    obtain ⟨is, ts, he⟩ := h e (by simp) i
    obtain ⟨s, hs⟩ := he.any
    refine ⟨_, _, (((litA c!"case " [.k .Case] 0 0 (by decide) rfl).ind i).free (he.pc'.then (litA c!":\n" [.k .Colon] 0 0 (by decide) rfl) (by decide))).text (by rfl), ?_⟩
    intro bs b us cl _ hb hc
    have := DerivesX.clauses_case true hs hb hc
    simpa [labels, eraseExprs] using this
  | e :: e2 :: es, h => by
    obtain ⟨is, ts, he⟩ := h e (by simp) i
    obtain ⟨s, hs⟩ := he.any
    obtain ⟨js, us, hp, hd⟩ := conds_piece i (e2 :: es) fun x hx => h x (List.mem_cons_of_mem _ hx)
    refine ⟨_, _, ((litA c!"case " [.k .Case] 0 0 (by decide) rfl).ind i).free (he.pc'.then ((litA c!":\n" [.k .Colon] 0 0 (by decide) rfl).free hp) (by decide)), ?_⟩
    intro bs b us' cl _ hb hc
    have := DerivesX.clauses_case true hs .stmts_nil (hd bs b us' cl nofun hb hc)
    simpa [labels, eraseExprs] using this

/-- The statements and labels of a case; `default` has statements. -/
def CaseC (dbl : Text → Text) : Case → Prop
  | .mk conds d b => (∀ e ∈ conds, EClaim dbl e) ∧ BlockC dbl b ∧ (if d = true then b ≠ [] else conds ≠ [])

theorem cases_piece (i : Nat) : ∀ cs : List Case, (∀ c ∈ cs, CaseC dbl c) → ∃ is ts, Piece 0 0 Any (cCases dbl i cs) is ts ∧
    Derives .clauses ts (clausesOf (eraseCases cs))
  | [], _ => ⟨_, _, .nil _, .clauses_nil⟩
  | .mk conds d b :: cs, h => by
    obtain ⟨js, us, hp', hd'⟩ := cases_piece i cs fun c hc => h c (List.mem_cons_of_mem _ hc)
    obtain ⟨h1, h2, h3⟩ := h _ (List.mem_cons_self ..)
    obtain ⟨is, ts, hp, hd⟩ := h2 (i + 1)
    obtain ⟨ks, vs, hq, hqd⟩ := conds_piece i conds h1
    cases d with
    | false =>
      refine ⟨_, _, (hq.free (hp.free hp')).text ?_, ?_⟩
      · show chunkText ((cConds dbl i conds ⧺ [] ⧺ cStmts dbl (i + 1) b) ⧺ cCases dbl i cs) = _
        rw [List.append_assoc]
        rfl
      · refine hqd _ _ _ _ (fun h0 => absurd h0 ?_) hd hd'
        exact h3
    | true =>
      have hdf := (litA c!"default:\n" [.k .Default, .k .Colon] 0 0 (by decide) rfl).free (hp.free hp')
      refine ⟨_, _, (hq.free hdf).text ?_, ?_⟩
      · show chunkText ((cConds dbl i conds ⧺ w c!"default:\n" ⧺ cStmts dbl (i + 1) b) ⧺ cCases dbl i cs) = _
        rw [List.append_assoc, List.append_assoc]
      · have hb : eraseStmts b ≠ [] := by
          cases b with
          | nil => exact absurd rfl h3
          | cons => exact nofun
        have := hqd [] [] _ _ (fun _ => rfl) .stmts_nil (DerivesX.clauses_default true hd hb hd')
        have e : clausesOf (eraseCases (.mk conds true b :: cs)) = labels (eraseExprs conds) [] ++ ((none, eraseStmts b) :: clausesOf (eraseCases cs)) := by
          show (labels (eraseExprs conds) [] ++ [(none, eraseStmts b)]) ++ _ = _
          rw [List.append_assoc]
          rfl
        rw [e]
        exact this

/-- As `rtCases`: labels without statements only at the end. -/
def casesOk : List Case → Bool
  | [] => true
  | .mk conds d b :: cs => (if b.isEmpty then !d && conds.length == 1 && cs.all (fun c => match c with | .mk _ _ b => b.isEmpty)
       else d || !conds.isEmpty) && casesOk cs

theorem casesOf_labels (b : List Stmt) (hb : b ≠ []) (cl : List (Option Expr × List Stmt)) (d : Bool) : ∀ (es pend : List Expr), es ≠ [] →
    casesOf pend d (labels es b ++ cl) = .mk (pend ++ es) d b :: casesOf [] false cl
  | [], _, h => absurd rfl h
  | [e], pend, _ => by
    cases b with
    | nil => exact absurd rfl hb
    | cons => rfl
  | e :: e2 :: es, pend, _ => by
    show casesOf (pend ++ [e]) d (labels (e2 :: es) b ++ cl) = _
    rw [casesOf_labels b hb cl d (e2 :: es) _ nofun]
    simp

theorem casesOf_pending (cl : List (Option Expr × List Stmt)) (d : Bool) : ∀ (es pend : List Expr),
    casesOf pend d (labels es [] ++ cl) = casesOf (pend ++ es) d cl
  | [], pend => by simp [labels]
  | [e], pend => rfl
  | e :: e2 :: es, pend => by
    show casesOf (pend ++ [e]) d (labels (e2 :: es) [] ++ cl) = _
    rw [casesOf_pending cl d (e2 :: es)]
    simp

theorem casesOf_empty : ∀ (cs : List Case) (pend : List Expr), casesOk cs = true → cs.all (fun c => match c with | .mk _ _ b => b.isEmpty) = true →
    casesOf pend false (clausesOf (eraseCases cs)) = (pend.map fun e => .mk [e] false []) ++ eraseCases cs
  | [], pend, _, _ => by simp [clausesOf, eraseCases, casesOf]
  | .mk conds d b :: cs, pend, h, ha => by
    rw [List.all_cons, Bool.and_eq_true] at ha
    have hb : b = [] := List.isEmpty_iff.1 ha.1
    subst hb
    simp only [casesOk, List.isEmpty_nil, if_true, Bool.and_eq_true, Bool.not_eq_true', beq_iff_eq] at h
    obtain ⟨⟨⟨hd, hl⟩, -⟩, hk⟩ := h
    subst hd
    match conds, hl with
    | [e], _ =>
      show casesOf (pend ++ [e.erase]) false (clausesOf (eraseCases cs)) = _
      rw [casesOf_empty cs _ hk ha.2]
      simp [eraseCases, Case.erase, eraseExprs, eraseStmts]

theorem casesOf_clauses : ∀ cs : List Case, casesOk cs = true → casesOf [] false (clausesOf (eraseCases cs)) = eraseCases cs
  | [], _ => rfl
  | .mk conds d b :: cs, h => by
    cases b with
    | nil =>
      have := casesOf_empty (.mk conds d [] :: cs) [] h (by
        simp only [casesOk, List.isEmpty_nil, if_true, Bool.and_eq_true] at h
        rw [List.all_cons, Bool.and_eq_true]
        exact ⟨rfl, h.1.2⟩)
      simpa using this
    | cons s ss =>
      simp only [casesOk, List.isEmpty_cons, Bool.false_eq_true, if_false, Bool.and_eq_true, Bool.or_eq_true, Bool.not_eq_true', List.isEmpty_eq_false_iff] at h
      have ih := casesOf_clauses cs h.2
      cases d with
      | true =>
        have e : clausesOf (eraseCases (.mk conds true (s :: ss) :: cs)) = labels (eraseExprs conds) [] ++ ((none, eraseStmts (s :: ss)) :: clausesOf (eraseCases cs)) := by
          show (labels (eraseExprs conds) [] ++ [(none, eraseStmts (s :: ss))]) ++ _ = _
          rw [List.append_assoc]
          rfl
        rw [e, casesOf_pending]
        show Case.mk ([] ++ eraseExprs conds) true (eraseStmts (s :: ss)) :: casesOf [] false (clausesOf (eraseCases cs)) = _
        rw [ih]
        rfl
      | false =>
        have hne : conds ≠ [] := h.1.resolve_left nofun
        show casesOf [] false (labels (eraseExprs conds) (eraseStmts (s :: ss)) ++ clausesOf (eraseCases cs)) = _
        rw [casesOf_labels _ (by exact nofun) _ _ _ _ (eraseExprs_ne hne), ih]
        rfl

theorem casesOk_mem : ∀ cs : List Case, casesOk cs = true → ∀ conds d b, Case.mk conds d b ∈ cs → if d = true then b ≠ [] else conds ≠ []
  | [], _ => nofun
  | .mk conds' d' b' :: cs, h => by
    intro conds d b hm
    simp only [casesOk, Bool.and_eq_true] at h
    rcases List.mem_cons.1 hm with he | hm
    · injection he with e1 e2 e3
      subst e1 e2 e3
      have h1 := h.1
      cases b with
      | nil =>
        simp only [List.isEmpty_nil, if_true, Bool.and_eq_true, Bool.not_eq_true', beq_iff_eq] at h1
        rw [h1.1.1, if_neg (by decide)]
        intro h0
        rw [h0] at h1
        cases h1.1.2
      | cons s ss =>
        cases d with
        | true => exact nofun
        | false =>
          simp at h1
          simp [h1]
    · exact casesOk_mem cs h.2 conds d b hm

theorem rs_switch {e : Expr} {cs : List Case} (he : EClaim dbl e) (hc : ∀ c ∈ cs, match c with | .mk conds _ b => (∀ e ∈ conds, EClaim dbl e) ∧ BlockC dbl b)
    (hk : casesOk cs = true) (sp : Span) : StmtC dbl (.mk (.switch e cs) sp) := by
  intro i
  obtain ⟨js, us, hp, hd⟩ := cases_piece (i + 1) cs (fun c hm => by
    obtain ⟨conds, d, b⟩ := c
    exact ⟨(hc _ hm).1, (hc _ hm).2, casesOk_mem cs hk _ _ _ hm⟩)
  obtain ⟨is, ts, he⟩ := he i
  obtain ⟨s, hs⟩ := he.any
  have hbody := (litA c!") {\n" [.k .ParenthesesClose, .k .CurlyBracesOpen] 0 1 (by decide) rfl).free ((hp.up 1).free (litA c!"}\n" [.k .CurlyBracesClose] 1 0 (by decide) rfl))
  refine ⟨_, _, false, ((lit c!"switch (" [.k .Switch, .k .ParenthesesOpen] 0 0 .opn (by decide) rfl).ind i).opn (he.pc'.then hbody (by decide)) he.nc.append, ?_⟩
  have := DerivesX.s_switch hs hd
  rw [casesOf_clauses cs hk] at this
  exact this

/-! ### Modifiers -/

theorem cnd_piece (b : Bool) {t : Text} {k : Kw} (h : litCheck t 0 0 .any = true) (ht : toks false (litItems t) = [.k k]) {cs : List Chunk} {is : List Item}
    {ts : List Token} {n : Nat} {P : Text → Prop} (hp : Piece 0 n P cs is ts) : ∃ is', Piece 0 n P (cnd b (w t) ⧺ cs) is' ((if b then [.k k] else []) ++ ts) := by
  cases b with
  | true => exact ⟨_, (litA t [.k k] 0 0 h ht).free hp⟩
  | false => exact ⟨is, hp⟩

/-- The modifiers of a member in the order in which they are printed. -/
def memberMods (m : MemberModifiers) : List MemberModifier :=
  (if m.has .Public then [.Public] else []) ++ ((if m.has .Protected then [.Protected] else []) ++ ((if m.has .Private then [.Private] else []) ++
    ((if m.has .Static then [.Static] else []) ++ ((if m.has .Abstract then [.Abstract] else []) ++ (if m.has .Final then [.Final] else [])))))

def classMods (m : ClassModifiers) : List ClassModifier :=
  (if m.has .Abstract then [.Abstract] else []) ++ (if m.has .Final then [.Final] else [])

theorem memberMods_table : ∀ b < 64, MemberModifiers.new (memberMods ⟨b⟩) = ⟨b⟩ := by decide

theorem classMods_table : ∀ b < 4, ClassModifiers.new (classMods ⟨b⟩) = ⟨b⟩ := by decide

section
variable {cs : List Chunk} {is : List Item} {ts : List Token} {n : Nat} {P : Text → Prop}

theorem memberMods_piece (m : MemberModifiers) (hp : Piece 0 n P cs is ts) :
    ∃ is', Piece 0 n P (cMemberModifiers m ⧺ cs) is' (memberModifierToks (memberMods m) ++ ts) := by
  obtain ⟨i1, h1⟩ := cnd_piece (m.has .Final) (t := c!"final ") (k := .Final) (by decide) rfl hp
  obtain ⟨i2, h2⟩ := cnd_piece (m.has .Abstract) (t := c!"abstract ") (k := .Abstract) (by decide) rfl h1
  obtain ⟨i3, h3⟩ := cnd_piece (m.has .Static) (t := c!"static ") (k := .Static) (by decide) rfl h2
  obtain ⟨i4, h4⟩ := cnd_piece (m.has .Private) (t := c!"private ") (k := .Private) (by decide) rfl h3
  obtain ⟨i5, h5⟩ := cnd_piece (m.has .Protected) (t := c!"protected ") (k := .Protected) (by decide) rfl h4
  obtain ⟨i6, h6⟩ := cnd_piece (m.has .Public) (t := c!"public ") (k := .Public) (by decide) rfl h5
  refine ⟨i6, (h6.text ?_).toksEq ?_⟩
  · unfold cMemberModifiers
    simp only [List.append_assoc]
  · unfold memberMods memberModifierToks
    cases m.has .Public <;> cases m.has .Protected <;> cases m.has .Private <;> cases m.has .Static <;> cases m.has .Abstract <;> cases m.has .Final <;> rfl

theorem classMods_piece (m : ClassModifiers) (hp : Piece 0 n P cs is ts) :
    ∃ is', Piece 0 n P (cClassModifiers m ⧺ cs) is' (classModifierToks (classMods m) ++ ts) := by
  obtain ⟨i1, h1⟩ := cnd_piece (m.has .Final) (t := c!"final ") (k := .Final) (by decide) rfl hp
  obtain ⟨i2, h2⟩ := cnd_piece (m.has .Abstract) (t := c!"abstract ") (k := .Abstract) (by decide) rfl h1
  refine ⟨i2, (h2.text ?_).toksEq ?_⟩
  · unfold cClassModifiers
    simp only [List.append_assoc]
  · unfold classMods classModifierToks
    cases m.has .Abstract <;> cases m.has .Final <;> rfl

end

/-! ### Members -/

/-- A member of a class. -/
def MemberC (dbl : Text → Text) (m : Member) : Prop := ∀ i, ∃ is ts, Piece 0 0 Any (cMember dbl i m) is ts ∧ Derives .member ts [m.erase]

theorem mod_eq {m : MemberModifiers} (h : m.bits < 64) : MemberModifiers.new (memberMods m) = m := memberMods_table m.bits h

theorem member_constant {m : MemberModifiers} {n : Text} {e : Expr} (hm : m.bits < 64) (hn : identOk n = true) (he : EClaim dbl e) : MemberC dbl (.constant m n e) := by
  intro i
  obtain ⟨is, ts, he⟩ := he i
  obtain ⟨s, hs⟩ := he.any
  obtain ⟨k, hw, hk⟩ := piece_ident (a := 0) hn
  have h1 := (lit c!"=" [.k .Equal] 0 0 (.sym c!"=") (by decide) rfl).sym (he.pc'.then (litA c!";" [.k .SemiColon] 0 0 (by decide) rfl) (by decide)) he.st.append (by decide)
  have h2 := (litA c!" const " [.k .Const] 0 0 (by decide) rfl).free (hw.then h1 (by decide))
  obtain ⟨js, h3⟩ := memberMods_piece m h2
  refine ⟨_, _, (piece_ind_nil i).free h3, ?_⟩
  have := DerivesX.m_const (memberMods m) (DerivesX.consts_one hk hs)
  rw [mod_eq hm] at this
  simpa [Member.erase] using this

theorem member_property {m : MemberModifiers} {n : Text} {e : Option Expr} (hm : m.bits < 64) (hn : isIdentifier n = true) (he : OptC dbl e) : MemberC dbl (.property m n e) := by
  intro i
  obtain ⟨is, ts, hp, hd⟩ := dflt_piece hn he i
  have h1 := (litA c!" " [] 0 0 (by decide) rfl).free (hp.then (litA c!";" [.k .SemiColon] 0 0 (by decide) rfl) (by decide))
  obtain ⟨js, h2⟩ := memberMods_piece m h1
  refine ⟨_, _, ((piece_ind_nil i).free h2).text ?_, ?_⟩
  · have e1 : cMember dbl i (.property m n e) = (ind i [] ⧺ cMemberModifiers m) ⧺ w c!" $" ⧺ w n ⧺ cDflt dbl i e ⧺ w c!";" := by
      cases e <;> exact (List.append_assoc _ _ _).symm
    rw [e1, var_text]
    simp [List.append_assoc, w]
  · have := DerivesX.m_property (memberMods m) (DerivesX.vars_one n hd)
    rw [mod_eq hm] at this
    simpa [Member.erase] using this

theorem member_method {m : MemberModifiers} {n : Text} {f : FnDecl} (hm : m.bits < 64) (hn : nameOk n = true) (hf : FnC dbl false true f) : MemberC dbl (.method m n f) := by
  intro i
  obtain ⟨is, r, ts, hp, hd⟩ := fn_named hf hn i
  obtain ⟨js, h2⟩ := memberMods_piece m ((litA c!" " [] 0 0 (by decide) rfl).free hp)
  refine ⟨_, _, (piece_ind_nil i).free h2, ?_⟩
  have := DerivesX.m_method (memberMods m) r n hd
  rw [mod_eq hm] at this
  exact this

theorem rules_piece (i : Nat) : ∀ us : List TraitUse, us.all traitUseOk = true → ∃ is ts, Piece 0 0 Any (cTraitUses i us) is ts ∧ TraitRules ts us ∧ (us ≠ [] → ts ≠ [])
  | [], _ => ⟨_, _, .nil _, .nil, fun h => absurd rfl h⟩
  | u :: us, h => by
    rw [List.all_cons, Bool.and_eq_true] at h
    obtain ⟨js, vs, hp, hd, -⟩ := rules_piece i us h.2
    have hsemi := (litA c!";\n" [.k .SemiColon] 0 0 (by decide) rfl).free hp
    cases u with
    | insteadOf p m ps =>
      simp only [traitUseOk, Bool.and_eq_true, Bool.not_eq_true', List.isEmpty_eq_false_iff] at h
      obtain ⟨⟨⟨⟨h1, h2⟩, h3⟩, h4⟩, -⟩ := h
      obtain ⟨i1, hp1, -⟩ := piece_path (a := 0) h1
      obtain ⟨k, hm, hk⟩ := piece_ident (a := 0) h2
      obtain ⟨i2, ts2, hp2, hn⟩ := paths_piece ps h3 h4
      have := (piece_ind_nil i).free (hp1.then ((litA c!"::" [.k .ScopeOp] 0 0 (by decide) rfl).free
        (hm.thenB ((litA c!" insteadof " [.k .Insteadof] 0 0 (by decide) rfl).free (hp2.then hsemi (by decide))) (by decide))) (by decide))
      refine ⟨_, _, this.text ?_, ?_, fun _ => ?_⟩
      · show chunkText (ind i [] ⧺ (cPath p ⧺ w c!"::" ⧺ w m ⧺ w c!" insteadof " ⧺ cPaths true ps) ⧺ w c!";\n" ⧺ cTraitUses i us) = _
        simp [List.append_assoc, w]
      · have := TraitRules.insteadOf p.isAbsolute (nsSegs p) p.ident hk hn hd
        rw [qualPath_self] at this
        simpa using this
      · simp
    | asAlias p m ms a =>
      simp only [traitUseOk, Bool.and_eq_true, beq_iff_eq] at h
      obtain ⟨⟨⟨⟨h1, h2⟩, h3⟩, h4⟩, -⟩ := h
      subst h3
      cases a with
      | none => cases h4
      | some a =>
        obtain ⟨k, hm, hk⟩ := piece_ident (a := 0) h2
        have hal := hm.thenB ((litA c!" as " [.k .As] 0 0 (by decide) rfl).free ((litA c!" " [] 0 0 (by decide) rfl).free
          ((piece_word (a := 0) h4).then hsemi (by decide)))) (by decide)
        cases p with
        | none =>
          refine ⟨_, _, ((piece_ind_nil i).free hal).text ?_, ?_, fun _ => ?_⟩
          · show chunkText (ind i [] ⧺ ([] ⧺ w m ⧺ w c!" as " ⧺ [] ⧺ w c!" " ⧺ w a) ⧺ w c!";\n" ⧺ cTraitUses i us) = _
            simp [List.append_assoc, w]
          · have := TraitRules.asSimple hk a hd
            simpa using this
          · simp
        | some p =>
          obtain ⟨i1, hp1, -⟩ := piece_path (a := 0) (show pathOk p = true from h1)
          have := (piece_ind_nil i).free (hp1.then ((litA c!"::" [.k .ScopeOp] 0 0 (by decide) rfl).free hal) (by decide))
          refine ⟨_, _, this.text ?_, ?_, fun _ => ?_⟩
          · show chunkText (ind i [] ⧺ ((cPath p ⧺ w c!"::") ⧺ w m ⧺ w c!" as " ⧺ [] ⧺ w c!" " ⧺ w a) ⧺ w c!";\n" ⧺ cTraitUses i us) = _
            simp [List.append_assoc, w]
          · have := TraitRules.asQual p.isAbsolute (nsSegs p) p.ident hk a hd
            rw [qualPath_self] at this
            simpa using this
          · simp

theorem member_traitUse {ps : List Path} {us : List TraitUse} (hne : ps ≠ []) (hp : ps.all pathOk = true) (hu : us.all traitUseOk = true) : MemberC dbl (.traitUse ps us) := by
  intro i
  obtain ⟨is, ts, hp, hn⟩ := paths_piece ps hne hp
  cases us with
  | nil =>
    exact ⟨_, _, (piece_ind_nil i).free ((litA c!"use " [.k .Use] 0 0 (by decide) rfl).free (hp.then (litA c!";\n" [.k .SemiColon] 0 0 (by decide) rfl) (by decide))),
      .m_use hn⟩
  | cons u us =>
    obtain ⟨js, vs, hr, hrd, hv⟩ := rules_piece (i + 1) (u :: us) hu
    have h1 := (litA c!"{\n" [.k .CurlyBracesOpen] 0 1 (by decide) rfl).free ((hr.up 1).free ((litA c!"}\n" [.k .CurlyBracesClose] 1 0 (by decide) rfl).ind i))
    exact ⟨_, _, (piece_ind_nil i).free ((litA c!"use " [.k .Use] 0 0 (by decide) rfl).free (hp.then h1 (by decide))), .m_useRules hn hrd (hv nofun)⟩

theorem members_piece (i : Nat) : ∀ ms : List Member, (∀ m ∈ ms, MemberC dbl m) → ∃ is ts, Piece 0 0 Any (cMembers dbl i ms) is ts ∧ Derives .members ts (eraseMembers ms)
  | [], _ => ⟨_, _, .nil _, .members_nil⟩
  | m :: ms, h => by
    obtain ⟨js, us, hp', hd'⟩ := members_piece i ms fun c hc => h c (List.mem_cons_of_mem _ hc)
    obtain ⟨is, ts, hp, hd⟩ := h m (by simp) i
    exact ⟨_, _, hp.free ((litA c!"\n" [] 0 0 (by decide) rfl).free hp'), .members_cons hd hd'⟩

theorem body_piece {ms : List Member} (h : ∀ m ∈ ms, MemberC dbl m) (i : Nat) : ∃ is ts, Piece 0 0 Any (cMemberBody i (cMembers dbl (i + 1) ms)) is
    (.k .CurlyBracesOpen :: (ts ++ [.k .CurlyBracesClose])) ∧ Derives .members ts (eraseMembers ms) := by
  obtain ⟨is, ts, hp, hd⟩ := members_piece (i + 1) ms h
  exact ⟨_, ts, (litA c!" {\n" [.k .CurlyBracesOpen] 0 1 (by decide) rfl).free ((hp.up 1).free ((litA c!"}" [.k .CurlyBracesClose] 1 0 (by decide) rfl).ind i)), hd⟩

/-! ### Declarations -/

theorem rs_function {n : Text} {f : FnDecl} (hn : nameOk n = true) (hf : FnC dbl false false f) (sp : Span) : StmtC dbl (.mk (.decl (.globalFunction n f)) sp) := by
  intro i
  obtain ⟨is, r, ts, hp, hd⟩ := fn_named hf hn i
  exact ⟨_, _, _, (piece_ind_nil i).free hp, .s_function n hd⟩

theorem rs_trait {n : Text} {ms : List Member} (hn : nameOk n = true) (hm : ∀ m ∈ ms, MemberC dbl m) (sp : Span) : StmtC dbl (.mk (.decl (.trait n ms)) sp) := by
  intro i
  obtain ⟨is, ts, hp, hd⟩ := body_piece hm i
  exact ⟨_, _, _, ((litA c!"trait " [.k .Trait] 0 0 (by decide) rfl).ind i).free ((piece_word hn).thenB hp (by decide)), .s_trait n hd⟩

theorem rs_interface {n : Text} {xs : List Path} {ms : List Member} (hn : nameOk n = true) (hx : xs.all pathOk = true) (hm : ∀ m ∈ ms, MemberC dbl m) (sp : Span) :
    StmtC dbl (.mk (.decl (.interface n xs ms)) sp) := by
  intro i
  obtain ⟨is, ts, hp, hd⟩ := body_piece hm i
  have hi := (litA c!"interface " [.k .Interface] 0 0 (by decide) rfl).ind i
  cases xs with
  | nil => exact ⟨_, _, _, hi.free ((piece_word hn).thenB hp (by decide)), .s_interface n .none hd⟩
  | cons x xs =>
    obtain ⟨js, us, hp', hn'⟩ := paths_piece (x :: xs) nofun hx
    refine ⟨_, _, false, (hi.free ((piece_word hn).thenB ((litA c!" extends " [.k .Extends] 0 0 (by decide) rfl).free (hp'.thenB hp (by decide))) (by decide))).text ?_, ?_⟩
    · show chunkText (ind i c!"interface " ⧺ w n ⧺ (w c!" extends " ⧺ cPaths true (x :: xs)) ⧺ cMemberBody i (cMembers dbl (i + 1) ms)) = _
      simp [List.append_assoc, w, cMemberBody]
    · have := DerivesX.s_interface n (OptNames.some (k := .Extends) hn') hd
      simpa [Stmt.erase, StmtK.erase, Decl.erase] using this

theorem rs_class {m : ClassModifiers} {n : Text} {b : Option Path} {xs : List Path} {ms : List Member} (hc : m.bits < 4) (hn : nameOk n = true)
    (hb : ∀ p, b = some p → pathOk p = true) (hx : xs.all pathOk = true) (hm : ∀ m ∈ ms, MemberC dbl m) (sp : Span) :
    StmtC dbl (.mk (.decl (.cls m n b xs ms)) sp) := by
  intro i
  obtain ⟨is, ts, hp, hd⟩ := body_piece hm i
  have h1 : ∃ is' us, Piece 0 0 Any (cnd (!xs.isEmpty) (w c!"implements " ⧺ cPaths true xs) ⧺ cMemberBody i (cMembers dbl (i + 1) ms)) is'
      (us ++ .k .CurlyBracesOpen :: (ts ++ [.k .CurlyBracesClose])) ∧ OptNames .Implements us xs := by
    cases xs with
    | nil => exact ⟨_, [], hp, .none⟩
    | cons x xs =>
      obtain ⟨js, us, hp', hn'⟩ := paths_piece (x :: xs) nofun hx
      refine ⟨_, .k .Implements :: us, ((litA c!"implements " [.k .Implements] 0 0 (by decide) rfl).free (hp'.thenB hp (by decide))).text ?_, .some hn'⟩
      show chunkText ((w c!"implements " ⧺ cPaths true (x :: xs)) ⧺ _) = _
      rw [List.append_assoc]
      rfl
  obtain ⟨is1, us1, hp1, hi⟩ := h1
  have h2 : ∃ is' us, Piece 0 0 Any (opt b (fun b => w c!"extends " ⧺ cPath b ⧺ w c!" ") ⧺ cnd (!xs.isEmpty) (w c!"implements " ⧺ cPaths true xs) ⧺
      cMemberBody i (cMembers dbl (i + 1) ms)) is' (us ++ (us1 ++ .k .CurlyBracesOpen :: (ts ++ [.k .CurlyBracesClose]))) ∧ OptBase us b := by
    cases b with
    | none => exact ⟨_, [], hp1, .none⟩
    | some p =>
      obtain ⟨js, hp', -⟩ := piece_path (a := 0) (hb p rfl)
      have hb1 := (litA c!" " [] 0 0 (by decide) rfl).free hp1
      have hfo : ∀ rest, Fo false (render (litItems c!" " ++ is1) ++ rest) := by
        intro rest
        cases xs with
        | nil =>
          obtain ⟨y, hy⟩ := head_text2 (x := ' ') (y := '{') hp1
          show Fo false (' ' :: (render is1 ++ rest))
          rw [hy]
          exact ⟨rfl, nofun⟩
        | cons x xs =>
          obtain ⟨y, hy⟩ := head_text2 (x := 'i') (y := 'm') hp1
          show Fo false (' ' :: (render is1 ++ rest))
          rw [hy]
          exact ⟨rfl, nofun⟩
      refine ⟨_, .k .Extends :: qualToks p.isAbsolute (nsSegs p) p.ident, (((litA c!"extends " [.k .Extends] 0 0 (by decide) rfl).free
        (hp'.append hb1 fun rest _ _ => hfo rest)).text ?_).toksEq ?_, qual_of (fun ab ns id q => OptBase (.k .Extends :: qualToks ab ns id) (some q)) (.some ..)⟩
      · show chunkText ((w c!"extends " ⧺ cPath p ⧺ w c!" ") ⧺ _) = _
        simp [List.append_assoc, w]
      · simp
  obtain ⟨is2, us2, hp2, hbase⟩ := h2
  obtain ⟨is3, hp3⟩ := classMods_piece m ((litA c!"class " [.k .Class] 0 0 (by decide) rfl).free ((piece_word hn).append ((litA c!" " [] 0 0 (by decide) rfl).free hp2) (by
    intro rest _ _
    cases b with
    | none =>
      cases xs with
      | nil =>
        obtain ⟨y, hy⟩ := head_text2 (x := ' ') (y := '{') hp2
        show Fo false (' ' :: (render is2 ++ rest))
        rw [hy]
        exact ⟨rfl, nofun⟩
      | cons x xs =>
        obtain ⟨y, hy⟩ := head_text2 (x := 'i') (y := 'm') hp2
        show Fo false (' ' :: (render is2 ++ rest))
        rw [hy]
        exact ⟨rfl, nofun⟩
    | some p =>
      obtain ⟨y, hy⟩ := head_text2 (x := 'e') (y := 'x') hp2
      show Fo false (' ' :: (render is2 ++ rest))
      rw [hy]
      exact ⟨rfl, nofun⟩)))
  refine ⟨_, _, false, (piece_ind_nil i).free hp3, ?_⟩
  have := DerivesX.s_class (classMods m) n hbase hi hd
  rw [classMods_table m.bits hc] at this
  exact this

theorem vars_piece (i : Nat) : ∀ vs : List (Text × Option Expr), vs ≠ [] → (∀ v ∈ vs, isIdentifier v.1 = true ∧ OptC dbl v.2) →
    ∃ is ts, Piece 0 0 (Fo true) (cStaticVars dbl i true vs) is ts ∧ Derives .vars ts (eraseStaticVars vs)
  | [], h, _ => absurd rfl h
  | [(n, e)], _, h => by
    obtain ⟨is, ts, hp, hd⟩ := dflt_piece (h _ (List.mem_cons_self ..)).1 (h _ (List.mem_cons_self ..)).2 i
    refine ⟨_, _, hp.text ?_, .vars_one n hd⟩
    cases e with
    | none => rfl
    | some e =>
      show chunkText (w c!"$" ⧺ w n ⧺ (w c!"=" ⧺ cExpr dbl i e) ⧺ []) = _
      rw [List.append_nil]
      rfl
  | (n, e) :: y :: vs, _, h => by
    obtain ⟨is, ts, hp, hd⟩ := dflt_piece (h _ (List.mem_cons_self ..)).1 (h _ (List.mem_cons_self ..)).2 i
    obtain ⟨js, us, hp', hd'⟩ := vars_piece i (y :: vs) nofun fun x hx => h x (List.mem_cons_of_mem _ hx)
    refine ⟨_, _, (hp.then ((litA c!", " [.k .Comma] 0 0 (by decide) rfl).free hp') (by decide)).text ?_, ?_⟩
    · have e2 : cStaticVars dbl i false (y :: vs) = w c!", " ⧺ cStaticVars dbl i true (y :: vs) := by
        obtain ⟨n', e'⟩ := y
        cases e' <;> rfl
      cases e with
      | none =>
        show chunkText (w c!"$" ⧺ w n ⧺ cStaticVars dbl i false (y :: vs)) = _
        rw [e2]
        rfl
      | some e =>
        show chunkText (w c!"$" ⧺ w n ⧺ (w c!"=" ⧺ cExpr dbl i e) ⧺ cStaticVars dbl i false (y :: vs)) = _
        rw [e2]
        rfl
    · have := DerivesX.vars_cons n hd hd'
      simpa [eraseStaticVars] using this

theorem rs_static {vs : List (Text × Option Expr)} (hne : vs ≠ []) (h : ∀ v ∈ vs, isIdentifier v.1 = true ∧ OptC dbl v.2) (sp : Span) :
    StmtC dbl (.mk (.decl (.staticVars vs)) sp) := by
  intro i
  obtain ⟨is, ts, hp, hd⟩ := vars_piece i vs hne h
  exact ⟨_, _, _, ((litA c!"static " [.k .Static] 0 0 (by decide) rfl).ind i).free (hp.then (litA c!";\n" [.k .SemiColon] 0 0 (by decide) rfl) (by decide)), .s_static hd⟩

end Pico
