import Verif.Lemmas.RtDecl
/-!
# The printed form of statements
-/
namespace Pico

variable {dbl : Text → Text}

/-- A statement. -/
def StmtC (dbl : Text → Text) (s : Stmt) : Prop := ∀ i, ∃ is ts o, Piece 0 0 Any (cStmt dbl i s) is ts ∧ Derives (.stmt o) ts s.erase

theorem blockC_nil : BlockC dbl [] := fun _ => ⟨_, _, .nil _, .stmts_nil⟩

theorem blockC_cons {s : Stmt} {ss : List Stmt} (h : StmtC dbl s) (h' : BlockC dbl ss) : BlockC dbl (s :: ss) := by
  intro i
  obtain ⟨is, ts, o, hp, hd⟩ := h i
  obtain ⟨js, us, hp', hd'⟩ := h' i
  exact ⟨_, _, hp.free hp', .stmts_cons hd hd'⟩

/-! ### Simple statements -/

theorem rs_none (sp : Span) : StmtC dbl (.mk .none sp) := fun i =>
  ⟨_, _, _, ((litA c!";" [.k .SemiColon] 0 0 (by decide) rfl).ind i).free (litA c!"\n" [] 0 0 (by decide) rfl), .s_empty⟩

theorem rs_block {b : List Stmt} (h : BlockC dbl b) (sp : Span) : StmtC dbl (.mk (.block b) sp) := by
  intro i
  obtain ⟨is, ts, hp, hd⟩ := h (i + 1)
  have h1 := ((litA c!"{\n" [.k .CurlyBracesOpen] 0 1 (by decide) rfl).ind i).free (litA c!"\n" [] 1 1 (by decide) rfl)
  have h2 := ((litA c!"}\n" [.k .CurlyBracesClose] 1 0 (by decide) rfl).ind i).free (litA c!"\n" [] 0 0 (by decide) rfl)
  exact ⟨_, _, _, h1.free ((hp.up 1).free h2), .s_block hd⟩

theorem rs_expr {e : Expr} (h : EClaim dbl e) (sp : Span) : StmtC dbl (.mk (.expr e) sp) := by
  intro i
  obtain ⟨is, ts, he⟩ := h i
  obtain ⟨s, hs⟩ := he.any
  exact ⟨_, _, _, (piece_ind_nil i).free (he.pc'.then (litA c!";\n" [.k .SemiColon] 0 0 (by decide) rfl) (by decide)), .s_expr hs⟩

theorem rs_echo {es : List Expr} (hne : es ≠ []) (h : ∀ e ∈ es, EClaim dbl e) (sp : Span) : StmtC dbl (.mk (.echo es) sp) := by
  intro i
  obtain ⟨is, ts, hp, -, hd, -⟩ := exprs_piece i es hne h
  exact ⟨_, _, _, ((litA c!"echo " [.k .Echo] 0 0 (by decide) rfl).ind i).free (hp.then (litA c!";\n" [.k .SemiColon] 0 0 (by decide) rfl) (by decide)), .s_echo hd⟩

theorem rs_throw {e : Expr} (h : EClaim dbl e) (sp : Span) : StmtC dbl (.mk (.throw e) sp) := by
  intro i
  obtain ⟨is, ts, he⟩ := h i
  obtain ⟨s, hs⟩ := he.any
  exact ⟨_, _, _, ((litA c!"throw " [.k .Throw] 0 0 (by decide) rfl).ind i).free (he.pc'.then (litA c!";\n" [.k .SemiColon] 0 0 (by decide) rfl) (by decide)), .s_throw hs⟩

/-- A word and an optional value. -/
theorem value_piece {e : Option Expr} (h : OptC dbl e) (i : Nat) {t : Text} {is : List Item} {k : Token}
    (hw : Piece 0 0 (LitEnd.Holds .word) (w t) is [k]) :
    ∃ is ts, Piece 0 0 Any (ind i t ⧺ (match e with | some e => w c!" " ⧺ cExpr dbl i e | none => []) ⧺ w c!";\n") is (k :: (ts ++ [.k .SemiColon])) ∧
      Derives .opt ts (eraseOpt e) := by
  cases e with
  | none => exact ⟨_, [], (hw.ind i).wordThen (litA c!";\n" [.k .SemiColon] 0 0 (by decide) rfl) rfl, .o_none⟩
  | some e =>
    obtain ⟨js, ts, he⟩ := h e rfl i
    obtain ⟨s, hs⟩ := he.any
    refine ⟨_, ts, ((hw.ind i).wordThen ((litA c!" " [] 0 0 (by decide) rfl).free (he.pc'.then (litA c!";\n" [.k .SemiColon] 0 0 (by decide) rfl) (by decide))) rfl), .o_some hs⟩

theorem rs_ret {e : Option Expr} (h : OptC dbl e) (sp : Span) : StmtC dbl (.mk (.ret e) sp) := by
  intro i
  obtain ⟨is, ts, hp, hd⟩ := value_piece h i (lit c!"return" [.k .Return] 0 0 .word (by decide) rfl)
  exact ⟨_, _, _, hp.text (by cases e <;> rfl), .s_return hd⟩

theorem rs_brk {e : Option Expr} (h : OptC dbl e) (sp : Span) : StmtC dbl (.mk (.brk e) sp) := by
  intro i
  obtain ⟨is, ts, hp, hd⟩ := value_piece h i (lit c!"break" [.k .Break] 0 0 .word (by decide) rfl)
  exact ⟨_, _, _, hp.text (by cases e <;> rfl), .s_break hd⟩

theorem rs_cont {e : Option Expr} (h : OptC dbl e) (sp : Span) : StmtC dbl (.mk (.cont e) sp) := by
  intro i
  obtain ⟨is, ts, hp, hd⟩ := value_piece h i (lit c!"continue" [.k .Continue] 0 0 .word (by decide) rfl)
  exact ⟨_, _, _, hp.text (by cases e <;> rfl), .s_continue hd⟩

theorem rs_unset {es : List Expr} (hne : es ≠ []) (h : ∀ e ∈ es, EClaim dbl e) (hv : es.all Expr.isVar = true) (sp : Span) : StmtC dbl (.mk (.unset es) sp) := by
  intro i
  obtain ⟨is, ts, hp, hn, -, hd⟩ := exprs_piece i es hne h
  exact ⟨_, _, _, ((lit c!"unset(" [.k .Unset, .k .ParenthesesOpen] 0 0 .opn (by decide) rfl).ind i).opn
    (hp.then (litA c!");\n" [.k .ParenthesesClose, .k .SemiColon] 0 0 (by decide) rfl) (by decide)) hn.append, .s_unset (hd hv)⟩

/-! ### Control structures -/

/-- `word ( e ) ` and the rest. -/
theorem cond_piece {e : Expr} (h : EClaim dbl e) (i : Nat) {t : Text} {ts : List Token} (hw : Piece 0 0 (LitEnd.Holds .opn) (w t) (litItems t) ts)
    {cs : List Chunk} {is : List Item} {us : List Token} {b : Nat} (hp : Piece 0 b Any cs is us) : ∃ is' vs s,
      Piece 0 b Any (ind i t ⧺ cExpr dbl i e ⧺ w c!") " ⧺ cs) is' (ts ++ (vs ++ .k .ParenthesesClose :: us)) ∧ Derives (.expr 0 s) vs e.erase := by
  obtain ⟨js, vs, he⟩ := h i
  obtain ⟨s, hs⟩ := he.any
  exact ⟨_, vs, s, (hw.ind i).opn (he.pc'.then ((litA c!") " [.k .ParenthesesClose] 0 0 (by decide) rfl).free hp) (by decide)) he.nc.append, hs⟩

theorem rs_while {c : Expr} {b : List Stmt} (hc : EClaim dbl c) (hb : BlockC dbl b) (sp : Span) : StmtC dbl (.mk (.while c b) sp) := by
  intro i
  obtain ⟨is, ts, hp, hd⟩ := block_piece hb i
  obtain ⟨js, vs, s, hp', hd'⟩ := cond_piece hc i (lit c!"while (" [.k .While, .k .ParenthesesOpen] 0 0 .opn (by decide) rfl) hp
  exact ⟨_, _, _, hp', .s_while hd' (.b_block hd)⟩

theorem rs_ite {c : Expr} {t e : List Stmt} (hc : EClaim dbl c) (ht : BlockC dbl t) (he : BlockC dbl e) (sp : Span) : StmtC dbl (.mk (.ite c t e) sp) := by
  intro i
  obtain ⟨is, ts, hp, hd⟩ := block_piece ht i
  obtain ⟨ks, xs, hq, hx⟩ := block_piece he i
  have htail : ∃ js us, Piece 0 0 Any (cnd (!e.isEmpty) (ind i c!"else " ⧺ cBlock i (cStmts dbl (i + 1) e))) js us ∧ Derives .ifTail us (eraseStmts e) := by
    cases e with
    | nil => exact ⟨_, _, .nil _, .if_none⟩
    | cons s ss => exact ⟨_, _, ((litA c!"else " [.k .Else] 0 0 (by decide) rfl).ind i).free hq, .if_else (.b_block hx)⟩
  obtain ⟨js, us, ht', htd⟩ := htail
  obtain ⟨ls, vs, s, hp', hd'⟩ := cond_piece hc i (lit c!"if (" [.k .If, .k .ParenthesesOpen] 0 0 .opn (by decide) rfl) (hp.free ht')
  exact ⟨_, _, _, hp', .s_if hd' (.b_block hd) htd (.inr rfl)⟩

theorem rs_do {c : Expr} {b : List Stmt} (hc : EClaim dbl c) (hb : BlockC dbl b) (sp : Span) : StmtC dbl (.mk (.doWhile b c) sp) := by
  intro i
  obtain ⟨is, ts, hp, hd⟩ := block_piece hb i
  obtain ⟨js, vs, he⟩ := hc i
  obtain ⟨s, hs⟩ := he.any
  have h2 := (lit c!"while (" [.k .While, .k .ParenthesesOpen] 0 0 .opn (by decide) rfl).opn
    (he.pc'.then (litA c!");\n" [.k .ParenthesesClose, .k .SemiColon] 0 0 (by decide) rfl) (by decide)) he.nc.append
  refine ⟨_, _, false, ((litA c!"do " [.k .Do] 0 0 (by decide) rfl).ind i).free (hp.free h2), ?_⟩
  have := DerivesX.s_do (DerivesX.b_block hd) hs
  simpa [Stmt.erase, StmtK.erase] using this

/-- An optional expression in front of a sign. -/
theorem opt_piece {e : Option Expr} (h : OptC dbl e) (i : Nat) {x : Char} {t : Text} {cs : List Chunk} {is : List Item} {us : List Token} {b : Nat}
    (hp : Piece 0 b Any (.text (x :: t) :: cs) is us) (hx : folChar x = true) (hy : (x.isAlpha || x == ' ' || x == '\t') = false) :
    ∃ is' ts, Piece 0 b Any (cOptExpr dbl i e ⧺ .text (x :: t) :: cs) is' (ts ++ us) ∧ Derives .opt ts (eraseOpt e) ∧ Nocast is' := by
  cases e with
  | none =>
    refine ⟨is, [], hp, .o_none, fun rest _ => ?_⟩
    obtain ⟨r, hr⟩ := head_text hp
    rw [hr]
    exact not_cast_head hy
  | some e =>
    obtain ⟨js, ts, he⟩ := h e rfl i
    obtain ⟨s, hs⟩ := he.any
    exact ⟨_, ts, he.pc'.then hp hx, .o_some hs, he.nc.append⟩

theorem rs_for {a c l : Option Expr} {b : List Stmt} (ha : OptC dbl a) (hc : OptC dbl c) (hl : OptC dbl l) (hb : BlockC dbl b) (sp : Span) :
    StmtC dbl (.mk (.for a c l b) sp) := by
  intro i
  obtain ⟨is, ts, hp, hd⟩ := block_piece hb i
  obtain ⟨is1, ts1, hp1, hd1, -⟩ := opt_piece hl i ((litA c!") " [.k .ParenthesesClose] 0 0 (by decide) rfl).free hp) (by decide) rfl
  obtain ⟨is2, ts2, hp2, hd2, -⟩ := opt_piece hc i ((litA c!";" [.k .SemiColon] 0 0 (by decide) rfl).free hp1) (by decide) rfl
  obtain ⟨is3, ts3, hp3, hd3, hn⟩ := opt_piece ha i ((litA c!"; " [.k .SemiColon] 0 0 (by decide) rfl).free hp2) (by decide) rfl
  exact ⟨_, _, _, ((lit c!"for (" [.k .For, .k .ParenthesesOpen] 0 0 .opn (by decide) rfl).ind i).opn hp3 hn, .s_for hd3 hd2 hd1 (.b_block hd)⟩

theorem cref_start {e : Expr} (h : crefOk e = true) {ts : List Token} (hd : Derives .cref ts e.erase) : ∃ n us, ts = .variable n :: us := by
  generalize hx : e.erase = x at hd
  cases hd with
  | c_name hn =>
    exfalso
    obtain ⟨k, sp⟩ := e
    cases k <;> first | (cases hx; done) | (simp [crefOk] at h; done)
  | c_var n h => exact ⟨_, _, rfl⟩
  | _ => contradiction

/-- What `foreach` assigns to. -/
def FvC (dbl : Text → Text) (e : Expr) : Prop := ∀ i, ∃ is ts, Piece 0 0 (Fo true) (cExpr dbl i e) is ts ∧ Derives .fvar ts e.erase

theorem fv_claim {e : Expr} (h : EClaim dbl e ∧ e.isVar = true ∨ ∃ e' sp, e = .mk (.reference e') sp ∧ EClaim dbl e' ∧ crefOk e' = true ∧ e'.isVar = true) : FvC dbl e := by
  intro i
  rcases h with ⟨h, hv⟩ | ⟨e', sp, rfl, h, hc, hw⟩
  · obtain ⟨is, ts, he⟩ := h i
    exact ⟨is, ts, he.pc', .fv_plain (he.var hv)⟩
  · obtain ⟨is, ts, he⟩ := h i
    have hv := he.var hw
    obtain ⟨n, us, rfl⟩ := cref_start hc (he.cr hc)
    refine ⟨_, _, (lit c!"&" [.k .Ampersand] 0 0 (.sym c!"&") (by decide) rfl).append he.pc' fun rest _ ha => ?_, .fv_ref n hv⟩
    obtain ⟨x, y, hxy, hx⟩ := he.st.head ha
    rw [hxy]
    intro z hz
    cases hz
    exact stops_amp hx

theorem rs_forEach {e v : Expr} {k : Option Expr} {b : List Stmt} (he : EClaim dbl e) (hk : ∀ k', k = some k' → FvC dbl k') (hv : FvC dbl v)
    (hb : BlockC dbl b) (sp : Span) : StmtC dbl (.mk (.forEach e k v b) sp) := by
  intro i
  obtain ⟨is, ts, hp, hd⟩ := block_piece hb i
  obtain ⟨js, us, hp1, hd1⟩ := hv i
  obtain ⟨ks, vs, he⟩ := he i
  obtain ⟨s, hs⟩ := he.any
  have hp2 := hp1.then ((litA c!") " [.k .ParenthesesClose] 0 0 (by decide) rfl).free hp) (by decide)
  have hfor := (lit c!"foreach (" [.k .Foreach, .k .ParenthesesOpen] 0 0 .opn (by decide) rfl).ind i
  cases k with
  | none =>
    have := he.pc'.thenB ((litA c!" as " [.k .As] 0 0 (by decide) rfl).free hp2) (by decide)
    exact ⟨_, _, _, hfor.opn this he.nc.append, .s_foreach hs hd1 (.b_block hd)⟩
  | some k =>
    obtain ⟨ls, xs, hp3, hd3⟩ := hk k rfl i
    have h4 := hp3.thenB ((litA c!" => " [.k .DoubleArrow] 0 0 (by decide) rfl).free hp2) (by decide)
    have h5 := he.pc'.thenB ((litA c!" as " [.k .As] 0 0 (by decide) rfl).free h4) (by decide)
    refine ⟨_, _, _, (hfor.opn h5 he.nc.append).text ?_, .s_foreachKey hs hd3 hd1 (.b_block hd)⟩
    show chunkText (ind i c!"foreach (" ⧺ cExpr dbl i e ⧺ w c!" as " ⧺ (cExpr dbl i k ⧺ w c!" => ") ⧺ cExpr dbl i v ⧺ _) = _
    rw [List.append_assoc (cExpr dbl i k)]
    rfl

/-! ### Exceptions -/

def CatchC (dbl : Text → Text) : Catch → Prop
  | .mk ty v b => pathOk ty = true ∧ isIdentifier v = true ∧ BlockC dbl b

theorem var_text (a : List Chunk) (n : Text) (b : List Chunk) : chunkText (a ⧺ w c!" $" ⧺ w n ⧺ b) = chunkText (a ⧺ w c!" " ⧺ w c!"$" ⧺ w n ⧺ b) :=
  (chunk_merge a c!" " c!"$" (w n ⧺ b)).symm

theorem catches_piece (i : Nat) : ∀ cs : List Catch, (∀ c ∈ cs, CatchC dbl c) → ∃ is ts, Piece 0 0 Any (cCatches dbl i cs) is ts ∧ Derives .catches ts (eraseCatches cs)
  | [], _ => ⟨_, _, .nil _, .catches_nil⟩
  | .mk ty v b :: cs, h => by
    obtain ⟨js, us, hp', hd'⟩ := catches_piece i cs fun c hc => h c (List.mem_cons_of_mem _ hc)
    obtain ⟨h1, h2, h3⟩ := h _ (List.mem_cons_self ..)
    obtain ⟨is, ts, hp, hd⟩ := block_piece h3 i
    obtain ⟨ks, hq, -⟩ := piece_path (a := 0) h1
    have hv := (piece_var (a := 0) h2).then ((litA c!") " [.k .ParenthesesClose] 0 0 (by decide) rfl).free (hp.free hp')) (by decide)
    have hb := (litA c!" " [] 0 0 (by decide) rfl).free hv
    have hall := hq.append hb fun rest _ _ => by
      show Fo false (' ' :: '$' :: _)
      exact fo_blank (by decide)
    have := (lit c!"catch (" [.k .Catch, .k .ParenthesesOpen] 0 0 .opn (by decide) rfl).opn hall (by
      intro rest _
      rw [render_append, List.append_assoc]
      exact path_nocast h1 hq.txt (x := '$') rfl)
    refine ⟨_, _, this.text ?_, ?_⟩
    · show chunkText ((w c!"catch (" ⧺ cPath ty ⧺ w c!" $" ⧺ w v ⧺ w c!") " ⧺ cBlock i (cStmts dbl (i + 1) b)) ⧺ cCatches dbl i cs) = _
      have e1 : (w c!"catch (" ⧺ cPath ty ⧺ w c!" $" ⧺ w v ⧺ w c!") " ⧺ cBlock i (cStmts dbl (i + 1) b)) ⧺ cCatches dbl i cs =
          (w c!"catch (" ⧺ cPath ty) ⧺ w c!" $" ⧺ w v ⧺ w c!") " ⧺ cBlock i (cStmts dbl (i + 1) b) ⧺ cCatches dbl i cs := by simp [List.append_assoc]
      rw [e1, var_text]
      simp [List.append_assoc, w]
    · have := DerivesX.catches_cons ty.isAbsolute (nsSegs ty) ty.ident v hd hd'
      rw [qualPath_self] at this
      simpa [Catch.erase, eraseCatches] using this

theorem rs_try {b : List Stmt} {cs : List Catch} {f : Option (List Stmt)} (hb : BlockC dbl b) (hc : ∀ c ∈ cs, CatchC dbl c)
    (hf : ∀ f', f = some f' → BlockC dbl f') (sp : Span) : StmtC dbl (.mk (.try b cs f) sp) := by
  intro i
  obtain ⟨is, ts, hp, hd⟩ := block_piece hb i
  obtain ⟨js, us, hp', hd'⟩ := catches_piece i cs hc
  have htry := (litA c!"try " [.k .Try] 0 0 (by decide) rfl).ind i
  cases f with
  | none =>
    refine ⟨_, _, false, (htry.free (hp.free hp')).text ?_, ?_⟩
    · show chunkText (ind i c!"try " ⧺ cBlock i (cStmts dbl (i + 1) b) ⧺ cCatches dbl i cs ⧺ []) = _
      rw [List.append_nil]
    · have := DerivesX.s_try hd hd' .fin_none
      simpa [StmtK.erase, Stmt.erase, eraseBody] using this
  | some f =>
    obtain ⟨ks, vs, hq, hqd⟩ := block_piece (hf f rfl) i
    have := (hp.free (hp'.free ((litA c!"finally " [.k .Finally] 0 0 (by decide) rfl).free hq)))
    refine ⟨_, _, false, htry.free this, ?_⟩
    have := DerivesX.s_try hd hd' (.fin_some hqd)
    simpa [StmtK.erase, Stmt.erase, eraseBody] using this

end Pico
