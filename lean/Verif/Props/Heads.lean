import Verif.Spec.Heads
import Verif.Props.Grammatical
import Verif.Props.Agree
/-!
# Control structures with a colon (C60)
-/
namespace Pico
open P

variable {toks : List TokSpan}

/-- A colon begins no statement. -/
private theorem colon_body (r : List Token) : Fails toks (parseStatementExtractBlock theRec) (.k .Colon :: r) (.k .Colon :: r) := by
  unfold parseStatementExtractBlock
  exact Fails.bind_left (statement_stops rfl nofun)

local macro "failstmt" : tactic => `(tactic| (
  simp only [List.append_assoc, List.cons_append, List.nil_append]
  rw [theRec_stmt]
  unfold parseStatement
  refine Fails.bind peek_step ?_
  try dsimp only
  refine Fails.bind getPos_step ?_
  try dsimp only [reduceCtorEq, ↓reduceIte]))

theorem head_fails (hP : Placed toks) {hs : List Token} (h : Head hs) (r : List Token) :
    Fails toks theRec.stmt (hs ++ .k .Colon :: r) (.k .Colon :: r) := by
  cases h with
  | cond kw hk h =>
    rename_i s cs c
    obtain ⟨c', -, hcs⟩ := parenExpr_step (derives_claim hP h : ExprOK toks 0 s cs c) (.k .Colon :: r)
    rcases hk with rfl | rfl | rfl
    · failstmt
      failc setPos_next
      unfold parseIf parseIfBranch
      refine Fails.bind_left ?_
      failc hcs
      exact Fails.bind_left (colon_body r)
    · failstmt
      failc setPos_next
      unfold parseWhile
      failc hcs
      exact Fails.bind_left (colon_body r)
    · obtain ⟨c', -, hcs⟩ := (derives_claim hP h : ExprOK toks 0 s cs c).run0 (r := .k .ParenthesesClose :: .k .Colon :: r) rfl
      failstmt
      failc setPos_next
      unfold parseSwitch
      failc expect_hit
      failc hcs
      failc expect_hit
      exact Fails.bind_left (expect_miss (by nokw))
  | «for» hi hc hl =>
    rename_i is cs ls i c l
    obtain ⟨i', -, his⟩ := (derives_claim hP hi : OptOK toks is i) (.k .SemiColon :: (cs ++ .k .SemiColon :: (ls ++ .k .ParenthesesClose :: .k .Colon :: r))) rfl
    obtain ⟨c', -, hcs⟩ := (derives_claim hP hc : OptOK toks cs c) (.k .SemiColon :: (ls ++ .k .ParenthesesClose :: .k .Colon :: r)) rfl
    obtain ⟨l', -, hls⟩ := (derives_claim hP hl : OptOK toks ls l) (.k .ParenthesesClose :: .k .Colon :: r) rfl
    failstmt
    failc setPos_next
    unfold parseFor
    failc expect_hit
    failc his
    failc expect_hit
    failc hcs
    failc expect_hit
    failc hls
    failc expect_hit
    exact Fails.bind_left (colon_body r)
  | foreach h hv =>
    rename_i s cs vs c v
    obtain ⟨c', -, hcs⟩ := (derives_claim hP h : ExprOK toks 0 s cs c).run0 (r := .k .As :: (vs ++ .k .ParenthesesClose :: .k .Colon :: r)) rfl
    obtain ⟨v', -, hvs⟩ := (derives_claim hP hv : FvarOK toks vs v) (.k .ParenthesesClose :: .k .Colon :: r) rfl
    failstmt
    failc setPos_next
    unfold parseForeach
    failc expect_hit
    failc hcs
    failc expect_hit
    failc hvs
    refine Fails.bind (a := (none, v')) (l' := .k .ParenthesesClose :: .k .Colon :: r) ?_ ?_
    · stepc (eats_miss (by nokw))
      exact Step.pure
    dsimp only
    failc expect_hit
    exact Fails.bind_left (colon_body r)
  | foreachKey h hk hv =>
    rename_i s cs ks vs c kv v
    obtain ⟨c', -, hcs⟩ := (derives_claim hP h : ExprOK toks 0 s cs c).run0 (r := .k .As :: (ks ++ .k .DoubleArrow :: (vs ++ .k .ParenthesesClose :: .k .Colon :: r))) rfl
    obtain ⟨k', -, hks⟩ := (derives_claim hP hk : FvarOK toks ks kv) (.k .DoubleArrow :: (vs ++ .k .ParenthesesClose :: .k .Colon :: r)) rfl
    obtain ⟨v', -, hvs⟩ := (derives_claim hP hv : FvarOK toks vs v) (.k .ParenthesesClose :: .k .Colon :: r) rfl
    failstmt
    failc setPos_next
    unfold parseForeach
    failc expect_hit
    failc hcs
    failc expect_hit
    failc hks
    refine Fails.bind (a := (some k', v')) (l' := .k .ParenthesesClose :: .k .Colon :: r) ?_ ?_
    · stepc eats_hit
      stepc hvs
      exact Step.pure
    dsimp only
    failc expect_hit
    exact Fails.bind_left (colon_body r)

theorem head_starts {hs : List Token} (h : Head hs) : ∃ kw us, hs = .k kw :: us ∧ topHead (.k kw) = true ∧ kw ≠ .Namespace ∧ kw ≠ .Use := by
  cases h with
  | cond kw hk h => rcases hk with rfl | rfl | rfl <;> exact ⟨_, _, rfl, rfl, nofun, nofun⟩
  | _ => exact ⟨_, _, rfl, rfl, nofun, nofun⟩

/-- The loop over the statements of a source ends with an error. -/
private def Breaks (toks : List TokSpan) (l : List Token) : Prop :=
  ∀ acc k, l.length + 1 ≤ k → ∃ r, Fails toks (P.loopN (topStep theRec (toks.length - 1)) k acc) l r

private theorem breaks_stmt {kw : Kw} {us r : List Token} (hf : Fails toks theRec.stmt (.k kw :: us) r) (h1 : kw ≠ .Namespace) (h2 : kw ≠ .Use) :
    Breaks toks (.k kw :: us) := by
  intro acc k hk
  obtain ⟨k, rfl⟩ : ∃ j, k = j + 1 := ⟨k - 1, by omega⟩
  refine ⟨r, Fails.bind_left (Fails.with fun htl => ?_)⟩
  unfold topStep
  failc getPos_step
  rw [if_pos (posOf_last htl)]
  refine Fails.bind_left ?_
  unfold parseTopStatement
  failc (eat_miss (by simp [NoKw, h1]))
  failc (eat_miss (by simp [NoKw, h2]))
  rw [← theRec_stmt]
  exact hf

private theorem breaks_tops (hP : Placed toks) {l : List Token} (hb : Breaks toks l) (hl : StmtEnd true l) :
    ∀ (ss : List Stmt) {pre : List Token}, Derives .tops pre ss → Breaks toks (pre ++ l) ∧ StmtEnd true (pre ++ l) := by
  intro ss
  induction ss with
  | nil =>
    intro pre h
    cases h with
    | tops_nil => exact ⟨hb, hl⟩
  | cons s ss ih =>
    intro pre h
    cases h with
    | tops_cons h h' =>
      rename_i ts us
      obtain ⟨hb', hl'⟩ := ih h'
      have ht : TopOK toks ts s := derives_claim hP h
      have hs := ht.1
      obtain ⟨s', -, hst⟩ := ht.2 _ hl'
      rw [List.append_assoc]
      refine ⟨fun acc k hk => ?_, topHead_end hs⟩
      obtain ⟨t, xs, rfl, -⟩ := hs
      obtain ⟨k, rfl⟩ : ∃ j, k = j + 1 := ⟨k - 1, by omega⟩
      obtain ⟨r, hr⟩ := hb' (acc ++ [s']) k (by simp at hk ⊢; omega)
      refine ⟨r, Fails.bind (a := .inl (acc ++ [s'])) (l' := us ++ l) (Step.with fun htl => ?_) hr⟩
      simp only [List.cons_append] at htl hst ⊢
      unfold topStep
      stepc getPos_step
      rw [if_pos (posOf_last htl)]
      stepc hst
      exact Step.pure

/-- Behind a program stands something that is no statement. -/
theorem program_rejected {src : Text} {n : Nat} {toks : List TokSpan} (hl : spansOf n src = some toks) {pre us : List Token} {kw : Kw} {ss : List Stmt}
    (hp : Derives .tops pre ss) (h : visible toks = pre ++ .k kw :: us) (h1 : kw ≠ .Namespace) (h2 : kw ≠ .Use) (he : StmtEnd true (.k kw :: us))
    (hf : Placed (stripTokens toks) → ∃ r, Fails (stripTokens toks) theRec.stmt (.k kw :: us) r) : ∃ e, Ends src (.err e) := by
  obtain ⟨t0, h0⟩ := scanned_of_spans hl
  have hP : Placed (stripTokens toks) := (scanned_sourced h0).placed
  rw [visible_strip] at h
  obtain ⟨r, hf⟩ := hf hP
  have hb := (breaks_tops hP (breaks_stmt hf h1 h2) he ss hp).1
  have hlen : 1 ≤ (stripTokens toks).length := by
    have := congrArg List.length h
    simp at this
    omega
  obtain ⟨r, hr⟩ : ∃ r, Fails (stripTokens toks) (parseTopStatementList theRec) ((stripTokens toks).map TokSpan.tok) r := by
    obtain ⟨r, hr⟩ := hb [] ((stripTokens toks).length + 2) (by rw [← h]; simp)
    refine ⟨r, ?_⟩
    rw [parseTopStatementList_eq]
    failc tokCount_step
    failc (subP_step hlen)
    rw [h]
    exact hr
  obtain ⟨⟨e, he⟩, -⟩ := hr ⟨[], rfl⟩
  obtain ⟨t, hm, e1⟩ := spans_scanned (spansOf_le (m := n + (2 * (stripTokens toks).length + 2)) (by omega) hl)
  have h2 : parseTopStatementList (recN (n + (2 * (stripTokens toks).length + 2))) (stripTokens toks) 0 = .err e (posOf (stripTokens toks) r) := by
    rw [top_theRec _ _ (by omega)]
    simpa [posOf] using he
  have : ∃ z, parseTokensN (n + (2 * (stripTokens toks).length + 2)) t.st.lineMap toks = .err z := by
    unfold parseTokensN
    dsimp only
    rw [h2]
    dsimp only
    split
    · rename_i hlt
      rw [List.getElem?_eq_getElem hlt]
      obtain ⟨z, hz, -⟩ := spanned_ok hm _ _ e none
      exact ⟨z, hz⟩
    · cases hg : (stripTokens toks).getLast? with
      | none => rw [List.getLast?_eq_none_iff] at hg; rw [hg] at hlen; cases hlen
      | some y =>
        obtain ⟨z, hz, -⟩ := spanned_ok hm y.span.stop (y.span.stop + 1) e none
        exact ⟨z, hz⟩
  obtain ⟨z, hz⟩ := this
  exact ⟨z, _, e1.trans hz, nofun⟩

/-- **C60** fails for every control structure behind every program: with a colon behind its head the source is rejected, whatever follows. -/
theorem C60_fails_class (src : Text) (n : Nat) (toks : List TokSpan) (hl : spansOf n src = some toks) (pre hs rest : List Token) (ss : List Stmt)
    (hp : Derives .tops pre ss) (hh : Head hs) (h : visible toks = pre ++ (hs ++ .k .Colon :: rest)) :
    ∃ e, Ends src (.err e) := by
  have hf := fun hP : Placed (stripTokens toks) => head_fails hP hh rest
  obtain ⟨kw, us, rfl, ht, h1, h2⟩ := head_starts hh
  exact program_rejected hl hp h h1 h2 (topHead_end ⟨_, us, rfl, ht⟩) fun hP => ⟨_, hf hP⟩

/-- **C22** for closing brackets, separators and branches outside of a `switch`: a program with one of these behind it is rejected, whatever follows. -/
theorem C22_misplaced_partial (src : Text) (n : Nat) (toks : List TokSpan) (hl : spansOf n src = some toks) (pre rest : List Token) (kw : Kw)
    (ss : List Stmt) (hk : kw ∈ [Kw.ParenthesesClose, .SquareBracketClose, .CurlyBracesClose, .Comma, .Colon, .DoubleArrow, .As, .Case, .Default])
    (hp : Derives .tops pre ss) (h : visible toks = pre ++ .k kw :: rest) : ∃ e, Ends src (.err e) := by
  simp only [List.mem_cons, List.not_mem_nil, or_false] at hk
  have h3 : stopKw kw = true ∧ kw ≠ .SemiColon ∧ kw ≠ .Namespace ∧ kw ≠ .Use := by
    rcases hk with rfl | rfl | rfl | rfl | rfl | rfl | rfl | rfl | rfl <;> exact ⟨rfl, nofun, nofun, nofun⟩
  have hn : ∀ k', stopKw k' = false → NoKw k' (.k kw :: rest) := by
    intro k' hk' he
    cases he
    rw [h3.1] at hk'
    cases hk'
  exact program_rejected hl hp h h3.2.2.1 h3.2.2.2 ⟨hn _ rfl, hn _ rfl, fun _ => ⟨hn _ rfl, hn _ rfl⟩⟩ fun _ =>
    ⟨_, statement_stops h3.1 h3.2.1⟩

/-- **C60** for the notation with braces: every control structure but `switch` (whose body is no list of statements, see C23), with statements
between braces and a program behind it, is accepted. Missing: the notation with a colon, see `C60_fails_class`. -/
theorem C60_braces_partial (src : Text) (n : Nat) (toks : List TokSpan) (hl : spansOf n src = some toks) (hs bs post : List Token) (b ss : List Stmt)
    (hh : Head hs) (hsw : hs.head? ≠ some (.k .Switch)) (hb : Derives .stmts bs b) (hp : Derives .tops post ss)
    (h : visible toks = hs ++ .k .CurlyBracesOpen :: (bs ++ .k .CurlyBracesClose :: post)) : ∃ ss', Ends src (.ok ss') := by
  have hd : ∃ s o, Derives (.stmt o) (hs ++ .k .CurlyBracesOpen :: (bs ++ [.k .CurlyBracesClose])) s := by
    have body : Derives (.body false) (.k .CurlyBracesOpen :: (bs ++ [.k .CurlyBracesClose])) b := .b_block hb
    clear h
    cases hh with
    | cond kw hk h =>
      rcases hk with rfl | rfl | rfl
      · have := DerivesX.s_if h body .if_none (.inl rfl)
        exact ⟨_, _, by simpa using this⟩
      · have := DerivesX.s_while h body
        exact ⟨_, _, by simpa using this⟩
      · exact absurd rfl hsw
    | «for» hi hc hl =>
      have := DerivesX.s_for hi hc hl body
      exact ⟨_, _, by simpa using this⟩
    | foreach h hv =>
      have := DerivesX.s_foreach h hv body
      exact ⟨_, _, by simpa using this⟩
    | foreachKey h hk hv =>
      have := DerivesX.s_foreachKey h hk hv body
      exact ⟨_, _, by simpa using this⟩
  obtain ⟨s, o, hd⟩ := hd
  have hd := DerivesX.tops_cons (.t_stmt hd) hp
  have hv : visible toks = hs ++ .k .CurlyBracesOpen :: (bs ++ [.k .CurlyBracesClose]) ++ post := by rw [h]; simp
  rw [← hv] at hd
  obtain ⟨⟨r, hr⟩, h2⟩ := C51_source src n toks _ hl (by rw [h]; simp) hd
  obtain ⟨ss', rfl, -⟩ := h2 r hr
  exact ⟨ss', hr⟩

/-- `<?php ;if($a):;endif;` meets the hypotheses of the first theorem, -/
example : ∃ n toks rest, spansOf n c!"<?php ;if($a):;endif;" = some toks ∧ Derives .tops [.k .SemiColon] [bareS .none] ∧
    Head [.k .If, .k .ParenthesesOpen, .variable c!"a", .k .ParenthesesClose] ∧
    visible toks = [.k .SemiColon] ++ ([.k .If, .k .ParenthesesOpen, .variable c!"a", .k .ParenthesesClose] ++ .k .Colon :: rest) := by
  have h : (spansOf 20 c!"<?php ;if($a):;endif;").any (fun toks => visible toks == [.k .SemiColon, .k .If, .k .ParenthesesOpen, .variable c!"a",
      .k .ParenthesesClose, .k .Colon, .k .SemiColon, .k .EndIf, .k .SemiColon]) = true := by decide +kernel
  obtain ⟨h0, h2⟩ := (Option.any_eq_true_iff_get _ _).1 h
  have hv : Derives (.expr 0 prefixLevel) [.variable c!"a"] (bare (.var (.name c!"a"))) := .e_var (.v_name _ (.a_nil _ _))
  exact ⟨20, _, _, (Option.some_get h0).symm, .tops_cons (.t_stmt .s_empty) .tops_nil, .cond .If (.inl rfl) hv, eq_of_beq h2⟩

/-- and `<?php ;)` those of the second. -/
example : ∃ n toks, spansOf n c!"<?php ;)" = some toks ∧ Derives .tops [.k .SemiColon] [bareS .none] ∧
    visible toks = [.k .SemiColon] ++ .k .ParenthesesClose :: [] := by
  have h : (spansOf 20 c!"<?php ;)").any (fun toks => visible toks == [.k .SemiColon, .k .ParenthesesClose]) = true := by decide +kernel
  obtain ⟨h0, h2⟩ := (Option.any_eq_true_iff_get _ _).1 h
  exact ⟨20, _, (Option.some_get h0).symm, .tops_cons (.t_stmt .s_empty) .tops_nil, eq_of_beq h2⟩

/-- `<?php if($a){;};` meets the hypotheses of `C60_braces_partial`. -/
example : ∃ n toks, spansOf n c!"<?php if($a){;};" = some toks ∧
    Head [.k .If, .k .ParenthesesOpen, .variable c!"a", .k .ParenthesesClose] ∧ Derives .stmts [.k .SemiColon] [bareS .none] ∧
    Derives .tops [.k .SemiColon] [bareS .none] ∧
    visible toks = [.k .If, .k .ParenthesesOpen, .variable c!"a", .k .ParenthesesClose] ++
      .k .CurlyBracesOpen :: ([.k .SemiColon] ++ .k .CurlyBracesClose :: [.k .SemiColon]) := by
  have h : (spansOf 20 c!"<?php if($a){;};").any (fun toks => visible toks == [.k .If, .k .ParenthesesOpen, .variable c!"a",
      .k .ParenthesesClose, .k .CurlyBracesOpen, .k .SemiColon, .k .CurlyBracesClose, .k .SemiColon]) = true := by decide +kernel
  obtain ⟨h0, h2⟩ := (Option.any_eq_true_iff_get _ _).1 h
  have hv : Derives (.expr 0 prefixLevel) [.variable c!"a"] (bare (.var (.name c!"a"))) := .e_var (.v_name _ (.a_nil _ _))
  exact ⟨20, _, (Option.some_get h0).symm, .cond .If (.inl rfl) hv, .stmts_cons .s_empty .stmts_nil, .tops_cons (.t_stmt .s_empty) .tops_nil, eq_of_beq h2⟩

end Pico
