import Verif.Lemmas.GramFn
import Verif.Lemmas.GramStart
/-!
# Statements
-/
namespace Pico
open P

variable {toks : List TokSpan}

/-- What may follow a statement: not `catch`, `finally`, and neither `else` nor `elseif` behind an `if`. -/
def StmtEnd (o : Bool) (r : List Token) : Prop :=
  NoKw .Catch r ∧ NoKw .Finally r ∧ (o = true → NoKw .Else r ∧ NoKw .ElseIf r)

def StmtOK (toks : List TokSpan) (o : Bool) (ts : List Token) (s : Stmt) : Prop :=
  StartsWith stmtHead ts ∧ ∀ r, StmtEnd o r → ∃ s', Stmt.erase s' = s ∧ Step toks theRec.stmt (ts ++ r) s' r

def BodyOK (toks : List TokSpan) (o : Bool) (ts : List Token) (b : List Stmt) : Prop :=
  StartsWith stmtHead ts ∧ ∀ r, StmtEnd o r → ∃ b' sp, eraseStmts b' = b ∧
    Step toks (parseStatementExtractBlock theRec) (ts ++ r) (b', sp) r

theorem StmtEnd.mono {o : Bool} {r : List Token} (h : StmtEnd true r) : StmtEnd o r :=
  ⟨h.1, h.2.1, fun _ => h.2.2 rfl⟩

theorem stmtHead_ne {t : Token} {k : Kw} (h : stmtHead t = true) (hk : stmtHead (.k k) = false) : t ≠ .k k := by
  rintro rfl
  rw [h] at hk
  cases hk

theorem noKw_stmt {ts r : List Token} {k : Kw} (h : StartsWith stmtHead ts) (hk : stmtHead (.k k) = false) :
    NoKw k (ts ++ r) := by
  obtain ⟨t, us, rfl, ht⟩ := h
  simp [NoKw, stmtHead_ne ht hk]

theorem stmtEnd_stmt {o : Bool} {ts r : List Token} (h : StartsWith stmtHead ts) : StmtEnd o (ts ++ r) :=
  ⟨noKw_stmt h rfl, noKw_stmt h rfl, fun _ => ⟨noKw_stmt h rfl, noKw_stmt h rfl⟩⟩

theorem stmtEnd_block {o : Bool} {r : List Token} (h : endsBlock r) : StmtEnd o r := by
  obtain ⟨k, r', rfl, h⟩ := h
  rcases h with rfl | rfl | rfl <;> exact ⟨by simp [NoKw], by simp [NoKw], fun _ => ⟨by simp [NoKw], by simp [NoKw]⟩⟩

/-! ## Lists of statements -/

theorem posOf_last {t : Token} {l : List Token} (h : Tail toks (t :: l)) :
    posOf toks (t :: l) ≤ toks.length - 1 := by
  have := h.len
  simp at this
  unfold posOf
  simp
  omega

theorem stmts_nil : StmtsOK toks [] [] := by
  refine ⟨.inl rfl, fun r hr => ?_⟩
  obtain ⟨k, r', rfl, hk⟩ := hr
  refine ⟨[], some (errOf toks theRec.stmt (.k k :: r')), rfl, fun acc => Loops.done ?_⟩
  norml
  refine Step.with fun ht => ?_
  unfold innerStep
  stepc getPos_step
  rw [if_pos (posOf_last ht)]
  have hf : Fails toks theRec.stmt (.k k :: r') (.k k :: r') := by
    refine statement_stops ?_ ?_
    · rcases hk with rfl | rfl | rfl <;> rfl
    · rcases hk with rfl | rfl | rfl <;> decide
  stepc hf.attempt
  exact Step.pure' (by simp)

theorem stmts_cons {o : Bool} {ts us : List Token} {s : Stmt} {ss : List Stmt} (h : StmtOK toks o ts s)
    (h' : StmtsOK toks us ss) : StmtsOK toks (ts ++ us) (s :: ss) := by
  obtain ⟨t, xs, hx, ht⟩ := h.1
  refine ⟨.inr ⟨t, xs ++ us, by simp [hx], ht⟩, fun r hr => ?_⟩
  obtain ⟨ss', err, hss, hl⟩ := h'.2 r hr
  have he : StmtEnd o (us ++ r) := by
    rcases h'.1 with rfl | h0
    · exact stmtEnd_block hr
    · exact stmtEnd_stmt h0
  obtain ⟨s', hs, hst⟩ := h.2 (us ++ r) he
  refine ⟨s' :: ss', err, by simp [eraseStmts, hs, hss], fun acc => ?_⟩
  norml
  refine Loops.more (s' := acc ++ [s']) (l' := us ++ r) ?_ (by simp [hx]; omega) (loops_snoc2 hl acc _)
  refine Step.with fun htl => ?_
  subst hx
  simp only [List.append_assoc, List.cons_append] at htl hst ⊢
  unfold innerStep
  stepc getPos_step
  rw [if_pos (posOf_last htl)]
  stepc hst.attempt
  exact Step.pure

/-! ## Bodies -/

theorem b_block (hs : ∀ {ts : List Token} {b : List Stmt}, StmtsOK toks ts b →
      ∀ r, ∃ b' sp, eraseStmts b' = b ∧ Step toks theRec.stmt
        (.k .CurlyBracesOpen :: (ts ++ .k .CurlyBracesClose :: r)) (.mk (.block b') sp) r)
    {ts : List Token} {b : List Stmt} (h : StmtsOK toks ts b) :
    BodyOK toks false (.k .CurlyBracesOpen :: (ts ++ [.k .CurlyBracesClose])) b := by
  refine ⟨⟨_, _, rfl, rfl⟩, fun r _ => ?_⟩
  obtain ⟨b', sp, hb, hst⟩ := hs h r
  refine ⟨b', sp, hb, ?_⟩
  norml
  unfold parseStatementExtractBlock
  stepc hst
  exact Step.pure

theorem b_stmt {o : Bool} {ts : List Token} {s : Stmt} (h : StmtOK toks o ts s) (hb : isBlock s = false) :
    BodyOK toks o ts [s] := by
  refine ⟨h.1, fun r hr => ?_⟩
  obtain ⟨s', he, hst⟩ := h.2 r hr
  obtain ⟨k, sp⟩ := s'
  refine ⟨[.mk k sp], sp, by simp [eraseStmts, he], ?_⟩
  unfold parseStatementExtractBlock
  stepc hst
  subst he
  cases k <;> first | (simp [isBlock, Stmt.erase, StmtK.erase] at hb; done) | exact Step.pure

/-! ## Statements introduced by a keyword -/

/-- A statement whose keyword decides. -/
theorem stmt_block {ts : List Token} {b : List Stmt} (h : StmtsOK toks ts b) (r : List Token) :
    ∃ b' sp, eraseStmts b' = b ∧ Step toks theRec.stmt
      (.k .CurlyBracesOpen :: (ts ++ .k .CurlyBracesClose :: r)) (.mk (.block b') sp) r := by
  obtain ⟨b', err, hb, hs⟩ := h.run (r := .k .CurlyBracesClose :: r) ⟨_, _, rfl, .inl rfl⟩
  refine ⟨b', mkSpan (spanBefore toks (ts ++ .k .CurlyBracesClose :: r)).start (spanBefore toks r).stop, hb, ?_⟩
  rw [theRec_stmt]
  unfold parseStatement
  stepc peek_step
  stepc getPos_step
  try dsimp only [reduceCtorEq, ↓reduceIte]
  stepc setPos_next
  unfold parseBlock
  stepc hs
  stepc expectOr_hit
  exact Step.pure

theorem body_block {ts : List Token} {b : List Stmt} (h : StmtsOK toks ts b) :
    BodyOK toks false (.k .CurlyBracesOpen :: (ts ++ [.k .CurlyBracesClose])) b :=
  b_block (fun h r => stmt_block h r) h

theorem s_block {ts : List Token} {b : List Stmt} (h : StmtsOK toks ts b) :
    StmtOK toks false (.k .CurlyBracesOpen :: (ts ++ [.k .CurlyBracesClose])) (bareS (.block b)) := by
  refine ⟨⟨_, _, rfl, rfl⟩, fun r _ => ?_⟩
  obtain ⟨b', sp, hb, hs⟩ := stmt_block h r
  refine ⟨.mk (.block b') sp, by simp [Stmt.erase, StmtK.erase, hb], ?_⟩
  norml
  exact hs

theorem s_empty : StmtOK toks false [.k .SemiColon] (bareS .none) := by
  refine ⟨⟨_, _, rfl, rfl⟩, fun r _ => ⟨.mk .none (spanBefore toks r), rfl, ?_⟩⟩
  norml
  rw [theRec_stmt]
  unfold parseStatement
  stepc peek_step
  stepc getPos_step
  try dsimp only [reduceCtorEq, ↓reduceIte]
  stepc setPos_next
  exact Step.pure

/-- Start of the proof for a statement with its own branch in `parse_statement`. -/
macro "startstmt" : tactic => `(tactic| (
  norml
  rw [theRec_stmt]
  unfold parseStatement
  refine Step.bind peek_step ?_
  try dsimp only
  refine Step.bind getPos_step ?_
  try dsimp only [reduceCtorEq, ↓reduceIte]))

def varlStep (R : Rec) (vars : List Expr) : P (List Expr ⊕ List Expr) := do
  let v ← parseVariable R false none
  if ← eats .Comma then return .inl (vars ++ [v]) else return .inr (vars ++ [v])

theorem parseUnset_eq (R : Rec) (t : TokSpan) : parseUnset R t = (do
    let _ ← expect .ParenthesesOpen
    let vars ← loop (varlStep R) []
    let _ ← expect .ParenthesesClose
    let c ← expect .SemiColon
    return .mk (.unset vars) (mkSpan t.span.start c.span.stop)) := rfl

def VarlOK (toks : List TokSpan) (ts : List Token) (es : List Expr) : Prop :=
  ∀ r, ∃ es', eraseExprs es' = es ∧ ∀ acc, Loops toks (varlStep theRec) acc
    (ts ++ .k .ParenthesesClose :: r) (acc ++ es') (.k .ParenthesesClose :: r)

theorem varl_one {ts : List Token} {e : Expr} (h : VarOK toks ts e) : VarlOK toks ts [e] := by
  intro r
  obtain ⟨e', he, hs, -⟩ := h.2 (.k .ParenthesesClose :: r) rfl
  refine ⟨[e'], by simp [eraseExprs, he], fun acc => Loops.done ?_⟩
  unfold varlStep
  stepc hs
  stepc (eats_miss (by nokw))
  exact Step.pure

theorem varl_cons {ts us : List Token} {e : Expr} {es : List Expr} (h : VarOK toks ts e) (h' : VarlOK toks us es) :
    VarlOK toks (ts ++ .k .Comma :: us) (e :: es) := by
  intro r
  obtain ⟨e', he, hs, -⟩ := h.2 (.k .Comma :: (us ++ .k .ParenthesesClose :: r)) rfl
  obtain ⟨es', hes, hl⟩ := h' r
  refine ⟨e' :: es', by simp [eraseExprs, he, hes], fun acc => ?_⟩
  norml
  refine Loops.more (s' := acc ++ [e']) (l' := us ++ .k .ParenthesesClose :: r) ?_ (by simp; omega)
    (loops_snoc hl acc _)
  unfold varlStep
  stepc hs
  stepc eats_hit
  exact Step.pure

theorem s_unset {ts : List Token} {es : List Expr} (h : VarlOK toks ts es) :
    StmtOK toks false (.k .Unset :: .k .ParenthesesOpen :: (ts ++ [.k .ParenthesesClose, .k .SemiColon]))
      (bareS (.unset es)) := by
  refine ⟨⟨_, _, rfl, rfl⟩, fun r _ => ?_⟩
  obtain ⟨es', he, hl⟩ := h (.k .SemiColon :: r)
  refine ⟨.mk (.unset es') (mkSpan (spanBefore toks (.k .ParenthesesOpen :: (ts ++ .k .ParenthesesClose ::
    .k .SemiColon :: r))).start (spanBefore toks r).stop), by simp [Stmt.erase, StmtK.erase, he], ?_⟩
  startstmt
  stepc setPos_next
  rw [parseUnset_eq]
  stepc expect_hit
  stepc (hl []).loop
  stepc expect_hit
  stepc expect_hit
  exact Step.pure

theorem parenExpr_step {s : Nat} {cs : List Token} {c : Expr} (h : ExprOK toks 0 s cs c) (r : List Token) :
    ∃ c', c'.erase = c ∧ Step toks (parseParenExpr theRec)
      (.k .ParenthesesOpen :: (cs ++ .k .ParenthesesClose :: r)) c' r := by
  obtain ⟨c', hc, hs⟩ := h.run0 (r := .k .ParenthesesClose :: r) rfl
  refine ⟨c', hc, ?_⟩
  unfold parseParenExpr
  stepc expect_hit
  stepc hs
  stepc expect_hit
  exact Step.pure

theorem s_while {s : Nat} {cs bs : List Token} {c : Expr} {o : Bool} {b : List Stmt} (h : ExprOK toks 0 s cs c)
    (h' : BodyOK toks o bs b) :
    StmtOK toks o (.k .While :: .k .ParenthesesOpen :: (cs ++ .k .ParenthesesClose :: bs)) (bareS (.while c b)) := by
  refine ⟨⟨_, _, rfl, rfl⟩, fun r hr => ?_⟩
  obtain ⟨c', hc, hcs⟩ := parenExpr_step h (bs ++ r)
  obtain ⟨b', sp, hb, hbs⟩ := h'.2 r hr
  refine ⟨.mk (.while c' b') (mkSpan (spanBefore toks (.k .ParenthesesOpen :: (cs ++ .k .ParenthesesClose ::
    (bs ++ r)))).start sp.stop), by simp [Stmt.erase, StmtK.erase, hc, hb], ?_⟩
  startstmt
  stepc setPos_next
  unfold parseWhile
  stepc hcs
  stepc hbs
  exact Step.pure

theorem s_do {s : Nat} {cs bs : List Token} {c : Expr} {o : Bool} {b : List Stmt} (h' : BodyOK toks o bs b)
    (h : ExprOK toks 0 s cs c) :
    StmtOK toks false (.k .Do :: (bs ++ .k .While :: .k .ParenthesesOpen :: (cs ++
      [.k .ParenthesesClose, .k .SemiColon]))) (bareS (.doWhile b c)) := by
  refine ⟨⟨_, _, rfl, rfl⟩, fun r _ => ?_⟩
  obtain ⟨c', hc, hcs⟩ := parenExpr_step h (.k .SemiColon :: r)
  obtain ⟨b', sp, hb, hbs⟩ := h'.2 (.k .While :: .k .ParenthesesOpen :: (cs ++ .k .ParenthesesClose ::
    .k .SemiColon :: r)) ⟨by nokw, by nokw, fun _ => ⟨by nokw, by nokw⟩⟩
  refine ⟨.mk (.doWhile b' c') (mkSpan (spanBefore toks (bs ++ .k .While :: .k .ParenthesesOpen :: (cs ++
    .k .ParenthesesClose :: .k .SemiColon :: r))).start (spanBefore toks r).stop),
    by simp [Stmt.erase, StmtK.erase, hc, hb], ?_⟩
  startstmt
  stepc setPos_next
  unfold parseDo
  stepc hbs
  stepc expect_hit
  stepc hcs
  stepc expect_hit
  exact Step.pure

theorem s_for {is cs ls bs : List Token} {i c l : Option Expr} {o : Bool} {b : List Stmt} (hi : OptOK toks is i)
    (hc : OptOK toks cs c) (hl : OptOK toks ls l) (h' : BodyOK toks o bs b) :
    StmtOK toks o (.k .For :: .k .ParenthesesOpen :: (is ++ .k .SemiColon :: (cs ++ .k .SemiColon ::
      (ls ++ .k .ParenthesesClose :: bs)))) (bareS (.for i c l b)) := by
  refine ⟨⟨_, _, rfl, rfl⟩, fun r hr => ?_⟩
  obtain ⟨i', hie, his⟩ := hi (.k .SemiColon :: (cs ++ .k .SemiColon :: (ls ++ .k .ParenthesesClose :: (bs ++ r)))) rfl
  obtain ⟨c', hce, hcs⟩ := hc (.k .SemiColon :: (ls ++ .k .ParenthesesClose :: (bs ++ r))) rfl
  obtain ⟨l', hle, hls⟩ := hl (.k .ParenthesesClose :: (bs ++ r)) rfl
  obtain ⟨b', sp, hb, hbs⟩ := h'.2 r hr
  refine ⟨.mk (.for i' c' l' b') (mkSpan (spanBefore toks (.k .ParenthesesOpen :: (is ++ .k .SemiColon :: (cs ++
    .k .SemiColon :: (ls ++ .k .ParenthesesClose :: (bs ++ r)))))).start sp.stop),
    by simp [Stmt.erase, StmtK.erase, hie, hce, hle, hb], ?_⟩
  startstmt
  stepc setPos_next
  unfold parseFor
  stepc expect_hit
  stepc his
  stepc expect_hit
  stepc hcs
  stepc expect_hit
  stepc hls
  stepc expect_hit
  stepc hbs
  exact Step.pure

def FvarOK (toks : List TokSpan) (ts : List Token) (e : Expr) : Prop :=
  ∀ r, endsVar r = true → ∃ e', e'.erase = e ∧ Step toks (parseForeachVariable theRec) (ts ++ r) e' r

theorem fv_plain {ts : List Token} {e : Expr} (h : VarOK toks ts e) : FvarOK toks ts e := by
  intro r hr
  obtain ⟨e', he, hs, -⟩ := h.2 r hr
  refine ⟨e', he, ?_⟩
  unfold parseForeachVariable
  stepc (eats_miss (noAmp_of_head (exprHead_of_other h.1)))
  stepc hs
  exact Step.pure

theorem fv_ref (hP : Placed toks) (n : Text) {ts : List Token} {e : Expr} (h : VarOK toks (.variable n :: ts) e) :
    FvarOK toks (.k .Ampersand :: .variable n :: ts) (bare (.reference e)) := by
  intro r hr
  obtain ⟨e', he, hs, h1⟩ := h.2 r hr
  refine ⟨.mk (.reference e') (mkSpan (e'.span.start - 1) e'.span.start), by simp [Expr.erase, ExprK.erase, he],
    Step.with fun ht => ?_⟩
  have := h1 n ts rfl hP ht.drop
  unfold parseForeachVariable
  norml
  stepc eats_hit
  stepc hs
  stepc (subP_step this)
  exact Step.pure

theorem s_foreach {s : Nat} {cs vs bs : List Token} {c v : Expr} {o : Bool} {b : List Stmt}
    (h : ExprOK toks 0 s cs c) (hv : FvarOK toks vs v) (h' : BodyOK toks o bs b) :
    StmtOK toks o (.k .Foreach :: .k .ParenthesesOpen :: (cs ++ .k .As :: (vs ++ .k .ParenthesesClose :: bs)))
      (bareS (.forEach c none v b)) := by
  refine ⟨⟨_, _, rfl, rfl⟩, fun r hr => ?_⟩
  obtain ⟨c', hc, hcs⟩ := h.run0 (r := .k .As :: (vs ++ .k .ParenthesesClose :: (bs ++ r))) rfl
  obtain ⟨v', hve, hvs⟩ := hv (.k .ParenthesesClose :: (bs ++ r)) rfl
  obtain ⟨b', sp, hb, hbs⟩ := h'.2 r hr
  refine ⟨.mk (.forEach c' none v' b') (mkSpan (spanBefore toks (.k .ParenthesesOpen :: (cs ++ .k .As ::
    (vs ++ .k .ParenthesesClose :: (bs ++ r))))).start sp.stop),
    by simp [Stmt.erase, StmtK.erase, eraseOpt, hc, hve, hb], ?_⟩
  startstmt
  stepc setPos_next
  unfold parseForeach
  stepc expect_hit
  stepc hcs
  stepc expect_hit
  stepc hvs
  refine Step.bind (a := (none, v')) (l' := .k .ParenthesesClose :: (bs ++ r)) ?_ ?_
  · stepc (eats_miss (by nokw))
    exact Step.pure
  dsimp only
  stepc expect_hit
  stepc hbs
  exact Step.pure

theorem s_foreachKey {s : Nat} {cs ks vs bs : List Token} {c kv v : Expr} {o : Bool} {b : List Stmt}
    (h : ExprOK toks 0 s cs c) (hk : FvarOK toks ks kv) (hv : FvarOK toks vs v) (h' : BodyOK toks o bs b) :
    StmtOK toks o (.k .Foreach :: .k .ParenthesesOpen :: (cs ++ .k .As :: (ks ++ .k .DoubleArrow ::
      (vs ++ .k .ParenthesesClose :: bs)))) (bareS (.forEach c (some kv) v b)) := by
  refine ⟨⟨_, _, rfl, rfl⟩, fun r hr => ?_⟩
  obtain ⟨c', hc, hcs⟩ := h.run0 (r := .k .As :: (ks ++ .k .DoubleArrow :: (vs ++ .k .ParenthesesClose :: (bs ++ r)))) rfl
  obtain ⟨k', hke, hks⟩ := hk (.k .DoubleArrow :: (vs ++ .k .ParenthesesClose :: (bs ++ r))) rfl
  obtain ⟨v', hve, hvs⟩ := hv (.k .ParenthesesClose :: (bs ++ r)) rfl
  obtain ⟨b', sp, hb, hbs⟩ := h'.2 r hr
  refine ⟨.mk (.forEach c' (some k') v' b') (mkSpan (spanBefore toks (.k .ParenthesesOpen :: (cs ++ .k .As ::
    (ks ++ .k .DoubleArrow :: (vs ++ .k .ParenthesesClose :: (bs ++ r)))))).start sp.stop),
    by simp [Stmt.erase, StmtK.erase, eraseOpt, hc, hke, hve, hb], ?_⟩
  startstmt
  stepc setPos_next
  unfold parseForeach
  stepc expect_hit
  stepc hcs
  stepc expect_hit
  stepc hks
  refine Step.bind (a := (some k', v')) (l' := .k .ParenthesesClose :: (bs ++ r)) ?_ ?_
  · stepc eats_hit
    stepc hvs
    exact Step.pure
  dsimp only
  stepc expect_hit
  stepc hbs
  exact Step.pure

/-! ## Try -/

def catchStep (R : Rec) (cs : List Catch) : P (List Catch ⊕ List Catch) := do
  if ← eats .Catch then
    let _ ← expect .ParenthesesOpen
    let (ty, _) ← parseName
    let (v, _) ← expectVariable
    let _ ← expect .ParenthesesClose
    let b ← parseBraced R
    return .inl (cs ++ [.mk ty v b])
  else return .inr cs

theorem parseCatches_eq (R : Rec) : parseCatches R = loop (catchStep R) [] := rfl

def CatchesOK (toks : List TokSpan) (ts : List Token) (cs : List Catch) : Prop :=
  ∀ r, NoKw .Catch r → ∃ cs', eraseCatches cs' = cs ∧
    ∀ acc, Loops toks (catchStep theRec) acc (ts ++ r) (acc ++ cs') r

theorem catches_nil : CatchesOK toks [] [] := by
  intro r hr
  refine ⟨[], rfl, fun acc => Loops.done ?_⟩
  norml
  unfold catchStep
  stepc (eats_miss hr)
  exact Step.pure' (by simp)

theorem catches_cons (hP : Placed toks) (abs : Bool) (ns : List Text) (id n : Text) {bs ts : List Token}
    {b : List Stmt} {cs : List Catch} (h : StmtsOK toks bs b) (h' : CatchesOK toks ts cs) :
    CatchesOK toks (.k .Catch :: .k .ParenthesesOpen :: (qualToks abs ns id ++ .variable n ::
      .k .ParenthesesClose :: .k .CurlyBracesOpen :: (bs ++ .k .CurlyBracesClose :: ts)))
      (.mk (qualPath abs ns id) n b :: cs) := by
  intro r hr
  obtain ⟨b', hb, hbs⟩ := h.braced (ts ++ r)
  obtain ⟨cs', hcs, hl⟩ := h' r hr
  obtain ⟨sp, hn⟩ := parseName_step hP abs ns id (.variable n :: .k .ParenthesesClose :: .k .CurlyBracesOpen ::
    (bs ++ .k .CurlyBracesClose :: (ts ++ r))) (by nokw)
  refine ⟨.mk (qualPath abs ns id) n b' :: cs', by simp [eraseCatches, Catch.erase, hb, hcs], fun acc => ?_⟩
  norml
  refine Loops.more (s' := acc ++ [.mk (qualPath abs ns id) n b']) (l' := ts ++ r) ?_ (by simp; omega)
    (loops_snoc hl acc _)
  unfold catchStep
  stepc eats_hit
  stepc expect_hit
  stepc hn
  stepc expectVariable_hit
  stepc expect_hit
  stepc hbs
  exact Step.pure

def FinOK (toks : List TokSpan) (ts : List Token) (f : Option (List Stmt)) : Prop :=
  (ts = [] ∨ ∃ us, ts = .k .Finally :: us) ∧
  ∀ r, NoKw .Finally r → ∃ f', eraseBody f' = f ∧ Step toks (do
    if ← eats .Finally then
      let b ← parseBraced theRec
      return some b
    else return none : P (Option (List Stmt))) (ts ++ r) f' r

theorem fin_none : FinOK toks [] none := by
  refine ⟨.inl rfl, fun r hr => ⟨none, rfl, ?_⟩⟩
  norml
  stepc (eats_miss hr)
  exact Step.pure

theorem fin_some {bs : List Token} {b : List Stmt} (h : StmtsOK toks bs b) :
    FinOK toks (.k .Finally :: .k .CurlyBracesOpen :: (bs ++ [.k .CurlyBracesClose])) (some b) := by
  refine ⟨.inr ⟨_, rfl⟩, fun r hr => ?_⟩
  obtain ⟨b', hb, hbs⟩ := h.braced r
  refine ⟨some b', by simp [eraseBody, hb], ?_⟩
  norml
  stepc eats_hit
  stepc hbs
  exact Step.pure

theorem s_try {bs cts fts : List Token} {b : List Stmt} {cs : List Catch} {f : Option (List Stmt)}
    (h : StmtsOK toks bs b) (hc : CatchesOK toks cts cs) (hf : FinOK toks fts f) :
    StmtOK toks false (.k .Try :: .k .CurlyBracesOpen :: (bs ++ .k .CurlyBracesClose :: (cts ++ fts)))
      (bareS (.try b cs f)) := by
  refine ⟨⟨_, _, rfl, rfl⟩, fun r hr => ?_⟩
  obtain ⟨b', hb, hbs⟩ := h.braced (cts ++ (fts ++ r))
  obtain ⟨f', hfe, hfs⟩ := hf.2 r hr.2.1
  have hn : NoKw .Catch (fts ++ r) := by
    rcases hf.1 with rfl | ⟨us, rfl⟩
    · exact hr.1
    · simp [NoKw]
  obtain ⟨cs', hce, hcl⟩ := hc (fts ++ r) hn
  refine ⟨.mk (.try b' cs' f') (mkSpan (spanBefore toks (.k .CurlyBracesOpen :: (bs ++ .k .CurlyBracesClose ::
    (cts ++ (fts ++ r))))).start (spanBefore toks r).stop), by simp [Stmt.erase, StmtK.erase, hb, hce, hfe], ?_⟩
  refine Step.with fun htl => ?_
  simp only [List.append_assoc, List.cons_append, List.nil_append] at htl
  startstmt
  stepc setPos_next
  unfold parseTry
  stepc hbs
  rw [parseCatches_eq]
  stepc (hcl []).loop
  stepc hfs
  stepc (lastEnd_step htl (by simp; omega))
  exact Step.pure

/-! ## If -/

/-- The nested statement the parser builds from the branches. -/
def nestAll (brs : List Stmt) : Option Stmt :=
  match brs.reverse with
  | [] => none
  | last :: rest => nestIfs last rest

def IfTailOK (toks : List TokSpan) (ts : List Token) (e : List Stmt) : Prop :=
  (ts = [] ∨ (∃ us, ts = .k .Else :: us) ∨ (∃ us, ts = .k .ElseIf :: us)) ∧
  ∀ r, StmtEnd true r → ∃ brs : List Stmt,
    (∀ acc, Loops toks (ifStep theRec) acc (ts ++ r) (acc ++ brs) r) ∧
    ∀ c b sp, ∃ e' sp', eraseStmts e' = e ∧ ∀ pre,
      nestAll (pre ++ .mk (.ite c b []) sp :: brs) = nestIfs (.mk (.ite c b e') sp') pre.reverse

theorem ifTail_none : IfTailOK toks [] [] := by
  refine ⟨.inl rfl, fun r hr => ⟨[], fun acc => Loops.done ?_, fun c b sp => ⟨[], sp, rfl, fun pre => ?_⟩⟩⟩
  · norml
    unfold ifStep
    stepc (eat_miss (hr.2.2 rfl).2)
    stepc (eat_miss (hr.2.2 rfl).1)
    exact Step.pure' (by simp)
  · simp [nestAll]

theorem ifTail_else {o : Bool} {bs : List Token} {b : List Stmt} (h : BodyOK toks o bs b) :
    IfTailOK toks (.k .Else :: bs) b := by
  refine ⟨.inr (.inl ⟨_, rfl⟩), fun r hr => ?_⟩
  obtain ⟨b', bsp, hb, hs⟩ := h.2 r hr.mono
  refine ⟨[.mk (.block b') (mkSpan (spanBefore toks (bs ++ r)).start bsp.stop)], fun acc => ?_, fun c t sp => ?_⟩
  · norml
    refine Loops.more (s' := acc ++ [.mk (.block b') (mkSpan (spanBefore toks (bs ++ r)).start bsp.stop)]) (l' := r)
      ?_ (by simp; omega) (Loops.done ?_)
    · unfold ifStep
      stepc (eat_miss (by nokw))
      stepc eat_hit
      stepc hs
      exact Step.pure
    · unfold ifStep
      stepc (eat_miss (hr.2.2 rfl).2)
      stepc (eat_miss (hr.2.2 rfl).1)
      exact Step.pure
  · exact ⟨b', { sp with stop := bsp.stop }, hb, fun pre => by simp [nestAll, nestIfs, nestIf, mkSpan]⟩

theorem ifBranch_step {s : Nat} {cs bs : List Token} {c : Expr} {o : Bool} {b : List Stmt}
    (h : ExprOK toks 0 s cs c) (h' : BodyOK toks o bs b) (start : Nat) {r : List Token} (hr : StmtEnd o r) :
    ∃ c' b' sp, c'.erase = c ∧ eraseStmts b' = b ∧ Step toks (parseIfBranch theRec start)
      (.k .ParenthesesOpen :: (cs ++ .k .ParenthesesClose :: (bs ++ r))) (.mk (.ite c' b' []) sp) r := by
  obtain ⟨c', hc, hcs⟩ := parenExpr_step h (bs ++ r)
  obtain ⟨b', bsp, hb, hbs⟩ := h'.2 r hr
  refine ⟨c', b', mkSpan start bsp.stop, hc, hb, ?_⟩
  unfold parseIfBranch
  stepc hcs
  stepc hbs
  exact Step.pure

theorem IfTailOK.end {ts r : List Token} {e : List Stmt} {o : Bool} (h : IfTailOK toks ts e)
    (ho : ts = [] ∨ o = false) (hr : StmtEnd true r) : StmtEnd o (ts ++ r) := by
  rcases h.1 with rfl | ⟨us, rfl⟩ | ⟨us, rfl⟩
  · exact hr.mono
  all_goals
    rcases ho with ho | rfl
    · cases ho
    · exact ⟨by simp [NoKw], by simp [NoKw], fun h => by cases h⟩

theorem ifTail_elseif {s : Nat} {cs bs ts : List Token} {c : Expr} {o : Bool} {b e : List Stmt}
    (h : ExprOK toks 0 s cs c) (h' : BodyOK toks o bs b) (h'' : IfTailOK toks ts e) (ho : ts = [] ∨ o = false) :
    IfTailOK toks (.k .ElseIf :: .k .ParenthesesOpen :: (cs ++ .k .ParenthesesClose :: (bs ++ ts)))
      [bareS (.ite c b e)] := by
  refine ⟨.inr (.inr ⟨_, rfl⟩), fun r hr => ?_⟩
  obtain ⟨c', b', bsp, hc, hb, hs⟩ := ifBranch_step h h' (spanBefore toks (.k .ParenthesesOpen :: (cs ++
    .k .ParenthesesClose :: (bs ++ (ts ++ r))))).start (h''.end ho hr)
  obtain ⟨brs, hl, hnest⟩ := h''.2 r hr
  refine ⟨.mk (.ite c' b' []) bsp :: brs, fun acc => ?_, fun c2 b2 sp2 => ?_⟩
  · norml
    refine Loops.more (s' := acc ++ [.mk (.ite c' b' []) bsp]) (l' := ts ++ r) ?_ (by simp; omega)
      (loops_snoc hl acc _)
    unfold ifStep
    stepc eat_hit
    stepc hs
    exact Step.pure
  · obtain ⟨e', sp', he, hn⟩ := hnest c' b' bsp
    refine ⟨[.mk (.ite c' b' e') sp'], { sp2 with stop := sp'.stop },
      by simp [eraseStmts, Stmt.erase, StmtK.erase, hc, hb, he], fun pre => ?_⟩
    have := hn (pre ++ [.mk (.ite c2 b2 []) sp2])
    rw [List.append_assoc] at this
    refine Eq.trans this ?_
    simp [nestIfs, nestIf]

theorem s_if {s : Nat} {cs bs ts : List Token} {c : Expr} {o : Bool} {b e : List Stmt}
    (h : ExprOK toks 0 s cs c) (h' : BodyOK toks o bs b) (h'' : IfTailOK toks ts e) (ho : ts = [] ∨ o = false) :
    StmtOK toks true (.k .If :: .k .ParenthesesOpen :: (cs ++ .k .ParenthesesClose :: (bs ++ ts)))
      (bareS (.ite c b e)) := by
  refine ⟨⟨_, _, rfl, rfl⟩, fun r hr => ?_⟩
  obtain ⟨c', b', bsp, hc, hb, hs⟩ := ifBranch_step h h' (spanBefore toks (.k .ParenthesesOpen :: (cs ++
    .k .ParenthesesClose :: (bs ++ (ts ++ r))))).start (h''.end ho hr)
  obtain ⟨brs, hl, hnest⟩ := h''.2 r hr
  obtain ⟨e', sp', he, hn⟩ := hnest c' b' bsp
  refine ⟨.mk (.ite c' b' e') sp', by simp [Stmt.erase, StmtK.erase, hc, hb, he], ?_⟩
  startstmt
  stepc setPos_next
  unfold parseIf
  stepc hs
  stepc (hl [.mk (.ite c' b' []) bsp]).loop
  have h1 := hn []
  simp only [nestAll, List.nil_append, List.reverse_nil] at h1
  rw [List.singleton_append]
  split
  · rename_i h0; simp at h0
  · rename_i last rest h0
    rw [h0] at h1
    dsimp only at h1
    rw [h1]
    exact Step.pure

/-! ## Switch -/

def ClausesOK (toks : List TokSpan) (ts : List Token) (cl : List (Option Expr × List Stmt)) : Prop :=
  (ts = [] ∨ endsBlock ts) ∧
  ∀ r st, ∃ st' : List Case × List Expr,
    eraseCases (st'.1 ++ st'.2.map fun c => .mk [c] false []) =
      eraseCases st.1 ++ casesOf (eraseExprs st.2) false cl ∧
    Loops toks (switchStep theRec) st (ts ++ .k .CurlyBracesClose :: r) st' (.k .CurlyBracesClose :: r)

theorem eraseCases_map (es : List Expr) : eraseCases (es.map fun c => .mk [c] false []) =
    (eraseExprs es).map fun e => .mk [e] false [] := by
  induction es with
  | nil => rfl
  | cons e es ih => simp [eraseCases, eraseExprs, Case.erase, eraseStmts, ih]

theorem clauses_nil : ClausesOK toks [] [] := by
  refine ⟨.inl rfl, fun r st => ⟨st, ?_, Loops.done ?_⟩⟩
  · simp [eraseCases_append, eraseCases_map, casesOf]
  · norml
    unfold switchStep parseCaseHead
    refine Step.bind (a := none) (l' := .k .CurlyBracesClose :: r) ?_ ?_
    · stepc (eats_miss (by nokw))
      stepc (eats_miss (by nokw))
      exact Step.pure
    exact Step.pure

theorem clauses_end {ts r : List Token} {cl : List (Option Expr × List Stmt)} (h : ClausesOK toks ts cl) :
    endsBlock (ts ++ .k .CurlyBracesClose :: r) := by
  rcases h.1 with rfl | ⟨k, r', rfl, hk⟩
  · exact ⟨_, _, rfl, .inl rfl⟩
  · exact ⟨k, _, rfl, hk⟩

theorem sep_step (colon : Bool) (l : List Token) : Step toks (do
    if ← eats .Colon then return true else eats .SemiColon)
    (.k (if colon then .Colon else .SemiColon) :: l) true l := by
  cases colon with
  | true =>
    stepc eats_hit
    exact Step.pure
  | false =>
    stepc (eats_miss (by nokw))
    exact eats_hit

theorem endsExpr_sep (colon : Bool) (l : List Token) :
    endsExpr 0 (.k (if colon then .Colon else .SemiColon) :: l) = true := by
  cases colon <;> rfl

theorem eraseStmts_nil {b : List Stmt} : eraseStmts b = [] ↔ b = [] := by
  cases b <;> simp [eraseStmts]

theorem clauses_case {s : Nat} {es bs ts : List Token} {e : Expr} (colon : Bool) {b : List Stmt}
    {cl : List (Option Expr × List Stmt)} (h : ExprOK toks 0 s es e) (h' : StmtsOK toks bs b)
    (h'' : ClausesOK toks ts cl) :
    ClausesOK toks (.k .Case :: (es ++ .k (if colon then .Colon else .SemiColon) :: (bs ++ ts)))
      ((some e, b) :: cl) := by
  refine ⟨.inr ⟨_, _, rfl, .inr (.inl rfl)⟩, fun r st => ?_⟩
  obtain ⟨e', he, hes⟩ := h.run0 (endsExpr_sep colon (bs ++ (ts ++ .k .CurlyBracesClose :: r)))
  obtain ⟨b', err, hb, hbs⟩ := h'.run (r := ts ++ .k .CurlyBracesClose :: r) (clauses_end h'')
  obtain ⟨st', hst, hl⟩ := h''.2 r (if b'.isEmpty then (st.1, st.2 ++ [e'])
    else (st.1 ++ [.mk (st.2 ++ [e']) false b'], []))
  refine ⟨st', ?_, ?_⟩
  · rw [hst]
    cases b' with
    | nil =>
      subst hb he
      simp [eraseStmts, casesOf, eraseExprs_append, eraseExprs]
    | cons s1 ss =>
      subst hb he
      simp [eraseStmts, casesOf, eraseExprs_append, eraseExprs, eraseCases_append, eraseCases, Case.erase]
  · norml
    refine Loops.more (l' := ts ++ .k .CurlyBracesClose :: r) ?_ (by simp; omega) hl
    unfold switchStep
    refine Step.bind (a := some (some e'))
      (l' := .k (if colon then .Colon else .SemiColon) :: (bs ++ (ts ++ .k .CurlyBracesClose :: r))) ?_ ?_
    · unfold parseCaseHead
      stepc eats_hit
      stepc hes
      exact Step.pure
    dsimp only
    stepc (sep_step colon _)
    stepc hbs
    cases b' with
    | nil => exact Step.pure
    | cons _ _ => exact Step.pure

theorem clauses_default {bs ts : List Token} (colon : Bool) {b : List Stmt}
    {cl : List (Option Expr × List Stmt)} (h' : StmtsOK toks bs b) (hne : b ≠ []) (h'' : ClausesOK toks ts cl) :
    ClausesOK toks (.k .Default :: .k (if colon then .Colon else .SemiColon) :: (bs ++ ts)) ((none, b) :: cl) := by
  refine ⟨.inr ⟨_, _, rfl, .inr (.inr rfl)⟩, fun r st => ?_⟩
  obtain ⟨b', err, hb, hbs⟩ := h'.run (r := ts ++ .k .CurlyBracesClose :: r) (clauses_end h'')
  obtain ⟨st', hst, hl⟩ := h''.2 r (st.1 ++ [.mk st.2 true b'], [])
  obtain ⟨s1, ss, rfl⟩ : ∃ s1 ss, b' = s1 :: ss := by
    cases b' with
    | nil => exact absurd hb.symm hne
    | cons s1 ss => exact ⟨s1, ss, rfl⟩
  refine ⟨st', ?_, ?_⟩
  · rw [hst]
    subst hb
    simp [eraseStmts, casesOf, eraseExprs, eraseCases_append, eraseCases, Case.erase]
  · norml
    refine Loops.more (l' := ts ++ .k .CurlyBracesClose :: r) ?_ (by simp; omega) hl
    unfold switchStep
    refine Step.bind (a := some none)
      (l' := .k (if colon then .Colon else .SemiColon) :: (bs ++ (ts ++ .k .CurlyBracesClose :: r))) ?_ ?_
    · unfold parseCaseHead
      stepc (eats_miss (by nokw))
      stepc eats_hit
      exact Step.pure
    dsimp only
    stepc (sep_step colon _)
    stepc hbs
    exact Step.pure

theorem s_switch {s : Nat} {es ts : List Token} {e : Expr} {cl : List (Option Expr × List Stmt)}
    (h : ExprOK toks 0 s es e) (h' : ClausesOK toks ts cl) :
    StmtOK toks false (.k .Switch :: .k .ParenthesesOpen :: (es ++ .k .ParenthesesClose ::
      .k .CurlyBracesOpen :: (ts ++ [.k .CurlyBracesClose]))) (bareS (.switch e (casesOf [] false cl))) := by
  refine ⟨⟨_, _, rfl, rfl⟩, fun r _ => ?_⟩
  obtain ⟨e', he, hes⟩ := h.run0 (r := .k .ParenthesesClose :: .k .CurlyBracesOpen ::
    (ts ++ .k .CurlyBracesClose :: r)) rfl
  obtain ⟨st', hst, hl⟩ := h'.2 r ([], [])
  refine ⟨.mk (.switch e' (st'.1 ++ st'.2.map fun c => .mk [c] false [])) (mkSpan (spanBefore toks
    (.k .ParenthesesOpen :: (es ++ .k .ParenthesesClose :: .k .CurlyBracesOpen :: (ts ++
      .k .CurlyBracesClose :: r)))).start (spanBefore toks r).stop), ?_, ?_⟩
  · simp [Stmt.erase, StmtK.erase, he, hst, eraseCases, eraseExprs]
  startstmt
  stepc setPos_next
  unfold parseSwitch
  stepc expect_hit
  stepc hes
  stepc expect_hit
  stepc expect_hit
  stepc hl.loop
  stepc expect_hit
  exact Step.pure

/-! ## Declarations of variables and functions -/

theorem tryDecl_step {m : P Stmt} {t : Token} {l r : List Token} {s : Stmt} (h : Step toks m l s r) :
    Step toks (tryDecl theRec m) (t :: l) s r := by
  unfold tryDecl
  stepc getPos_step
  stepc setPos_next
  stepc h.attempt
  exact Step.pure

theorem s_static {ts : List Token} {vs : List (Text × Option Expr)} (h : VarsOK toks ts vs) :
    StmtOK toks false (.k .Static :: (ts ++ [.k .SemiColon])) (bareS (.decl (.staticVars vs))) := by
  refine ⟨⟨_, _, rfl, rfl⟩, fun r _ => ?_⟩
  obtain ⟨vs', hv, hl, -⟩ := h.2 r
  refine ⟨.mk (.decl (.staticVars vs')) (mkSpan (spanBefore toks (ts ++ .k .SemiColon :: r)).start
    (spanBefore toks r).stop), by simp [Stmt.erase, StmtK.erase, Decl.erase, hv], ?_⟩
  refine Step.with fun htl => ?_
  simp only [List.append_assoc, List.cons_append, List.nil_append] at htl
  startstmt
  refine tryDecl_step ?_
  rw [parseStaticVarDecl_eq]
  stepc (hl []).loop
  stepc expect_hit
  stepc (lastEnd_step htl (by simp; omega))
  exact Step.pure

def globalStep (vars : List Variable) : P (List Variable ⊕ List Variable) := do
  let (v, _) ← parseSimpleVariable
  if ← eats .Comma then return .inl (vars ++ [v]) else return .inr (vars ++ [v])

theorem parseGlobalVarDecl_eq (start : Span) : parseGlobalVarDecl start = (do
    let vars ← loop globalStep []
    let _ ← expect .SemiColon
    let stop ← lastEnd
    return .mk (.decl (.globalVars vars)) (mkSpan start.start stop)) := rfl

theorem simpleVariable_step (n : Text) (r : List Token) :
    Step toks parseSimpleVariable (.variable n :: r) (.name n, spanBefore toks r) r := by
  unfold parseSimpleVariable
  stepc (eat_miss (by nokw))
  stepc eatVariable_hit
  exact Step.pure

theorem global_loop {ts : List Token} {vs : List Variable} (h : GlobalList ts vs) (r : List Token)
    (hc : NoKw .Comma r) (acc : List Variable) : Loops toks globalStep acc (ts ++ r) (acc ++ vs) r := by
  induction h generalizing acc with
  | one v =>
    refine Loops.done ?_
    norml
    unfold globalStep
    stepc (simpleVariable_step v r)
    stepc (eats_miss hc)
    exact Step.pure
  | @cons v ts vs h ih =>
    norml
    refine Loops.more (s' := acc ++ [.name v]) (l' := ts ++ r) ?_ (by simp; omega) (loops_snoc ih acc _)
    unfold globalStep
    stepc (simpleVariable_step v _)
    stepc eats_hit
    exact Step.pure

theorem erase_globals {ts : List Token} {vs : List Variable} (h : GlobalList ts vs) : eraseVariables vs = vs := by
  induction h with
  | one v => rfl
  | cons v h ih => simp [eraseVariables, Variable.erase, ih]

theorem s_global {ts : List Token} {vs : List Variable} (h : GlobalList ts vs) :
    StmtOK toks false (.k .Global :: (ts ++ [.k .SemiColon])) (bareS (.decl (.globalVars vs))) := by
  refine ⟨⟨_, _, rfl, rfl⟩, fun r _ => ?_⟩
  refine ⟨.mk (.decl (.globalVars vs)) (mkSpan (spanBefore toks (ts ++ .k .SemiColon :: r)).start
    (spanBefore toks r).stop), by simp [Stmt.erase, StmtK.erase, Decl.erase, erase_globals h], ?_⟩
  refine Step.with fun htl => ?_
  simp only [List.append_assoc, List.cons_append, List.nil_append] at htl
  startstmt
  refine tryDecl_step ?_
  rw [parseGlobalVarDecl_eq]
  stepc (global_loop h _ (by nokw) []).loop
  stepc expect_hit
  stepc (lastEnd_step htl (by simp; omega))
  exact Step.pure

theorem s_function {rf : Bool} (n : Text) {ts : List Token} {f : FnDecl} (h : FnOK toks false false rf ts f) :
    StmtOK toks false (.k .Function :: (refToks rf ++ .string n :: ts)) (bareS (.decl (.globalFunction n f))) := by
  refine ⟨⟨_, _, rfl, rfl⟩, fun r _ => ?_⟩
  obtain ⟨f', sp, hf, hs⟩ := functionNamed_step n h r (spanBefore toks (refToks rf ++ .string n :: (ts ++ r)))
  refine ⟨.mk (.decl (.globalFunction n f')) sp, by simp [Stmt.erase, StmtK.erase, Decl.erase, hf], ?_⟩
  startstmt
  refine tryDecl_step ?_
  stepc hs
  exact Step.pure

/-! ## Simple statements and expression statements -/

/-- The keywords for which `parse_statement` has a branch of its own. -/
def ownBranch (k : Kw) : Bool :=
  [Kw.SemiColon, .CurlyBracesOpen, .Try, .Unset, .Foreach, .For, .Switch, .If, .While, .Do, .Static, .Global,
    .Function].contains k

theorem other_stmt {t : Token} {l r : List Token} {s : Stmt} (ht : ∀ k, t = .k k → ownBranch k = false)
    (h : Step toks (parseOtherStmt theRec none) (t :: l) s r) : Step toks theRec.stmt (t :: l) s r := by
  rw [theRec_stmt]
  unfold parseStatement
  stepc peek_step
  cases t with
  | k k =>
    have hne : ∀ k', ownBranch k' = true → k ≠ k' := by
      rintro k' hk rfl
      rw [ht _ rfl] at hk
      cases hk
    dsimp only
    stepc getPos_step
    rw [if_neg (hne _ rfl), if_neg (hne _ rfl), if_neg (hne _ rfl), if_neg (hne _ rfl), if_neg (hne _ rfl),
      if_neg (hne _ rfl), if_neg (hne _ rfl), if_neg (hne _ rfl), if_neg (hne _ rfl), if_neg (hne _ rfl),
      if_neg (hne _ rfl), if_neg (hne _ rfl), if_neg (hne _ rfl)]
    exact h
  | _ => exact h

theorem s_html (x : Text) : StmtOK toks false [.inlineHtml x, .k .SemiColon] (bareS (.echo [bare (.str x)])) := by
  refine ⟨⟨_, _, rfl, rfl⟩, fun r _ => ?_⟩
  refine ⟨.mk (.echo [.mk (.str x) (spanBefore toks (.k .SemiColon :: r))]) (mkSpan (spanBefore toks (.k .SemiColon :: r)).start (spanBefore toks r).stop),
    by simp [Stmt.erase, StmtK.erase, eraseExprs, Expr.erase, ExprK.erase], Step.with fun htl => ?_⟩
  norml
  refine other_stmt (by rintro _ ⟨⟩) ?_
  unfold parseOtherStmt
  stepc (ooDeclaration_fails (by nokw) (by nokw) (by nokw) (by nokw) (by nokw)).attempt
  stepc peek_step
  dsimp only [simpleStmt]
  stepc getPos_step
  stepc setPos_next
  stepc Step.pure
  stepc expect_hit
  stepc (lastEnd_step htl (by simp; omega))
  exact Step.pure

theorem simple_stmt {kw : Kw} {m : P StmtK} {l r : List Token} {k : StmtK}
    (hm : ∀ sp, simpleStmt theRec ⟨.k kw, sp⟩ = some m) (ho : ownBranch kw = false)
    (hd : ∀ k', k' = .Trait ∨ k' = .Interface ∨ k' = .Abstract ∨ k' = .Final ∨ k' = .Class → kw ≠ k')
    (h : Step toks m l k (.k .SemiColon :: r)) (hl : r.length + 1 ≤ l.length) :
    ∃ sp, Step toks theRec.stmt (.k kw :: l) (.mk k sp) r := by
  refine ⟨mkSpan (spanBefore toks l).start (spanBefore toks r).stop, Step.with fun htl => ?_⟩
  refine other_stmt (by rintro _ ⟨⟩; exact ho) ?_
  have hn : ∀ k', k' = .Trait ∨ k' = .Interface ∨ k' = .Abstract ∨ k' = .Final ∨ k' = .Class →
      NoKw k' (.k kw :: l) := by
    intro k' hk
    simp [NoKw, hd k' hk]
  unfold parseOtherStmt
  stepc (ooDeclaration_fails (hn _ (by simp)) (hn _ (by simp)) (hn _ (by simp)) (hn _ (by simp))
    (hn _ (by simp))).attempt
  stepc peek_step
  rw [hm]
  dsimp only
  stepc getPos_step
  stepc setPos_next
  stepc h
  stepc expect_hit
  stepc (lastEnd_step htl (by simp; omega))
  exact Step.pure

theorem s_echo {ts : List Token} {es : List Expr} (h : ExprsOK toks ts es) :
    StmtOK toks false (.k .Echo :: (ts ++ [.k .SemiColon])) (bareS (.echo es)) := by
  refine ⟨⟨_, _, rfl, rfl⟩, fun r _ => ?_⟩
  obtain ⟨es', he, hs⟩ := exprs_run h (r := .k .SemiColon :: r) rfl (by nokw)
  obtain ⟨sp, hst⟩ := simple_stmt (kw := .Echo) (fun _ => rfl) rfl (by rintro k' (rfl | rfl | rfl | rfl | rfl) <;> decide)
    (Step.bind hs Step.pure) (by simp)
  refine ⟨.mk (.echo es') sp, by simp [Stmt.erase, StmtK.erase, he], ?_⟩
  norml
  exact hst

theorem s_return {ts : List Token} {e : Option Expr} (h : OptOK toks ts e) :
    StmtOK toks false (.k .Return :: (ts ++ [.k .SemiColon])) (bareS (.ret e)) := by
  refine ⟨⟨_, _, rfl, rfl⟩, fun r _ => ?_⟩
  obtain ⟨e', he, hs⟩ := h (.k .SemiColon :: r) rfl
  obtain ⟨sp, hst⟩ := simple_stmt (kw := .Return) (fun _ => rfl) rfl (by rintro k' (rfl | rfl | rfl | rfl | rfl) <;> decide)
    (Step.bind hs Step.pure) (by simp)
  refine ⟨.mk (.ret e') sp, by simp [Stmt.erase, StmtK.erase, he], ?_⟩
  norml
  exact hst

theorem s_break {ts : List Token} {e : Option Expr} (h : OptOK toks ts e) :
    StmtOK toks false (.k .Break :: (ts ++ [.k .SemiColon])) (bareS (.brk e)) := by
  refine ⟨⟨_, _, rfl, rfl⟩, fun r _ => ?_⟩
  obtain ⟨e', he, hs⟩ := h (.k .SemiColon :: r) rfl
  obtain ⟨sp, hst⟩ := simple_stmt (kw := .Break) (fun _ => rfl) rfl (by rintro k' (rfl | rfl | rfl | rfl | rfl) <;> decide)
    (Step.bind hs Step.pure) (by simp)
  refine ⟨.mk (.brk e') sp, by simp [Stmt.erase, StmtK.erase, he], ?_⟩
  norml
  exact hst

theorem s_continue {ts : List Token} {e : Option Expr} (h : OptOK toks ts e) :
    StmtOK toks false (.k .Continue :: (ts ++ [.k .SemiColon])) (bareS (.cont e)) := by
  refine ⟨⟨_, _, rfl, rfl⟩, fun r _ => ?_⟩
  obtain ⟨e', he, hs⟩ := h (.k .SemiColon :: r) rfl
  obtain ⟨sp, hst⟩ := simple_stmt (kw := .Continue) (fun _ => rfl) rfl (by rintro k' (rfl | rfl | rfl | rfl | rfl) <;> decide)
    (Step.bind hs Step.pure) (by simp)
  refine ⟨.mk (.cont e') sp, by simp [Stmt.erase, StmtK.erase, he], ?_⟩
  norml
  exact hst

theorem s_throw {s : Nat} {ts : List Token} {e : Expr} (h : ExprOK toks 0 s ts e) :
    StmtOK toks false (.k .Throw :: (ts ++ [.k .SemiColon])) (bareS (.throw e)) := by
  refine ⟨⟨_, _, rfl, rfl⟩, fun r _ => ?_⟩
  obtain ⟨e', he, hs⟩ := h.run0 (r := .k .SemiColon :: r) rfl
  obtain ⟨sp, hst⟩ := simple_stmt (kw := .Throw) (fun _ => rfl) rfl (by rintro k' (rfl | rfl | rfl | rfl | rfl) <;> decide)
    (Step.bind hs Step.pure) (by simp)
  refine ⟨.mk (.throw e') sp, by simp [Stmt.erase, StmtK.erase, he], ?_⟩
  norml
  exact hst

/-- No expression starts with a word that starts a declaration or a simple statement. -/
theorem exprHead_plain {t : Token} (h : exprHead t = true) :
    (∀ sp, simpleStmt theRec ⟨t, sp⟩ = none) ∧
      (∀ k', k' = .Trait ∨ k' = .Interface ∨ k' = .Abstract ∨ k' = .Final ∨ k' = .Class → t ≠ .k k') ∧
      (∀ k, t = .k k → k ≠ .Static → k ≠ .Function → ownBranch k = false) := by
  cases t with
  | k k =>
    refine ⟨?_, ?_, ?_⟩
    · intro sp
      cases k <;> first | rfl | (simp [exprHead, otherHead, prefixOf, castOf, includeOf] at h; done)
    · rintro k' (rfl | rfl | rfl | rfl | rfl) he <;>
        (cases he; simp [exprHead, otherHead, prefixOf, castOf, includeOf] at h)
    · intro k' he h1 h2
      cases he
      cases k <;> first | rfl | (simp [exprHead, otherHead, prefixOf, castOf, includeOf] at h; done) | exact absurd rfl h1 | exact absurd rfl h2
  | inlineHtml s => cases h
  | _ => exact ⟨fun _ => rfl, fun _ _ => by simp, fun _ he => by cases he⟩

/-- A declaration that is none: the tokens are tried again as another statement. -/
theorem tryDecl_other {m : P Stmt} {t : Token} {l l' r : List Token} {s : Stmt} (h : Fails toks m l l')
    (h' : ∀ store, Step toks (parseOtherStmt theRec store) (t :: l) s r) : Step toks (tryDecl theRec m) (t :: l) s r := by
  refine Step.with fun htl => ?_
  unfold tryDecl
  stepc getPos_step
  stepc setPos_next
  stepc h.attempt
  stepc (rewind_step htl)
  exact h' _

theorem s_expr {s : Nat} {ts : List Token} {e : Expr} (h : ExprOK toks 0 s ts e) (hp : NoDecl ts) :
    StmtOK toks false (ts ++ [.k .SemiColon]) (bareS (.expr e)) := by
  obtain ⟨t, us, rfl, ht⟩ := h.1
  refine ⟨⟨t, us ++ [.k .SemiColon], rfl, by simp [stmtHead, ht]⟩, fun r _ => ?_⟩
  obtain ⟨e', he, hs⟩ := h.run0 (r := .k .SemiColon :: r) rfl
  refine ⟨.mk (.expr e') (mkSpan e'.span.start (spanBefore toks r).stop), by simp [Stmt.erase, StmtK.erase, he], ?_⟩
  norml
  simp only [List.append_assoc, List.cons_append, List.nil_append] at hs
  obtain ⟨h1, h2, h3⟩ := exprHead_plain ht
  have hn : ∀ k', k' = .Trait ∨ k' = .Interface ∨ k' = .Abstract ∨ k' = .Final ∨ k' = .Class →
      NoKw k' (t :: (us ++ .k .SemiColon :: r)) := by
    intro k' hk
    simp [NoKw, h2 k' hk]
  have key : ∀ store, Step toks (parseOtherStmt theRec store) (t :: (us ++ .k .SemiColon :: r))
      (.mk (.expr e') (mkSpan e'.span.start (spanBefore toks r).stop)) r := by
    intro store
    unfold parseOtherStmt
    stepc (ooDeclaration_fails (hn _ (by simp)) (hn _ (by simp)) (hn _ (by simp)) (hn _ (by simp))
      (hn _ (by simp))).attempt
    stepc peek_step
    rw [h1]
    dsimp only
    stepc getPos_step
    unfold parseExprStmt
    stepc hs.attempt
    stepc expect_hit
    exact Step.pure
  by_cases e1 : t = .k .Static
  · subst e1
    rw [theRec_stmt]
    unfold parseStatement
    refine Step.bind peek_step ?_
    dsimp only
    refine Step.bind getPos_step ?_
    refine tryDecl_other (l' := us ++ .k .SemiColon :: r) ?_ key
    rw [parseStaticVarDecl_eq]
    refine Fails.bind_left (Loops.fails (Fails.bind_left (expectVariable_miss ?_)))
    rcases hp.st _ rfl with rfl | ⟨k, r', rfl⟩ <;> exact fun _ h => by cases h
  by_cases e2 : t = .k .Function
  · subst e2
    obtain ⟨b, r', rfl⟩ := hp.fn _ rfl
    startstmt
    simp only [List.append_assoc, List.cons_append] at key
    refine tryDecl_other (l' := .k .ParenthesesOpen :: (r' ++ .k .SemiColon :: r)) ?_ key
    unfold parseFunctionNamed
    cases b with
    | true => exact Fails.bind_left (Fails.bind eats_hit (Fails.bind_left (expectString_miss fun _ h => by cases h)))
    | false => exact Fails.bind_left (Fails.bind (eats_miss (by simp [NoKw, refToks])) (Fails.bind_left (expectString_miss fun _ h => by cases h)))
  exact other_stmt (fun k hk => h3 k hk (fun h => e1 (by rw [hk, h])) (fun h => e2 (by rw [hk, h]))) (key none)

end Pico
