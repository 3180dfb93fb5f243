import Verif.Lemmas.SpanExpr
/-!
# Ranges of nodes are made of ranges of tokens: statements
-/
set_option linter.unusedSimpArgs false
set_option linter.unusedVariables false
set_option maxHeartbeats 1000000
namespace Pico
open P

variable {r : Rec} {toks : List TokSpan} {B : Nat} {D : Prop}

theorem parseForeachVariable_rg (hb : Bounded B D toks) (hr : BRec r toks B D) :
    Gv (parseForeachVariable r) toks (BE B D) := by
  intro pos Q h1
  unfold parseForeachVariable
  rgo <;> rgp
set_option hygiene false in
macro_rules | `(tactic| rg_call) => `(tactic|
  with_reducible refine Gv.use (parseForeachVariable_rg hb hr) ?_)

theorem parseStatementExtractBlock_rg (hb : Bounded B D toks) (hr : BRec r toks B D) :
    Gv (parseStatementExtractBlock r) toks (fun x => SpAll B D (stmtsSpans x.1) ∧ SpOk B D x.2) := by
  intro pos Q h1
  unfold parseStatementExtractBlock
  rgo <;> rgp
set_option hygiene false in
macro_rules | `(tactic| rg_call) => `(tactic|
  with_reducible refine Gv.use (parseStatementExtractBlock_rg hb hr) ?_)

theorem parseStaticVarDecl_rg {sp : Span} (hb : Bounded B D toks) (hr : BRec r toks B D) (hs : SpOk B D sp) :
    Gv (parseStaticVarDecl r sp) toks (BS B D) := by
  intro pos Q h1
  unfold parseStaticVarDecl
  rgo
  refine Ret.loop (fun s => SpAll B D (staticsSpans s)) (by rgp) ?_
  intro s q hs
  rgo <;> rgp
set_option hygiene false in
macro_rules | `(tactic| rg_call) => `(tactic|
  with_reducible refine Gv.use (parseStaticVarDecl_rg hb hr ?_) ?_)

theorem parseGlobalVarDecl_rg {sp : Span} (hb : Bounded B D toks) (hs : SpOk B D sp) :
    Gv (parseGlobalVarDecl sp) toks (BS B D) := by
  intro pos Q h1
  unfold parseGlobalVarDecl
  rgo
  refine Ret.loop (fun s => SpAll B D (variablesSpans s)) (by rgp) ?_
  intro s q hs
  rgo <;> rgp
set_option hygiene false in
macro_rules | `(tactic| rg_call) => `(tactic|
  with_reducible refine Gv.use (parseGlobalVarDecl_rg hb ?_) ?_)

theorem parseMemberModifiers_rg (hb : Bounded B D toks) :
    Gv parseMemberModifiers toks (fun _ => True) := by
  intro pos Q h1
  unfold parseMemberModifiers
  refine Ret.loop (fun s => True) trivial ?_
  intro s q hs
  rgo <;> rgp
set_option hygiene false in
macro_rules | `(tactic| rg_call) => `(tactic|
  with_reducible refine Gv.use (parseMemberModifiers_rg hb) ?_)

theorem parseAbsoluteTraitMethodReference_rg (hb : Bounded B D toks) :
    Gv parseAbsoluteTraitMethodReference toks (fun _ => True) := by
  intro pos Q h1
  unfold parseAbsoluteTraitMethodReference
  rgo <;> rgp
set_option hygiene false in
macro_rules | `(tactic| rg_call) => `(tactic|
  with_reducible refine Gv.use (parseAbsoluteTraitMethodReference_rg hb) ?_)

theorem parseTraitMethod_rg (hb : Bounded B D toks) :
    Gv parseTraitMethod toks (OptP (fun _ => True)) := by
  intro pos Q h1
  unfold parseTraitMethod
  rgo <;> rgp
set_option hygiene false in
macro_rules | `(tactic| rg_call) => `(tactic|
  with_reducible refine Gv.opt (parseTraitMethod_rg hb) ?_ ?_)

theorem traitLoop_rg (hb : Bounded B D toks) :
    Gv (P.loop traitAdaptStep (true, [])) toks (fun _ => True) := by
  intro pos Q h1
  refine Ret.loop (fun _ => True) trivial ?_
  intro s q hs
  unfold traitAdaptStep
  rgo <;> trivial
set_option hygiene false in
macro_rules | `(tactic| rg_call) => `(tactic|
  with_reducible refine Gv.use (traitLoop_rg hb) ?_)

theorem parseTraitUse_rg (hb : Bounded B D toks) :
    Gv parseTraitUse toks (fun x => SpAll B D (declsSpans x)) := by
  intro pos Q h1
  unfold parseTraitUse
  rgo <;> rgp
set_option hygiene false in
macro_rules | `(tactic| rg_call) => `(tactic|
  with_reducible refine Gv.use (parseTraitUse_rg hb) ?_)

theorem parseClassConsts_rg {ms : MemberModifiers} (hb : Bounded B D toks) (hr : BRec r toks B D) :
    Gv (parseClassConsts r ms) toks (fun x => SpAll B D (declsSpans x)) := by
  intro pos Q h1
  unfold parseClassConsts
  refine Ret.loop (fun s => SpAll B D (declsSpans s)) (by rgp) ?_
  intro s q hs
  rgo <;> rgp
set_option hygiene false in
macro_rules | `(tactic| rg_call) => `(tactic|
  with_reducible refine Gv.use (parseClassConsts_rg hb hr) ?_)

theorem parseProperties_rg {ms : MemberModifiers} (hb : Bounded B D toks) (hr : BRec r toks B D) :
    Gv (parseProperties r ms) toks (fun x => SpAll B D (declsSpans x)) := by
  intro pos Q h1
  unfold parseProperties
  refine Ret.loop (fun s => SpAll B D (declsSpans s)) (by rgp) ?_
  intro s q hs
  rgo <;> rgp
set_option hygiene false in
macro_rules | `(tactic| rg_call) => `(tactic|
  with_reducible refine Gv.use (parseProperties_rg hb hr) ?_)

theorem parseClassStatement_rg (hb : Bounded B D toks) (hr : BRec r toks B D) :
    Gv (parseClassStatement r) toks (fun x => SpAll B D (declsSpans x)) := by
  intro pos Q h1
  unfold parseClassStatement
  rgo <;> rgp
set_option hygiene false in
macro_rules | `(tactic| rg_call) => `(tactic|
  with_reducible refine Gv.use (parseClassStatement_rg hb hr) ?_)

theorem parseClassStatementList_rg (hb : Bounded B D toks) (hr : BRec r toks B D) :
    Gv (parseClassStatementList r) toks (fun x => SpAll B D (declsSpans x.1)) := by
  intro pos Q h1
  unfold parseClassStatementList
  rgo
  refine Ret.loop (fun s => SpAll B D (declsSpans s)) (by rgp) ?_
  intro s q hs
  rgo <;> rgp
set_option hygiene false in
macro_rules | `(tactic| rg_call) => `(tactic|
  with_reducible refine Gv.use (parseClassStatementList_rg hb hr) ?_)

theorem parseClassModifiers_rg (hb : Bounded B D toks) :
    Gv parseClassModifiers toks (fun _ => True) := by
  intro pos Q h1
  unfold parseClassModifiers
  refine Ret.loop (fun s => True) trivial ?_
  intro s q hs
  rgo <;> rgp
set_option hygiene false in
macro_rules | `(tactic| rg_call) => `(tactic|
  with_reducible refine Gv.use (parseClassModifiers_rg hb) ?_)

theorem parseMembers_rg (hb : Bounded B D toks) (hr : BRec r toks B D) :
    Gv (parseMembers r) toks (fun x => SpAll B D (declsSpans x.1) ∧ x.2 ≤ B) := by
  intro pos Q h1
  unfold parseMembers
  rgo <;> rgp
set_option hygiene false in
macro_rules | `(tactic| rg_call) => `(tactic|
  with_reducible refine Gv.use (parseMembers_rg hb hr) ?_)

theorem parseOptNames_rg {k : Kw} (hb : Bounded B D toks) :
    Gv (parseOptNames k) toks (fun _ => True) := by
  intro pos Q h1
  unfold parseOptNames
  rgo <;> rgp
set_option hygiene false in
macro_rules | `(tactic| rg_call) => `(tactic|
  with_reducible refine Gv.use (parseOptNames_rg hb) ?_)

theorem parseOoDeclaration_rg (hb : Bounded B D toks) (hr : BRec r toks B D) :
    Gv (parseOoDeclaration r) toks (BS B D) := by
  intro pos Q h1
  unfold parseOoDeclaration
  rgo <;> rgp
set_option hygiene false in
macro_rules | `(tactic| rg_call) => `(tactic|
  with_reducible refine Gv.use (parseOoDeclaration_rg hb hr) ?_)

theorem parseCatches_rg (hb : Bounded B D toks) (hr : BRec r toks B D) :
    Gv (parseCatches r) toks (fun x => SpAll B D (catchesSpans x)) := by
  intro pos Q h1
  unfold parseCatches
  refine Ret.loop (fun s => SpAll B D (catchesSpans s)) (by rgp) ?_
  intro s q hs
  rgo <;> rgp
set_option hygiene false in
macro_rules | `(tactic| rg_call) => `(tactic|
  with_reducible refine Gv.use (parseCatches_rg hb hr) ?_)

theorem parseTry_rg {t : TokSpan} (hb : Bounded B D toks) (hr : BRec r toks B D) (ht : SpOk B D t.span) :
    Gv (parseTry r t) toks (BS B D) := by
  intro pos Q h1
  unfold parseTry
  rgo <;> rgp
set_option hygiene false in
macro_rules | `(tactic| rg_call) => `(tactic|
  with_reducible refine Gv.use (parseTry_rg hb hr ?_) ?_)

theorem parseUnset_rg {t : TokSpan} (hb : Bounded B D toks) (hr : BRec r toks B D) (ht : SpOk B D t.span) :
    Gv (parseUnset r t) toks (BS B D) := by
  intro pos Q h1
  unfold parseUnset
  rgo
  refine Ret.loop (fun s => SpAll B D (exprsSpans s)) (by rgp) ?_
  intro s q hs
  rgo <;> rgp
set_option hygiene false in
macro_rules | `(tactic| rg_call) => `(tactic|
  with_reducible refine Gv.use (parseUnset_rg hb hr ?_) ?_)

theorem parseForeach_rg {t : TokSpan} (hb : Bounded B D toks) (hr : BRec r toks B D) (ht : SpOk B D t.span) :
    Gv (parseForeach r t) toks (BS B D) := by
  intro pos Q h1
  unfold parseForeach
  rgo <;> rgp
set_option hygiene false in
macro_rules | `(tactic| rg_call) => `(tactic|
  with_reducible refine Gv.use (parseForeach_rg hb hr ?_) ?_)

theorem parseFor_rg {t : TokSpan} (hb : Bounded B D toks) (hr : BRec r toks B D) (ht : SpOk B D t.span) :
    Gv (parseFor r t) toks (BS B D) := by
  intro pos Q h1
  unfold parseFor
  rgo <;> rgp
set_option hygiene false in
macro_rules | `(tactic| rg_call) => `(tactic|
  with_reducible refine Gv.use (parseFor_rg hb hr ?_) ?_)

theorem parseCaseHead_rg (hb : Bounded B D toks) (hr : BRec r toks B D) :
    Gv (parseCaseHead r) toks (OptP (fun x => SpAll B D (optSpans x))) := by
  intro pos Q h1
  unfold parseCaseHead
  rgo <;> rgp
set_option hygiene false in
macro_rules | `(tactic| rg_call) => `(tactic|
  with_reducible refine Gv.opt (parseCaseHead_rg hb hr) ?_ ?_)

theorem casesSpans_map (l : List Expr) (h : SpAll B D (exprsSpans l)) : SpAll B D (casesSpans (l.map fun c => .mk [c] false [])) := by
  induction l with
  | nil => exact h
  | cons x l ih =>
    obtain ⟨h1, h2⟩ := spAll_append.1 h
    have := ih h2
    rgp

theorem switchLoop_rg (hb : Bounded B D toks) (hr : BRec r toks B D) :
    Gv (P.loop (switchStep r) ([], [])) toks (fun x => SpAll B D (casesSpans x.1) ∧ SpAll B D (exprsSpans x.2)) := by
  intro pos Q h1
  refine Ret.loop (fun (s : List Case × List Expr) => SpAll B D (casesSpans s.1) ∧ SpAll B D (exprsSpans s.2)) ⟨by rgp, by rgp⟩ ?_
  rintro s q ⟨hs1, hs2⟩
  unfold switchStep
  rgo <;> rgp
set_option hygiene false in
macro_rules | `(tactic| rg_call) => `(tactic|
  with_reducible refine Gv.use (switchLoop_rg hb hr) ?_)

theorem parseSwitch_rg {t : TokSpan} (hb : Bounded B D toks) (hr : BRec r toks B D) (ht : SpOk B D t.span) :
    Gv (parseSwitch r t) toks (BS B D) := by
  intro pos Q h1
  unfold parseSwitch
  rgo
  rename_i h _ _ _ _
  have := casesSpans_map _ h.2
  rgp
set_option hygiene false in
macro_rules | `(tactic| rg_call) => `(tactic|
  with_reducible refine Gv.use (parseSwitch_rg hb hr ?_) ?_)

theorem parseParenExpr_rg (hb : Bounded B D toks) (hr : BRec r toks B D) :
    Gv (parseParenExpr r) toks (BE B D) := by
  intro pos Q h1
  unfold parseParenExpr
  rgo <;> rgp
set_option hygiene false in
macro_rules | `(tactic| rg_call) => `(tactic|
  with_reducible refine Gv.use (parseParenExpr_rg hb hr) ?_)

theorem parseDo_rg {t : TokSpan} (hb : Bounded B D toks) (hr : BRec r toks B D) (ht : SpOk B D t.span) :
    Gv (parseDo r t) toks (BS B D) := by
  intro pos Q h1
  unfold parseDo
  rgo <;> rgp
set_option hygiene false in
macro_rules | `(tactic| rg_call) => `(tactic|
  with_reducible refine Gv.use (parseDo_rg hb hr ?_) ?_)

theorem parseWhile_rg {t : TokSpan} (hb : Bounded B D toks) (hr : BRec r toks B D) (ht : SpOk B D t.span) :
    Gv (parseWhile r t) toks (BS B D) := by
  intro pos Q h1
  unfold parseWhile
  rgo <;> rgp
set_option hygiene false in
macro_rules | `(tactic| rg_call) => `(tactic|
  with_reducible refine Gv.use (parseWhile_rg hb hr ?_) ?_)

theorem parseIfBranch_rg {st : Nat} (hb : Bounded B D toks) (hr : BRec r toks B D) (hs : st ≤ B) :
    Gv (parseIfBranch r st) toks (BS B D) := by
  intro pos Q h1
  unfold parseIfBranch
  rgo <;> rgp
set_option hygiene false in
macro_rules | `(tactic| rg_call) => `(tactic|
  with_reducible refine Gv.use (parseIfBranch_rg hb hr ?_) ?_)

theorem ifLoop_rg {s : Stmt} (hb : Bounded B D toks) (hr : BRec r toks B D) (hf : BS B D s) :
    Gv (P.loop (ifStep r) [s]) toks (fun x => SpAll B D (stmtsSpans x)) := by
  intro pos Q h1
  refine Ret.loop (fun s => SpAll B D (stmtsSpans s)) (by rgp) ?_
  clear hf
  intro s q hs
  unfold ifStep
  rgo <;> rgp
set_option hygiene false in
macro_rules | `(tactic| rg_call) => `(tactic|
  with_reducible refine Gv.use (ifLoop_rg hb hr ?_) ?_)

theorem nestIf_rg {a b s : Stmt} (ha : BS B D a) (hb : BS B D b) (h : nestIf a b = some s) : BS B D s := by
  unfold nestIf at h
  split at h <;> cases h <;> rgp

theorem nestIfs_rg {l : List Stmt} : ∀ {a s : Stmt}, BS B D a → SpAll B D (stmtsSpans l) → nestIfs a l = some s → BS B D s := by
  induction l with
  | nil => intro a s ha _ h; cases h; exact ha
  | cons x l ih =>
    intro a s ha hl h
    obtain ⟨h1, h2⟩ := spAll_append.1 hl
    unfold nestIfs at h
    cases hn : nestIf a x with
    | none => rw [hn] at h; cases h
    | some b => rw [hn] at h; exact ih (nestIf_rg ha (BS.of h1) hn) h2 h

theorem stmtsSpans_reverse (l : List Stmt) (h : SpAll B D (stmtsSpans l)) : SpAll B D (stmtsSpans l.reverse) := by
  induction l with
  | nil => exact h
  | cons x l ih =>
    obtain ⟨h1, h2⟩ := spAll_append.1 h
    rw [List.reverse_cons, stmtsSpans_append]
    exact spAll_append.2 ⟨ih h2, spAll_append.2 ⟨h1, spAll_nil.2 trivial⟩⟩

theorem parseIf_rg {t : TokSpan} (hb : Bounded B D toks) (hr : BRec r toks B D) (ht : SpOk B D t.span) :
    Gv (parseIf r t) toks (BS B D) := by
  intro pos Q h1
  unfold parseIf
  rgo
  · exact ht.1
  · assumption
  rename_i hl _ _ _ hv _ _ hn
  have := stmtsSpans_reverse _ hl
  rw [hv] at this
  obtain ⟨h1, h2⟩ := spAll_append.1 this
  exact nestIfs_rg (BS.of h1) h2 hn
set_option hygiene false in
macro_rules | `(tactic| rg_call) => `(tactic|
  with_reducible refine Gv.use (parseIf_rg hb hr ?_) ?_)

theorem parseBlock_rg {t : TokSpan} (hb : Bounded B D toks) (hr : BRec r toks B D) (ht : SpOk B D t.span) :
    Gv (parseBlock r t) toks (BS B D) := by
  intro pos Q h1
  unfold parseBlock
  rgo <;> rgp
set_option hygiene false in
macro_rules | `(tactic| rg_call) => `(tactic|
  with_reducible refine Gv.use (parseBlock_rg hb hr ?_) ?_)

theorem simpleStmt_rg {t : TokSpan} {m : P StmtK} (hb : Bounded B D toks) (hr : BRec r toks B D) (ht : TkOk B D t)
    (hm : simpleStmt r t = some m) : Gv m toks (fun k => SpAll B D k.spans) := by
  intro pos Q h1
  unfold simpleStmt at hm
  split at hm <;> cases hm
  all_goals rgo <;> rgp
set_option hygiene false in
macro_rules | `(tactic| rg_call) => `(tactic|
  with_reducible refine Gv.use (simpleStmt_rg hb hr (by assumption) (by assumption)) ?_)

theorem parseExprStmt_rg {st : Option PErr} (hb : Bounded B D toks) (hr : BRec r toks B D) :
    Gv (parseExprStmt r st) toks (BS B D) := by
  intro pos Q h1
  unfold parseExprStmt
  rgo <;> rgp
set_option hygiene false in
macro_rules | `(tactic| rg_call) => `(tactic|
  with_reducible refine Gv.use (parseExprStmt_rg hb hr) ?_)

theorem parseOtherStmt_rg {st : Option PErr} (hb : Bounded B D toks) (hr : BRec r toks B D) :
    Gv (parseOtherStmt r st) toks (BS B D) := by
  intro pos Q h1
  unfold parseOtherStmt
  rgo <;> rgp
set_option hygiene false in
macro_rules | `(tactic| rg_call) => `(tactic|
  with_reducible refine Gv.use (parseOtherStmt_rg hb hr) ?_)

theorem tryDecl_rg {m : P Stmt} (hb : Bounded B D toks) (hr : BRec r toks B D) (hm : Gv m toks (BS B D)) : Gv (tryDecl r m) toks (BS B D) := by
  intro pos Q h1
  unfold tryDecl
  rgo
  · refine Gv.use hm ?_
    rgo <;> rgp
  · rgp

theorem parseStatement_rg (hb : Bounded B D toks) (hr : BRec r toks B D) :
    Gv (parseStatement r) toks (BS B D) := by
  intro pos Q h1
  unfold parseStatement
  rgo
  all_goals try rgp
  · exact tryDecl_rg hb hr (parseStaticVarDecl_rg hb hr (by rgp)) _ _ h1
  · exact tryDecl_rg hb hr (parseGlobalVarDecl_rg hb (by rgp)) _ _ h1
  · refine tryDecl_rg hb hr ?_ _ _ h1
    intro pos Q h1
    rgo <;> rgp
set_option hygiene false in
macro_rules | `(tactic| rg_call) => `(tactic|
  with_reducible refine Gv.use (parseStatement_rg hb hr) ?_)

theorem parseTopUse_rg {t : TokSpan} (hb : Bounded B D toks) (ht : SpOk B D t.span) :
    Gv (parseTopUse t) toks (BS B D) := by
  intro pos Q h1
  unfold parseTopUse
  rgo
  refine Ret.loop (fun _ => True) trivial ?_
  intro s q hs
  rgo <;> rgp
set_option hygiene false in
macro_rules | `(tactic| rg_call) => `(tactic|
  with_reducible refine Gv.use (parseTopUse_rg hb ?_) ?_)

theorem parseTopStatement_rg (hb : Bounded B D toks) (hr : BRec r toks B D) :
    Gv (parseTopStatement r) toks (BS B D) := by
  intro pos Q h1
  unfold parseTopStatement
  rgo <;> rgp
set_option hygiene false in
macro_rules | `(tactic| rg_call) => `(tactic|
  with_reducible refine Gv.use (parseTopStatement_rg hb hr) ?_)

theorem parseTopStatementList_rg (hb : Bounded B D toks) (hr : BRec r toks B D) :
    Gv (parseTopStatementList r) toks (fun x => SpAll B D (stmtsSpans x)) := by
  intro pos Q h1
  unfold parseTopStatementList
  rgo
  refine Ret.loop (fun s => SpAll B D (stmtsSpans s)) (by rgp) ?_
  intro s q hs
  rgo <;> rgp
set_option hygiene false in
macro_rules | `(tactic| rg_call) => `(tactic|
  with_reducible refine Gv.use (parseTopStatementList_rg hb hr) ?_)

theorem recN_rg (hb : Bounded B D toks) : ∀ n, BRec (recN n) toks B D
  | 0 => ⟨fun _ _ _ _ => ⟨fun _ _ e => by cases e⟩, fun _ _ _ => ⟨fun _ _ e => by cases e⟩⟩
  | n + 1 => ⟨fun _ => parseExpression_rg hb (recN_rg hb n), parseStatement_rg hb (recN_rg hb n)⟩

end Pico
