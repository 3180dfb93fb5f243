import Verif.Lemmas.ParserOk
/-!
# The parser always makes progress and builds printable trees: statements
-/
namespace Pico
open P

variable {r : Rec} {toks : List TokSpan} {pos lo los : Nat}

theorem parseForeachVariable_ok (hE : RecE r toks lo) (hl : lo ≤ pos + 1):
    Eats (parseForeachVariable r) toks pos PE := by
  intro Q E h1 h2
  unfold parseForeachVariable
  wp <;> pr

macro_rules | `(tactic| wp_call) => `(tactic|
  with_reducible refine Eats.use (parseForeachVariable_ok (by assumption) (by omega)) ?_ ?_)

theorem parseStatementExtractBlock_ok (hS : RecS r toks los) (hs : los ≤ pos):
    Eats (parseStatementExtractBlock r) toks pos (fun x => PSs x.1) := by
  intro Q E h1 h2
  unfold parseStatementExtractBlock
  wp <;> pr

macro_rules | `(tactic| wp_call) => `(tactic|
  with_reducible refine Eats.use (parseStatementExtractBlock_ok (by assumption) (by omega)) ?_ ?_)

theorem parseStaticVarDecl_ok {sp : Span} (hE : RecE r toks lo) (hl : lo ≤ pos + 1):
    Eats (parseStaticVarDecl r sp) toks pos PS := by
  intro Q E h1 h2
  unfold parseStaticVarDecl
  wp
  refine Wp.loop (fun s q => pos ≤ q ∧ allStaticVars ExprK.hasPrinter s) ⟨by omega, trivial⟩ ?_
  rintro s q ⟨hq, hs⟩
  wp <;> pr

macro_rules | `(tactic| wp_call) => `(tactic|
  with_reducible refine Eats.use (parseStaticVarDecl_ok (by assumption) (by omega)) ?_ ?_)

theorem parseGlobalVarDecl_ok {sp : Span}:
    Eats (parseGlobalVarDecl sp) toks pos PS := by
  intro Q E h1 h2
  unfold parseGlobalVarDecl
  wp
  refine Wp.loop (fun s q => pos ≤ q ∧ allVariables ExprK.hasPrinter s) ⟨by omega, trivial⟩ ?_
  rintro s q ⟨hq, hs⟩
  wp <;> pr

macro_rules | `(tactic| wp_call) => `(tactic|
  with_reducible refine Eats.use parseGlobalVarDecl_ok ?_ ?_)

theorem parseMemberModifiers_ok :
    Keeps parseMemberModifiers toks pos (fun _ => True) := by
  intro Q E h1 h2
  unfold parseMemberModifiers
  refine Wp.loop (fun s q => pos ≤ q ∧ True) ⟨by omega, trivial⟩ ?_
  rintro s q ⟨hq, hs⟩
  wp <;> pr

macro_rules | `(tactic| wp_call) => `(tactic|
  with_reducible refine Keeps.use parseMemberModifiers_ok ?_ ?_)

theorem parseAbsoluteTraitMethodReference_ok :
    Eats parseAbsoluteTraitMethodReference toks pos (fun _ => True) := by
  intro Q E h1 h2
  unfold parseAbsoluteTraitMethodReference
  wp <;> pr

macro_rules | `(tactic| wp_call) => `(tactic|
  with_reducible refine Eats.use parseAbsoluteTraitMethodReference_ok ?_ ?_)

theorem parseTraitMethod_ok :
    Opts parseTraitMethod toks pos (fun _ => True) := by
  intro Q E h1 h3 h2
  unfold parseTraitMethod
  wp <;> pr

macro_rules | `(tactic| wp_call) => `(tactic|
  with_reducible refine Opts.use parseTraitMethod_ok ?_ ?_ ?_)

theorem traitLoop_ok : Keeps (P.loop traitAdaptStep (true, [])) toks pos (fun _ => True) := by
  intro Q E h1 h2
  refine Wp.loop (fun _ q => pos ≤ q ∧ True) ⟨by omega, trivial⟩ ?_
  rintro s q ⟨hq, hs⟩
  unfold traitAdaptStep
  wp <;> pr

macro_rules | `(tactic| wp_call) => `(tactic|
  with_reducible refine Keeps.use traitLoop_ok ?_ ?_)

theorem parseTraitUse_ok :
    Eats parseTraitUse toks pos PMs := by
  intro Q E h1 h2
  unfold parseTraitUse
  wp <;> pr

macro_rules | `(tactic| wp_call) => `(tactic|
  with_reducible refine Eats.use parseTraitUse_ok ?_ ?_)

theorem parseClassConsts_ok {ms : MemberModifiers} (hE : RecE r toks lo) (hl : lo ≤ pos + 1):
    Eats (parseClassConsts r ms) toks pos PMs := by
  intro Q E h1 h2
  unfold parseClassConsts
  refine Wp.loop (fun s q => pos ≤ q ∧ PMs s) ⟨by omega, trivial⟩ ?_
  rintro s q ⟨hq, hs⟩
  wp <;> pr

macro_rules | `(tactic| wp_call) => `(tactic|
  with_reducible refine Eats.use (parseClassConsts_ok (by assumption) (by omega)) ?_ ?_)

theorem parseProperties_ok {ms : MemberModifiers} (hE : RecE r toks lo) (hl : lo ≤ pos + 1):
    Eats (parseProperties r ms) toks pos PMs := by
  intro Q E h1 h2
  unfold parseProperties
  refine Wp.loop (fun s q => pos ≤ q ∧ PMs s) ⟨by omega, trivial⟩ ?_
  rintro s q ⟨hq, hs⟩
  wp <;> pr

macro_rules | `(tactic| wp_call) => `(tactic|
  with_reducible refine Eats.use (parseProperties_ok (by assumption) (by omega)) ?_ ?_)

theorem parseClassStatement_ok (hE : RecE r toks lo) (hl : lo ≤ pos + 1) (hS : RecS r toks los) (hs : los ≤ pos + 1):
    Eats (parseClassStatement r) toks pos PMs := by
  intro Q E h1 h2
  unfold parseClassStatement
  wp <;> pr

macro_rules | `(tactic| wp_call) => `(tactic|
  with_reducible refine Eats.use (parseClassStatement_ok (by assumption) (by omega) (by assumption) (by omega)) ?_ ?_)

theorem parseClassStatementList_ok (hE : RecE r toks lo) (hl : lo ≤ pos + 1) (hS : RecS r toks los) (hs : los ≤ pos + 1):
    Keeps (parseClassStatementList r) toks pos (fun x => PMs x.1) := by
  intro Q E h1 h2
  unfold parseClassStatementList
  wp
  refine Wp.loop (fun s q => pos ≤ q ∧ PMs s) ⟨by omega, trivial⟩ ?_
  rintro s q ⟨hq, hs⟩
  wp <;> pr

macro_rules | `(tactic| wp_call) => `(tactic|
  with_reducible refine Keeps.use (parseClassStatementList_ok (by assumption) (by omega) (by assumption) (by omega)) ?_ ?_)

theorem parseClassModifiers_ok :
    Keeps parseClassModifiers toks pos (fun _ => True) := by
  intro Q E h1 h2
  unfold parseClassModifiers
  refine Wp.loop (fun s q => pos ≤ q ∧ True) ⟨by omega, trivial⟩ ?_
  rintro s q ⟨hq, hs⟩
  wp <;> pr

macro_rules | `(tactic| wp_call) => `(tactic|
  with_reducible refine Keeps.use parseClassModifiers_ok ?_ ?_)

theorem parseMembers_ok (hE : RecE r toks lo) (hl : lo ≤ pos + 1) (hS : RecS r toks los) (hs : los ≤ pos + 1):
    Eats (parseMembers r) toks pos (fun x => PMs x.1) := by
  intro Q E h1 h2
  unfold parseMembers
  wp <;> pr

macro_rules | `(tactic| wp_call) => `(tactic|
  with_reducible refine Eats.use (parseMembers_ok (by assumption) (by omega) (by assumption) (by omega)) ?_ ?_)

theorem parseOptNames_ok {k : Kw}:
    Keeps (parseOptNames k) toks pos (fun _ => True) := by
  intro Q E h1 h2
  unfold parseOptNames
  wp <;> pr

macro_rules | `(tactic| wp_call) => `(tactic|
  with_reducible refine Keeps.use parseOptNames_ok ?_ ?_)

theorem parseOoDeclaration_ok (hE : RecE r toks lo) (hl : lo ≤ pos + 1) (hS : RecS r toks los) (hs : los ≤ pos + 1):
    Eats (parseOoDeclaration r) toks pos PS := by
  intro Q E h1 h2
  unfold parseOoDeclaration
  wp <;> pr

macro_rules | `(tactic| wp_call) => `(tactic|
  with_reducible refine Eats.use (parseOoDeclaration_ok (by assumption) (by omega) (by assumption) (by omega)) ?_ ?_)

theorem parseCatches_ok (hS : RecS r toks los) (hs : los ≤ pos + 1):
    Keeps (parseCatches r) toks pos (allCatches ExprK.hasPrinter) := by
  intro Q E h1 h2
  unfold parseCatches
  refine Wp.loop (fun s q => pos ≤ q ∧ allCatches ExprK.hasPrinter s) ⟨by omega, trivial⟩ ?_
  rintro s q ⟨hq, hs⟩
  wp <;> pr

macro_rules | `(tactic| wp_call) => `(tactic|
  with_reducible refine Keeps.use (parseCatches_ok (by assumption) (by omega)) ?_ ?_)

theorem parseTry_ok {t : TokSpan} (hS : RecS r toks los) (hs : los ≤ pos + 1):
    Eats (parseTry r t) toks pos PS := by
  intro Q E h1 h2
  unfold parseTry
  wp <;> pr

macro_rules | `(tactic| wp_call) => `(tactic|
  with_reducible refine Eats.use (parseTry_ok (by assumption) (by omega)) ?_ ?_)

theorem parseUnset_ok {t : TokSpan} (hE : RecE r toks lo) (hl : lo ≤ pos + 1):
    Eats (parseUnset r t) toks pos PS := by
  intro Q E h1 h2
  unfold parseUnset
  wp
  refine Wp.loop (fun s q => pos ≤ q ∧ PEs s) ⟨by omega, trivial⟩ ?_
  rintro s q ⟨hq, hs⟩
  wp <;> pr

macro_rules | `(tactic| wp_call) => `(tactic|
  with_reducible refine Eats.use (parseUnset_ok (by assumption) (by omega)) ?_ ?_)

theorem parseForeach_ok {t : TokSpan} (hE : RecE r toks lo) (hl : lo ≤ pos + 1) (hS : RecS r toks los) (hs : los ≤ pos + 1):
    Eats (parseForeach r t) toks pos PS := by
  intro Q E h1 h2
  unfold parseForeach
  wp <;> pr

macro_rules | `(tactic| wp_call) => `(tactic|
  with_reducible refine Eats.use (parseForeach_ok (by assumption) (by omega) (by assumption) (by omega)) ?_ ?_)

theorem parseFor_ok {t : TokSpan} (hE : RecE r toks lo) (hl : lo ≤ pos + 1) (hS : RecS r toks los) (hs : los ≤ pos + 1):
    Eats (parseFor r t) toks pos PS := by
  intro Q E h1 h2
  unfold parseFor
  wp <;> pr

macro_rules | `(tactic| wp_call) => `(tactic|
  with_reducible refine Eats.use (parseFor_ok (by assumption) (by omega) (by assumption) (by omega)) ?_ ?_)

theorem parseCaseHead_ok (hE : RecE r toks lo) (hl : lo ≤ pos + 1):
    Opts (parseCaseHead r) toks pos PO := by
  intro Q E h1 h3 h2
  unfold parseCaseHead
  wp <;> pr

macro_rules | `(tactic| wp_call) => `(tactic|
  with_reducible refine Opts.use (parseCaseHead_ok (by assumption) (by omega)) ?_ ?_ ?_)

theorem switchLoop_ok (hE : RecE r toks lo) (hl : lo ≤ pos + 1) (hS : RecS r toks los)
    (hs : los ≤ pos + 1) : Keeps (P.loop (switchStep r) ([], [])) toks pos
      (fun x => allCases ExprK.hasPrinter x.1 ∧ PEs x.2) := by
  intro Q E h1 h2
  refine Wp.loop (fun (s : List Case × List Expr) q => pos ≤ q ∧ allCases ExprK.hasPrinter s.1 ∧ PEs s.2)
    ⟨by omega, trivial, trivial⟩ ?_
  rintro s q ⟨hq, hs1, hs2⟩
  unfold switchStep
  wp <;> pr

macro_rules | `(tactic| wp_call) => `(tactic|
  with_reducible refine Keeps.use (switchLoop_ok (by assumption) (by omega) (by assumption) (by omega)) ?_ ?_)

theorem allCases_map (l : List Expr) (h : PEs l) :
    allCases ExprK.hasPrinter (l.map fun c => .mk [c] false []) := by
  induction l with
  | nil => trivial
  | cons x l ih => exact ⟨⟨⟨h.1, trivial⟩, trivial⟩, ih h.2⟩

theorem parseSwitch_ok {t : TokSpan} (hE : RecE r toks lo) (hl : lo ≤ pos + 1) (hS : RecS r toks los) (hs : los ≤ pos + 1):
    Eats (parseSwitch r t) toks pos PS := by
  intro Q E h1 h2
  unfold parseSwitch
  wp
  rename_i h _ _
  have := allCases_map _ h.2
  have := h.1
  pr

macro_rules | `(tactic| wp_call) => `(tactic|
  with_reducible refine Eats.use (parseSwitch_ok (by assumption) (by omega) (by assumption) (by omega)) ?_ ?_)

theorem parseParenExpr_ok (hE : RecE r toks lo) (hl : lo ≤ pos + 1):
    Eats (parseParenExpr r) toks pos PE := by
  intro Q E h1 h2
  unfold parseParenExpr
  wp <;> pr

macro_rules | `(tactic| wp_call) => `(tactic|
  with_reducible refine Eats.use (parseParenExpr_ok (by assumption) (by omega)) ?_ ?_)

theorem parseDo_ok {t : TokSpan} (hE : RecE r toks lo) (hl : lo ≤ pos + 1) (hS : RecS r toks los) (hs : los ≤ pos):
    Eats (parseDo r t) toks pos PS := by
  intro Q E h1 h2
  unfold parseDo
  wp <;> pr

macro_rules | `(tactic| wp_call) => `(tactic|
  with_reducible refine Eats.use (parseDo_ok (by assumption) (by omega) (by assumption) (by omega)) ?_ ?_)

theorem parseWhile_ok {t : TokSpan} (hE : RecE r toks lo) (hl : lo ≤ pos + 1) (hS : RecS r toks los) (hs : los ≤ pos + 1):
    Eats (parseWhile r t) toks pos PS := by
  intro Q E h1 h2
  unfold parseWhile
  wp <;> pr

macro_rules | `(tactic| wp_call) => `(tactic|
  with_reducible refine Eats.use (parseWhile_ok (by assumption) (by omega) (by assumption) (by omega)) ?_ ?_)

theorem parseIfBranch_ok {st : Nat} (hE : RecE r toks lo) (hl : lo ≤ pos + 1) (hS : RecS r toks los) (hs : los ≤ pos + 1):
    Eats (parseIfBranch r st) toks pos PS := by
  intro Q E h1 h2
  unfold parseIfBranch
  wp <;> pr

macro_rules | `(tactic| wp_call) => `(tactic|
  with_reducible refine Eats.use (parseIfBranch_ok (by assumption) (by omega) (by assumption) (by omega)) ?_ ?_)

theorem ifLoop_ok {s : Stmt} (hE : RecE r toks lo) (hl : lo ≤ pos + 1) (hS : RecS r toks los)
    (hs : los ≤ pos + 1) (hf : PS s) : Keeps (P.loop (ifStep r) [s]) toks pos PSs := by
  intro Q E h1 h2
  refine Wp.loop (fun s q => pos ≤ q ∧ PSs s) ⟨by omega, hf, trivial⟩ ?_
  rintro s q ⟨hq, hs⟩
  unfold ifStep
  wp <;> pr

macro_rules | `(tactic| wp_call) => `(tactic|
  with_reducible refine Keeps.use (ifLoop_ok (by assumption) (by omega) (by assumption) (by omega) (by assumption)) ?_ ?_)

theorem nestIf_ok {a b s : Stmt} (ha : PS a) (hb : PS b) (h : nestIf a b = some s) : PS s := by
  unfold nestIf at h
  split at h
  · cases h; exact ⟨hb.1, hb.2.1, ha⟩
  · cases h; exact ⟨hb.1, hb.2.1, ha, trivial⟩
  · cases h

theorem nestIfs_ok {l : List Stmt} : ∀ {a s : Stmt}, PS a → PSs l → nestIfs a l = some s → PS s := by
  induction l with
  | nil => intro a s ha _ h; cases h; exact ha
  | cons x l ih =>
    intro a s ha hl h
    unfold nestIfs at h
    cases hn : nestIf a x with
    | none => rw [hn] at h; cases h
    | some b => rw [hn] at h; exact ih (nestIf_ok ha hl.1 hn) hl.2 h

theorem PSs_reverse (l : List Stmt) (h : PSs l) : PSs l.reverse := by
  induction l with
  | nil => trivial
  | cons x l ih =>
    rw [List.reverse_cons]
    exact (allStmts_append _ _).2 ⟨ih h.2, h.1, trivial⟩

theorem parseIf_ok {t : TokSpan} (hE : RecE r toks lo) (hl : lo ≤ pos + 1) (hS : RecS r toks los) (hs : los ≤ pos + 1):
    Eats (parseIf r t) toks pos PS := by
  intro Q E h1 h2
  unfold parseIf
  wp
  rename_i hl _ _ _ hr _ _ hn
  have := PSs_reverse _ hl
  rw [hr] at this
  exact nestIfs_ok this.1 this.2 hn

macro_rules | `(tactic| wp_call) => `(tactic|
  with_reducible refine Eats.use (parseIf_ok (by assumption) (by omega) (by assumption) (by omega)) ?_ ?_)

theorem parseBlock_ok {t : TokSpan} (hS : RecS r toks los) (hs : los ≤ pos):
    Eats (parseBlock r t) toks pos PS := by
  intro Q E h1 h2
  unfold parseBlock
  wp <;> pr

macro_rules | `(tactic| wp_call) => `(tactic|
  with_reducible refine Eats.use (parseBlock_ok (by assumption) (by omega)) ?_ ?_)

theorem simpleStmt_ok {t : TokSpan} {m : P StmtK} (hE : RecE r toks lo) (hl : lo ≤ pos)
    (hm : simpleStmt r t = some m) : Keeps m toks pos (StmtK.All ExprK.hasPrinter) := by
  intro Q E h1 h2
  unfold simpleStmt at hm
  split at hm <;> cases hm
  all_goals wp <;> pr

macro_rules | `(tactic| wp_call) => `(tactic|
  with_reducible refine Keeps.use (simpleStmt_ok (by assumption) (by omega) (by assumption)) ?_ ?_)

theorem parseExprStmt_ok {st : Option PErr} (hE : RecE r toks lo) (hl : lo ≤ pos):
    Eats (parseExprStmt r st) toks pos PS := by
  intro Q E h1 h2
  unfold parseExprStmt
  wp <;> pr

macro_rules | `(tactic| wp_call) => `(tactic|
  with_reducible refine Eats.use (parseExprStmt_ok (by assumption) (by omega)) ?_ ?_)

theorem parseOtherStmt_ok {st : Option PErr} (hE : RecE r toks lo) (hl : lo ≤ pos) (hS : RecS r toks los) (hs : los ≤ pos + 1):
    Eats (parseOtherStmt r st) toks pos PS := by
  intro Q E h1 h2
  unfold parseOtherStmt
  wp <;> pr

macro_rules | `(tactic| wp_call) => `(tactic|
  with_reducible refine Eats.use (parseOtherStmt_ok (by assumption) (by omega) (by assumption) (by omega)) ?_ ?_)

theorem tryDecl_ok {m : P Stmt} (hm : Eats m toks (pos + 1) PS) (hE : RecE r toks lo) (hl : lo ≤ pos)
    (hS : RecS r toks los) (hs : los ≤ pos + 1) : Eats (tryDecl r m) toks pos PS := by
  intro Q E h1 h2
  unfold tryDecl
  wp
  refine Eats.use hm ?_ ?_ <;> wp <;> pr

theorem parseStatement_ok (hE : RecE r toks lo) (hl : lo ≤ pos) (hS : RecS r toks los) (hs : los ≤ pos + 1):
    Eats (parseStatement r) toks pos PS := by
  intro Q E h1 h2
  unfold parseStatement
  wp
  all_goals try pr
  · refine Eats.use (tryDecl_ok (parseStaticVarDecl_ok hE (by omega)) hE hl hS hs) ?_ ?_ <;> wp <;> pr
  · refine Eats.use (tryDecl_ok parseGlobalVarDecl_ok hE hl hS hs) ?_ ?_ <;> wp <;> pr
  · refine Eats.use (tryDecl_ok ?_ hE hl hS hs) ?_ ?_
    · intro Q E h1 h2
      wp <;> pr
    all_goals wp <;> pr

macro_rules | `(tactic| wp_call) => `(tactic|
  with_reducible refine Eats.use (parseStatement_ok (by assumption) (by omega) (by assumption) (by omega)) ?_ ?_)

end Pico
