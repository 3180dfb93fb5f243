import Verif.Lemmas.ShapeExpr
/-!
# The parser builds well-formed trees: statements
-/
namespace Pico
open P

variable {r : Rec} {toks : List TokSpan}

theorem parseForeachVariable_sh (hr : ShRec r toks) :
    Gv (parseForeachVariable r) toks (fun e => shExpr .each e = true) := by
  intro pos Q h1
  unfold parseForeachVariable
  sh <;> shp

macro_rules | `(tactic| sh_call) => `(tactic|
  with_reducible refine Gv.use (parseForeachVariable_sh (by assumption)) ?_)

theorem parseStatementExtractBlock_sh (hr : ShRec r toks) :
    Gv (parseStatementExtractBlock r) toks (fun x => SSs x.1) := by
  intro pos Q h1
  unfold parseStatementExtractBlock
  sh <;> shp

macro_rules | `(tactic| sh_call) => `(tactic|
  with_reducible refine Gv.use (parseStatementExtractBlock_sh (by assumption)) ?_)

theorem parseStaticVarDecl_sh {sp : Span} (hr : ShRec r toks) : Gv (parseStaticVarDecl r sp) toks SS := by
  intro pos Q h1
  unfold parseStaticVarDecl
  sh
  refine Ret.loop (fun s => shStaticVars s = true) rfl ?_
  intro s q hs
  sh <;> shp

macro_rules | `(tactic| sh_call) => `(tactic|
  with_reducible refine Gv.use (parseStaticVarDecl_sh (by assumption)) ?_)

theorem parseGlobalVarDecl_sh {sp : Span} : Gv (parseGlobalVarDecl sp) toks SS := by
  intro pos Q h1
  unfold parseGlobalVarDecl
  sh
  refine Ret.loop (fun s => s.all Variable.isName = true) rfl ?_
  intro s q hs
  sh
  · simp_all
  · simp_all [SS, shStmt, shStmtK, shDecl]

macro_rules | `(tactic| sh_call) => `(tactic|
  with_reducible refine Gv.use parseGlobalVarDecl_sh ?_)

theorem parseMemberModifiers_sh :
    Gv parseMemberModifiers toks (fun _ => True) := by
  intro pos Q h1
  unfold parseMemberModifiers
  refine Ret.loop (fun _ => True) trivial ?_
  intro s q hs
  sh <;> shp

macro_rules | `(tactic| sh_call) => `(tactic|
  with_reducible refine Gv.use parseMemberModifiers_sh ?_)

theorem parseAbsoluteTraitMethodReference_sh :
    Gv parseAbsoluteTraitMethodReference toks (fun _ => True) := by
  intro pos Q h1
  unfold parseAbsoluteTraitMethodReference
  sh <;> shp

macro_rules | `(tactic| sh_call) => `(tactic|
  with_reducible refine Gv.use parseAbsoluteTraitMethodReference_sh ?_)

theorem parseTraitMethod_sh :
    Gv parseTraitMethod toks (OptP (fun _ => True)) := by
  intro pos Q h1
  unfold parseTraitMethod
  sh <;> shp

macro_rules | `(tactic| sh_call) => `(tactic|
  with_reducible refine Gv.opt parseTraitMethod_sh ?_ ?_)

theorem traitLoop_sh : Gv (P.loop traitAdaptStep (true, [])) toks (fun us => us.all traitUseShape = true) := by
  intro pos Q h1
  refine Ret.loop (fun s => s.2.all traitUseShape = true) rfl ?_
  intro s q hs
  unfold traitAdaptStep
  sh <;> simp_all [traitUseShape]

macro_rules | `(tactic| sh_call) => `(tactic|
  with_reducible refine Gv.use traitLoop_sh ?_)

theorem parseTraitUse_sh :
    Gv parseTraitUse toks SMs := by
  intro pos Q h1
  unfold parseTraitUse
  sh <;> shp

macro_rules | `(tactic| sh_call) => `(tactic|
  with_reducible refine Gv.use parseTraitUse_sh ?_)

theorem parseClassConsts_sh {ms : MemberModifiers} (hr : ShRec r toks) (h : ms.bits < 64) :
    Gv (parseClassConsts r ms) toks SMs := by
  intro pos Q h1
  unfold parseClassConsts
  refine Ret.loop (fun s => SMs s) rfl ?_
  intro s q hs
  sh <;> shp

macro_rules | `(tactic| sh_call) => `(tactic|
  with_reducible refine Gv.use (parseClassConsts_sh (by assumption) (by assumption)) ?_)

theorem parseProperties_sh {ms : MemberModifiers} (hr : ShRec r toks) (h : ms.bits < 64) :
    Gv (parseProperties r ms) toks SMs := by
  intro pos Q h1
  unfold parseProperties
  refine Ret.loop (fun s => SMs s) rfl ?_
  intro s q hs
  sh <;> shp

macro_rules | `(tactic| sh_call) => `(tactic|
  with_reducible refine Gv.use (parseProperties_sh (by assumption) (by assumption)) ?_)

theorem MemberModifiers.new_bits (l : List MemberModifier) : (MemberModifiers.new l).bits < 64 := by
  have key : ∀ (l : List MemberModifier) (a : Nat), a < 2 ^ 6 → l.foldl (fun flag m => flag ||| m.bit) a < 2 ^ 6 := by
    intro l
    induction l with
    | nil => intro a h; exact h
    | cons m l ih =>
      intro a h
      exact ih _ (Nat.or_lt_two_pow h (by cases m <;> decide))
  exact key l 0 (by decide)

theorem ClassModifiers.new_bits (l : List ClassModifier) : (ClassModifiers.new l).bits < 4 := by
  have key : ∀ (l : List ClassModifier) (a : Nat), a < 2 ^ 2 → l.foldl (fun flag m => flag ||| m.bit) a < 2 ^ 2 := by
    intro l
    induction l with
    | nil => intro a h; exact h
    | cons m l ih =>
      intro a h
      exact ih _ (Nat.or_lt_two_pow h (by cases m <;> decide))
  exact key l 0 (by decide)

theorem parseClassStatement_sh (hr : ShRec r toks) :
    Gv (parseClassStatement r) toks SMs := by
  intro pos Q h1
  unfold parseClassStatement
  have hb := MemberModifiers.new_bits
  sh
  all_goals first
    | (refine Gv.use (parseProperties_sh hr (hb _)) ?_; sh <;> shp)
    | (refine Gv.use (parseClassConsts_sh hr (hb _)) ?_; sh <;> shp)
    | shp

macro_rules | `(tactic| sh_call) => `(tactic|
  with_reducible refine Gv.use (parseClassStatement_sh (by assumption)) ?_)

theorem parseClassStatementList_sh (hr : ShRec r toks) :
    Gv (parseClassStatementList r) toks (fun x => SMs x.1) := by
  intro pos Q h1
  unfold parseClassStatementList
  sh
  refine Ret.loop (fun s => SMs s) rfl ?_
  intro s q hs
  sh <;> shp

macro_rules | `(tactic| sh_call) => `(tactic|
  with_reducible refine Gv.use (parseClassStatementList_sh (by assumption)) ?_)

theorem parseClassModifiers_sh :
    Gv parseClassModifiers toks (fun _ => True) := by
  intro pos Q h1
  unfold parseClassModifiers
  refine Ret.loop (fun _ => True) trivial ?_
  intro s q hs
  sh <;> shp

macro_rules | `(tactic| sh_call) => `(tactic|
  with_reducible refine Gv.use parseClassModifiers_sh ?_)

theorem parseMembers_sh (hr : ShRec r toks) :
    Gv (parseMembers r) toks (fun x => SMs x.1) := by
  intro pos Q h1
  unfold parseMembers
  sh <;> shp

macro_rules | `(tactic| sh_call) => `(tactic|
  with_reducible refine Gv.use (parseMembers_sh (by assumption)) ?_)

theorem parseOptNames_sh {k : Kw}:
    Gv (parseOptNames k) toks (fun _ => True) := by
  intro pos Q h1
  unfold parseOptNames
  sh <;> shp

macro_rules | `(tactic| sh_call) => `(tactic|
  with_reducible refine Gv.use parseOptNames_sh ?_)

theorem parseOoDeclaration_sh (hr : ShRec r toks) :
    Gv (parseOoDeclaration r) toks SS := by
  intro pos Q h1
  unfold parseOoDeclaration
  have hb := ClassModifiers.new_bits
  sh <;> shp

macro_rules | `(tactic| sh_call) => `(tactic|
  with_reducible refine Gv.use (parseOoDeclaration_sh (by assumption)) ?_)

theorem parseCatches_sh (hr : ShRec r toks) :
    Gv (parseCatches r) toks (fun cs => shCatches cs = true) := by
  intro pos Q h1
  unfold parseCatches
  refine Ret.loop (fun s => shCatches s = true) rfl ?_
  intro s q hs
  sh <;> shp

macro_rules | `(tactic| sh_call) => `(tactic|
  with_reducible refine Gv.use (parseCatches_sh (by assumption)) ?_)

theorem parseTry_sh {t : TokSpan} (hr : ShRec r toks) :
    Gv (parseTry r t) toks SS := by
  intro pos Q h1
  unfold parseTry
  sh <;> shp

macro_rules | `(tactic| sh_call) => `(tactic|
  with_reducible refine Gv.use (parseTry_sh (by assumption)) ?_)

theorem parseUnset_sh {t : TokSpan} (hr : ShRec r toks) : Gv (parseUnset r t) toks SS := by
  intro pos Q h1
  unfold parseUnset
  sh
  refine Ret.loop (fun s => SEs s) rfl ?_
  intro s q hs
  sh <;> shp

macro_rules | `(tactic| sh_call) => `(tactic|
  with_reducible refine Gv.use (parseUnset_sh (by assumption)) ?_)

theorem parseForeach_sh {t : TokSpan} (hr : ShRec r toks) :
    Gv (parseForeach r t) toks SS := by
  intro pos Q h1
  unfold parseForeach
  sh <;> shp

macro_rules | `(tactic| sh_call) => `(tactic|
  with_reducible refine Gv.use (parseForeach_sh (by assumption)) ?_)

theorem parseFor_sh {t : TokSpan} (hr : ShRec r toks) :
    Gv (parseFor r t) toks SS := by
  intro pos Q h1
  unfold parseFor
  sh <;> shp

macro_rules | `(tactic| sh_call) => `(tactic|
  with_reducible refine Gv.use (parseFor_sh (by assumption)) ?_)

theorem parseCaseHead_sh (hr : ShRec r toks) :
    Gv (parseCaseHead r) toks (OptP SO) := by
  intro pos Q h1
  unfold parseCaseHead
  sh <;> shp

macro_rules | `(tactic| sh_call) => `(tactic|
  with_reducible refine Gv.opt (parseCaseHead_sh (by assumption)) ?_ ?_)

/-- Cases with statements, in front of other cases. -/
def fullCases (cs : List Case) : Prop := shCases cs = true ∧ ∀ c ∈ cs, ∀ es d b, c = .mk es d b → b.isEmpty = false

theorem fullCases.append {a b : List Case} (ha : fullCases a) (hb : shCases b = true) : shCases (a ++ b) = true := by
  induction a with
  | nil => exact hb
  | cons c a ih =>
    obtain ⟨es, d, bl⟩ := c
    have hbl : bl.isEmpty = false := ha.2 _ (List.mem_cons_self ..) _ _ _ rfl
    have h := ha.1
    simp only [shCases, hbl, Bool.and_eq_true, List.cons_append] at h ⊢
    exact ⟨h.1, ih ⟨h.2, fun c hc => ha.2 c (List.mem_cons_of_mem _ hc)⟩⟩

theorem fullCases.snoc {a : List Case} {es : List Expr} {d : Bool} {b : List Stmt} (ha : fullCases a) (hes : SEs es) (hb : SSs b)
    (hn : b.isEmpty = false) (hd : (d || !es.isEmpty) = true) : fullCases (a ++ [.mk es d b]) := by
  refine ⟨ha.append ?_, fun c hc es d b e => ?_⟩
  · simp only [shCases, hn]
    simp only [Bool.and_true, Bool.and_eq_true]
    exact ⟨⟨hes, hb⟩, hd⟩
  · rcases List.mem_append.1 hc with hc | hc
    · exact ha.2 c hc es d b e
    · cases List.mem_singleton.1 hc; cases e; exact hn

theorem shCases_map (l : List Expr) (h : SEs l) : shCases (l.map fun c => .mk [c] false []) = true := by
  induction l with
  | nil => rfl
  | cons x l ih =>
    have h' : shExpr .plain x = true ∧ shExprs .plain l = true := by simpa [SEs, shExprs] using h
    simp [shCases, shExprs, shStmts, h'.1, ih h'.2]

theorem switchLoop_sh (hr : ShRec r toks) :
    Gv (P.loop (switchStep r) ([], [])) toks (fun x => fullCases x.1 ∧ SEs x.2) := by
  intro pos Q h1
  refine Ret.loop (fun (s : List Case × List Expr) => fullCases s.1 ∧ SEs s.2) ⟨⟨rfl, nofun⟩, rfl⟩ ?_
  rintro s q ⟨hs1, hs2⟩
  unfold switchStep
  sh
  all_goals first
    | (refine ⟨hs1.snoc ?_ ?_ ?_ ?_, rfl⟩ <;> shp)
    | shp

macro_rules | `(tactic| sh_call) => `(tactic|
  with_reducible refine Gv.use (switchLoop_sh (by assumption)) ?_)

theorem parseSwitch_sh {t : TokSpan} (hr : ShRec r toks) : Gv (parseSwitch r t) toks SS := by
  intro pos Q h1
  unfold parseSwitch
  sh
  rename_i he _ _ _ _ h _
  simp only [SS, shStmt, shStmtK, Bool.and_eq_true]
  exact ⟨he, h.1.append (shCases_map _ h.2)⟩

macro_rules | `(tactic| sh_call) => `(tactic|
  with_reducible refine Gv.use (parseSwitch_sh (by assumption)) ?_)

theorem parseParenExpr_sh (hr : ShRec r toks) :
    Gv (parseParenExpr r) toks SE := by
  intro pos Q h1
  unfold parseParenExpr
  sh <;> shp

macro_rules | `(tactic| sh_call) => `(tactic|
  with_reducible refine Gv.use (parseParenExpr_sh (by assumption)) ?_)

theorem parseDo_sh {t : TokSpan} (hr : ShRec r toks) :
    Gv (parseDo r t) toks SS := by
  intro pos Q h1
  unfold parseDo
  sh <;> shp

macro_rules | `(tactic| sh_call) => `(tactic|
  with_reducible refine Gv.use (parseDo_sh (by assumption)) ?_)

theorem parseWhile_sh {t : TokSpan} (hr : ShRec r toks) :
    Gv (parseWhile r t) toks SS := by
  intro pos Q h1
  unfold parseWhile
  sh <;> shp

macro_rules | `(tactic| sh_call) => `(tactic|
  with_reducible refine Gv.use (parseWhile_sh (by assumption)) ?_)

theorem parseIfBranch_sh {st : Nat} (hr : ShRec r toks) :
    Gv (parseIfBranch r st) toks SS := by
  intro pos Q h1
  unfold parseIfBranch
  sh <;> shp

macro_rules | `(tactic| sh_call) => `(tactic|
  with_reducible refine Gv.use (parseIfBranch_sh (by assumption)) ?_)

theorem ifLoop_sh {s : Stmt} (hr : ShRec r toks) (hf : SS s) : Gv (P.loop (ifStep r) [s]) toks SSs := by
  intro pos Q h1
  refine Ret.loop (fun s => SSs s) (by shp) ?_
  intro s q hs
  unfold ifStep
  sh <;> shp

macro_rules | `(tactic| sh_call) => `(tactic|
  with_reducible refine Gv.use (ifLoop_sh (by assumption) (by assumption)) ?_)

theorem nestIf_sh {a b s : Stmt} (ha : SS a) (hb : SS b) (h : nestIf a b = some s) : SS s := by
  unfold nestIf at h
  split at h
  · cases h; simp_all [SS, shStmt, shStmtK]
  · cases h; simp_all [SS, shStmt, shStmtK, shStmts]
  · cases h

theorem nestIfs_sh {l : List Stmt} : ∀ {a s : Stmt}, SS a → SSs l → nestIfs a l = some s → SS s := by
  induction l with
  | nil => intro a s ha _ h; cases h; exact ha
  | cons x l ih =>
    intro a s ha hl h
    have hl' : shStmt x = true ∧ shStmts l = true := by simpa [SSs, shStmts] using hl
    unfold nestIfs at h
    cases hn : nestIf a x with
    | none => rw [hn] at h; cases h
    | some b => rw [hn] at h; exact ih (nestIf_sh ha hl'.1 hn) hl'.2 h

theorem SSs_reverse (l : List Stmt) (h : SSs l) : SSs l.reverse := by
  induction l with
  | nil => rfl
  | cons x l ih =>
    have h' : shStmt x = true ∧ shStmts l = true := by simpa [SSs, shStmts] using h
    simpa [SSs, shStmts_append, shStmts, h'.1] using ih h'.2

theorem parseIf_sh {t : TokSpan} (hr : ShRec r toks) :
    Gv (parseIf r t) toks SS := by
  intro pos Q h1
  unfold parseIf
  sh
  rename_i hl _ _ _ hr _ _ hn
  have := SSs_reverse _ hl
  rw [hr] at this
  rw [SSs, shStmts, Bool.and_eq_true] at this
  exact nestIfs_sh this.1 this.2 hn

macro_rules | `(tactic| sh_call) => `(tactic|
  with_reducible refine Gv.use (parseIf_sh (by assumption)) ?_)

theorem parseBlock_sh {t : TokSpan} (hr : ShRec r toks) :
    Gv (parseBlock r t) toks SS := by
  intro pos Q h1
  unfold parseBlock
  sh <;> shp

macro_rules | `(tactic| sh_call) => `(tactic|
  with_reducible refine Gv.use (parseBlock_sh (by assumption)) ?_)

theorem simpleStmt_sh {t : TokSpan} {m : P StmtK} (hr : ShRec r toks) 
    (hm : simpleStmt r t = some m) : Gv m toks (fun k => shStmtK k = true) := by
  intro pos Q h1
  unfold simpleStmt at hm
  split at hm <;> cases hm
  all_goals sh <;> shp

macro_rules | `(tactic| sh_call) => `(tactic|
  with_reducible refine Gv.use (simpleStmt_sh (by assumption) (by assumption)) ?_)

theorem parseExprStmt_sh {st : Option PErr} (hr : ShRec r toks) :
    Gv (parseExprStmt r st) toks SS := by
  intro pos Q h1
  unfold parseExprStmt
  sh <;> shp

macro_rules | `(tactic| sh_call) => `(tactic|
  with_reducible refine Gv.use (parseExprStmt_sh (by assumption)) ?_)

theorem parseOtherStmt_sh {st : Option PErr} (hr : ShRec r toks) :
    Gv (parseOtherStmt r st) toks SS := by
  intro pos Q h1
  unfold parseOtherStmt
  sh <;> shp

macro_rules | `(tactic| sh_call) => `(tactic|
  with_reducible refine Gv.use (parseOtherStmt_sh (by assumption)) ?_)

theorem tryDecl_sh {m : P Stmt} (hm : Gv m toks SS) (hr : ShRec r toks) : Gv (tryDecl r m) toks SS := by
  intro pos Q h1
  unfold tryDecl
  sh
  · refine Gv.use hm ?_
    sh <;> shp
  · shp

theorem parseStatement_sh (hr : ShRec r toks) : Gv (parseStatement r) toks SS := by
  intro pos Q h1
  unfold parseStatement
  sh
  all_goals try shp
  · exact tryDecl_sh (parseStaticVarDecl_sh hr) hr _ _ h1
  · exact tryDecl_sh parseGlobalVarDecl_sh hr _ _ h1
  · refine tryDecl_sh ?_ hr _ _ h1
    intro pos Q h1
    sh <;> shp

macro_rules | `(tactic| sh_call) => `(tactic|
  with_reducible refine Gv.use (parseStatement_sh (by assumption)) ?_)

theorem parseTopUse_sh {t : TokSpan} : Gv (parseTopUse t) toks (fun s => shTop s = true) := by
  intro pos Q h1
  unfold parseTopUse
  sh
  refine Ret.loop (fun _ => True) trivial ?_
  intro s q hs
  sh <;> simp [shTop]

theorem SS.top {s : Stmt} (h : SS s) : shTop s = true := by
  unfold shTop
  split
  · cases h
  · cases h
  · exact h

theorem namespaceName_rel : Gv parseNamespaceName toks (fun x => x.1.isAbsolute = false) := by
  intro pos Q h1
  unfold parseNamespaceName
  sh <;> rfl

theorem parseTopStatement_sh (hr : ShRec r toks) : Gv (parseTopStatement r) toks (fun s => shTop s = true) := by
  intro pos Q h1
  unfold parseTopStatement
  refine Ret.bind (Ret.eat (fun t => ?_) ?_)
  · refine Ret.bind (Gv.use namespaceName_rel ?_)
    sh
    simp_all [shTop]
  · sh
    · exact parseTopUse_sh _ _ h1
    · exact SS.top (by assumption)

theorem parseTopStatementList_sh (hr : ShRec r toks) : Gv (parseTopStatementList r) toks (fun ss => shTops ss = true) := by
  intro pos Q h1
  unfold parseTopStatementList
  sh
  refine Ret.loop (fun ss => shTops ss = true) rfl ?_
  intro s q hs
  refine Ret.bind (Ret.getPos ?_)
  refine Ret.ite (fun _ => ?_) (fun _ => ?_)
  · refine Ret.bind (Gv.use (parseTopStatement_sh hr) ?_)
    intro a p ha
    refine Ret.pure ?_
    simp_all [shTops]
  · exact Ret.pure (h1 _ _ hs)

theorem recN_sh (hi : ∀ t ∈ toks, ∀ v : Nat, t.tok = .int v → v < 2 ^ 63) : ∀ n, ShRec (recN n) toks
  | 0 => ⟨fun _ _ _ _ => ⟨fun _ _ e => by cases e⟩, fun _ _ _ => ⟨fun _ _ e => by cases e⟩, hi⟩
  | n + 1 => ⟨fun _ => parseExpression_sh (recN_sh hi n), parseStatement_sh (recN_sh hi n), hi⟩

end Pico
