import Verif.Lemmas.ShapeStmt
import Verif.Props.Ranges
import Verif.Spec.Outcome
/-!
# What trees the parser returns (C48)
-/
namespace Pico

theorem strip_int {toks : List TokSpan} {t : TokSpan} (h : t ∈ stripTokens toks) {v : Nat} (hv : t.tok = .int v) : t ∈ toks := by
  induction toks with
  | nil => cases h
  | cons x xs ih =>
    unfold stripTokens at h
    rcases List.mem_append.1 h with h | h
    · unfold stripToken at h
      split at h
      · cases h
      · cases h
      · cases h
      · simp only [List.mem_cons, List.not_mem_nil, or_false] at h
        rcases h with rfl | rfl | rfl <;> cases hv
      · simp only [List.mem_cons, List.not_mem_nil, or_false] at h
        subst h; cases hv
      · simp only [List.mem_cons, List.not_mem_nil, or_false] at h
        subst h; exact List.mem_cons_self
    · exact List.mem_cons_of_mem _ (ih h)

/-- **C48** for tokens: whatever the tokens, well-formed or not, the statements that are returned are well-formed. -/
theorem C48_tokens (m : LineMap) (n : Nat) (toks : List TokSpan) (ss : List Stmt)
    (hi : ∀ t ∈ toks, ∀ v : Nat, t.tok = .int v → v < 2 ^ 63) (h : parseTokensN n m toks = .ok ss) : shTops ss = true := by
  unfold parseTokensN at h
  dsimp only at h
  have hy := parseTopStatementList_sh (recN_sh (toks := stripTokens toks) (fun t ht v hv => hi t (strip_int ht hv) v hv) n) 0
    (fun ss _ => shTops ss = true) (fun _ _ h => h)
  split at h
  · rename_i ss' q e
    cases h
    exact hy.run _ _ e
  · cases h
  · cases h
  · exfalso
    split at h
    · split at h
      · unfold spannedErr at h
        split at h
        · cases h
        · split at h <;> cases h
      · cases h
    · split at h
      · unfold spannedErr at h
        split at h
        · cases h
        · split at h <;> cases h
      · cases h

theorem numAt_lt {src : Text} {x : TokSpan} (h : NumAt src x) {v : Nat} (hv : x.tok = .int v) : v < 2 ^ 63 := by
  cases h with
  | dec he hw hv' hp hq =>
    cases hv
    rcases hv' with h | h
    · exact i64_lt (fromStrRadix_inv h.2).2.2.2
    · exact i64_lt (fromStrRadix_inv h.2).2.2.2
  | pref he ho hv' hp hq =>
    cases hv
    exact i64_lt (fromStrRadix_inv hv').2.2.2
  | dbl => cases hv

/-- **C48**: the tree of every accepted source is well-formed. -/
theorem C48_source (src : Text) (ss : List Stmt) (h : Ends src (.ok ss)) : shTops ss = true := by
  obtain ⟨n, h, -⟩ := h
  have hs := lexAll_scanned (fuel := n) (n := n) (Scanned.start (src := src))
  unfold parseStrN at h
  revert h hs
  generalize lexAll n n (Tz.new src) [] = x
  intro h hs
  cases x with
  | ok y =>
    obtain ⟨toks, t⟩ := y
    obtain ⟨x, -, -, t0, h1⟩ := hs
    exact C48_tokens _ _ _ _ (fun x hx v hv => numAt_lt (((scanned_inv h1).tp x hx).numbered (by rw [hv]; rfl)) hv) h
  | err x =>
    exfalso
    dsimp only at h
    split at h
    · cases h
    · unfold spannedErr at h
      split at h
      · cases h
      · split at h <;> cases h
  | panic p => cases h
  | oof => cases h

/-- A source that is accepted; its tree has most of what `shTops` speaks of. -/
example : ∃ ss, Ends c!"<?php list($a, $b) = f(...$c); foreach ($d as &$e) switch ($e[0][1]->g) { case 1: case 2: default: h(); }"
    (.ok ss) ∧ ss ≠ [] := by
  have h : (match parseStrN 60 c!"<?php list($a, $b) = f(...$c); foreach ($d as &$e) switch ($e[0][1]->g) { case 1: case 2: default: h(); }" with
      | .ok ss => !ss.isEmpty
      | _ => false) = true := by decide +kernel
  split at h
  · rename_i ss he
    refine ⟨ss, ⟨60, he, by simp⟩, ?_⟩
    rintro rfl
    cases h
  · cases h

/-- The tokens `isset ( )` satisfy the hypotheses on integers of `C48_tokens`, but no tree is returned for them. -/
example (sp : Span) : shTops [.mk (.expr (.mk (.isset []) sp)) sp] = false := rfl

/-- A spread that is not an argument. -/
example (sp : Span) (e : Expr) : shTops [.mk (.expr (.mk (.unpack e) sp)) sp] = false := rfl

/-- Indices that are not collected: `($a[1])[2]` is the same as `$a[1][2]`. -/
example (sp : Span) (e : Expr) (i j : Option Expr) : shTops [.mk (.expr (.mk (.arrayIdx (.mk (.arrayIdx e [i]) sp) [j]) sp)) sp] = false := by
  simp [shTops, shTop, shStmt, shStmtK, shExpr, shExprK, Expr.isArrayIdx]

/-- A function that is not a method and has no body. -/
example (sp : Span) (n : Text) : shTops [.mk (.decl (.globalFunction n (.mk [] none [] false))) sp] = false := rfl

end Pico
