import Verif.Props.Shape
import Verif.Props.Rewrite
import Verif.Lemmas.Clean
/-!
# Which accepted sources are read back after they are rewritten (C20, C21, C37)
-/
namespace Pico

/-- **C21** for accepted sources: whatever a source contains, if its tree has none of the constructs `clTops` lists,
the rewritten file is parsed to the same tree. Each of these constructs is excluded for a reason, see `C21_quirks`. -/
theorem C21_accepted_partial (dbl : Text → Text) (src : Text) (ss : List Stmt) (h : Ends src (.ok ss)) (hne : ss ≠ [])
    (hc : clTops dbl ss = true) :
    ∃ out, rewriteFile dbl ss = some out ∧ ∃ ss', Ends out (.ok ss') ∧ eraseStmts ss' = eraseStmts ss :=
  C21_round_trip_partial dbl ss hne (rt_of_tops ss (C48_source src ss h) hc)

/-- **C20** for accepted sources: the printed form of an expression that a source returns is parsed to the same expression,
if it has none of the constructs `clExpr` lists. -/
theorem C20_accepted_partial (dbl : Text → Text) (src : Text) (e : Expr) (sp : Span) (h : Ends src (.ok [.mk (.ret (some e)) sp]))
    (hc : clExpr dbl e = true) :
    ∃ out, printExprToString dbl e = some out ∧
      ∃ e' sp', Ends (c!"<?php\nreturn " ++ out ++ c!";\n?>") (.ok [.mk (.ret (some e')) sp']) ∧ e'.erase = e.erase := by
  have hs := C48_source src _ h
  have : shExpr .plain e = true := by
    simp only [shTops, List.all_cons, List.all_nil, Bool.and_true] at hs
    unfold shTop at hs
    simpa [shStmt, shStmtK, shOpt] using hs
  exact C20_round_trip_partial dbl e (rt_of_expr .plain e this hc)

example : ∃ e sp, Ends c!"<?php return $a ? [-1, b($c[0])] : \"x$d\";" (.ok [.mk (.ret (some e)) sp]) ∧ clExpr id e = true := by
  have h : (match parseStrN 60 c!"<?php return $a ? [-1, b($c[0])] : \"x$d\";" with
      | .ok [.mk (.ret (some e)) _] => clExpr id e
      | _ => false) = true := by decide +kernel
  split at h
  · rename_i e sp he
    exact ⟨e, sp, Ends.of 60 he (by simp), h⟩
  · cases h

/-- **C37** for accepted sources. -/
theorem C37_accepted_partial (dbl : Text → Text) (src : Text) (ss : List Stmt) (h : Ends src (.ok ss)) (hne : ss ≠ [])
    (hc : clTops dbl ss = true) : ∃ out, Rewrites dbl src out ∧ Rewrites dbl out out :=
  C37_idempotent_partial dbl src ss h hne (rt_of_tops ss (C48_source src ss h) hc)

/-- Sources with the constructs `clTops` excludes. -/
def quirks : List Text := [
  c!"<?php (clone $a) + $b;",
  c!"<?php (include 'a') . $b;",
  c!"<?php (yield $a) + $b;",
  c!"<?php (clone $a)->b;",
  c!"<?php (clone $a) instanceof B;",
  c!"<?php (clone $a) ? 1 : 2;",
  c!"<?php !($a instanceof B);",
  c!"<?php (A)[0];",
  c!"<?php (1)[0];",
  c!"<?php (true)->a;",
  c!"<?php (isset($a))[0];",
  c!"<?php ((string)$a)[0];",
  c!"<?php (A::B)::$c;",
  c!"<?php ($a+$b)();",
  c!"<?php (-$a)();",
  c!"<?php ($a++)();",
  c!"<?php ($a ? 1 : 2)();",
  c!"<?php ($a = 1)();",
  c!"<?php (new A)();",
  c!"<?php (function(){})();",
  c!"<?php (true)();",
  c!"<?php (1)();",
  c!"<?php (isset($a))();",
  c!"<?php ((string)$a)();",
  c!"<?php new $a->b['c'];",
  c!"<?php $a instanceof $b->c[0];",
  c!"<?php $a->{'b'};",
  c!"<?php $a->{1};",
  c!"<?php $a->{[1]};",
  c!"<?php exit;",
  c!"<?php __line__;",
  c!"<?php '\\\\\\\\';",
  c!"<?php \"${'a'}\";",
  c!"<?php 1 . 2;",
  c!"<?php 1 . $a;",
  c!"<?php $a . 1;",
  c!"<?php $a &= $b;",
  c!"<?php (1) = 2;",
  c!"<?php ($a + 1) = 2;",
  c!"<?php global $a;",
  c!"<?php use A, B;"]

/-- A number for the outermost construct of an expression. -/
def Expr.rootTag : Expr → Nat
  | .mk (.binary _ _ _) _ => 1
  | .mk (.call _ _) _ => 2
  | .mk (.unary _ _) _ => 3
  | .mk (.instanceOf _ _) _ => 4
  | .mk (.objMember _ _) _ => 5
  | .mk (.ternary _ _ _) _ => 6
  | .mk (.const _) _ => 7
  | .mk (.arrayIdx _ _) _ => 8
  | _ => 0

/-- A number for the outermost construct of a statement, if it is an expression, and for the function if that is a call. -/
def Stmt.rootTags : Stmt → Nat × Nat
  | .mk (.expr e) _ => (e.rootTag, match e with
    | .mk (.call f _) _ => f.rootTag
    | _ => 0)
  | _ => (0, 0)

/-- The source is accepted, its tree is not empty, and its rewriting cannot be printed, is not accepted, or has another tree. -/
def misread (src : Text) : Bool :=
  match parseStrN 60 src with
  | .ok ss => !ss.isEmpty && match rewriteFile id ss with
    | some out => match parseStrN 60 out with
      | .ok ss' => (eraseStmts ss').map Stmt.rootTags != (eraseStmts ss).map Stmt.rootTags
      | .oof => false
      | _ => true
    | none => true
  | _ => false

theorem misread_sound {src : Text} (h : misread src = true) : ∃ ss, Ends src (.ok ss) ∧ ss ≠ [] ∧
    ¬ ∃ out, rewriteFile id ss = some out ∧ ∃ ss', Ends out (.ok ss') ∧ eraseStmts ss' = eraseStmts ss := by
  unfold misread at h
  split at h
  · rename_i ss he
    rw [Bool.and_eq_true] at h
    obtain ⟨h0, h⟩ := h
    refine ⟨ss, Ends.of 60 he (by simp), ?_, ?_⟩
    · rintro rfl
      cases h0
    · rintro ⟨out, h1, ss', h2, h3⟩
      rw [h1] at h
      dsimp only at h
      split at h
      · rename_i ss'' he'
        have := Ends.unique h2 (Ends.of 60 he' (by simp))
        cases this
        rw [h3] at h
        simp at h
      · cases h
      · rename_i hn1 hn2
        have := Ends.unique h2 (Ends.of 60 rfl hn2)
        exact hn1 _ this.symm
  · cases h

/-- **C21** fails for each of the constructs `clTops` excludes (`quirks` has a source for each). -/
theorem C21_quirks : ∀ src ∈ quirks, ∃ ss, Ends src (.ok ss) ∧ ss ≠ [] ∧
    ¬ ∃ out, rewriteFile id ss = some out ∧ ∃ ss', Ends out (.ok ss') ∧ eraseStmts ss' = eraseStmts ss := by
  have h : quirks.all misread = true := by decide +kernel
  exact fun src hs => misread_sound (List.all_eq_true.1 h src hs)

/-- A source that satisfies the hypotheses of `C21_accepted_partial` and `C37_accepted_partial`. -/
example : ∃ ss, Ends c!"<?php foreach (f(...$a) as $k => &$v) { $b[$k]->c = \"x$v\" . A::D; } class E extends F { static $g = [1, 2.5]; }"
    (.ok ss) ∧ ss ≠ [] ∧ clTops id ss = true := by
  have h : (match parseStrN 60 c!"<?php foreach (f(...$a) as $k => &$v) { $b[$k]->c = \"x$v\" . A::D; } class E extends F { static $g = [1, 2.5]; }" with
      | .ok ss => !ss.isEmpty && clTops id ss
      | _ => false) = true := by decide +kernel
  split at h
  · rename_i ss he
    rw [Bool.and_eq_true] at h
    exact ⟨ss, Ends.of 60 he (by simp), fun e => (by rw [e] at h; cases h.1), h.2⟩
  · cases h

end Pico
