import Verif.Lemmas.PrinterErase
import Verif.Lemmas.ScriptCheck
import Verif.Props.RoundTrip
import Verif.Props.Agree
/-!
# C36, C37: rewriting files

C36: the printer does not look at source positions. C37: rewriting a rewritten file changes nothing.
-/
namespace Pico

/-- **C36**: printing trees that are the same up to source positions does the same writes, with the same result, for
every target. -/
theorem C36_positions {σ : Type} (tg : Target σ) (target : σ) (ss ss' : List Stmt) (h : eraseStmts ss = eraseStmts ss') :
    printStatements tg target ss = printStatements tg target ss' := by
  unfold printStatements
  rw [← print_erase_stmts tg ss, ← print_erase_stmts tg ss', h]

/-- **C36** for the rewritten file. -/
theorem C36_rewrite (dbl : Text → Text) (ss ss' : List Stmt) (h : eraseStmts ss = eraseStmts ss') :
    rewriteFile dbl ss = rewriteFile dbl ss' := by
  unfold rewriteFile printToString
  rw [C36_positions _ _ ss ss' h]

/-- Two different trees that satisfy the hypothesis. -/
example : ∃ ss ss' : List Stmt, ss ≠ ss' ∧ eraseStmts ss = eraseStmts ss' ∧ rewriteFile id ss = some c!"<?php\nreturn;\n\n?>" :=
  ⟨[.mk (.ret none) ⟨0, 7, none⟩], [.mk (.ret none) ⟨3, 10, none⟩], nofun, rfl, rfl⟩

/-- The text that rewriting a source gives. -/
def Rewrites (dbl : Text → Text) (src out : Text) : Prop := ∃ ss, Ends src (.ok ss) ∧ rewriteFile dbl ss = some out

/-- **C37** (partial): if a source is rewritten to `out`, then `out` is rewritten to itself. Missing: the trees `rtTops`
excludes, for some of which the claim is false (`C37_fails`). -/
theorem C37_idempotent_partial (dbl : Text → Text) (src : Text) (ss : List Stmt) (h : Ends src (.ok ss)) (hne : ss ≠ [])
    (hrt : rtTops dbl ss = true) : ∃ out, Rewrites dbl src out ∧ Rewrites dbl out out := by
  obtain ⟨out, h1, ss', h2, h3⟩ := C21_round_trip_partial dbl ss hne hrt
  exact ⟨out, ⟨ss, h, h1⟩, ss', h2, (C36_rewrite dbl ss' ss h3).trans h1⟩

/-- **C37** fails in general: the parentheses in `(include 'a') . $b . $c` are moved by rewriting it, and removed by
rewriting the result. -/
theorem C37_fails (dbl : Text → Text) : ∃ src out out', Rewrites dbl src out ∧ Rewrites dbl out out' ∧ out' ≠ out := by
  have h : (match parseStrN 60 c!"<?php (include 'a') . $b . $c;" with
      | .ok [.mk (.expr (.mk (.binary .Concat (.mk (.binary .Concat (.mk (.include .Include (.mk (.str s) _)) _)
          (.mk (.var (.name b)) _)) _) (.mk (.var (.name c)) _)) _)) _] => s == c!"a" && b == c!"b" && c == c!"c"
      | _ => false) = true := by decide +kernel
  have h' : (match parseStrN 60 c!"<?php\n(include 'a'.$b).$c;\n\n?>" with
      | .ok [.mk (.expr (.mk (.binary .Concat (.mk (.include .Include (.mk (.binary .Concat (.mk (.str s) _)
          (.mk (.var (.name b)) _)) _)) _) (.mk (.var (.name c)) _)) _)) _] => s == c!"a" && b == c!"b" && c == c!"c"
      | _ => false) = true := by decide +kernel
  split at h
  · rename_i he
    split at h'
    · rename_i he'
      simp only [Bool.and_eq_true, beq_iff_eq] at h h'
      obtain ⟨⟨rfl, rfl⟩, rfl⟩ := h
      obtain ⟨⟨rfl, rfl⟩, rfl⟩ := h'
      exact ⟨_, c!"<?php\n(include 'a'.$b).$c;\n\n?>", c!"<?php\ninclude 'a'.$b.$c;\n\n?>",
        ⟨_, Ends.of 60 he (by simp), rfl⟩, ⟨_, Ends.of 60 he' (by simp), rfl⟩, by decide⟩
    · cases h'
  · cases h

/-- **C37** and C38 together: layout, comments and spellings of a script do not matter for what it is rewritten to. -/
theorem C37_layout_partial (dbl : Text → Text) (is js : List Item) (closed closed' : Bool) (h : Script is closed)
    (h' : Script js closed') (hc : codeToks is = codeToks js) (out : Text) :
    Rewrites dbl (scriptText is closed) out ↔ Rewrites dbl (scriptText js closed') out := by
  have key : ∀ {is js : List Item} {closed closed' : Bool}, Script is closed → Script js closed' → codeToks is = codeToks js →
      Rewrites dbl (scriptText is closed) out → Rewrites dbl (scriptText js closed') out := by
    rintro is js closed closed' h h' hc ⟨ss, hs, ho⟩
    obtain ⟨r, h1, h2⟩ := C38_script_partial is js closed closed' h h' hc _ hs
    cases h2 with
    | ok he => exact ⟨_, h1, (C36_rewrite dbl _ _ he).symm.trans ho⟩
  exact ⟨key h h' hc, key h' h hc.symm⟩

/-- A source that satisfies the hypotheses of `C37_idempotent_partial`. -/
example : ∃ ss, Ends c!"<?php if ($a) { $b = f($c, 'x') . $d; } // done" (.ok ss) ∧ ss ≠ [] ∧ rtTops id ss = true := by
  have h : (match parseStrN 60 c!"<?php if ($a) { $b = f($c, 'x') . $d; } // done" with
      | .ok ss => !ss.isEmpty && rtTops id ss
      | _ => false) = true := by decide +kernel
  split at h
  · rename_i ss he
    rw [Bool.and_eq_true] at h
    exact ⟨ss, Ends.of 60 he (by simp), fun e => (by rw [e] at h; cases h.1), h.2⟩
  · cases h

/-- Scripts that satisfy the hypotheses of `C37_layout_partial`. -/
example (dbl : Text → Text) (out : Text) :
    Rewrites dbl c!"<?php $a = 1;" out ↔ Rewrites dbl c!"<?php\n\n $a\n\n =\n\n 1;" out :=
  C37_layout_partial dbl _ _ false false example_script (example_respaced.script example_script) (by decide) out

end Pico
