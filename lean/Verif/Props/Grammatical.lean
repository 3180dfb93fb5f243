import Verif.Props.Sound
import Verif.Lemmas.RtAll
/-!
# Every program of the grammar is accepted, with its meaning (C51)

`Derives` (Spec/Grammar.lean) is the grammar without the relaxations of C49. The empty program is left out: for a source of
tags and comments only `parse_str` panics (`C07_sources`).
-/
namespace Pico

/-- **C51** for tokens: a non-empty program of the grammar is accepted by `parse_tokens`, and the tree is its meaning. -/
theorem C51_tokens (m : LineMap) (toks : List TokSpan) (ss : List Stmt) (hP : Sourced toks) (hne : visible toks ≠ [])
    (h : Derives .tops (visible toks) ss) :
    ∃ ss', eraseStmts ss' = ss ∧ ∀ n, 6 * toks.length + 2 ≤ n → parseTokensN n m toks = .ok ss' :=
  program_parses m toks ss hP hne h

/-- **C51** for sources: if the tokens of a source form a non-empty program of the grammar, `parse_str` comes to an end, and
the only result it can have is success with the tree the grammar gives the tokens. -/
theorem C51_source (src : Text) (n : Nat) (toks : List TokSpan) (ss : List Stmt) (hl : spansOf n src = some toks)
    (hne : visible toks ≠ []) (h : Derives .tops (visible toks) ss) :
    (∃ r, Ends src r) ∧ ∀ r, Ends src r → ∃ ss', r = .ok ss' ∧ eraseStmts ss' = ss := by
  obtain ⟨ss', h1, h2⟩ := source_parses src n toks ss hl hne h
  refine ⟨⟨_, h2⟩, fun r hr => ⟨ss', ?_, h1⟩⟩
  exact (h2.unique hr).symm

/-- The other way round: the tokens of a source that is rejected, or makes the parser panic, form no program. -/
theorem C51_rejected (src : Text) (r : Outcome SpannedErr (List Stmt)) (hr : Ends src r) (hno : ∀ ss, r ≠ .ok ss) (n : Nat)
    (toks : List TokSpan) (hl : spansOf n src = some toks) (hne : visible toks ≠ []) (ss : List Stmt) :
    ¬ Derives .tops (visible toks) ss := by
  intro h
  obtain ⟨ss', h1, -⟩ := (C51_source src n toks ss hl hne h).2 r hr
  exact hno _ h1

/-- The grammar is unambiguous: a sequence of tokens has one meaning at most. -/
theorem C51_unambiguous (ts : List Token) (ss ss' : List Stmt) (h : Derives .tops ts ss) (h' : Derives .tops ts ss') :
    ss = ss' := by
  by_cases hne : ts = []
  · subst hne
    have hn : ∀ {ss}, Derives .tops [] ss → ss = [] := fun h => Classical.byContradiction fun hs => tops_nonempty h hs rfl
    rw [hn h, hn h']
  · exact grammar_unambiguous ts hne ss ss' h h'

/-- Expressions have one meaning at most, too: the precedence levels leave no choice. -/
theorem C51_unambiguous_expr (ts : List Token) (p s p' s' : Nat) (e e' : Expr) (h : Derives (.expr p s) ts e)
    (h' : Derives (.expr p' s') ts e') : e = e' := by
  have hr : ∀ {p s e}, Derives (.expr p s) ts e →
      Derives .tops (.k .Return :: (ts ++ [.k .SemiColon])) [bareS (.ret (some e))] := by
    intro p s e h
    have := DerivesX.tops_cons (.t_stmt (.s_return (.o_some (weaken_level h (Nat.zero_le _))))) .tops_nil
    simpa using this
  have := C51_unambiguous _ _ _ (hr h) (hr h')
  simpa using this

/-! ## Examples -/

private def twoPlus : List Token := [.k .Echo, .int 2, .k .Plus, .int 3, .k .Mul, .int 4, .k .SemiColon]

private theorem twoPlus_derives : Derives .tops twoPlus
    [bareS (.echo [bare (.binary .Add (bare (.int 2)) (bare (.binary .Mul (bare (.int 3)) (bare (.int 4)))))])] := by
  have h1 : Derives (.expr 13 14) [.int 3, .k .Mul, .int 4] _ :=
    .e_left (lv := 14) (kw := .Mul) (ts := [.int 3]) (us := [.int 4]) rfl rfl (by decide) (.e_int 3) (by decide) (.e_int 4)
  have h2 : Derives (.expr 0 13) [.int 2, .k .Plus, .int 3, .k .Mul, .int 4] _ :=
    .e_left (lv := 13) (kw := .Plus) (ts := [.int 2]) (us := [.int 3, .k .Mul, .int 4]) rfl rfl (by decide) (.e_int 2) (by decide) h1
  exact .tops_cons (us := []) (.t_stmt (.s_echo (.exprs_one h2))) .tops_nil

/-- The hypotheses of `C51_source` hold for a source with tags, a comment and line ends. -/
example : ∃ toks, spansOf 60 c!"<?php /* sum */\necho 2 + 3\n * 4; ?>" = some toks ∧ visible toks = twoPlus := by
  have h : ((spansOf 60 c!"<?php /* sum */\necho 2 + 3\n * 4; ?>").map visible == some twoPlus) = true := by decide +kernel
  cases e : spansOf 60 c!"<?php /* sum */\necho 2 + 3\n * 4; ?>" with
  | none => rw [e] at h; cases h
  | some toks =>
    rw [e] at h
    exact ⟨toks, rfl, by simpa using h⟩

/-- The hypotheses of `C51_rejected` hold for an unfinished assignment. -/
example : ∃ e n toks, Ends c!"<?php $a = ;" (.err e) ∧ spansOf n c!"<?php $a = ;" = some toks ∧ visible toks ≠ [] := by
  have h : (match parseStrN 60 c!"<?php $a = ;" with
      | .err _ => true
      | _ => false) = true := by decide +kernel
  have h2 : ((spansOf 60 c!"<?php $a = ;").map visible == some [.variable c!"a", .k .Equal, .k .SemiColon]) = true := by decide +kernel
  split at h
  · rename_i e he
    cases e2 : spansOf 60 c!"<?php $a = ;" with
    | none => rw [e2] at h2; cases h2
    | some toks =>
      rw [e2] at h2
      refine ⟨e, 60, toks, Ends.of 60 he (by simp), e2, ?_⟩
      have : visible toks = [.variable c!"a", .k .Equal, .k .SemiColon] := by simpa using h2
      rw [this]
      simp
  · cases h

end Pico
