import Verif.Props.Scan
import Verif.Props.Violations
/-!
# What errors of the tokenizer point at (C45)
-/
namespace Pico

theorem lexAll_culprit {src : Text} {fuel : Nat} (n : Nat) (t : Tz) (acc : List TokSpan) (hi : Inv t) (ha : Awake t.st)
    (hc : t.code = src) {e : SyntaxErr} {t' : Tz} (h : lexAll fuel n t acc = .err (e, t')) : Culprit src e := by
  induction n generalizing t acc with
  | zero => cases h
  | succ n ih =>
    unfold lexAll at h
    cases hx : nextToken fuel t with
    | ok x u =>
      rw [hx] at h
      dsimp only at h
      have hp := next_ok hi hx
      by_cases he : x.tok = .k .End
      · rw [if_pos he] at h; cases h
      · rw [if_neg he] at h
        exact ih u _ hp.inv ((hp.wake ha).resolve_left he) (hp.code.trans hc) h
    | err e' u =>
      rw [hx] at h
      dsimp only at h
      cases h
      have hp := next_err hi hx
      rw [← hc]
      exact hp.blame fun h0 => hp.idle h0 ha
    | panic p => rw [hx] at h; cases h
    | oof => rw [hx] at h; cases h

/-- **C45** for the tokenizer: an error has a range, and the range is that of a character that begins no token or of
something that has been opened and not been closed (what exactly is said in `Verif/Spec/Errors.lean`). -/
theorem C45_tokenizer_partial (src : Text) (n m : Nat) (e : SyntaxErr) (t : Tz)
    (h : lexAll n m (Tz.new src) [] = .err (e, t)) : Culprit src e ∧ e.span ≠ none := by
  have hc : Culprit src e := lexAll_culprit m (Tz.new src) [] (inv_new src) (by
    intro x hx
    have : x = .initial := by simpa [Tz.new] using hx
    subst this
    exact ⟨nofun, nofun⟩) rfl h
  refine ⟨hc, ?_⟩
  cases hc <;> nofun

/-- **C45** for `parse_str`: it hands the error of the tokenizer on with its range. -/
theorem C45_error_partial (src : Text) (e : SpannedErr) (se : SyntaxErr) (h : Ends src (.err e)) (hs : e.syntaxErr = some se) :
    Culprit src se ∧ ∃ sp, se.span = some sp ∧ e.start = sp.start ∧ e.stop = sp.stop := by
  obtain ⟨n, h, -⟩ := h
  have hsp : ∀ m a b pe s, spannedErr m a b pe s = .err e → s = e.syntaxErr ∧ e.start = a ∧ e.stop = b := by
    intro m a b pe s h
    unfold spannedErr at h
    split at h
    · cases h
    · split at h
      · cases h
      · cases h; exact ⟨rfl, rfl, rfl⟩
  unfold parseStrN at h
  split at h
  · -- an error of the parser is none of the tokenizer
    exfalso
    unfold parseTokensN at h
    dsimp only at h
    split at h
    · cases h
    · cases h
    · cases h
    · split at h
      · split at h
        · have := (hsp _ _ _ _ _ h).1; rw [hs] at this; cases this
        · cases h
      · split at h
        · have := (hsp _ _ _ _ _ h).1; rw [hs] at this; cases this
        · cases h
  · rename_i e' t hl
    have := C45_tokenizer_partial src n n e' t hl
    split at h
    · cases h
    · rename_i sp hsp'
      obtain ⟨h1, h2, h3⟩ := hsp _ _ _ _ _ h
      rw [hs] at h1
      cases h1
      exact ⟨this.1, sp, hsp', h2, h3⟩
  · cases h
  · cases h

/-- An error that does not come from the tokenizer comes from the parser: the source could be tokenized. -/
theorem C45_parser (src : Text) (e : SpannedErr) (h : Ends src (.err e)) (hs : e.syntaxErr = none) :
    ∃ n toks, spansOf n src = some toks := by
  obtain ⟨n, h, -⟩ := h
  unfold parseStrN at h
  split at h
  · rename_i toks t hl
    exact ⟨n, toks, by unfold spansOf; rw [hl]⟩
  · split at h
    · cases h
    · unfold spannedErr at h
      split at h
      · cases h
      · split at h
        · cases h
        · cases h; cases hs
  · cases h
  · cases h

/-- **C45** fails for comments: the range of the error is empty, and formatting the message aborts, whatever the source. -/
theorem C45_comment (src : Text) (e : SpannedErr) (sp : Span) (h : Ends src (.err e))
    (hs : e.syntaxErr = some (.unterminated "comment" sp)) (dbg : List Token → Text) :
    e.start = e.stop ∧ e.errorMessage dbg (some src) = none := by
  obtain ⟨hc, sp', h1, h2, h3⟩ := C45_error_partial src e _ h hs
  cases h1
  have heq : e.start = e.stop := by
    rw [h2, h3]
    cases hc with
    | unfinished hu =>
      have key : ∀ w sp, Unfinished src w sp → w = "comment" → sp.start = sp.stop := by
        intro w sp h hw
        cases h <;> first | rfl | exact absurd hw (by decide)
      exact key _ _ hu rfl
  refine ⟨heq, ?_⟩
  unfold SpannedErr.errorMessage
  dsimp only
  split
  · rfl
  · split
    · rfl
    · rw [if_pos (by omega)]

/-- What `parse_str` says about a source: the range and the message of the tokenizer's error. -/
def blames (src : Text) (what : String) (a b : Nat) : Bool :=
  match parseStrN 60 src with
  | .err e => e.start == a && e.stop == b && (match e.syntaxErr with
    | some (.unterminated w _) => decide (w = what)
    | some (.unknownCharacter _) => decide (what = "unknown character")
    | _ => false)
  | _ => false

/-- All kinds of errors occur. -/
example : blames c!"<?php $é.'x\\'" "single-quoted string literal" 10 15 = true ∧
    blames c!"<?php $a.b\"x{\\\"y" "double-quoted string literal" 9 15 = true ∧
    blames c!"<?php `ab" "Backquote" 6 8 = true ∧
    blames c!"<?php <<<'A'\n$x\nA+" "Here/Nowdoc" 6 13 = true ∧
    blames c!"<?php b<<<A\nb\nA,\n" "Here/Nowdoc: end-tag requires to be followed by a newline" 6 15 = true ∧
    blames c!"<?php \"a\\" "string escape sequence" 8 9 = true ∧
    blames c!"<?php f(); /** x" "comment" 14 14 = true ∧
    blames c!"<?php f(\u0001);" "unknown character" 8 9 = true := by decide +kernel

theorem blames_ends {src : Text} {what : String} {a b : Nat} (h : blames src what a b = true) (hw : what ≠ "unknown character") :
    ∃ e sp, Ends src (.err e) ∧ e.syntaxErr = some (.unterminated what sp) ∧ e.start = a ∧ e.stop = b := by
  unfold blames at h
  split at h
  · rename_i e he
    rw [Bool.and_eq_true, Bool.and_eq_true, beq_iff_eq, beq_iff_eq] at h
    obtain ⟨⟨h1, h2⟩, h3⟩ := h
    split at h3
    · rename_i w sp hs
      have := of_decide_eq_true h3
      subst this
      exact ⟨e, sp, Ends.of 60 he (by simp), hs, h1, h2⟩
    · exact absurd (of_decide_eq_true h3) hw
    · cases h3
  · cases h

/-- An example for `C45_comment`, … -/
example (dbg : List Token → Text) : ∃ e, Ends c!"<?php f(); /** x" (.err e) ∧ e.errorMessage dbg (some c!"<?php f(); /** x") = none := by
  obtain ⟨e, sp, h1, h2, -, -⟩ := blames_ends (src := c!"<?php f(); /** x") (what := "comment") (a := 14) (b := 14)
    (by decide +kernel) (by decide)
  exact ⟨e, h1, (C45_comment _ e sp h1 h2 dbg).2⟩

/-- … and for the others: nothing closes the string. -/
example : ∃ e se, Ends c!"<?php $é.'x\\'" (.err e) ∧ e.syntaxErr = some se ∧ Culprit c!"<?php $é.'x\\'" se := by
  obtain ⟨e, sp, h1, h2, -, -⟩ := blames_ends (src := c!"<?php $é.'x\\'") (what := "single-quoted string literal") (a := 10) (b := 15)
    (by decide +kernel) (by decide)
  exact ⟨e, _, h1, h2, (C45_error_partial _ e _ h1 h2).1⟩

/-- **C45** fails for back quotes: a command in which a double quote (or a backslash) stands is reported as unfinished,
though it is finished. -/
theorem C45_fails : ∃ e sp, Ends c!"<?php `a\"b`;" (.err e) ∧ e.syntaxErr = some (.unterminated "Backquote" sp) := by
  obtain ⟨e, sp, h1, h2, -, -⟩ := blames_ends (src := c!"<?php `a\"b`;") (what := "Backquote") (a := 6) (b := 8)
    (by decide +kernel) (by decide)
  exact ⟨e, sp, h1, h2⟩

/-- **C45** fails for nowdocs: one in which a `$` or a `{` stands is reported as unfinished, though its closing label
follows and though nothing is interpolated in a nowdoc; without the two characters the same text is accepted. -/
theorem C45_fails_nowdoc :
    (∃ e sp, Ends c!"<?php <<<'A'\n$x\nA;\n" (.err e) ∧ e.syntaxErr = some (.unterminated "Here/Nowdoc" sp)) ∧
    (∃ e sp, Ends c!"<?php <<<'A'\n{x\nA;\n" (.err e) ∧ e.syntaxErr = some (.unterminated "Here/Nowdoc" sp)) ∧
    (∃ ss, Ends c!"<?php <<<'A'\nx\nA;\n" (.ok ss)) := by
  refine ⟨?_, ?_, ?_⟩
  · obtain ⟨e, sp, h1, h2, -, -⟩ := blames_ends (src := c!"<?php <<<'A'\n$x\nA;\n") (what := "Here/Nowdoc") (a := 6) (b := 13)
      (by decide +kernel) (by decide)
    exact ⟨e, sp, h1, h2⟩
  · obtain ⟨e, sp, h1, h2, -, -⟩ := blames_ends (src := c!"<?php <<<'A'\n{x\nA;\n") (what := "Here/Nowdoc") (a := 6) (b := 13)
      (by decide +kernel) (by decide)
    exact ⟨e, sp, h1, h2⟩
  · have h : (match parseStrN 60 c!"<?php <<<'A'\nx\nA;\n" with | .ok _ => true | _ => false) = true := by decide +kernel
    split at h
    · rename_i ss he
      exact ⟨ss, Ends.of 60 he (by simp)⟩
    · cases h

end Pico
