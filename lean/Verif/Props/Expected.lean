import Verif.Lemmas.ParserTruth
import Verif.Props.Errors
/-!
# What errors of the parser say was expected (C46)
-/
namespace Pico

/-- Entries of the lists in errors are neither inline HTML nor tags: what stands for such a token in front of the parser
need not be looked at. -/
theorem like_strip {ts : List Token} (h : ts ∈ expectations) {t : Token} (ht : t ∈ ts) {x u : TokSpan} (hx : x ∈ stripToken u)
    (hl : Token.like t x.tok = false) : Token.like t u.tok = false := by
  have key : ∀ ts ∈ expectations, ∀ t ∈ ts, t ≠ .k .OpenTagWithEcho := by decide
  have h0 := key ts h t ht
  unfold stripToken at hx
  split at hx
  · cases hx
  · cases hx
  · cases hx
  · rename_i s hs
    rw [hs]
    cases t <;> rfl
  · rename_i hs
    rw [hs]
    cases t with
    | k k => exact decide_eq_false fun h => h0 (by rw [h])
    | _ => rfl
  · simp only [List.mem_singleton] at hx
    subst hx
    exact hl

/-- **C46** for `parse_tokens`: the list of expected tokens is one of those in `expectations`, and the token the error
points at is of none of the kinds listed. The list is empty only if the error points behind the last token. -/
theorem C46_tokens (n : Nat) (m : LineMap) (toks : List TokSpan) (e : SpannedErr) (h : parseTokensN n m toks = .err e) :
    e.error.tokens ∈ expectations ∧
    ((∃ u ∈ toks, u.tok.invisible = false ∧ e.start = u.span.start ∧ e.stop = u.span.stop ∧
        e.error.tokens ≠ [] ∧ ∀ t ∈ e.error.tokens, Token.like t u.tok = false) ∨
      ∃ u, (toks.filter fun t => !t.tok.invisible).getLast? = some u ∧ e.start = u.span.stop ∧ e.stop = u.span.stop + 1) := by
  unfold parseTokensN at h
  dsimp only at h
  split at h
  · cases h
  · cases h
  · cases h
  · rename_i pe p hp
    have hg : Good True (stripTokens toks) pe := ((parseTopStatementList_tf (recN_tf n) (Nat.le_refl 0)).2 pe p hp).2.2
    split at h
    · split at h
      · rename_i t ht
        obtain ⟨h1, h2, -, -, h5, -⟩ := spannedErr_err h
        obtain ⟨u, hu1, hu2, hu4, hu3⟩ := mem_stripTokens (List.mem_of_getElem? ht)
        rw [h5]
        exact ⟨hg.known, .inl ⟨u, hu1, hu2, by rw [h1, hu3], by rw [h2, hu3], fun h0 => by have := hg.some trivial h0; omega, fun x hx => like_strip hg.known hx hu4 (hg.absent x hx t ht)⟩⟩
      · cases h
    · split at h
      · rename_i t ht
        obtain ⟨h1, h2, -, -, h5, -⟩ := spannedErr_err h
        obtain ⟨u, hu1, hu2⟩ := stripTokens_getLast ht
        rw [h5]
        exact ⟨hg.known, .inr ⟨u, hu1, by rw [h1, hu2], by rw [h2, hu2]⟩⟩
      · cases h

/-- **C46** for `parse_str`: a source that is rejected by the parser has been divided into tokens, and the error points at
one of them, which is of none of the kinds that the error lists, or directly behind the last of them. Only there the list can
be empty. -/
theorem C46_source (src : Text) (e : SpannedErr) (h : Ends src (.err e)) (hs : e.syntaxErr = none) :
    e.error.tokens ∈ expectations ∧ ∃ n toks, spansOf n src = some toks ∧
    ((∃ u ∈ toks, u.tok.invisible = false ∧ e.start = u.span.start ∧ e.stop = u.span.stop ∧
        e.error.tokens ≠ [] ∧ ∀ t ∈ e.error.tokens, Token.like t u.tok = false) ∨
      ∃ u, (toks.filter fun t => !t.tok.invisible).getLast? = some u ∧ e.start = u.span.stop ∧ e.stop = u.span.stop + 1) := by
  obtain ⟨n, h, -⟩ := h
  unfold parseStrN at h
  split at h
  · rename_i toks t hl
    obtain ⟨h1, h2⟩ := C46_tokens _ _ _ _ h
    exact ⟨h1, n, toks, by unfold spansOf; rw [hl], h2⟩
  · split at h
    · cases h
    · have := (spannedErr_err h).2.2.2.2.2
      rw [hs] at this
      cases this
  · cases h
  · cases h

/-- What `parse_str` says was expected, and where. -/
def expects (src : Text) (ts : List Token) (a b : Nat) : Bool :=
  match parseStrN 60 src with
  | .err e => decide (e.error.tokens = ts) && e.start == a && e.stop == b && e.syntaxErr.isNone
  | _ => false

/-- Lists of all lengths occur, at tokens and behind the last one. -/
example : expects c!"<?php if ($a { }" [.k .ParenthesesClose] 13 14 = true ∧
    expects c!"<?php global x;" [.k .Dollar, .variable []] 13 14 = true ∧
    expects c!"<?php switch (1) { case 2 echo 3; }" [.k .Colon, .k .SemiColon] 26 30 = true ∧
    expects c!"<?php )" [.k .Class] 6 7 = true ∧
    expects c!"<?php f()" [.k .SemiColon] 9 10 = true ∧
    expects c!"<?php $a =" [] 10 11 = true := by decide +kernel

end Pico
