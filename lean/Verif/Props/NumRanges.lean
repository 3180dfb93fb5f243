import Verif.Props.Ranges
import Verif.Lemmas.LexStr
import Verif.Props.Violations
/-!
# The ranges of numbers and the bounds of the source (C30)
-/
namespace Pico

/-- **C30** fails for every number with a dot in every source: its range ends before it begins. -/
theorem C30_fails_class (src : Text) (n : Nat) (toks : List TokSpan) (hl : spansOf n src = some toks) (x : TokSpan) (hx : x ∈ toks) (w : Text)
    (hw : x.tok = .double w) : x.span.stop < x.span.start := by
  obtain ⟨t, h⟩ := scanned_of_spans hl
  obtain ⟨pre, ds, fs, post, -, -, -, -, h1, h2⟩ := C41_double src toks t h x hx w hw
  have := length_le_byteLen ds
  have hd : byteLen c!"." = 1 := by decide
  rw [h1, h2, byteLen_append, byteLen_append, hd]
  omega

/-- **C30** for integers in all sources: both ends of the range lie inside the source. A decimal or octal literal has an ordered range; one that begins with `0x` or `0b`
has an ordered range exactly if it has at least as many digits as there are bytes in front of it. -/
theorem C30_int_partial (src : Text) (n : Nat) (toks : List TokSpan) (hl : spansOf n src = some toks) (x : TokSpan) (hx : x ∈ toks) (v : Nat)
    (hv : x.tok = .int v) : x.span.start ≤ byteLen src ∧ x.span.stop ≤ byteLen src ∧
      ∃ pre lit post, src = pre ++ lit ++ post ∧ IntLit lit v ∧ byteLen pre = x.span.start ∧
        (((∀ c ∈ lit, c.isDigit = true) ∧ x.span.start ≤ x.span.stop) ∨
          ((c!"0x" <+: lit ∨ c!"0b" <+: lit) ∧ (x.span.start ≤ x.span.stop ↔ byteLen pre ≤ lit.length - 2))) := by
  obtain ⟨t, h⟩ := scanned_of_spans hl
  obtain ⟨pre, lit, post, rfl, h1, h2, h3⟩ := C41_int src toks t h x hx v hv
  have hlen := length_le_byteLen lit
  have e1 := byteLen_append (pre ++ lit) post
  have e2 := byteLen_append pre lit
  refine ⟨by omega, ?_, pre, lit, post, rfl, h1, h2, ?_⟩
  · rcases h3 with ⟨-, h3⟩ | ⟨-, h3⟩ <;> omega
  · rcases h3 with ⟨hd, h3⟩ | ⟨hp, h3⟩
    · exact .inl ⟨hd, by omega⟩
    · exact .inr ⟨hp, by rw [h2]; omega⟩

/-- **C27** fails wherever a number with a dot is what is not expected: the message with the source aborts. -/
theorem C27_fails_class (src : Text) (n : Nat) (toks : List TokSpan) (hl : spansOf n src = some toks) (x : TokSpan) (hx : x ∈ toks) (w : Text)
    (hw : x.tok = .double w) (e : SpannedErr) (_he : Ends src (.err e)) (h1 : e.start = x.span.start) (h2 : e.stop = x.span.stop) (dbg : List Token → Text) :
    e.errorMessage dbg (some src) = none := by
  have h := C30_fails_class src n toks hl x hx w hw
  unfold SpannedErr.errorMessage
  dsimp only
  split
  · rfl
  · split
    · rfl
    · rw [if_pos (by omega)]

/-- `<?php foo 1.5;` meets the hypotheses. -/
example : ∃ toks x e, spansOf 30 c!"<?php foo 1.5;" = some toks ∧ x ∈ toks ∧ x.tok = .double c!"1.5" ∧ Ends c!"<?php foo 1.5;" (.err e) ∧
    e.start = x.span.start ∧ e.stop = x.span.stop := by
  have h : (match spansOf 30 c!"<?php foo 1.5;", parseStrN 60 c!"<?php foo 1.5;" with
      | some toks, .err e => toks.any fun x => x.tok == .double c!"1.5" && decide (e.start = x.span.start ∧ e.stop = x.span.stop)
      | _, _ => false) = true := by decide +kernel
  split at h
  · rename_i toks e h1 h2
    rw [List.any_eq_true] at h
    obtain ⟨x, hx, h⟩ := h
    rw [Bool.and_eq_true, decide_eq_true_iff] at h
    exact ⟨toks, x, e, h1, hx, eq_of_beq h.1, Ends.of 60 h2 (by simp), h.2.1, h.2.2⟩
  · cases h

/-- A source with a number with a dot and an integer. -/
example : ∃ toks, spansOf 30 c!"<?php 1.5+7;" = some toks ∧ (∃ x ∈ toks, x.tok = .double c!"1.5") ∧ ∃ x ∈ toks, x.tok = .int 7 := by
  have h : (spansOf 30 c!"<?php 1.5+7;").any (fun toks => toks.any (fun x => x.tok == .double c!"1.5") && toks.any (fun x => x.tok == .int 7)) = true := by
    decide +kernel
  obtain ⟨h0, h2⟩ := (Option.any_eq_true_iff_get _ _).1 h
  rw [Bool.and_eq_true, List.any_eq_true, List.any_eq_true] at h2
  obtain ⟨⟨x, hx, e⟩, ⟨y, hy, f⟩⟩ := h2
  exact ⟨_, (Option.some_get h0).symm, ⟨x, hx, eq_of_beq e⟩, ⟨y, hy, eq_of_beq f⟩⟩

end Pico
