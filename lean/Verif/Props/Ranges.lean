import Verif.Props.Scan
import Verif.Lemmas.LayLit
/-!
# Where tokens stand (C41)
-/
namespace Pico

/-- **C41** for all sources and all tokens but numbers, the marks and texts of strings, and names that are not ASCII
(for those see `C41_fails`): the range of a token is a stretch of the source, and that stretch is a way to write
the token. -/
theorem C41_ranges_partial (src : Text) (n : Nat) (toks : List TokSpan) (h : spansOf n src = some toks) (x : TokSpan) (hx : x ∈ toks)
    (hr : ranged x.tok = true) :
    ∃ pre w post, src = pre ++ w ++ post ∧ byteLen pre = x.span.start ∧ byteLen (pre ++ w) = x.span.stop ∧
      WrittenAs x.tok w := by
  obtain ⟨t, ht⟩ := scanned_of_spans h
  exact ((scanned_inv ht).tp x hx).spelled hr

/-- The same for the tokens delivered before an error. -/
theorem C41_moment_partial (src : Text) (toks : List TokSpan) (t : Tz) (h : Scanned src toks t) (x : TokSpan) (hx : x ∈ toks)
    (hr : ranged x.tok = true) :
    ∃ pre w post, src = pre ++ w ++ post ∧ byteLen pre = x.span.start ∧ byteLen (pre ++ w) = x.span.stop ∧
      WrittenAs x.tok w :=
  ((scanned_inv h).tp x hx).spelled hr

/-- Text outside of tags, a comment, a cast and a string with all kinds of variables in it. -/
def rangedSample : Text := c!"é<?php /* n */ $a->b = (int ) yield  f(\"x $c->d {$e} ${f}\"); ?>é"

/-- 29 tokens, 24 of which have a range the theorem speaks about. -/
example : ∃ toks, spansOf 60 rangedSample = some toks ∧ toks.length = 29 ∧ (toks.filter fun x => ranged x.tok).length = 24 := by
  have h : (spansOf 60 rangedSample).any (fun toks => decide (toks.length = 29) && decide ((toks.filter fun x => ranged x.tok).length = 24)) =
      true := by decide +kernel
  simpa [Option.any_eq_true] using h

/-- **C41** fails for names that are not ASCII: the token of `$é` ends inside of the character. -/
theorem C41_fails : ∃ toks x, spansOf 20 c!"<?php $é;" = some toks ∧ x ∈ toks ∧ x.tok = .variable c!"é" ∧
    x.span.start = 6 ∧ x.span.stop = 8 ∧ byteLen c!"<?php $é" = 9 := by
  have h : (spansOf 20 c!"<?php $é;").any (fun toks => match toks with
      | [_, x, _] => decide (x.tok = .variable c!"é" ∧ x.span.start = 6 ∧ x.span.stop = 8)
      | _ => false) = true := by decide +kernel
  obtain ⟨h0, h2⟩ := (Option.any_eq_true_iff_get _ _).1 h
  have h1 := (Option.some_get h0).symm
  generalize (spansOf 20 c!"<?php $é;").get h0 = toks at h1 h2
  split at h2
  · rename_i a x b
    obtain ⟨e1, e2, e3⟩ := of_decide_eq_true h2
    exact ⟨_, x, h1, by simp, e1, e2, e3, by decide⟩
  · cases h2

/-! ## Numbers -/

theorem binDigit_of {c : Char} (h : (c.isDigit || c.isLower || c.isUpper) = true ∧ digitValue c < 2) : c = '0' ∨ c = '1' := by
  have h16 := hexDigit_of ⟨h.1, Nat.lt_of_lt_of_le h.2 (by decide)⟩
  rcases h16 with hd | hd
  · have := octDigit_of hd (Nat.lt_of_lt_of_le h.2 (by decide))
    have h2 := h.2
    unfold digitValue at h2
    simp only [hd, if_true] at h2
    rw [isDigit_iff] at hd
    unfold inRange at hd
    have h0 : '0'.toNat = 48 := rfl
    have h9 : '9'.toNat = 57 := rfl
    simp only [h0, h9, Bool.and_eq_true, decide_eq_true_eq] at h2 hd
    have : c.toNat = 48 ∨ c.toNat = 49 := by omega
    exact this.imp (fun h => char_eq_of_toNat (h.trans h0.symm)) (fun h => char_eq_of_toNat h)
  · have h2 := h.2
    have : ∀ d ∈ c!"abcdefABCDEF", ¬ digitValue d < 2 := by decide
    exact absurd h2 (this c hd)

theorem numAt_int {src : Text} {x : TokSpan} (h : NumAt src x) {v : Nat} (hv : x.tok = .int v) :
    ∃ pre lit post, src = pre ++ lit ++ post ∧ IntLit lit v ∧ byteLen pre = x.span.start ∧
      (((∀ c ∈ lit, c.isDigit = true) ∧ byteLen (pre ++ lit) = x.span.stop) ∨
        ((c!"0x" <+: lit ∨ c!"0b" <+: lit) ∧ x.span.stop + 2 = lit.length)) := by
  cases h with
  | @dec pre w post u p q he hw hv' hp hq =>
    cases hv
    have hd : ∀ c ∈ w, c.isDigit = true := fun c hc => notDigit_false (hw c hc)
    refine ⟨pre, w, post, he, ?_, hp.symm, .inl ⟨hd, hq.symm⟩⟩
    rcases hv' with ⟨hz, hv⟩ | ⟨hz, hv⟩
    · obtain ⟨h1, -, rfl, -⟩ := fromStrRadix_inv hv
      refine .dec w h1 hd fun h0 => ?_
      obtain ⟨r, rfl⟩ := head_split h0
      cases r with
      | nil => rfl
      | cons c r =>
        exfalso
        rw [startsWith_append] at hz
        simp only [Bool.true_and, decide_eq_false_iff_not] at hz
        refine hz ?_
        have := c.utf8Size_pos
        have := ('0').utf8Size_pos
        show 1 < byteLen ('0' :: c :: r)
        simp only [byteLen]
        omega
    · obtain ⟨h1, h2, rfl, -⟩ := fromStrRadix_inv hv
      simp only [Bool.and_eq_true] at hz
      obtain ⟨r, rfl⟩ := startsWith_split hz.1
      exact .oct r h1 fun c hc => octDigit_of (hd c (by simp [hc])) (h2 c hc).2
  | @pref pre o w post u radix p q he ho hv' hp hq =>
    cases hv
    obtain ⟨h1, h2, rfl, -⟩ := fromStrRadix_inv hv'
    rcases ho with ⟨rfl, rfl⟩ | ⟨rfl, rfl⟩
    · refine ⟨pre, c!"0x" ++ w, post, he, .hex w h1 fun c hc => hexDigit_of (h2 c hc), hp.symm, .inr ⟨.inl ⟨w, rfl⟩, ?_⟩⟩
      show q + 2 = _
      rw [hq]; simp
    · refine ⟨pre, c!"0b" ++ w, post, he, .bin w h1 fun c hc => binDigit_of (h2 c hc), hp.symm, .inr ⟨.inr ⟨w, rfl⟩, ?_⟩⟩
      show q + 2 = _
      rw [hq]; simp
  | dbl => cases hv

/-- **C41** for integers: where the range of the token begins, a literal with this value stands. If it consists of
digits (decimal or octal) the range ends with it. If it begins with `0x` or `0b`, its number of digits is put in place of
the end of the range. -/
theorem C41_int (src : Text) (toks : List TokSpan) (t : Tz) (h : Scanned src toks t) (x : TokSpan) (hx : x ∈ toks) (v : Nat)
    (hv : x.tok = .int v) :
    ∃ pre lit post, src = pre ++ lit ++ post ∧ IntLit lit v ∧ byteLen pre = x.span.start ∧
      (((∀ c ∈ lit, c.isDigit = true) ∧ byteLen (pre ++ lit) = x.span.stop) ∨
        ((c!"0x" <+: lit ∨ c!"0b" <+: lit) ∧ x.span.stop + 2 = lit.length)) :=
  numAt_int (((scanned_inv h).tp x hx).numbered (by rw [hv]; rfl)) hv

/-- **C41** for numbers with a dot, where it fails always: the range begins behind the dot, and its end is the number of
digits in front of the dot. -/
theorem C41_double (src : Text) (toks : List TokSpan) (t : Tz) (h : Scanned src toks t) (x : TokSpan) (hx : x ∈ toks) (w : Text)
    (hw : x.tok = .double w) :
    ∃ pre ds fs post, src = pre ++ w ++ post ∧ w = ds ++ c!"." ++ fs ∧ ds ++ fs ≠ [] ∧ (∀ c ∈ ds ++ fs, c.isDigit = true) ∧
      x.span.start = byteLen (pre ++ ds ++ c!".") ∧ x.span.stop = ds.length := by
  have hn := ((scanned_inv h).tp x hx).numbered (by rw [hw]; rfl)
  cases hn with
  | dec => cases hw
  | pref => cases hw
  | @dbl pre a b post p q he ha hb hne hp hq =>
    cases hw
    refine ⟨pre, a, b, post, he, rfl, ?_, ?_, hp, hq⟩
    · intro h0
      obtain ⟨rfl, rfl⟩ := List.append_eq_nil_iff.1 h0
      exact hne rfl
    · intro c hc
      rw [List.mem_append] at hc
      exact hc.elim (fun h => notDigit_false (ha c h)) (fun h => notDigit_false (hb c h))

/-- All kinds of numbers, with their ranges. -/
example : spansOf 60 c!"<?php 10+07+0x1F+0b1+0.25;" = some [⟨.k .OpenTag, ⟨0, 5, none⟩⟩, ⟨.int 10, ⟨6, 8, none⟩⟩, ⟨.k .Plus, ⟨8, 9, none⟩⟩,
    ⟨.int 7, ⟨9, 11, none⟩⟩, ⟨.k .Plus, ⟨11, 12, none⟩⟩, ⟨.int 31, ⟨12, 2, none⟩⟩, ⟨.k .Plus, ⟨16, 17, none⟩⟩,
    ⟨.int 1, ⟨17, 1, none⟩⟩, ⟨.k .Plus, ⟨20, 21, none⟩⟩, ⟨.double c!"0.25", ⟨23, 1, none⟩⟩, ⟨.k .SemiColon, ⟨25, 26, none⟩⟩] := by
  decide +kernel

end Pico
