import Verif.Lemmas.LitBack
import Verif.Props.Lexing
/-!
# Which printed string literals read back (C14)
-/
namespace Pico
open T

/-- **C14** exactly. The printed literal of a text, at any place of a script, is read as a literal of this text if and only if the text does
not have two backslashes in a row. -/
theorem C14_exact (dbl : Text → Text) (s out : Text) (sp : Span) (h : printExprToString dbl (.mk (.str s) sp) = some out)
    (t : Tz) (blanks rest : Text) (hb : Blank blanks) (ht : InScript t (blanks ++ out ++ rest)) :
    (∃ n sp' t', nextToken n t = .ok ⟨.encaps s, sp'⟩ t') ↔ ¬ c!"\\\\" <:+: s := by
  constructor
  · rintro ⟨n, sp', t', hn⟩ hi
    have ho := printStr dbl s sp
    rw [h] at ho
    cases ho
    have hat : At t (blanks ++ ('\'' :: (litBody s ++ '\'' :: rest))) := by
      have := ht.at
      simpa using this
    have hm := Moved.ws hat hb.all
    have hh := hm.at'
    cases n with
    | zero => cases hn
    | succ n =>
      have hstart := scripting_start (nextToken n) n hat hb.all rfl (by simp)
      rw [orElse_none (hereNowDoc_none _ _ hh rfl rfl), orElse_none (show bnum _ = _ from prefixedNum_none _ _ _ hh rfl),
        orElse_none (show hnum _ = _ from prefixedNum_none _ _ _ hh rfl),
        orElse_none (onum_none hh (by simp) (by intro c hc; cases hc; decide) rfl),
        orElse_none (dqString_none _ _ hh rfl rfl), orElse_none (variable_none hh rfl)] at hstart
      rcases sqString_decode hh (m := matchComments <||> matchBackquote (nextToken n) n <||> labelOrOther (t.ws blanks).st.srcPos) with hk | hk
      · unfold Twp at hk
        rw [← hstart] at hk
        unfold nextToken at hn
        rw [ht.1] at hn
        simp only at hn
        cases hm : inScriptingToken (nextToken n) n t with
        | ok a t'' =>
          rw [hm] at hk hn
          cases hn
          obtain ⟨r, hr⟩ := hk s rfl
          exact not_back s.length s (Nat.le_refl _) hi hr
        | err e t'' =>
          rw [hm] at hk hn
          cases e with
          | none => exact hk rfl
          | _ => cases hn
        | panic p => rw [hm] at hn; cases hn
        | oof => rw [hm] at hn; cases hn
      · have h1 : ('\'' : Char).utf8Size = 1 := by decide
        simp only [byteLen, byteLen_append, h1] at hk
        omega
  · intro hs
    obtain ⟨out', h1, h2⟩ := C14_printed_string_partial dbl s sp hs
    rw [h] at h1
    cases h1
    obtain ⟨sp', t', h3, -⟩ := h2 t blanks rest hb ht 0
    exact ⟨1, sp', t', h3⟩

/-- `a\\b` is printed as `'a\\b'` and `a\b` as `'a\b'`; the first has two backslashes in a row, the second has not. -/
example (dbl : Text → Text) (sp : Span) : printExprToString dbl (.mk (.str c!"a\\\\b") sp) = some c!"'a\\\\b'" ∧ c!"\\\\" <:+: c!"a\\\\b" ∧
    printExprToString dbl (.mk (.str c!"a\\b") sp) = some c!"'a\\b'" ∧ ¬ c!"\\\\" <:+: c!"a\\b" :=
  ⟨rfl, by decide, rfl, by decide⟩

end Pico
