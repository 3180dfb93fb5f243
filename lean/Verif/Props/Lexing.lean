import Verif.Lemmas.LexPrint
import Verif.Spec.Outcome
/-!
# Identifiers, numbers, strings and comments (C10, C12, C13, C16, C31)
-/
namespace Pico
open T

/-! ### C10 -/

/-- What is left out of C10: `yield` before a blank (whose token swallows the blanks behind it and a following
`from`), `yieldfrom`, and the letter `b` directly before a quote or `<<<` (where it begins a binary string). -/
def plainIdentifier (w rest : Text) : Prop :=
  isIdentifier w = true ∧ endsIdentifier rest = true ∧ (w = c!"yield" → startsBlank rest = false) ∧ w ≠ c!"yieldfrom" ∧
    (w = c!"b" → ¬ (c!"'" <+: rest ∨ c!"\"" <+: rest ∨ c!"<<<" <+: rest))

/-- C10, for all identifiers but those left out by `plainIdentifier`: after any blanks, an identifier is read as
one token covering exactly its text, the keyword if it is a reserved word and a name otherwise, and the scan goes
on right behind it. Missing: `yield` followed by a blank, and `yieldfrom`, for which the claim is false (`C10_fails`). -/
theorem C10_identifiers_partial (t : Tz) (blanks w rest : Text) (hb : Blank blanks) (hw : plainIdentifier w rest)
    (ht : InScript t (blanks ++ w ++ rest)) :
    Reads t (identifierToken w) (t.st.srcPos + blanks.length) (t.st.srcPos + blanks.length + w.length)
      fun t' => InScript t' rest ∧ t'.st.stack = t.st.stack := by
  obtain ⟨h1, h2, h3, h4, h5⟩ := hw
  have hword := Word.of_identifier h1
  have hr := endsIdentifier_head h2
  intro n
  have hat : At t (blanks ++ (w ++ rest)) := by rw [← List.append_assoc]; exact ht.at
  have hm := Moved.ws hat hb.all
  have hpl : plain (w ++ rest) = true := plain_word hword (by
    intro hwb hs
    apply h5 hwb
    rcases hs with hs | hs | hs
    · exact .inl (startsWith_prefix hs)
    · exact .inr (.inl (startsWith_prefix hs))
    · exact .inr (.inr (startsWith_prefix hs)))
  have hbl : ((w ++ rest).head?.map isBlank).getD false = false := by
    cases w with
    | nil => exact absurd rfl hword.ne
    | cons c w => simp [label_not_blank (hword.lab c (by simp))]
  obtain ⟨d, hd⟩ := identifier_at hm.at' hword hr h3 h4
  have hpos : (t.ws blanks).st.srcPos = t.st.srcPos + blanks.length := by
    rw [← hb.len]; exact (wsGo_fields blanks hb.all t.st).1
  have hm2 := Moved.adv' hm.at' (n := w.length) (byteLen_ascii hword.asc).symm
  refine ⟨_, _, next_scripting ht.1 ((plain_scripting _ _ hat hb.all hbl hpl).trans hd), ?_, ?_, ?_, ?_⟩
  · exact hpos
  · show (t.ws blanks).st.srcPos + w.length = _
    rw [hpos]
  · exact ht.moved (hm.trans hm2)
  · exact (hm.trans hm2).stack

/-- The hypotheses of `C10_identifiers_partial` at an identifier that has a reserved word as a prefix. -/
example : plainIdentifier c!"format" c!"(1)" ∧ identifierToken c!"format" = .string c!"format" ∧
    identifierToken c!"foreach" = .k .Foreach ∧ Blank c!" \n" ∧
    InScript ⟨c!"<?php \nformat(1)", ⟨5, .inScripting, [], 1, ⟨[0], 17⟩, false⟩, []⟩ c!" \nformat(1)" := by
  refine ⟨⟨by decide, by decide, by decide, by decide, by decide⟩, by decide, by decide, ?_, rfl,
    c!"<?php", by decide, by decide⟩
  intro c hc
  revert c
  decide

/-- C10 fails for `yield`: in `yield fromage` the word is not delivered whole, the first four letters of the
next identifier become part of the token. -/
theorem C10_fails : ∃ sp t', nextToken 5 ⟨c!"<?php yield fromage;", ⟨6, .inScripting, [], 1, ⟨[0], 20⟩, false⟩, []⟩ =
      .ok ⟨.k .YieldFrom, sp⟩ t' ∧ Remaining t' c!"age;" :=
  ⟨_, _, rfl, c!"<?php yield from", by decide, by decide⟩

/-! ### C12 -/

/-- C12: an integer literal below 2^63 that nothing continues is read as one integer token with its value, and
exactly its digits are consumed. (Its position is another matter, see `C30_fails`.) -/
theorem C12_integers (t : Tz) (blanks lit rest : Text) (v : Nat) (hb : Blank blanks) (hl : IntLit lit v)
    (hv : v < 2 ^ 63) (hr : endsNumber rest = true) (ht : InScript t (blanks ++ lit ++ rest)) (n : Nat) :
    ∃ sp t', nextToken (n + 1) t = .ok ⟨.int v, sp⟩ t' ∧ InScript t' rest ∧ t'.st.stack = t.st.stack := by
  have hh := endsNumber_head hr
  have hat : At t (blanks ++ (lit ++ rest)) := by rw [← List.append_assoc]; exact ht.at
  have hm := Moved.ws hat hb.all
  have hfin : ∀ {sp : Span} (k : Nat), k = byteLen lit →
      (matchHereNowDoc (nextToken n) n <||> bnum <||> hnum <||> onumDnumLnum <||> matchDqString (nextToken n) n <||>
        matchVariable <||> matchSqString <||> matchComments <||> matchBackquote (nextToken n) n <||>
        labelOrOther (t.ws blanks).st.srcPos) (t.ws blanks) = .ok ⟨.int v, sp⟩ ((t.ws blanks).adv k) →
      ((lit ++ rest).head?.map isBlank).getD false = false → lit ++ rest ≠ [] →
      ∃ sp t', nextToken (n + 1) t = .ok ⟨.int v, sp⟩ t' ∧ InScript t' rest ∧ t'.st.stack = t.st.stack := by
    intro sp k hk hrun hbl hne
    have hm2 := Moved.adv' hm.at' hk
    exact ⟨sp, _, next_scripting ht.1 ((scripting_start _ _ hat hb.all hbl hne).trans hrun),
      ht.moved (hm.trans hm2), (hm.trans hm2).stack⟩
  have hat' := hm.at'
  -- decimal and octal numbers
  have honum : ∀ ds : Text, lit = ds → ds ≠ [] → (∀ c ∈ ds, c.isDigit = true) →
      (startsWith (ds ++ rest) c!"0b" = false) → (startsWith (ds ++ rest) c!"0x" = false) →
      (if startsWith ds c!"0" && ds.length > 1 then fromStrRadix i64Max 8 (ds.drop 1)
        else fromStrRadix i64Max 10 ds) = some v →
      ∃ sp t', nextToken (n + 1) t = .ok ⟨.int v, sp⟩ t' ∧ InScript t' rest ∧ t'.st.stack = t.st.stack := by
    intro ds hds hne hd h0b h0x hval
    subst hds
    obtain ⟨g1, g2, g3⟩ := digit_start (r := rest) hne hd
    have hnd : ∀ c ∈ lit, notDigit c = false := fun c hc => notDigit_of_isDigit (hd c hc)
    have hon := onum_int hat' hne hnd (fun c hc => ⟨(hh c hc).1, (hh c hc).2.1⟩) hval
    exact hfin lit.length (byteLen_ascii (digits_ascii hnd)).symm
      ((orElse_none (hereNowDoc_none _ _ hat' g1 g2)).trans <|
        (orElse_none (show bnum _ = _ from prefixedNum_none _ _ _ hat' h0b)).trans <|
        (orElse_none (show hnum _ = _ from prefixedNum_none _ _ _ hat' h0x)).trans (orElse_ok hon)) g3 (by simp [hne])
  have hx : ∀ x, isIdChar x = true → startsWith (c!"0" ++ rest) ['0', x] = false := by
    intro x hx
    cases rest with
    | nil => rfl
    | cons c r =>
      have := (hh c rfl).2.2
      have : c ≠ x := by rintro rfl; rw [hx] at this; cases this
      simp [startsWith, this]
  have hzz : ∀ (c : Char) (ds : Text) (x : Char), c.isDigit = true → x.isDigit = false →
      startsWith ('0' :: c :: ds) ['0', x] = false := by
    intro c ds x hc hx
    have : c ≠ x := by rintro rfl; rw [hc] at hx; cases hx
    simp [startsWith, this]
  cases hl with
  | dec _ hne hd hz =>
    refine honum _ rfl hne hd ?_ ?_ ?_
    · cases lit with
      | nil => exact absurd rfl hne
      | cons c ds =>
        by_cases hc : c = '0'
        · subst hc
          have := hz rfl
          rw [this]
          exact hx 'b' (by decide)
        · simp [startsWith, hc]
    · cases lit with
      | nil => exact absurd rfl hne
      | cons c ds =>
        by_cases hc : c = '0'
        · subst hc
          have := hz rfl
          rw [this]
          exact hx 'x' (by decide)
        · simp [startsWith, hc]
    · have hcond : (startsWith lit c!"0" && decide (lit.length > 1)) = false := by
        cases lit with
        | nil => exact absurd rfl hne
        | cons c ds =>
          by_cases hc : c = '0'
          · subst hc
            rw [hz rfl]
            rfl
          · simp [startsWith, hc]
      rw [hcond]
      simp only [Bool.false_eq_true, if_false]
      exact fromStrRadix_value hne (fun c hc => ⟨by simp [hd c hc], isDigit_value (hd c hc)⟩) hv
  | oct ds hne hd =>
    have hdig : ∀ c, isOctDigit c = true → c.isDigit = true ∧ digitValue c < 8 := by
      intro c hc
      unfold isOctDigit at hc
      simp only [Bool.or_eq_true, beq_iff_eq] at hc
      rcases hc with ((((((rfl | rfl) | rfl) | rfl) | rfl) | rfl) | rfl) | rfl <;> decide
    cases ds with
    | nil => exact absurd rfl hne
    | cons c ds =>
      refine honum _ rfl (by simp) ?_ ?_ ?_ ?_
      · intro x hx
        rcases List.mem_cons.mp hx with rfl | hx
        · decide
        · exact (hdig x (hd x hx)).1
      · exact hzz c _ 'b' (hdig c (hd c (by simp))).1 (by decide)
      · exact hzz c _ 'x' (hdig c (hd c (by simp))).1 (by decide)
      · have hcond : (startsWith (c!"0" ++ c :: ds) c!"0" && decide ((c!"0" ++ c :: ds).length > 1)) = true := by
          simp [startsWith]
        rw [hcond]
        simp only [if_true]
        exact fromStrRadix_value hne (fun x hx => ⟨by simp [(hdig x (hd x hx)).1], (hdig x (hd x hx)).2⟩) hv
  | hex ds hne hd =>
    have hdig : ∀ c, (c.isDigit = true ∨ c ∈ c!"abcdefABCDEF") →
        isHexDigit c = true ∧ (c.isDigit || c.isLower || c.isUpper) = true ∧ digitValue c < 16 ∧ c.toNat < 128 := by
      intro c hc
      rcases hc with hc | hc
      · refine ⟨?_, by simp [hc], by have := isDigit_value hc; omega, digit_ascii (notDigit_of_isDigit hc)⟩
        unfold isHexDigit
        rw [← isDigit_iff, hc]
        simp
      · revert c
        decide
    have hrest : ∀ c, rest.head? = some c → isHexDigit c = false := by
      intro c hc
      have h1 := (hh c hc).2.2
      cases hx : isHexDigit c with
      | false => rfl
      | true =>
        exfalso
        unfold isIdChar at h1
        rw [isAlphanum_iff] at h1
        unfold isHexDigit inRange at hx
        unfold inRange at h1
        simp only [Bool.or_eq_false_iff, Bool.and_eq_false_iff, decide_eq_false_iff_not, beq_eq_false_iff_ne,
          Bool.or_eq_true, Bool.and_eq_true, decide_eq_true_eq] at h1 hx
        have ha : 'a'.toNat = 97 := rfl
        have hz : 'z'.toNat = 122 := rfl
        have hA : 'A'.toNat = 65 := rfl
        have hZ : 'Z'.toNat = 90 := rfl
        have hf : 'f'.toNat = 102 := rfl
        have hF : 'F'.toNat = 70 := rfl
        omega
    have hat2 : At (t.ws blanks) (c!"0x" ++ ds ++ rest) := hat'
    have hnum' : hnum (t.ws blanks) = _ := prefixedNum_int (isDigit := isHexDigit) hat2 (by decide) hne
      (fun c hc => (hdig c (hd c hc)).1) hrest
      (fromStrRadix_value hne (fun c hc => ⟨(hdig c (hd c hc)).2.1, (hdig c (hd c hc)).2.2.1⟩) hv)
    exact hfin (2 + byteLen ds) (by rw [byteLen_append]; rfl)
      ((orElse_none (hereNowDoc_none _ _ hat' rfl rfl)).trans <|
        (orElse_none (show bnum _ = _ from prefixedNum_none _ _ _ hat' rfl)).trans (orElse_ok hnum')) rfl (by simp)
  | bin ds hne hd =>
    have hdig : ∀ c, (c = '0' ∨ c = '1') →
        (c == '0' || c == '1') = true ∧ (c.isDigit || c.isLower || c.isUpper) = true ∧ digitValue c < 2 := by
      rintro c (rfl | rfl) <;> decide
    have hrest : ∀ c, rest.head? = some c → (c == '0' || c == '1') = false := by
      intro c hc
      have h1 := (hh c hc).1
      cases hx : (c == '0' || c == '1') with
      | false => rfl
      | true =>
        simp only [Bool.or_eq_true, beq_iff_eq] at hx
        rcases hx with rfl | rfl <;> exact absurd h1 (by decide)
    have hat2 : At (t.ws blanks) (c!"0b" ++ ds ++ rest) := hat'
    have hnum' : bnum (t.ws blanks) = _ := prefixedNum_int (isDigit := fun c => c == '0' || c == '1') hat2 (by decide) hne
      (fun c hc => (hdig c (hd c hc)).1) hrest
      (fromStrRadix_value hne (fun c hc => ⟨(hdig c (hd c hc)).2.1, (hdig c (hd c hc)).2.2⟩) hv)
    exact hfin (2 + byteLen ds) (by rw [byteLen_append]; rfl)
      ((orElse_none (hereNowDoc_none _ _ hat' rfl rfl)).trans (orElse_ok hnum')) rfl (by simp)

/-- The hypotheses of `C12_integers` at four ways to write 255. -/
example : IntLit c!"255" 255 ∧ IntLit c!"0377" 255 ∧ IntLit c!"0xfF" 255 ∧ IntLit c!"0b11111111" 255 ∧
    endsNumber c!";" = true ∧
    InScript ⟨c!"<?php 255;", ⟨5, .inScripting, [], 1, ⟨[0], 10⟩, false⟩, []⟩ c!" 255;" := by
  refine ⟨?_, ?_, ?_, ?_, rfl, rfl, c!"<?php", rfl, by decide⟩
  · exact IntLit.dec c!"255" (by decide) (by decide) (by decide)
  · exact IntLit.oct c!"377" (by decide) (by decide)
  · exact IntLit.hex c!"fF" (by decide) (by decide)
  · exact IntLit.bin c!"11111111" (by decide) (by decide)

/-! ### C13 -/

/-- C13: a text written between single quotes with its backslashes and quotes escaped is read as one string token
with exactly that text (any Unicode), covering exactly the literal, and the scan goes on behind the quote. -/
theorem C13_single_quoted (t : Tz) (blanks s rest : Text) (hb : Blank blanks)
    (ht : InScript t (blanks ++ c!"'" ++ sqEscape s ++ c!"'" ++ rest)) :
    Reads t (.encaps s) (t.st.srcPos + blanks.length) (t.st.srcPos + blanks.length + 2 + byteLen (sqEscape s))
      fun t' => InScript t' rest ∧ t'.st.stack = t.st.stack := by
  have h := read_sq t blanks (sqItems s) (sqItems_ok s) rest hb (by rw [sqItems_src]; exact ht)
  rw [sqItems_src, sqItems_val] at h
  exact h

/-- The hypotheses of `C13_single_quoted` at a text with quotes, a backslash, a newline and non-ASCII letters. -/
example : sqEscape c!"it's \\ ü\n" = c!"it\\'s \\\\ ü\n" ∧
    InScript ⟨c!"<?php 'it\\'s \\\\ ü\n';", ⟨5, .inScripting, [], 1, ⟨[0], 21⟩, false⟩, []⟩
      (c!" " ++ c!"'" ++ sqEscape c!"it's \\ ü\n" ++ c!"'" ++ c!";") :=
  ⟨by decide, rfl, c!"<?php", by decide, by decide⟩

/-! ### C14 -/

/-- C14 for the strings without two backslashes in a row: the printed literal is read back as one string token with
the same text, up to its last character. Missing: two backslashes in a row, for which the claim is false
(`C14_fails`). -/
theorem C14_printed_string_partial (dbl : Text → Text) (s : Text) (sp : Span) (hs : ¬ c!"\\\\" <:+: s) :
    ∃ out, printExprToString dbl (.mk (.str s) sp) = some out ∧
      ∀ (t : Tz) (blanks rest : Text), Blank blanks → InScript t (blanks ++ out ++ rest) →
        Reads t (.encaps s) (t.st.srcPos + blanks.length) (t.st.srcPos + blanks.length + byteLen out)
          fun t' => InScript t' rest ∧ t'.st.stack = t.st.stack := by
  refine ⟨_, printStr dbl s sp, ?_⟩
  intro t blanks rest hb ht
  obtain ⟨its, h1, h2, h3⟩ := litBody_items s.length s (Nat.le_refl _) hs
  have h := read_sq t blanks its h3 rest hb (by rw [h1]; simpa using ht)
  have e : t.st.srcPos + blanks.length + 2 + byteLen (litBody s) =
      t.st.srcPos + blanks.length + byteLen (c!"'" ++ litBody s ++ c!"'") := by
    have hq : ('\'' : Char).utf8Size = 1 := by decide
    simp only [byteLen_append, byteLen, hq]
    omega
  rw [h1, h2, e] at h
  exact h

/-- The hypothesis of `C14_printed_string_partial` at a text with escaped quotes and a backslash at the end. -/
example : ¬ c!"\\\\" <:+: c!"it\\'s ü\\n\n\\" := by decide

/-! ### C16 -/

/-- C16 for block comments other than `/**/`: one comment token with the text between the markers (a second star of
the opening marker, as in doc comments, is not counted), covering exactly the comment; the scan goes on behind
it. Missing: the empty comment, for which the claim is false (`C16_fails`). -/
theorem C16_block_partial (t : Tz) (blanks body rest : Text) (hb : Blank blanks) (hne : body ≠ [])
    (hbody : ¬ c!"*/" <:+: body) (ht : InScript t (blanks ++ (c!"/*" ++ body ++ c!"*/") ++ rest)) :
    Reads t (.comment (if body.head? = some '*' then body.tail else body)) (t.st.srcPos + blanks.length)
      (t.st.srcPos + blanks.length + byteLen (c!"/*" ++ body ++ c!"*/"))
      fun t' => InScript t' rest ∧ t'.st.stack = t.st.stack := by
  apply read_comment t blanks _ _ rest hb ht ⟨'/', rfl, .inl rfl⟩
  intro t h
  have h0 : At t (c!"/*" ++ (body ++ '*' :: '/' :: rest)) := by simpa using h
  unfold matchComments
  rw [bind_ok inputPos_at, bind_ok (input_at h0)]
  cases body with
  | nil => exact absurd rfl hne
  | cons c body =>
    by_cases hc : c = '*'
    · subst hc
      have h1 : At t (c!"/**" ++ (body ++ '*' :: '/' :: rest)) := h0
      rw [if_neg (by simp [startsWith]), if_neg (by simp [startsWith]), if_pos (by simp [startsWith])]
      exact blockComment_ok c!"/**" true h1 (fun hi => hbody (hi.trans (List.suffix_cons '*' body).isInfix))
    · rw [if_neg (by simp [startsWith]), if_neg (by simp [startsWith]), if_neg (by simp [startsWith, hc]),
        if_pos (by simp [startsWith])]
      rw [if_neg (by simpa using hc)]
      exact blockComment_ok c!"/*" false h0 hbody

/-- The hypotheses of `C16_block_partial` at a comment with stars and slashes in it. -/
example : (c!" a * b / c " ≠ [] ∧ ¬ c!"*/" <:+: c!" a * b / c ") ∧
    InScript ⟨c!"<?php /* a * b / c */1;", ⟨5, .inScripting, [], 1, ⟨[0], 23⟩, false⟩, []⟩
      (c!" " ++ (c!"/*" ++ c!" a * b / c " ++ c!"*/") ++ c!"1;") :=
  ⟨by decide, rfl, c!"<?php", by decide, by decide⟩

/-- C16 for one-line comments: from `#` or `//` to the end of the line (or of the source), which is left to be
read. -/
theorem C16_line (t : Tz) (blanks opener body rest : Text) (hb : Blank blanks) (ho : opener = c!"#" ∨ opener = c!"//")
    (hbody : '\n' ∉ body) (hr : rest = [] ∨ c!"\n" <+: rest) (ht : InScript t (blanks ++ (opener ++ body) ++ rest)) :
    Reads t (.comment body) (t.st.srcPos + blanks.length)
      (t.st.srcPos + blanks.length + byteLen (opener ++ body))
      fun t' => InScript t' rest ∧ t'.st.stack = t.st.stack := by
  have hr' : ∀ c, rest.head? = some c → c = '\n' := by
    intro c hc
    rcases hr with rfl | ⟨x, rfl⟩
    · cases hc
    · cases hc; rfl
  apply read_comment t blanks _ _ rest hb ht
  · rcases ho with rfl | rfl
    · exact ⟨'#', rfl, .inr rfl⟩
    · exact ⟨'/', rfl, .inl rfl⟩
  · intro t h
    rw [List.append_assoc] at h
    unfold matchComments
    rw [bind_ok inputPos_at, bind_ok (input_at h)]
    have hnl : ∀ c ∈ body, c ≠ '\n' := by rintro c hc rfl; exact hbody hc
    rcases ho with rfl | rfl
    · rw [if_pos (startsWith_append _ _)]
      exact lineComment_ok c!"#" h hnl hr'
    · rw [if_neg (by simp [startsWith]), if_pos (startsWith_append _ _)]
      exact lineComment_ok c!"//" h hnl hr'

example : ('\n' ∉ c!" x */ ?>") ∧ c!"\n" <+: c!"\n1;" ∧
    InScript ⟨c!"<?php // x */ ?>\n1;", ⟨5, .inScripting, [], 1, ⟨[0], 19⟩, false⟩, []⟩
      (c!" " ++ (c!"//" ++ c!" x */ ?>") ++ c!"\n1;") :=
  ⟨by decide, ⟨c!"1;", rfl⟩, rfl, c!"<?php", by decide, by decide⟩

/-! ### C31 -/

/-- C31: while a property name is looked for, any identifier (reserved word or not) is read as a name with its
exact text, and the scanner goes back to the surrounding mode, whichever it is. -/
theorem C31_property_name (t : Tz) (m : LexState) (ms : List LexState) (blanks w rest : Text)
    (hs : t.st.state = .lookingForProperty) (hst : t.st.stack = m :: ms) (hb : Blank blanks)
    (hw : isIdentifier w = true) (hr : endsIdentifier rest = true) (ht : Remaining t (blanks ++ w ++ rest)) :
    Reads t (.string w) (t.st.srcPos + blanks.length) (t.st.srcPos + blanks.length + w.length)
      fun t' => t'.st.state = m ∧ t'.st.stack = ms ∧ Remaining t' rest := by
  intro n
  have hword := Word.of_identifier hw
  have hr' := endsIdentifier_head hr
  have hat : At t (blanks ++ (w ++ rest)) := by rw [← List.append_assoc]; exact .of_remaining ht
  have hm := Moved.ws hat hb.all
  have hpos : (t.ws blanks).st.srcPos = t.st.srcPos + blanks.length := by
    rw [← hb.len]; exact (wsGo_fields blanks hb.all t.st).1
  have hbl : ((w ++ rest).head?.map isBlank).getD false = false := by
    cases w with
    | nil => exact absurd rfl hword.ne
    | cons c w => simp [label_not_blank (hword.lab c (by simp))]
  have hno : startsWithCi (w ++ rest) (ent .ObjectOp).text = false := by
    cases w with
    | nil => exact absurd rfl hword.ne
    | cons c w =>
      have h1 := hword.lab c (by simp)
      have : c ≠ '-' := by rintro rfl; revert h1; decide
      cases hx : startsWithCi (c :: w ++ rest) (ent .ObjectOp).text with
      | false => rfl
      | true =>
        obtain ⟨q, hq, _⟩ := startsWithCi_split hx
        exact absurd (List.cons.inj hq).1 this
  have hlab := label_some hm.at' hword.ne hword.lab hword.dig hr'
  rw [byteLen_ascii hword.asc] at hlab
  have hm2 := Moved.adv' hm.at' (n := w.length) (byteLen_ascii hword.asc).symm
  have hm3 := hm.trans hm2
  let t1 : Tz := (t.ws blanks).adv w.length
  let t2 : Tz := { t1 with st := { t1.st with state := m, stack := ms } }
  have hpop : popState t1 = .ok () t2 := by
    show popState t1 = _
    have e : t1.st.stack = m :: ms := hm3.stack.trans hst
    unfold popState
    tstep t1.st t1
    rw [e]
    rfl
  have hrun : lookingForPropertyToken t =
      .ok ⟨.string w, mkSpan (t.ws blanks).st.srcPos ((t.ws blanks).st.srcPos + w.length)⟩ t2 := by
    unfold lookingForPropertyToken
    refine (bind_ok (whitespace_at hat hb.all hbl)).trans ?_
    refine (orElse_none (matchTok_none _ hm.at' hno)).trans ?_
    refine (bind_ok hlab).trans ?_
    exact bind_ok hpop
  refine ⟨mkSpan (t.ws blanks).st.srcPos ((t.ws blanks).st.srcPos + w.length), t2, ?_, hpos, ?_, rfl, rfl, ?_⟩
  · unfold nextToken
    simp only [hs, hrun]
  · show (t.ws blanks).st.srcPos + w.length = _
    rw [hpos]
  · obtain ⟨before, h1, h2⟩ := hm3.at'.remaining
    exact ⟨before, h1, h2⟩

/-- C31: in a script, `->` is a token of its own behind which a property name is looked for, with the script as
surrounding mode. -/
theorem C31_arrow (t : Tz) (blanks rest : Text) (hb : Blank blanks) (ht : InScript t (blanks ++ c!"->" ++ rest)) :
    Reads t (.k .ObjectOp) (t.st.srcPos + blanks.length) (t.st.srcPos + blanks.length + 2)
      fun t' => t'.st.state = .lookingForProperty ∧ t'.st.stack = .inScripting :: t.st.stack ∧ Remaining t' rest := by
  intro n
  have hat : At t (blanks ++ (c!"->" ++ rest)) := by rw [← List.append_assoc]; exact ht.at
  have hm := Moved.ws hat hb.all
  have hpos : (t.ws blanks).st.srcPos = t.st.srcPos + blanks.length := by
    rw [← hb.len]; exact (wsGo_fields blanks hb.all t.st).1
  have hm2 := Moved.adv' hm.at' (n := 2) rfl
  have hm3 := hm.trans hm2
  have hok : ∀ c, rest.head? = some c → okNext c!"->" c = true := by
    intro c _
    have : ∀ e ∈ otherTable, (e.text.map lowerAscii).take 3 = (e.text.map lowerAscii).take 2 ∨
        (e.text.map lowerAscii).take 2 ≠ c!"->" := by decide +kernel
    simp only [okNext, List.all_eq_true, bne_iff_ne]
    intro e he heq
    have heq' : (e.text.map lowerAscii).take 3 = ['-', '>', c] := heq
    rcases this e he with h | h
    · have := congrArg List.length (h.symm.trans heq')
      simp at this
      omega
    · apply h
      have := congrArg (List.take 2) heq'
      rw [List.take_take] at this
      exact this
  obtain ⟨d, hd⟩ := op_table (e := ⟨Kw.repr .ObjectOp, .ObjectOp, .push .lookingForProperty⟩)
    (t' := { (t.ws blanks).adv 2 with st := ((t.ws blanks).adv 2).st.push .lookingForProperty }) hm.at' rfl
    (by intro c hc; cases hc; decide) (by simp) (by intro c hc; cases hc; decide) rfl hok (by rfl) (by rfl)
  refine ⟨_, _, next_scripting ht.1 ((plain_scripting _ _ hat hb.all rfl rfl).trans hd), hpos, ?_, rfl, ?_, ?_⟩
  · show (t.ws blanks).st.srcPos + 2 = _
    rw [hpos]
  · show ((t.ws blanks).adv 2).st.state :: ((t.ws blanks).adv 2).st.stack = _
    rw [hm3.state, hm3.stack, ht.1]
  · obtain ⟨before, h1, h2⟩ := hm3.at'.remaining
    exact ⟨before, h1, h2⟩

/-- The hypotheses of the C31 theorems at `$a-> class;`: the reserved word becomes a name. -/
example : ∃ t1 t2 sp1 sp2,
    nextToken 9 ⟨c!"<?php $a-> class;", ⟨8, .inScripting, [], 1, ⟨[0], 17⟩, false⟩, []⟩ = .ok ⟨.k .ObjectOp, sp1⟩ t1 ∧
    nextToken 9 t1 = .ok ⟨.string c!"class", sp2⟩ t2 ∧ InScript t2 c!";" := by
  obtain ⟨sp1, t1, h1, _, _, g1, g2, g3⟩ := C31_arrow
    ⟨c!"<?php $a-> class;", ⟨8, .inScripting, [], 1, ⟨[0], 17⟩, false⟩, []⟩ [] c!" class;" (by intro c hc; cases hc)
    ⟨rfl, c!"<?php $a", by decide, by decide⟩ 8
  obtain ⟨sp2, t2, h2, _, _, k1, k2, k3⟩ := C31_property_name t1 _ _ c!" " c!"class" c!";" g1 g2
    (by intro c hc; revert c; decide) (by decide) (by decide) g3 8
  exact ⟨t1, t2, sp1, sp2, h1, h2, k1, k3⟩

/-! ### C06 -/

/-- C06: a non-empty text without `<?` is parsed as one echo of one string literal with exactly that text, and
both span the whole text. -/
theorem C06_text (src : Text) (hne : src ≠ []) (h : ¬ c!"<?" <:+: src) :
    ∃ sp sp', Ends src (.ok [.mk (.echo [.mk (.str src) sp]) sp']) ∧ sp.start = 0 ∧ sp.stop = byteLen src ∧
      sp'.start = 0 ∧ sp'.stop = byteLen src := by
  have hat : At (Tz.new src) src := dropBytes_zero src
  have hf : findEntry [⟨Kw.repr .OpenTagWithEcho, .OpenTagWithEcho, .set .inScripting⟩,
      ⟨Kw.repr .OpenTag, .OpenTag, .set .inScripting⟩, ⟨c!"<?", .OpenTag, .set .inScripting⟩] src = none := by
    unfold findEntry
    rw [List.find?_eq_none]
    intro e he hs
    apply h
    obtain ⟨q, hq, hq'⟩ := startsWithCi_split hs
    have : c!"<?" <+: e.text.map lowerAscii := by
      clear hq hq' hs
      revert e
      decide
    rw [hq]
    exact (this.trans (List.prefix_append _ _)).isInfix
  have h1 : initialToken (Tz.new src) =
      .ok ⟨.inlineHtml src, mkSpan 0 (byteLen src)⟩ ((Tz.new src).adv (byteLen src)) := by
    unfold initialToken
    refine (bind_ok (input_at hat)).trans ?_
    rw [if_neg (by simpa using hne)]
    refine (orElse_none (matchFirst_none _ hat hf)).trans ?_
    refine (bind_ok (input_at hat)).trans ?_
    rw [beforeSub_none h]
    dsimp only
    rw [if_pos (by have := byteLen_pos hne; simp; omega)]
    refine (bind_ok inputPos_at).trans ?_
    have hat' : At (Tz.new src) (src ++ []) := by rw [List.append_nil]; exact hat
    refine (bind_ok (advanceBytes_at hat')).trans ?_
    rw [show (Tz.new src).st.srcPos = 0 from rfl, Nat.zero_add]
    rfl
  have hat2 : At ((Tz.new src).adv (byteLen src)) [] := by
    apply At.adv
    rw [List.append_nil]
    exact hat
  let t2 : Tz := { (Tz.new src).adv (byteLen src) with st := { ((Tz.new src).adv (byteLen src)).st with state := .done } }
  have h2 : initialToken ((Tz.new src).adv (byteLen src)) =
      .ok ⟨.k .End, mkSpan (byteLen src) (byteLen src)⟩ t2 := by
    unfold initialToken
    refine (bind_ok (input_at hat2)).trans ?_
    rfl
  have hl : lexAll 20 20 (Tz.new src) [] = .ok ([⟨.inlineHtml src, mkSpan 0 (byteLen src)⟩], t2) := by
    have e1 := next_initial (n := 19) (rfl : (Tz.new src).st.state = .initial) h1
    have e2 := next_initial (n := 19) (rfl : ((Tz.new src).adv (byteLen src)).st.state = .initial) h2
    unfold lexAll
    rw [e1]
    simp only [reduceCtorEq, if_false]
    unfold lexAll
    rw [e2]
    rfl
  refine ⟨mkSpan 0 (byteLen src), mkSpan 0 (byteLen src), ⟨20, ?_, by intro h; cases h⟩, rfl, rfl, rfl, rfl⟩
  unfold parseStrN
  rw [hl]
  rfl

/-- The hypotheses of `C06_text` at a text with a newline, a lone `<` and non-ASCII letters. -/
example : c!"a < b ?\nü" ≠ [] ∧ ¬ c!"<?" <:+: c!"a < b ?\nü" := by decide

end Pico
