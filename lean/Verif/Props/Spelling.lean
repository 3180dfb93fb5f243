import Verif.Props.Programs
/-!
# How far off the spelling of words and of the empty comment is (C11, C16)
-/
namespace Pico
open T

private theorem id_of_lower (c : Char) (h : isIdChar (lowerAscii c) = true) (hd : (lowerAscii c).isDigit = false) :
    isIdChar c = true ∧ c.isDigit = false := by
  unfold lowerAscii at h hd
  split at h
  · rename_i hr
    unfold inRange at hr
    simp only [Bool.and_eq_true, decide_eq_true_eq] at hr
    have hu : c.isUpper = true := by
      simp only [Char.isUpper, Bool.and_eq_true, decide_eq_true_eq]
      exact ⟨hr.1, hr.2⟩
    refine ⟨by simp [isIdChar, Char.isAlphanum, Char.isAlpha, hu], ?_⟩
    cases hd : c.isDigit with
    | false => rfl
    | true =>
      simp only [Char.isDigit, Bool.and_eq_true, decide_eq_true_eq] at hd
      exact absurd (Nat.le_trans hr.1 hd.2) (by decide)
  · rename_i hr
    rw [if_neg hr] at hd
    exact ⟨h, hd⟩

private theorem blank_one : Blank c!" " := by intro c hc; simp at hc; exact .inl hc

/-- One word and a semicolon. -/
private def oneWord (w : Text) : List Item := [.gap c!" ", .lex (.word w), .lex (.sym c!";" .SemiColon)]

private theorem oneWord_script {w : Text} (h : isIdentifier w = true) (hy : w ≠ c!"yieldfrom") : Script (oneWord w) false := by
  refine ⟨⟨blank_one, ⟨h, hy⟩, ⟨rfl, fun _ => ⟨fun _ => ?_, fun _ => by decide⟩⟩, (by decide : _ ∈ symbols), ⟨nofun, nofun, nofun⟩, trivial⟩, 0, rfl⟩
  rintro ⟨b, r, hr, hb⟩
  cases b with
  | nil => cases hr
  | cons c b =>
    injection hr with h1 h2
    subst h1
    have := hb ';' (by simp)
    revert this
    decide

/-- **C11** fails for every reserved word and every spelling of it that is not in lower case throughout: the word is an ordinary name. -/
theorem C11_fails_class (w : Text) (k : Kw) (h : (w.map lowerAscii, k) ∈ reservedWords) (hw : w.map lowerAscii ≠ w) :
    ∃ n, tokensOf n (c!"<?php " ++ w ++ c!";") = some [.k .OpenTag, .string w, .k .SemiColon] := by
  have htab : ∀ x ∈ reservedWords, x.1 ≠ [] ∧ x.1.map lowerAscii = x.1 ∧ x.1.all (fun c => isIdChar c) = true ∧
      (∀ c, x.1.head? = some c → c.isDigit = false) ∧ x.1.all (fun c => !c.isDigit) = true := by
    have : ∀ x ∈ reservedWords, x.1 ≠ [] ∧ x.1.map lowerAscii = x.1 ∧ x.1.all (fun c => isIdChar c) = true ∧
      x.1.all (fun c => !c.isDigit) = true := by decide +kernel
    intro x hx
    obtain ⟨h1, h2, h3, h4⟩ := this x hx
    refine ⟨h1, h2, h3, ?_, h4⟩
    intro c hc
    have := List.all_eq_true.1 h4 c (List.mem_of_head? hc)
    simpa using this
  have hall : ∀ c ∈ w, isIdChar c = true ∧ c.isDigit = false := by
    intro c hc
    obtain ⟨-, -, h3, -, h5⟩ := htab _ h
    have hm : lowerAscii c ∈ w.map lowerAscii := List.mem_map_of_mem hc
    exact id_of_lower c (List.all_eq_true.1 h3 _ hm) (by simpa using List.all_eq_true.1 h5 _ hm)
  have hid : isIdentifier w = true := by
    cases w with
    | nil => exact absurd rfl hw
    | cons x xs =>
      show (isIdChar x && !x.isDigit && xs.all isIdChar) = true
      obtain ⟨h1, h2⟩ := hall x List.mem_cons_self
      rw [h1, h2, List.all_eq_true.2 fun y hy => (hall y (List.mem_cons_of_mem _ hy)).1]
      rfl
  have hy : w ≠ c!"yieldfrom" := fun e => hw (by rw [e]; decide)
  have hres : identifierToken w = .string w := by
    unfold identifierToken
    cases hl : reservedWords.lookup w with
    | none => rfl
    | some k' => exact absurd (htab _ (lookup_mem hl)).2.1 hw
  obtain ⟨n, ts, h1, h2⟩ := script_tokens (oneWord w) false (oneWord_script hid hy)
  refine ⟨n, ?_⟩
  have ht : scriptText (oneWord w) false = c!"<?php " ++ w ++ c!";" := by
    simp [scriptText, oneWord, render, Item.text, Lexeme.text]
  rw [ht] at h1
  have h3 : tokensOf n (c!"<?php " ++ w ++ c!";") = some (ts.map TokSpan.tok) := by
    unfold spansOf at h1
    unfold tokensOf
    split at h1
    · cases h1
      rfl
    · cases h1
  rw [h3, h2]
  simp [oneWord, toks, Lexeme.tok, hres]

example : ∃ n, tokensOf n c!"<?php Echo;" = some [.k .OpenTag, .string c!"Echo", .k .SemiColon] :=
  C11_fails_class c!"Echo" .Echo (by decide) (by decide)

/-- **C16** fails for every empty comment that is followed by another end of a comment: all the text up to there is taken for the comment. -/
theorem C16_fails_class (t : Tz) (blanks body rest : Text) (hb : Blank blanks) (hbody : ¬ c!"*/" <:+: body)
    (ht : InScript t (blanks ++ (c!"/**/" ++ body ++ c!"*/") ++ rest)) :
    Reads t (.comment (c!"/" ++ body)) (t.st.srcPos + blanks.length)
      (t.st.srcPos + blanks.length + byteLen (c!"/**/" ++ body ++ c!"*/")) fun t' => InScript t' rest ∧ t'.st.stack = t.st.stack := by
  apply read_comment t blanks _ _ rest hb ht ⟨'/', rfl, .inl rfl⟩
  intro t h
  have h0 : At t (c!"/**" ++ (('/' :: body) ++ '*' :: '/' :: rest)) := by simpa using h
  unfold matchComments
  rw [bind_ok inputPos_at, bind_ok (input_at h0)]
  rw [if_neg (by simp [startsWith]), if_neg (by simp [startsWith]), if_pos (by simp [startsWith])]
  refine blockComment_ok c!"/**" true h0 fun hi => hbody ?_
  rcases List.infix_cons_iff.1 hi with ⟨r, hr⟩ | hi
  · cases hr
  · exact hi

/-- The call of `f` lies in the text that is taken for the comment. -/
example : ¬ c!"*/" <:+: c!" f(); /* x " ∧
    InScript ⟨c!"<?php /**/ f(); /* x */1;", ⟨5, .inScripting, [], 1, ⟨[0], 25⟩, false⟩, []⟩
      (c!" " ++ (c!"/**/" ++ c!" f(); /* x " ++ c!"*/") ++ c!"1;") :=
  ⟨by decide, rfl, c!"<?php", by decide, by decide⟩

end Pico
