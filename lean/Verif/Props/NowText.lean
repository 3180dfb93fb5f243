import Verif.Spec.NowText
import Verif.Props.Document
/-!
# Now documents with backslashes (C58)
-/
namespace Pico

private theorem nowText_snips {tag rest : Text} (body : Text) (text : Text) (h1 : nowText body = some text) (h2 : '$' ∉ body) (h3 : '{' ∉ body)
    (h4 : ∀ pre post, body = pre ++ '\n' :: post → ¬ tag <+: post ++ rest) :
    ∃ fs, FragsOk (.now tag) fs rest ∧ fragSrc fs = body ∧ fragBytes fs = utf8 text := by
  fun_induction nowText body generalizing text with
  | case1 => cases h1; exact ⟨[], trivial, rfl, rfl⟩
  | case2 => cases h1
  | case3 c hc =>
    cases h1
    simp only [List.mem_singleton] at h2 h3
    refine ⟨[.plain c], ⟨⟨hc, Ne.symm h2, Ne.symm h3, ?_⟩, trivial⟩, rfl, by simp [fragBytes]⟩
    rintro rfl
    exact h4 [] [] rfl
  | case4 d t hd ih =>
    obtain ⟨s, hs, rfl⟩ := Option.map_eq_some_iff.1 h1
    simp only [List.mem_cons, not_or] at h2 h3
    obtain ⟨fs, i1, i2, i3⟩ := ih s hs h2.2.2 h3.2.2 fun pre post e => h4 ('\\' :: d :: pre) post (by rw [e]; rfl)
    refine ⟨.esc ['\\', d] (utf8 [d]) :: fs, ⟨.known d hd, i1⟩, ?_, ?_⟩
    · show '\\' :: d :: fragSrc fs = _
      rw [i2]
    · show utf8 [d] ++ fragBytes fs = _
      rw [i3, ← utf8_append]; rfl
  | case5 d t hd ih =>
    obtain ⟨s, hs, rfl⟩ := Option.map_eq_some_iff.1 h1
    simp only [List.mem_cons, not_or] at h2 h3
    obtain ⟨fs, i1, i2, i3⟩ := ih s hs h2.2.2 h3.2.2 fun pre post e => h4 ('\\' :: d :: pre) post (by rw [e]; rfl)
    refine ⟨.esc ['\\', d] (utf8 ['\\', d]) :: fs, ⟨.other d (not_or.1 hd), i1⟩, ?_, ?_⟩
    · show '\\' :: d :: fragSrc fs = _
      rw [i2]
    · show utf8 ['\\', d] ++ fragBytes fs = _
      rw [i3, ← utf8_append]; rfl
  | case6 c d t hc ih =>
    obtain ⟨s, hs, rfl⟩ := Option.map_eq_some_iff.1 h1
    simp only [List.mem_cons, not_or] at h2 h3
    obtain ⟨fs, i1, i2, i3⟩ := ih s hs (by simp [h2.2.1, h2.2.2]) (by simp [h3.2.1, h3.2.2]) fun pre post e => h4 (c :: pre) post (by rw [e]; rfl)
    refine ⟨.plain c :: fs, ⟨⟨hc, Ne.symm h2.1, Ne.symm h3.1, ?_⟩, i1⟩, ?_, ?_⟩
    · rintro rfl
      rw [i2]
      exact h4 [] (d :: t) rfl
    · show c :: fragSrc fs = _
      rw [i2]
    · show utf8 [c] ++ fragBytes fs = _
      rw [i3, ← utf8_append]; rfl

private theorem nowText_length (body text : Text) (h : nowText body = some text) : text.length ≤ body.length := by
  fun_induction nowText body generalizing text with
  | case1 => cases h; simp
  | case2 => cases h
  | case3 => cases h; simp
  | case4 d t hd ih | case5 d t hd ih | case6 c d t hc ih =>
    obtain ⟨s, hs, rfl⟩ := Option.map_eq_some_iff.1 h
    have := ih s hs
    simp at this ⊢
    omega

private theorem infix_pair {a b c : Char} {t : Text} : [a, b] <:+: c :: t ↔ (c = a ∧ ∃ u, t = b :: u) ∨ [a, b] <:+: t := by
  rw [List.infix_cons_iff]
  constructor
  · rintro (⟨u, h⟩ | h)
    · simp at h
      exact .inl ⟨h.1.symm, u, h.2.symm⟩
    · exact .inr h
  · rintro (⟨rfl, u, rfl⟩ | h)
    · exact .inl ⟨u, rfl⟩
    · exact .inr h

/-- The text differs from the body exactly if two backslashes, or a backslash and a quotation mark, are adjacent in the body. -/
theorem nowText_same (body text : Text) (h : nowText body = some text) : text = body ↔ ¬ c!"\\\\" <:+: body ∧ ¬ c!"\\'" <:+: body := by
  fun_induction nowText body generalizing text with
  | case1 => cases h; simp
  | case2 => cases h
  | case3 c hc => cases h; simp [infix_pair]
  | case4 d t hd ih =>
    obtain ⟨s, hs, rfl⟩ := Option.map_eq_some_iff.1 h
    have hl := nowText_length t s hs
    constructor
    · intro e
      have := congrArg List.length e
      simp at this
      omega
    · rintro ⟨h1, h2⟩
      rcases hd with rfl | rfl
      · exact absurd ⟨[], t, rfl⟩ h1
      · exact absurd ⟨[], t, rfl⟩ h2
  | case5 d t hd ih =>
    obtain ⟨s, hs, rfl⟩ := Option.map_eq_some_iff.1 h
    have := ih s hs
    simp only [not_or] at hd
    simp only [infix_pair, List.cons.injEq, true_and, this, hd.1, false_and, false_or, hd.2]
    simp [hd.1, hd.2]
  | case6 c d t hc ih =>
    obtain ⟨s, hs, rfl⟩ := Option.map_eq_some_iff.1 h
    have := ih s hs
    rw [infix_pair (c := c) (t := d :: t), infix_pair (c := c) (b := '\'') (t := d :: t)]
    simp only [List.cons.injEq, true_and, this, hc, false_and, false_or]

/-- **C58** for now documents with backslashes, which says where it fails: the script returns the text in which two backslashes have become one and a backslash in front of a
quotation mark has disappeared. So a now document stands for the text between its labels exactly if these are not adjacent in it. -/
theorem C58_now_exact (b tag nl body text : Text) (hb : Spaces b) (ht : IsLabel tag) (hn : Newline nl (body ++ c!"\n"))
    (h1 : nowText body = some text) (h2 : '$' ∉ body) (h3 : '{' ∉ body)
    (h4 : ∀ pre post, body = pre ++ '\n' :: post → ¬ tag <+: post ++ (c!"\n" ++ tag ++ c!";\n"))
    (hs : ¬ HasStray (docScript b c!"'" tag nl body)) :
    (∃ ss, Ends (docScript b c!"'" tag nl body) (.ok ss) ∧ eraseStmts ss = [bareS (.ret (some (bare (.str text))))]) ∧
      (text = body ↔ ¬ c!"\\\\" <:+: body ∧ ¬ c!"\\'" <:+: body) := by
  refine ⟨?_, nowText_same body text h1⟩
  have hw : ¬ HasWild (docScript b c!"'" tag nl body) := no_wild (now_script b tag nl body hb ht hn h2)
  obtain ⟨fs, i1, i2, i3⟩ := nowText_snips (tag := tag) (rest := c!"\n" ++ tag ++ c!";\n") body text h1 h2 h3 h4
  have hd := Doc.now (rest := c!";\n") b tag nl fs (.encaps text) hb ht (by rw [i2]; exact hn) i1 (by rw [i3]; exact .text text)
    ends_semi
  rw [i2] at hd
  have hsrc : docScript b c!"'" tag nl body =
      c!"<?php return " ++ (c!"<<<" ++ b ++ c!"'" ++ tag ++ c!"'" ++ nl ++ body ++ c!"\n" ++ tag) ++ c!";\n" := by
    simp [docScript]
  rw [hsrc] at hw hs ⊢
  exact return_parses hd (by simp) hw hs (by
    intro t ht
    rw [List.mem_singleton.1 ht]; exact ⟨rfl, rfl⟩) (.e_var (p := 0) (.v_str text (.a_nil false _)))

/-- The conditions hold for a document of two lines with all kinds of backslashes. -/
example : let body := c!"\\n \\\\ \n\\'"
    nowText body = some c!"\\n \\ \n'" ∧ '$' ∉ body ∧ '{' ∉ body ∧ Newline c!"\n" (body ++ c!"\n") ∧
      (∀ pre post, body = pre ++ '\n' :: post → ¬ c!"A" <+: post ++ (c!"\n" ++ c!"A" ++ c!";\n")) ∧
      ¬ HasStray (docScript [] c!"'" c!"A" c!"\n" body) :=
  ⟨by decide, by decide, by decide, .inl rfl, now_lines (by decide +kernel), fun h => absurd (strays_of h) (by decide +kernel)⟩

end Pico
