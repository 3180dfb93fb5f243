import Verif.Lemmas.LayTok
import Verif.Lemmas.Unique
import Verif.Props.Source
import Verif.Props.Violations
/-!
# Line ends inside of type casts (C34)
-/
namespace Pico

private theorem blank_one : Blank c!" " := by intro c hc; simp at hc; exact .inl hc

/-- A type cast, `$a` and a semicolon. -/
private def castItems (b w b' : Text) (k : Kw) : List Item :=
  [.gap c!" ", .lex (.cast b w b' k), .lex (.var c!"a"), .lex (.sym c!";" .SemiColon)]

/-- The same as three lexemes. -/
private def looseItems (b w b' : Text) : List Item :=
  [.gap c!" ", .lex (.sym c!"(" .ParenthesesOpen), .gap b, .lex (.word w), .gap b', .lex (.sym c!")" .ParenthesesClose),
    .lex (.var c!"a"), .lex (.sym c!";" .SemiColon)]

private theorem tokens_of {is : List Item} {src : Text} (h : Script is false) (he : scriptText is false = src) :
    ∃ n, tokensOf n src = some (.k .OpenTag :: toks false is) := by
  obtain ⟨n, ts, h1, h2⟩ := script_tokens is false h
  rw [he] at h1
  refine ⟨n, ?_⟩
  have h3 : tokensOf n src = some (ts.map TokSpan.tok) := by
    unfold spansOf at h1
    unfold tokensOf
    split at h1
    · cases h1
      rfl
    · cases h1
  rw [h3, h2]
  simp

private theorem not_cast {b w b' r : Text} {k : Kw} (h : (w, k) ∈ castWords) (hb : Blank b) (hb' : Blank b') (hn : ¬ (Spaces b ∧ Spaces b')) :
    ¬ CastAhead (b ++ (w ++ (b' ++ ')' :: r))) := by
  rintro ⟨s, w', s', r', e, hs, hs', k', h'⟩
  have sp : ∀ {s : Text}, Spaces s → Blank s := fun hs c hc => (hs c hc).imp_right .inl
  let p : Char → Prop := fun c => c = ' ' ∨ c = '\t' ∨ c = '\r' ∨ c = '\n'
  have nolab : ∀ {c s : Text}, Blank c → ∀ d, (c ++ (')' :: s)).head? = some d → ¬ isLabelChar d = true := by
    intro c s hc d hd hl
    cases c with
    | nil => cases hd; cases hl
    | cons a c =>
      cases hd
      rcases hc d (by simp) with rfl | rfl | rfl | rfl <;> cases hl
  have noblank : ∀ {w s : Text} {k : Kw}, (w, k) ∈ castWords → ∀ d, (w ++ s).head? = some d → ¬ p d := by
    intro w s k hw d hd hp
    obtain ⟨h1, h2⟩ := castWords_keys.2 _ hw
    cases w with
    | nil => exact h1 rfl
    | cons a w =>
      cases hd
      have := h2 d (by simp)
      rcases hp with rfl | rfl | rfl | rfl <;> cases this
  have e1 : b ++ (w ++ (b' ++ ')' :: r)) = s ++ (w' ++ (s' ++ ')' :: r')) := by simpa using e
  obtain ⟨rfl, e2⟩ := run_unique (p := p) hb (sp hs) (noblank h) (noblank h') e1
  obtain ⟨rfl, e3⟩ := run_unique (p := fun c => isLabelChar c = true) (castWords_keys.2 _ h).2 (castWords_keys.2 _ h').2 (nolab hb') (nolab (sp hs')) e2
  obtain ⟨rfl, -⟩ := run_unique (p := p) hb' (sp hs') (fun d hd h => by cases hd; revert h; decide) (fun d hd h => by cases hd; revert h; decide) e3
  exact hn ⟨hs, hs'⟩

/-- **C34** fails for every type cast: with spaces and tabs inside it is a type cast, with other blanks it is a word between parentheses. -/
theorem C34_fails_class (w : Text) (k : Kw) (h : (w, k) ∈ castWords) (s s' b b' : Text) (hs : Spaces s) (hs' : Spaces s') (hb : Blank b)
    (hb' : Blank b') (hn : ¬ (Spaces b ∧ Spaces b')) :
    (∃ n, tokensOf n (c!"<?php (" ++ s ++ w ++ s' ++ c!")$a;") = some [.k .OpenTag, .k k, .variable c!"a", .k .SemiColon]) ∧
    ∃ n, tokensOf n (c!"<?php (" ++ b ++ w ++ b' ++ c!")$a;") =
      some [.k .OpenTag, .k .ParenthesesOpen, identifierToken w, .k .ParenthesesClose, .variable c!"a", .k .SemiColon] := by
  have htab : ∀ p ∈ castWords, isIdentifier p.1 = true ∧ p.1 ≠ c!"yieldfrom" ∧ p.1 ≠ c!"yield" ∧ p.1 ≠ c!"b" := by decide +kernel
  obtain ⟨t1, t2, t3, t4⟩ := htab _ h
  constructor
  · exact tokens_of (is := castItems s w s' k) ⟨⟨blank_one, ⟨hs, hs', h⟩, trivial, rfl, rfl, (by decide : _ ∈ symbols), ⟨nofun, nofun, nofun⟩, trivial⟩, 0, rfl⟩
      (by simp [scriptText, castItems, render, Item.text, Lexeme.text])
  · refine tokens_of (is := looseItems b w b') ⟨⟨blank_one, (by decide : _ ∈ symbols), ⟨?_, fun _ => ?_, nofun⟩, hb, ⟨t1, t2⟩,
      ⟨?_, fun _ => ⟨fun e => absurd e t3, fun e => absurd e t4⟩⟩, hb', (by decide : _ ∈ symbols), ⟨?_, nofun, nofun⟩, rfl, rfl,
      (by decide : _ ∈ symbols), ⟨nofun, nofun, nofun⟩, trivial⟩, 0, rfl⟩
      (by simp [scriptText, looseItems, render, Item.text, Lexeme.text])
    · intro c _
      simp [stops, symbols, List.isPrefixOf]
    · have := not_cast (r := c!"$a;") h hb hb' hn
      simpa [render, Item.text, Lexeme.text] using this
    · cases b' with
      | nil => rfl
      | cons a b' => rcases hb' a (by simp) with rfl | rfl | rfl | rfl <;> rfl
    · intro c hc
      obtain rfl : '$' = c := by simpa [render, Item.text, Lexeme.text] using hc
      decide

/-- `(int)$a` and `(⏎int )$a` meet the hypotheses. -/
example : (c!"int", Kw.CastInt) ∈ castWords ∧ Spaces [] ∧ Blank c!"\n" ∧ Blank c!" " ∧ ¬ (Spaces c!"\n" ∧ Spaces c!" ") := by
  refine ⟨by decide, nofun, ?_, blank_one, fun h => ?_⟩
  · intro c hc; simp at hc; simp [hc]
  · have := h.1 '\n' (by simp)
    revert this
    decide

end Pico
