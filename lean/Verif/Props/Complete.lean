import Verif.Lemmas.GoNext
import Verif.Props.Layout
/-!
# C43: every source that consists of pieces is tokenized, to the tokens of its pieces

With it what is known of tokens (C34, C38, C40) and of programs (C07) holds of every text that is laid out in pieces.
-/
namespace Pico

theorem laid_lex {src : Text} {ts : List Token} (h : Laid .html src ts) (hb : ¬ HasWild src) (hs : ¬ HasStray src) (hc : Closed 0 ts)
    (hd : ¬ DotEnd src ts) : ∃ F n toks t, lexAll F n (Tz.new src) [] = .ok (toks, t) ∧ toks.map TokSpan.tok = ts := by
  obtain ⟨F, hF⟩ := enough (.inr ⟨hb, hs⟩)
  obtain ⟨n, hn⟩ := lexAll_ends hF _ _ (Tz.new src) [] (inv_new src) rfl (Nat.le_refl _) (Nat.le_refl _)
  have hr : Rest (Tz.new src) ts := ⟨ts, src, rfl, dropBytes_zero src, h⟩
  have hz : Busy (Tz.new src) := by
    intro s hs
    rcases List.mem_cons.1 hs with rfl | h
    · exact ⟨nofun, nofun⟩
    · cases h
  rcases lexAll_go (fuel := F) n (Tz.new src) [] ts (inv_new src) nofun hz hb hs hr (fun rs e => (show ts = rs from e) ▸ hc) hd with h | ⟨b, t, h, e⟩
  · exact absurd h hn
  · exact ⟨F, n, b, t, h, e⟩

/-- **C43**, the other direction: a text that consists of blanks and pieces can be tokenized, and has the tokens of its
pieces. It holds for all texts in which `{$` and `${` are followed by simple closed expressions (`HasWild`) and without stray
prefixes of numbers (`C42_fails`), provided that no brace is closed that is not open (`C43_fails_brace`) and that the text does not
end with the symbol `.` (`C43_fails_dot`). -/
theorem C43_complete_partial (src : Text) (ts : List Token) (h : Laid .html src ts) (hb : ¬ HasWild src) (hs : ¬ HasStray src)
    (hc : Closed 0 ts) (hd : ¬ DotEnd src ts) : ∃ n toks, spansOf n src = some toks ∧ toks.map TokSpan.tok = ts := by
  obtain ⟨F, n, toks, t, hl, e⟩ := laid_lex h hb hs hc hd
  refine ⟨max F n, toks, ?_, e⟩
  have := (lexAll_mono (f := F) (f' := max F n) (by omega) (n := n) (n' := max F n) (by omega) (Tz.new src) []).resolve_left (by rw [hl]; nofun)
  unfold spansOf
  rw [← this, hl]

/-- **C43** as an equivalence: under these conditions, and if names are ASCII (`C42_fails_names`), the tokens of a text are
those of its pieces and nothing else. -/
theorem C43_iff_partial (src : Text) (ts : List Token) (hb : ¬ HasWild src) (hs : ¬ HasStray src) (hc : Closed 0 ts)
    (hd : ¬ DotEnd src ts) (ha : ∀ w, .string w ∈ ts → ascii w = true) :
    (∃ n toks, spansOf n src = some toks ∧ toks.map TokSpan.tok = ts) ↔ Laid .html src ts := by
  refine ⟨?_, fun h => C43_complete_partial src ts h hb hs hc hd⟩
  rintro ⟨n, toks, h, rfl⟩
  exact C42_partial src n toks h hb hs fun x hx w hw => ha w (List.mem_map.2 ⟨x, hx, hw⟩)

/-- **C38** and **C34** for all texts that consist of pieces, with here documents, interpolated strings and text outside of
tags: if the pieces of two texts have the same tokens, apart from comments and tags, both are parsed alike, whether the
parser accepts, rejects or panics. Missing: expressions between braces inside of strings
that are not simple (`HasWild`). -/
theorem C38_laid_partial (src src' : Text) (ts ts' : List Token) (h : Laid .html src ts) (h' : Laid .html src' ts')
    (hv : ts.flatMap seenAs = ts'.flatMap seenAs)
    (hb : ¬ HasWild src) (hs : ¬ HasStray src) (hc : Closed 0 ts) (hd : ¬ DotEnd src ts)
    (hb' : ¬ HasWild src') (hs' : ¬ HasStray src') (hc' : Closed 0 ts') (hd' : ¬ DotEnd src' ts')
    (r : Outcome SpannedErr (List Stmt)) (hr : Ends src r) : ∃ r', Ends src' r' ∧ Agree r r' := by
  obtain ⟨n, xs, h1, e1⟩ := C43_complete_partial src ts h hb hs hc hd
  obtain ⟨m, ys, h2, e2⟩ := C43_complete_partial src' ts' h' hb' hs' hc' hd'
  exact C40_tokens src src' n m xs ys h1 h2 (by rw [visible_eq, visible_eq, e1, e2, hv]) r hr

/-- **C07** for all texts that consist of pieces: if the tokens form a program of the grammar, the text is accepted and the
tree is that of the grammar. -/
theorem C07_laid_partial (src : Text) (ts : List Token) (ss : List Stmt) (h : Laid .html src ts) (hb : ¬ HasWild src)
    (hs : ¬ HasStray src) (hc : Closed 0 ts) (hd : ¬ DotEnd src ts) (hne : ts.flatMap seenAs ≠ [])
    (hp : Derives .tops (ts.flatMap seenAs) ss) : ∃ ss', eraseStmts ss' = ss ∧ Ends src (.ok ss') := by
  obtain ⟨n, xs, h1, e1⟩ := C43_complete_partial src ts h hb hs hc hd
  exact source_parses src n xs ss h1 (by rw [visible_eq, e1]; exact hne) (by rw [visible_eq, e1]; exact hp)

/-! ## Examples -/

theorem closed_of {d : Nat} {ts : List Token} (h : ((List.range (ts.length + 1)).map ts.take).all (fun a => decide ((a.filter closesBrace).length ≤ d + (a.filter opensBrace).length)) = true) :
    Closed d ts := by
  rintro a b rfl
  have := List.all_eq_true.1 h a (List.mem_map.2 ⟨a.length, List.mem_range.2 (by simp; omega), by simp⟩)
  simpa using this

/-- A text with everything that C42 speaks of meets the conditions. -/
example : ∃ ts, Laid .html laidSample ts ∧ ts.length = 40 ∧ ¬ HasWild laidSample ∧ ¬ HasStray laidSample ∧ Closed 0 ts ∧ ¬ DotEnd laidSample ts := by
  have h : (spansOf 60 laidSample).any (fun toks => decide (toks.length = 40) && namesOk toks &&
      ((List.range ((toks.map TokSpan.tok).length + 1)).map (toks.map TokSpan.tok).take).all (fun a => decide ((a.filter closesBrace).length ≤ 0 + (a.filter opensBrace).length))) = true := by decide +kernel
  obtain ⟨h0, h2⟩ := (Option.any_eq_true_iff_get _ _).1 h
  rw [Bool.and_eq_true, Bool.and_eq_true, decide_eq_true_iff] at h2
  have hb : ¬ HasWild laidSample := tamed_sound (by decide +kernel)
  have hs : ¬ HasStray laidSample := fun h => absurd (strays_of h) (by decide +kernel)
  refine ⟨_, C42_partial laidSample 60 _ (Option.some_get h0).symm hb hs (namesOk_of h2.1.2), by simpa using h2.1.1, hb, hs, closed_of h2.2, ?_⟩
  rintro ⟨h, _⟩
  exact absurd h (by decide)

/-- The conditions on a text, checked by a run. -/
theorem laid_check {src : Text} {n : Nat} {ts : List Token}
    (h : (spansOf n src).any (fun toks => namesOk toks && decide (toks.map TokSpan.tok = ts)) = true)
    (hb : ¬ HasWild src) (hs : ¬ HasStray src) : Laid .html src ts := by
  obtain ⟨h0, h2⟩ := (Option.any_eq_true_iff_get _ _).1 h
  rw [Bool.and_eq_true, decide_eq_true_iff] at h2
  rw [← h2.2]
  exact C42_partial src n _ (Option.some_get h0).symm hb hs (namesOk_of h2.1)

def hereSample : Text := c!"a<?php return <<<A\nx $b\nA;\n"
def hereSample' : Text := c!"a<?php\nreturn/* c */<<<A\nx $b\nA;\n?>"

def hereToks : List Token :=
  [.inlineHtml c!"a", .k .OpenTag, .k .Return, .k .HereDocStart, .encaps c!"x ", .variable c!"b", .k .HereDocEnd, .k .SemiColon]
def hereToks' : List Token :=
  [.inlineHtml c!"a", .k .OpenTag, .k .Return, .comment c!" c ", .k .HereDocStart, .encaps c!"x ", .variable c!"b",
    .k .HereDocEnd, .k .SemiColon, .k .CloseTag]

/-- Two texts with text outside of tags, a here document, and different blanks and comments meet the conditions of `C38_laid_partial`. -/
example : Laid .html hereSample hereToks ∧ Laid .html hereSample' hereToks' ∧ hereToks.flatMap seenAs = hereToks'.flatMap seenAs ∧
    ¬ HasWild hereSample ∧ ¬ HasStray hereSample ∧ Closed 0 hereToks ∧ ¬ DotEnd hereSample hereToks ∧
    ¬ HasWild hereSample' ∧ ¬ HasStray hereSample' ∧ Closed 0 hereToks' ∧ ¬ DotEnd hereSample' hereToks' := by
  have hb : ¬ HasWild hereSample := tamed_sound (by decide +kernel)
  have hs : ¬ HasStray hereSample := fun h => absurd (strays_of h) (by decide +kernel)
  have hb' : ¬ HasWild hereSample' := tamed_sound (by decide +kernel)
  have hs' : ¬ HasStray hereSample' := fun h => absurd (strays_of h) (by decide +kernel)
  have hd : ¬ DotEnd hereSample hereToks := fun h => nomatch h.2
  have hd' : ¬ DotEnd hereSample' hereToks' := fun h => nomatch h.2
  exact ⟨laid_check (n := 60) (by decide +kernel) hb hs, laid_check (n := 60) (by decide +kernel) hb' hs', rfl, hb, hs,
    closed_of (by decide), hd, hb', hs', closed_of (by decide), hd'⟩

/-- The tokens of the first are a program, as `C07_laid_partial` asks. -/
example : hereToks.flatMap seenAs ≠ [] ∧ Derives .tops (hereToks.flatMap seenAs)
    [bareS (.echo [bare (.str c!"a")]),
      bareS (.ret (some (bare (.binary .Concat (bare (.str c!"x ")) (bare (.var (.name c!"b")))))))] :=
  ⟨nofun, show Derives .tops ([.k .Echo, .encaps c!"a", .k .SemiColon] ++ ([.k .Return, .k .HereDocStart, .encaps c!"x ", .variable c!"b",
    .k .HereDocEnd, .k .SemiColon] ++ [])) _ from .tops_cons (.t_stmt (.s_echo (.exprs_one (.e_var (p := 0) (.v_str c!"a" (.a_nil false _))))))
    (.tops_cons (.t_stmt (.s_return (.o_some (.e_heredoc (p := 0)
      (.parts_text c!"x " (.parts_var c!"b" (us := []) (.v_name _ (.a_nil false _)) rfl .parts_nil)) rfl)))) .tops_nil)⟩

theorem spans_never {src : Text} {p : Panic} (h : lexAll 20 20 (Tz.new src) [] = .panic p) (n : Nat) : spansOf n src = none := by
  unfold spansOf
  rcases lexAll_mono (f := n) (f' := max n 20) (n := n) (n' := max n 20) (by omega) (by omega) (Tz.new src) [] with h1 | h1
  · rw [h1]
  · have h2 := (lexAll_mono (f := 20) (f' := max n 20) (n := 20) (n' := max n 20) (by omega) (by omega) (Tz.new src) []).resolve_left (by rw [h]; nofun)
    rw [h1, ← h2, h]

theorem Outcome.panic_of {ε α : Type} {o : Outcome ε α} (h : o.isPanic = true) : ∃ p, o = .panic p := by
  cases o with
  | panic p => exact ⟨p, rfl⟩
  | _ => cases h

theorem open_laid {r : Text} {ts : List Token} (h : Laid .script (' ' :: r) ts) : Laid .html (c!"<?php" ++ ' ' :: r) (.k .OpenTag :: ts) :=
  .openTag _ _ (by decide) (fun p hp _ => by
    have : ∀ p ∈ openTags, p.1.length ≤ 5 := by decide
    exact this p hp) h

/-- **C43** fails without the last condition: the tokenizer panics at a `.` that ends the source. -/
theorem C43_fails_dot : ∃ src ts, Laid .html src ts ∧ Closed 0 ts ∧ ¬ HasWild src ∧ ¬ HasStray src ∧ ∀ n, spansOf n src = none := by
  obtain ⟨p, hp⟩ := Outcome.panic_of (o := lexAll 20 20 (Tz.new c!"<?php .") []) (by decide +kernel)
  refine ⟨c!"<?php .", [.k .OpenTag, .k .Dot], open_laid ?_, closed_of (by decide), ?_, ?_, spans_never hp⟩
  · have hs : Scrap c!"." [.k .Dot] [] := by
      refine .symbol (by decide) (fun s _ hp => by simpa using hp.length_le) ?_
      rintro (⟨c, r, h, _⟩ | ⟨q, h⟩ | ⟨q, h⟩ | ⟨r, h, _⟩ | ⟨h, _⟩)
      · cases h
      · cases h
      · cases h
      · cases h
      · exact absurd h (by decide)
    exact Laid.piece c!" " c!"." [.k .Dot] (by unfold Blank; decide) hs (ts := []) (.scriptEnd nofun)
  · exact tamed_sound (by decide +kernel)
  · exact fun h => absurd (strays_of h) (by decide)

/-- **C43** fails without the condition on braces: the tokenizer panics at a brace that closes nothing. -/
theorem C43_fails_brace : ∃ src ts, Laid .html src ts ∧ ¬ DotEnd src ts ∧ ¬ HasWild src ∧ ¬ HasStray src ∧ ∀ n, spansOf n src = none := by
  obtain ⟨p, hp⟩ := Outcome.panic_of (o := lexAll 20 20 (Tz.new c!"<?php }") []) (by decide +kernel)
  refine ⟨c!"<?php }", [.k .OpenTag, .k .CurlyBracesClose], open_laid ?_, ?_, ?_, ?_, spans_never hp⟩
  · have hs : Scrap c!"}" [.k .CurlyBracesClose] [] := by
      refine .symbol (by decide) (fun s _ hp => by simpa using hp.length_le) ?_
      rintro (⟨c, r, h, _⟩ | ⟨q, h⟩ | ⟨q, h⟩ | ⟨r, h, _⟩ | ⟨h, _⟩)
      · cases h
      · cases h
      · cases h
      · cases h
      · exact absurd h (by decide)
    exact Laid.piece c!" " c!"}" [.k .CurlyBracesClose] (by unfold Blank; decide) hs (ts := []) (.scriptEnd nofun)
  · rintro ⟨_, h⟩
    cases h
  · exact tamed_sound (by decide +kernel)
  · exact fun h => absurd (strays_of h) (by decide)

end Pico
