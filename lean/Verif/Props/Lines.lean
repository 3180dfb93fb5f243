import Verif.Lemmas.LineTable
import Verif.Props.Ranges
import Verif.Props.Expected
import Verif.Props.Errors
/-!
# C47: the lines of errors, and the messages with the source
-/
namespace Pico

/-- **C47** (partial): in a source whose line breaks all stand where they are counted, the table has at any moment the beginning of the source
and the offsets behind the line breaks met so far, and no others. Missing: other sources, see `C47_fails`. -/
theorem C47_table_partial (src : Text) (hk : Counted src) (toks : List TokSpan) (t : Tz) (h : Scanned src toks t) (b : Nat) :
    b ∈ t.st.lineMap.data ↔ b = 0 ∨ b ≤ t.st.srcPos ∧ ∃ pre post, src = pre ++ '\n' :: post ∧ b = byteLen pre + 1 := by
  have hd : t.st.lineMap.data = 0 :: lineGap src 0 t.st.srcPos := (scanned_lines hk h).2
  rw [hd, List.mem_cons]
  unfold lineGap
  rw [List.mem_filter, mem_breaksFrom]
  simp only [decide_eq_true_eq, Nat.zero_add]
  constructor
  · rintro (h | ⟨h1, -, h2⟩)
    · exact .inl h
    · exact .inr ⟨h2, h1⟩
  · rintro (h | ⟨h2, h1⟩)
    · exact .inl h
    · refine .inr ⟨h1, ?_, h2⟩
      obtain ⟨_, _, _, rfl⟩ := h1
      exact Nat.succ_pos _

/-- **C47** (partial): the line reported with an error of the parser is the line on which its range ends, with its number and its beginning and end.
Missing: sources with line breaks in other places, see `C47_fails`. -/
theorem C47_line_partial (src : Text) (hk : Counted src) (e : SpannedErr) (h : Ends src (.err e)) (hs : e.syntaxErr = none) :
    OnLine src e.stop e.line e.lineStart e.lineEnd := by
  obtain ⟨n, h, -⟩ := h
  unfold parseStrN at h
  split at h
  · rename_i toks t hl
    obtain ⟨h1, h2⟩ := (lexAll_lines hk n .start).1 toks t hl
    obtain ⟨-, h3, h4⟩ := C27_range_partial n _ toks e h
    exact table_line h1 h2 h3 h4
  · split at h
    · cases h
    · have := (spannedErr_err h).2.2.2.2.2
      rw [hs] at this
      cases this
  · cases h
  · cases h

/-- **C47** (partial): the line reported with an error of the tokenizer is the line on which its range begins; it is given without its end. -/
theorem C47_tokenizer_partial (src : Text) (hk : Counted src) (e : SpannedErr) (se : SyntaxErr) (h : Ends src (.err e)) (hs : e.syntaxErr = some se) :
    BeginsLine src e.start e.line e.lineStart ∧ e.lineEnd = byteLen src := by
  obtain ⟨n, h, -⟩ := h
  unfold parseStrN at h
  split at h
  · rename_i toks t hl
    exfalso
    have hn : ∀ m a b pe, spannedErr m a b pe none ≠ .err e := by
      intro m a b pe h
      have := (spannedErr_err h).2.2.2.2.2
      rw [hs] at this
      cases this
    unfold parseTokensN at h
    dsimp only at h
    split at h
    · cases h
    · cases h
    · cases h
    · split at h
      · split at h
        · exact hn _ _ _ _ h
        · cases h
      · split at h
        · exact hn _ _ _ _ h
        · cases h
  · rename_i se' t hl
    obtain ⟨h1, h2, h3⟩ := (lexAll_lines hk n .start).2 se' t hl
    split at h
    · cases h
    · rename_i sp hsp
      obtain ⟨g1, g2, g3⟩ := h3 sp hsp
      obtain ⟨e1, e2, e3, e4, -, -⟩ := spannedErr_err h
      rw [e1]
      exact table_begins h1 h2 g1 g2 g3 e3 e4
  · cases h
  · cases h

/-! ## The message -/

/-- A line break stands in the range. -/
def BreakIn (src : Text) (a b : Nat) : Prop := ∃ x y, src = x ++ '\n' :: y ∧ a ≤ byteLen x ∧ byteLen x < b

theorem OnLine.first {src : Text} {pos n a b p : Nat} (h : OnLine src pos n a b) (hp : p < a) (ha : a ≤ pos) : BreakIn src p pos := by
  obtain ⟨pre, line, post, h1, h2, -, h3, -, -, -⟩ := h
  rcases h2 with rfl | ⟨q, rfl⟩
  · exfalso
    simp only [byteLen] at h3
    omega
  · have hq : byteLen q + 1 = a := by rw [← h3, byteLen_append]; rfl
    refine ⟨q, line ++ post, ?_, ?_, ?_⟩
    · rw [h1]; simp
    · omega
    · omega

theorem OnLine.no_break {src : Text} {pos n a b p : Nat} (h : OnLine src pos n a b) (hp : a ≤ p) : ¬ BreakIn src p pos := by
  obtain ⟨pre, line, post, h1, h2, -, h3, h4, -, h6⟩ := h
  rintro ⟨x, y, hx, hx1, hx2⟩
  have hmem : byteLen x + 1 ∈ breaksFrom 0 src := mem_breaksFrom.2 ⟨x, y, hx, by omega⟩
  rw [h1, breaksFrom_append, breaksFrom_append, List.mem_append, List.mem_append] at hmem
  rw [byteLen_append] at h4
  rcases hmem with (hm | hm) | hm
  · have := (breaksFrom_bounds hm).2; omega
  · rcases h6 with ⟨h6, m, rfl, hm2⟩ | ⟨-, h6⟩
    · rw [breaksFrom_append, breaksFrom_free hm2, List.nil_append] at hm
      have := (breaksFrom_bounds hm).1
      rw [byteLen_append] at h4
      have h1 : byteLen c!"\n" = 1 := rfl
      omega
    · rw [breaksFrom_free h6] at hm
      cases hm
  · rcases h6 with ⟨h6, -⟩ | ⟨rfl, -⟩
    · have := (breaksFrom_bounds hm).1
      rw [byteLen_append] at this
      omega
    · cases hm

theorem prefix_of_byteLen {a b s : Text} (ha : a <+: s) (hb : b <+: s) (h : byteLen a ≤ byteLen b) : a <+: b := by
  rcases List.prefix_or_prefix_of_prefix ha hb with h' | ⟨z, rfl⟩
  · exact h'
  · cases z with
    | nil => rw [List.append_nil]; exact List.prefix_refl _
    | cons c z =>
      have := byteLen_pos (show c :: z ≠ [] from nofun)
      rw [byteLen_append] at h
      omega

/-- **C27** (partial) for sources: the message of an error of the parser cannot be formatted with the source if the reported range is empty or has a
line break in it, … -/
theorem C27_aborts_partial (src : Text) (hk : Counted src) (e : SpannedErr) (h : Ends src (.err e)) (hs : e.syntaxErr = none)
    (dbg : List Token → Text) : e.errorMessage dbg (some src) = none ↔ e.stop ≤ e.start ∨ BreakIn src e.start e.stop := by
  have hl := C47_line_partial src hk e h hs
  have hle : e.lineStart ≤ e.stop := by obtain ⟨_, _, _, _, _, _, _, _, h, _⟩ := hl; exact h
  by_cases hstop : e.stop ≤ e.start
  · refine ⟨fun _ => .inl hstop, fun _ => ?_⟩
    unfold SpannedErr.errorMessage
    dsimp only
    split
    · rfl
    · split
      · rfl
      · rw [if_pos (by omega)]
  · by_cases hst : e.start < e.lineStart
    · refine ⟨fun _ => .inr (hl.first hst hle), fun _ => ?_⟩
      unfold SpannedErr.errorMessage
      dsimp only
      split
      · rfl
      · rw [if_pos hst]
    · refine ⟨fun hn => ?_, fun hb => ?_⟩
      · exfalso
        obtain ⟨pre, line, post, h1, -, -, h3, h4, -, -⟩ := hl
        rw [h1, C27_message_partial e dbg pre line post h3.symm (by rw [← h4, byteLen_append]) (by omega) (by omega)] at hn
        cases hn
      · rcases hb with hb | hb
        · exact absurd hb hstop
        · exact absurd hb (hl.no_break (by omega))

/-- … and otherwise it has the whole line on which the range stands, with its number, and marks the range below. -/
theorem C27_source_partial (src : Text) (hk : Counted src) (e : SpannedErr) (h : Ends src (.err e)) (hs : e.syntaxErr = none)
    (pre w post : Text) (hsrc : src = pre ++ w ++ post) (h1 : byteLen pre = e.start) (h2 : byteLen (pre ++ w) = e.stop) (hw : w ≠ [])
    (hf : '\n' ∉ w) (dbg : List Token → Text) :
    ∃ first before after last, src = first ++ (before ++ w ++ after) ++ last ∧ LineBegins first ∧ '\n' ∉ before ∧
      ((∃ m, after = m ++ c!"\n" ∧ '\n' ∉ m) ∨ (last = [] ∧ '\n' ∉ after)) ∧
      e.errorMessage dbg (some src) = some (c!"expected one of " ++ dbg e.error.tokens ++ c!" at line " ++ intText (first.count '\n') ++ c!"\n" ++
        (before ++ w ++ after) ++ c!"\n" ++ List.replicate (byteLen before) ' ' ++ c!"^" ++ List.replicate (byteLen w - 1) '~') := by
  have hl := C47_line_partial src hk e h hs
  have hpos := byteLen_pos hw
  rw [byteLen_append] at h2
  have hnb : ¬ BreakIn src e.start e.stop := by
    rintro ⟨x, y, hx, hx1, hx2⟩
    have hmem : byteLen x + 1 ∈ breaksFrom 0 src := mem_breaksFrom.2 ⟨x, y, hx, by omega⟩
    rw [hsrc, breaksFrom_append, breaksFrom_append, breaksFrom_free hf, List.append_nil, List.mem_append] at hmem
    rcases hmem with hm | hm
    · have := (breaksFrom_bounds hm).2; omega
    · have := (breaksFrom_bounds hm).1
      rw [byteLen_append] at this
      omega
  have hst : e.lineStart ≤ e.start := by
    apply Classical.byContradiction
    intro hn
    refine hnb (hl.first (by omega) ?_)
    obtain ⟨_, _, _, _, _, _, _, _, h, _⟩ := hl
    exact h
  have hl' := hl
  obtain ⟨first, line, last, g1, g2, g3, g4, g5, g6, g7⟩ := hl
  have hpre : first <+: pre :=
    prefix_of_byteLen (s := src) ⟨line ++ last, by rw [g1, List.append_assoc]⟩ ⟨w ++ post, by rw [hsrc, List.append_assoc]⟩ (by omega)
  obtain ⟨before, rfl⟩ := hpre
  have h1' : byteLen first + byteLen before = e.start := by rw [← h1, byteLen_append]
  have hrest : line ++ last = before ++ (w ++ post) := by
    have : first ++ (line ++ last) = first ++ (before ++ (w ++ post)) := by rw [← List.append_assoc, ← g1, hsrc]; simp
    exact List.append_cancel_left this
  have g5' : byteLen first + byteLen line = e.lineEnd := by rw [← g5, byteLen_append]
  have hend : e.stop ≤ e.lineEnd := by
    rcases g7 with ⟨g7, -⟩ | ⟨rfl, -⟩
    · omega
    · rw [List.append_nil] at hrest
      have : byteLen line = byteLen before + (byteLen w + byteLen post) := by rw [hrest, byteLen_append, byteLen_append]
      omega
  have hbw : before ++ w <+: line :=
    prefix_of_byteLen (s := line ++ last) ⟨post, by rw [hrest, List.append_assoc]⟩ ⟨last, rfl⟩ (by rw [byteLen_append]; omega)
  obtain ⟨after, rfl⟩ := hbw
  have hb0 : '\n' ∉ before := by
    intro hm
    obtain ⟨x, y, rfl⟩ := List.append_of_mem hm
    refine hl'.no_break (p := e.lineStart) (Nat.le_refl _) ⟨first ++ x, y ++ w ++ after ++ last, ?_, ?_, ?_⟩
    · rw [g1]; simp
    · rw [byteLen_append]; omega
    · rw [byteLen_append] at h1' ⊢
      have : 0 < byteLen ('\n' :: y) := byteLen_pos nofun
      omega
  refine ⟨first, before, after, last, g1, g2, hb0, ?_, ?_⟩
  · rcases g7 with ⟨g7, m, hm1, hm2⟩ | ⟨g7, hm⟩
    · left
      rcases List.eq_nil_or_concat after with ha | ⟨a, c, ha⟩
      · exfalso
        rw [ha, List.append_nil, byteLen_append] at g5'
        omega
      · rw [List.concat_eq_append] at ha
        rw [ha, ← List.append_assoc] at hm1
        obtain ⟨e1, e2⟩ := List.append_inj' hm1 rfl
        refine ⟨a, by rw [ha, e2], fun hmem => hm2 ?_⟩
        rw [← e1]
        simp [hmem]
    · exact .inr ⟨g7, fun hmem => hm (by simp [hmem])⟩
  · rw [g1, C27_message_partial e dbg first _ last g4.symm (by rw [← g5, byteLen_append]) hst (by omega), g3]
    have e1 : e.start - e.lineStart = byteLen before := by omega
    have e2 : e.stop - e.start - 1 = byteLen w - 1 := by omega
    rw [e1, e2]

/-! ## Examples -/

/-- A source that is a single script without comments over several lines and the like. -/
theorem Counted.of_script {rest : Text} (h1 : ¬ c!"?>" <:+: (c!"<?" ++ rest)) (h2 : ¬ c!"/*" <:+: (c!"<?" ++ rest))
    (h3 : ¬ c!"<<<" <:+: (c!"<?" ++ rest)) (h4 : ¬ c!"\\\n" <:+: (c!"<?" ++ rest)) : Counted (c!"<?" ++ rest) := by
  refine ⟨h3, h4, ?_, ?_⟩
  · intro o body ho hi _
    exfalso
    apply h2
    have : c!"/*" <:+: (o ++ body ++ c!"*/") := by
      rcases ho with rfl | rfl
      · exact ⟨[], body ++ c!"*/", by simp⟩
      · exact ⟨[], ['*'] ++ body ++ c!"*/", by simp⟩
    exact this.trans hi
  · intro a b c hs ha hb
    rcases ha with rfl | ha
    · rw [List.nil_append] at hs
      cases b with
      | nil => nofun
      | cons x b =>
        injection hs with hx hs
        subst hx
        cases b with
        | nil => decide
        | cons y b =>
          injection hs with hy hs
          subst hy
          exact absurd ⟨[], b, rfl⟩ hb
    · exfalso
      apply h1
      rw [hs, List.append_assoc]
      exact ha.isInfix.trans ⟨[], b ++ c, rfl⟩

/-- Where `parse_str` says an error is. -/
def placed (src : Text) (a b n s t : Nat) (lex : Bool) : Bool :=
  match parseStrN 60 src with
  | .err e => e.start == a && e.stop == b && e.line == n && e.lineStart == s && e.lineEnd == t && e.syntaxErr.isSome == lex
  | _ => false

theorem placed_ends {src : Text} {a b n s t : Nat} {lex : Bool} (h : placed src a b n s t lex = true) :
    ∃ e, Ends src (.err e) ∧ e.start = a ∧ e.stop = b ∧ e.line = n ∧ e.lineStart = s ∧ e.lineEnd = t ∧ e.syntaxErr.isSome = lex := by
  unfold placed at h
  split at h
  · rename_i e he
    simp only [Bool.and_eq_true, beq_iff_eq] at h
    obtain ⟨⟨⟨⟨⟨h1, h2⟩, h3⟩, h4⟩, h5⟩, h6⟩ := h
    exact ⟨e, Ends.of 60 he (by simp), h1, h2, h3, h4, h5, h6⟩
  · cases h

theorem placed_parser {src : Text} {a b n s t : Nat} (h : placed src a b n s t false = true) :
    ∃ e, Ends src (.err e) ∧ e.syntaxErr = none ∧ e.start = a ∧ e.stop = b ∧ e.line = n ∧ e.lineStart = s ∧ e.lineEnd = t := by
  obtain ⟨e, h1, h2, h3, h4, h5, h6, h7⟩ := placed_ends h
  refine ⟨e, h1, ?_, h2, h3, h4, h5, h6⟩
  cases hs : e.syntaxErr with
  | none => rfl
  | some x => rw [hs] at h7; cases h7

/-- A script with strings and comments over several lines … -/
def linesSample : Text := c!"<?php\n# a\n$a = 'x\ny'; // b\n\nif ($a { }\n"

theorem linesSample_counted : Counted linesSample :=
  Counted.of_script (by decide +kernel) (by decide +kernel) (by decide +kernel) (by decide +kernel)

/-- … in which the error is on line 5 (counted from 0), … -/
example : ∃ e, Ends linesSample (.err e) ∧ e.line = 5 ∧ OnLine linesSample 36 5 28 39 := by
  obtain ⟨e, h1, h2, h3, h4, h5, h6, h7⟩ := placed_parser (src := linesSample) (a := 35) (b := 36) (n := 5) (s := 28) (t := 39) (by decide +kernel)
  have := C47_line_partial linesSample linesSample_counted e h1 h2
  rw [h4, h5, h6, h7] at this
  exact ⟨e, h1, h5, this⟩

/-- … and shown. -/
example (dbg : List Token → Text) : ∃ e, Ends linesSample (.err e) ∧
    e.errorMessage dbg (some linesSample) ≠ none ∧ ∃ first before after last, linesSample = first ++ (before ++ c!"{" ++ after) ++ last ∧
      e.errorMessage dbg (some linesSample) = some (c!"expected one of " ++ dbg e.error.tokens ++ c!" at line " ++ intText (first.count '\n') ++ c!"\n" ++
        (before ++ c!"{" ++ after) ++ c!"\n" ++ List.replicate (byteLen before) ' ' ++ c!"^") := by
  obtain ⟨e, h1, h2, h3, h4, -⟩ := placed_parser (src := linesSample) (a := 35) (b := 36) (n := 5) (s := 28) (t := 39) (by decide +kernel)
  obtain ⟨x, y, z, w, g1, -, -, -, g2⟩ := C27_source_partial linesSample linesSample_counted e h1 h2 c!"<?php\n# a\n$a = 'x\ny'; // b\n\nif ($a " c!"{" c!" }\n"
    (by decide) (by rw [h3]; decide) (by rw [h4]; decide) (by decide) (by decide) dbg
  refine ⟨e, h1, by rw [g2]; nofun, x, y, z, w, g1, ?_⟩
  rw [g2, show byteLen c!"{" - 1 = 0 from rfl, List.replicate_zero, List.append_nil]

/-- The table of this script, after its first token. -/
example : ∃ toks t, Scanned linesSample toks t ∧ ∀ b, b ∈ t.st.lineMap.data ↔
    b = 0 ∨ b ≤ t.st.srcPos ∧ ∃ pre post, linesSample = pre ++ '\n' :: post ∧ b = byteLen pre + 1 :=
  ⟨[], _, .start, C47_table_partial linesSample linesSample_counted [] _ .start⟩

/-- A string that is not closed, on line 2. -/
example : ∃ e, Ends c!"<?php\n$a =\n 'b\nc;\n" (.err e) ∧ e.line = 2 ∧ BeginsLine c!"<?php\n$a =\n 'b\nc;\n" 12 2 11 := by
  obtain ⟨e, h1, h2, h3, h4, h5, h6, h7⟩ := placed_ends (src := c!"<?php\n$a =\n 'b\nc;\n") (a := 12) (b := 19) (n := 2) (s := 11) (t := 18) (lex := true)
    (by decide +kernel)
  cases hs : e.syntaxErr with
  | none => rw [hs] at h7; cases h7
  | some se =>
    have := (C47_tokenizer_partial _ (Counted.of_script (rest := c!"php\n$a =\n 'b\nc;\n") (by decide +kernel) (by decide +kernel) (by decide +kernel)
      (by decide +kernel)) e se h1 hs).1
    rw [h2, h4, h5] at this
    exact ⟨e, h1, h4, this⟩

/-! ## Where the claims fail -/

/-- **C27** fails even for such a script: the error behind the last token of a line is put on the next one, and the message aborts. -/
theorem C27_fails_end (dbg : List Token → Text) : Counted c!"<?php echo 1\n" ∧ ∃ e, Ends c!"<?php echo 1\n" (.err e) ∧ e.line = 1 ∧
    e.errorMessage dbg (some c!"<?php echo 1\n") = none := by
  have hk : Counted c!"<?php echo 1\n" := Counted.of_script (rest := c!"php echo 1\n") (by decide +kernel) (by decide +kernel) (by decide +kernel) (by decide +kernel)
  obtain ⟨e, h1, h2, h3, h4, h5, -⟩ := placed_parser (src := c!"<?php echo 1\n") (a := 12) (b := 13) (n := 1) (s := 13) (t := 13) (by decide +kernel)
  refine ⟨hk, e, h1, h5, (C27_aborts_partial _ hk e h1 h2 dbg).2 (.inr ⟨c!"<?php echo 1", [], rfl, ?_, ?_⟩)⟩
  · rw [h3]; decide
  · rw [h4]; decide

/-- … as it does for an unexpected string over several lines. -/
theorem C27_fails_string (dbg : List Token → Text) : ∃ e, Ends c!"<?php 'a' 'b\nc';" (.err e) ∧ e.errorMessage dbg (some c!"<?php 'a' 'b\nc';") = none := by
  have hk : Counted c!"<?php 'a' 'b\nc';" := Counted.of_script (rest := c!"php 'a' 'b\nc';") (by decide +kernel) (by decide +kernel) (by decide +kernel) (by decide +kernel)
  obtain ⟨e, h1, h2, h3, h4, -⟩ := placed_parser (src := c!"<?php 'a' 'b\nc';") (a := 10) (b := 15) (n := 1) (s := 13) (t := 16) (by decide +kernel)
  refine ⟨e, h1, (C27_aborts_partial _ hk e h1 h2 dbg).2 (.inr ⟨c!"<?php 'a' 'b", c!"c';", rfl, ?_, ?_⟩)⟩
  · rw [h3]; decide
  · rw [h4]; decide

theorem breaksFrom_length (n : Nat) (a : Text) : (breaksFrom n a).length = a.count '\n' := by
  induction a generalizing n with
  | nil => rfl
  | cons c a ih =>
    simp only [breaksFrom, List.length_append, ih, List.count_cons]
    by_cases hc : c = '\n' <;> simp [hc] <;> omega

/-- The number of a line is determined by the offset. -/
theorem OnLine.number {src : Text} {pos n a b : Nat} (h : OnLine src pos n a b) : n = (breaksFrom 0 src).countP fun x => decide (x ≤ pos) := by
  obtain ⟨pre, line, post, h1, -, h2, h3, h4, h5, h6⟩ := h
  rw [h1, breaksFrom_append, breaksFrom_append, List.countP_append, List.countP_append, Nat.zero_add, h3]
  have e1 : (breaksFrom 0 pre).countP (fun x => decide (x ≤ pos)) = n := by
    rw [List.countP_eq_length.2, breaksFrom_length, h2]
    intro x hx
    have := (breaksFrom_bounds hx).2
    simp only [decide_eq_true_eq]
    omega
  have zero : ∀ {l : List Nat}, (∀ x ∈ l, pos < x) → l.countP (fun x => decide (x ≤ pos)) = 0 := by
    intro l hl
    rw [List.countP_eq_zero]
    intro x hx
    have := hl x hx
    simp only [decide_eq_true_eq]
    omega
  rw [e1]
  rcases h6 with ⟨h6, m, rfl, hm⟩ | ⟨rfl, hm⟩
  · have z1 := zero (l := breaksFrom (0 + byteLen (pre ++ (m ++ c!"\n"))) post) fun x hx => by
      have := (breaksFrom_bounds hx).1
      omega
    have z2 := zero (l := breaksFrom a (m ++ c!"\n")) fun x hx => by
      rw [breaksFrom_append, breaksFrom_free hm, List.nil_append] at hx
      have h7 : x = a + byteLen m + 1 := by
        simp only [breaksFrom, if_true, List.append_nil, List.mem_singleton] at hx
        exact hx
      rw [byteLen_append, byteLen_append] at h4
      have h8 : byteLen c!"\n" = 1 := rfl
      omega
    rw [z1, z2]
    rfl
  · rw [breaksFrom_free hm]
    rfl

/-- Sources with a line break outside of the tags, in a comment, in a heredoc and behind a backslash, … -/
def lostLines : List Text := [c!"\n\n<?php foo 1;", c!"<?php /*\n*/ foo 1;", c!"<?php $a = <<<A\nx\nA;\nfoo 1;\n", c!"<?php 'a\\\nb'; foo 1;"]

/-- … for which **C47** fails: another line is reported. -/
theorem C47_fails : ∀ src ∈ lostLines, ∃ e, Ends src (.err e) ∧ e.syntaxErr = none ∧ ¬ OnLine src e.stop e.line e.lineStart e.lineEnd := by
  have h : lostLines.all (fun src => match parseStrN 60 src with
      | .err e => e.syntaxErr.isNone && e.line != (breaksFrom 0 src).countP (fun x => decide (x ≤ e.stop))
      | _ => false) = true := by decide +kernel
  intro src hm
  have := List.all_eq_true.1 h src hm
  split at this
  · rename_i e he
    simp only [Bool.and_eq_true, bne_iff_ne, ne_eq, Option.isNone_iff_eq_none] at this
    exact ⟨e, Ends.of 60 he (by simp), this.1, fun h => this.2 h.number⟩
  · cases this

end Pico
