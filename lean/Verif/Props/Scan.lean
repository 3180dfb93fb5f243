import Verif.Lemmas.TameEnd
import Verif.Lemmas.TokenizerMono
import Verif.Props.LineMap
import Verif.Props.Grammar
import Verif.Props.Tokens
import Verif.Spec.Outcome
/-!
# Scanning a whole source: line table, termination, braces, positions (C05, C08, C29, C30)
-/
namespace Pico

/-- What holds whenever a token has been delivered. -/
structure ScanInv (src : Text) (toks : List TokSpan) (t : Tz) : Prop where
  inv : Inv t
  code : t.code = src
  tp : ∀ x ∈ toks, TokP src x
  dep : HasBlock src ∨ depth t.st + count closesBrace toks = count opensBrace toks
  quiet : ¬ HasQuote src → t.st.state ≠ .emitQueue
  upto : ¬ HasQuote src → ∀ x ∈ toks, isNumber x.tok = false → x.span.stop ≤ t.st.srcPos
  ord : ¬ HasQuote src → (toks.filter fun x => !isNumber x.tok).Pairwise fun x y => x.span.stop ≤ y.span.start

theorem count_snoc (p : Token → Bool) (toks : List TokSpan) (x : TokSpan) :
    count p (toks ++ [x]) = count p toks + (if p x.tok then 1 else 0) := by
  unfold count
  rw [List.filter_append, List.length_append]
  by_cases h : p x.tok = true
  · rw [if_pos h]; simp [h]
  · rw [if_neg h]; simp [h]

theorem next_ok {n : Nat} {t t' : Tz} {x : TokSpan} (hi : Inv t) (h : nextToken n t = .ok x t') : NextPost t x t' := by
  have := next_wp n t hi
  unfold Twp at this
  rw [h] at this
  exact this

theorem next_err {n : Nat} {t t' : Tz} {e : SyntaxErr} (hi : Inv t) (h : nextToken n t = .err e t') : NextErr t e t' := by
  have := next_wp n t hi
  unfold Twp at this
  rw [h] at this
  exact this

theorem scanned_inv {src : Text} {toks : List TokSpan} {t : Tz} (h : Scanned src toks t) : ScanInv src toks t := by
  induction h with
  | start => exact ⟨inv_new src, rfl, nofun, .inr rfl, fun _ => nofun, fun _ => nofun, fun _ => .nil⟩
  | next n _ hn ih =>
    have hp := next_ok ih.inv hn
    have hc := ih.code
    refine ⟨hp.inv, hp.code.trans hc, ?_, ?_, ?_, ?_, ?_⟩
    · intro x hx
      rw [List.mem_append, List.mem_singleton] at hx
      rcases hx with hx | rfl
      · exact ih.tp x hx
      · rw [← hc]; exact hp.tp
    · rcases ih.dep with h | h
      · exact .inl h
      · have := hp.dep
        rw [hc] at this
        refine this.imp And.left fun h' => ?_
        rw [count_snoc, count_snoc]
        omega
    · intro hq he
      rcases hp.quote he with h | h
      · exact ih.quiet hq h
      · rw [hc] at h; exact hq h
    · intro hq x hx hx'
      rw [List.mem_append, List.mem_singleton] at hx
      rcases hx with hx | rfl
      · exact Nat.le_trans (ih.upto hq x hx hx') hp.le
      · exact (hp.ord (ih.quiet hq) hx').2
    · intro hq
      rw [List.filter_append, List.pairwise_append]
      refine ⟨ih.ord hq, ?_, ?_⟩
      · rw [List.filter_cons]
        split
        · exact List.pairwise_singleton _ _
        · exact .nil
      · intro x hx y hy
        obtain ⟨hx1, hx2⟩ := List.mem_filter.1 hx
        obtain ⟨hy1, hy2⟩ := List.mem_filter.1 hy
        rw [List.mem_singleton] at hy1
        subst hy1
        exact Nat.le_trans (ih.upto hq x hx1 (by simpa using hx2)) (hp.ord (ih.quiet hq) (by simpa using hy2)).1

/-! ## The line table -/

/-- **C05.** At every moment of tokenizing any source the line table begins with 0, does not decrease, has no
entry beyond the end of the source, and ends the last line at the end of the source. Moreover no entry is
beyond the scan position, but for one case: the closing label of a heredoc is followed by a line break that
has been scanned and counted before the scanner steps back in front of it (so that the entry is at most the
position reached so far). -/
theorem C05_line_table (src : Text) (t : Tz) (h : Moment src t) :
    LinesOk t.st.lineMap (byteLen src) ∧ t.st.lineMap.endPos = byteLen src ∧
    (LinesOk t.st.lineMap t.st.srcPos ∨
      ∃ semi nl rest, dropBytes src t.st.srcPos = some (semi ++ nl ++ rest) ∧ (semi = [] ∨ semi = c!";") ∧
        (nl = c!"\n" ∨ nl = c!"\r" ∨ nl = c!"\r\n") ∧
        LinesOk t.st.lineMap (t.st.srcPos + byteLen semi + byteLen nl)) := by
  have lg : ∀ t : Tz, t.code = src → LG t → LinesOk t.st.lineMap (byteLen src) ∧ t.st.lineMap.endPos = byteLen src ∧
      (LinesOk t.st.lineMap t.st.srcPos ∨
        ∃ semi nl rest, dropBytes src t.st.srcPos = some (semi ++ nl ++ rest) ∧ (semi = [] ∨ semi = c!";") ∧
          (nl = c!"\n" ∨ nl = c!"\r" ∨ nl = c!"\r\n") ∧
          LinesOk t.st.lineMap (t.st.srcPos + byteLen semi + byteLen nl)) := by
    rintro t rfl h
    exact ⟨h.lines.mono h.pos, h.fin, .inl h.lines⟩
  cases h with
  | token h =>
    have hi := scanned_inv h
    rcases hi.inv.lines with h | ⟨⟨s, w, r, h1, h2, h3, h4, h5⟩, -⟩
    · exact lg t hi.code h
    · have ht := h1.total
      have hc := hi.code
      rw [byteLen_append, byteLen_append] at ht
      rw [byteLen_append] at h4
      subst hc
      refine ⟨h4.mono (by omega), h5, .inr ⟨s, w, r, ?_, h2, h3, ?_⟩⟩
      · rw [List.append_assoc]; exact h1
      · rw [Nat.add_assoc]; exact h4
  | error n h hn =>
    have hi := scanned_inv h
    have he := next_err hi.inv hn
    exact lg t (he.code.trans hi.code) he.lg

/-- **C05.** So at every moment every position can be looked up: the line found starts at or before the
position and the next line starts behind it. -/
theorem C05_lookup (src : Text) (t : Tz) (h : Moment src t) (pos : Nat) :
    ∃ line start stop, t.st.lineMap.lineFromPosition pos = some line ∧ t.st.lineMap.line line = some (start, stop) ∧
      start ≤ pos ∧ start ≤ byteLen src ∧ stop ≤ byteLen src ∧
      ∀ later v, line < later → t.st.lineMap.data[later]? = some v → pos < v := by
  obtain ⟨⟨h1, h2, h3⟩, h4, -⟩ := C05_line_table src t h
  have h0 : t.st.lineMap.data[0]? = some 0 := by rw [← List.head?_eq_getElem?]; exact h1
  obtain ⟨line, start, stop, e1, e2, e3, e4, e5, -, e7, -⟩ := C04_line_lookup t.st.lineMap pos h2 h0
  refine ⟨line, start, stop, e1, e2, e4, h3 _ (List.mem_of_getElem? e3), ?_, e5⟩
  by_cases hl : t.st.lineMap.data.length ≤ line + 1
  · rw [e7 hl, h4]; exact Nat.le_refl _
  · have hl' : line + 1 < t.st.lineMap.data.length := by omega
    unfold LineMap.line at e2
    rw [e3] at e2
    simp only [hl', if_true, Option.some.injEq, Prod.mk.injEq] at e2
    rw [← e2.2, List.getElem?_eq_getElem hl']
    exact h3 _ (List.getElem_mem _)

/-! ## Positions -/

/-- **C30** for all tokens but number literals (for those see `C30_fails`): the byte range is inside of the
source. -/
theorem C30_inside_partial (src : Text) (toks : List TokSpan) (t : Tz) (h : Scanned src toks t) (x : TokSpan) (hx : x ∈ toks)
    (hn : isNumber x.tok = false) : x.span.start ≤ x.span.stop ∧ x.span.stop ≤ byteLen src :=
  ((scanned_inv h).tp x hx).inside hn

/-- **C30** for all tokens but number literals, in sources without interpolated strings: they do not overlap
and stand in order. (In an interpolated string the last literal part gets the range of the whole string, see
`C30_overlap`.) -/
theorem C30_ordered_partial (src : Text) (toks : List TokSpan) (t : Tz) (h : Scanned src toks t) (hq : ¬ HasQuote src) :
    (toks.filter fun x => !isNumber x.tok).Pairwise fun x y => x.span.stop ≤ y.span.start :=
  (scanned_inv h).ord hq

/-- Words and variables never stand at the first byte of a source. -/
theorem scanned_sourced {src : Text} {toks : List TokSpan} {t : Tz} (h : Scanned src toks t) : Sourced toks := by
  intro y hy hw
  exact ((scanned_inv h).tp y hy).placed hw

/-! ## Braces -/

/-- The lexical state counts the open braces, in sources without blocks in strings. -/
theorem C29_balance (src : Text) (toks : List TokSpan) (t : Tz) (h : Scanned src toks t) (hb : ¬ HasBlock src) :
    count closesBrace toks ≤ count opensBrace toks := by
  have := (scanned_inv h).dep.resolve_left hb
  omega

/-- **C29** for sources without blocks in strings: as long as a brace is open, the bookkeeping of states does not
fail. (When none is open a closing brace makes it fail, see `C29_fails`.) -/
theorem C29_no_underflow_partial (src : Text) (toks : List TokSpan) (t : Tz) (h : Scanned src toks t) (hb : ¬ HasBlock src)
    (ho : count closesBrace toks < count opensBrace toks) (n : Nat) : nextToken n t ≠ .panic .unreachable := by
  intro hn
  have hi := scanned_inv h
  have := next_wp n t hi.inv
  unfold Twp at this
  rw [hn] at this
  have hd := (this rfl).1
  have := hi.dep.resolve_left hb
  omega

/-! ## Termination -/

/-- All that the tokenizer returns to `parse_str`. -/
theorem lexAll_scanned {fuel n : Nat} {src : Text} {t : Tz} {acc : List TokSpan} (h : Scanned src acc t) :
    match lexAll fuel n t acc with
    | .ok (toks, t') => ∃ x, x.tok = .k .End ∧ Scanned src (toks ++ [x]) t' ∧ ∃ t0, Scanned src toks t0
    | .err (_, t') => Moment src t'
    | _ => True := by
  induction n generalizing t acc with
  | zero => exact trivial
  | succ n ih =>
    unfold lexAll
    cases hn : nextToken fuel t with
    | ok x t' =>
      dsimp only
      by_cases hx : x.tok = .k .End
      · rw [if_pos hx]
        exact ⟨x, hx, .next fuel h hn, t, h⟩
      · rw [if_neg hx]
        exact ih (.next fuel h hn)
    | err e t' => exact .error fuel h hn
    | panic p => exact trivial
    | oof => exact trivial

/-- There is fuel with which every token of the source is read. -/
theorem enough {src : Text} (h : ¬ HasBlock src ∨ (¬ HasWild src ∧ ¬ HasStray src)) : ∃ F, ∀ t, Inv t → t.code = src → nextToken F t ≠ .oof := by
  rcases h with hb | ⟨hw, hs⟩
  · refine ⟨2, fun t hi hc hn => ?_⟩
    have hw := next_wp 2 t hi
    unfold Twp at hw
    rw [hn] at hw
    have := rounds_le t.st
    rcases hw with h | h
    · rw [hc] at h; exact hb h
    · omega
  · refine ⟨2 + 2 * byteLen src, fun t hi hc => ?_⟩
    have := rounds_le t.st
    exact next_ends hw hs (byteLen src - t.st.srcPos) t hi hc rfl _ (by omega)

theorem lexAll_ends {src : Text} {F : Nat} (hF : ∀ t, Inv t → t.code = src → nextToken F t ≠ .oof) (a : Nat) : ∀ (b : Nat) (t : Tz) (acc : List TokSpan), Inv t → t.code = src →
    byteLen src - t.st.srcPos ≤ a → t.queue.length ≤ b → ∃ n, lexAll F n t acc ≠ .oof := by
  induction a using Nat.strongRecOn with
  | ind a iha =>
    intro b
    induction b using Nat.strongRecOn with
    | ind b ihb =>
      intro t acc hi hc ha hq
      have hw := next_wp F t hi
      unfold Twp at hw
      have step : ∀ n, lexAll F (n + 1) t acc = match nextToken F t with
        | .ok tok t' => if tok.tok = .k .End then .ok (acc, t') else lexAll F n t' (acc ++ [tok])
        | .err e t' => .err (e, t')
        | .panic p => .panic p
        | .oof => .oof := fun n => rfl
      cases hn : nextToken F t with
      | ok x t' =>
        rw [hn] at hw
        dsimp only at hw
        by_cases hx : x.tok = .k .End
        · refine ⟨1, ?_⟩
          rw [step 0, hn]
          simp only [hx, if_true]
          nofun
        · have hp : byteLen t'.code = byteLen src := by rw [hw.code, hc]
          have hle : t'.st.srcPos ≤ byteLen src := by
            have hi' := hw.inv
            rcases hi'.lines with h | ⟨⟨s, w, r, h1, -⟩, -⟩
            · rw [← hp]; exact h.pos
            · have := h1.total
              rw [hp] at this
              omega
          have : ∃ n, lexAll F n t' (acc ++ [x]) ≠ .oof := by
            rcases hw.prog with h | h | ⟨h1, h2⟩
            · exact absurd h hx
            · refine iha (byteLen src - t'.st.srcPos) (by omega) t'.queue.length t' _ hw.inv (hw.code.trans hc) (Nat.le_refl _) (Nat.le_refl _)
            · exact ihb t'.queue.length (by omega) t' _ hw.inv (hw.code.trans hc) (by omega) (Nat.le_refl _)
          obtain ⟨n, h⟩ := this
          refine ⟨n + 1, ?_⟩
          rw [step n, hn]
          simp only [hx, if_false]
          exact h
      | err e t' => exact ⟨1, by rw [step 0, hn]; nofun⟩
      | panic p => exact ⟨1, by rw [step 0, hn]; nofun⟩
      | oof => exact absurd hn (hF t hi hc)

/-- **C08** for sources without blocks in strings, and for sources whose blocks are simple and closed: tokenizing (and
then parsing) comes to an end. For other sources see `C08_fails`. -/
theorem C08_terminates_partial (src : Text) (hb : ¬ HasBlock src ∨ (¬ HasWild src ∧ ¬ HasStray src)) : ∃ r, Ends src r := by
  obtain ⟨F, hF⟩ := enough hb
  obtain ⟨n, hn⟩ := lexAll_ends hF _ _ (Tz.new src) [] (inv_new src) rfl (Nat.le_refl _) (Nat.le_refl _)
  have key : ∃ N, parseStrN N src ≠ .oof := by
    cases hl : lexAll F n (Tz.new src) [] with
    | oof => exact absurd hl hn
    | ok r =>
      obtain ⟨toks, t⟩ := r
      refine ⟨max (max F n) (6 * toks.length + 2), ?_⟩
      have h := (lexAll_mono (f' := max (max F n) (6 * toks.length + 2)) (by omega)
        (n' := max (max F n) (6 * toks.length + 2)) (n := n) (by omega) (Tz.new src) []).resolve_left hn
      unfold parseStrN
      rw [h] at hl
      rw [hl]
      exact C09_terminates _ _ _ (Nat.le_max_right _ _)
    | err r =>
      obtain ⟨e, t⟩ := r
      refine ⟨max F n, ?_⟩
      have h := (lexAll_mono (Nat.le_max_left F n) (Nat.le_max_right F n) (Tz.new src) []).resolve_left hn
      unfold parseStrN
      rw [h] at hl
      rw [hl]
      dsimp only
      split
      · nofun
      · unfold spannedErr
        split
        · nofun
        · split <;> nofun
    | panic p =>
      refine ⟨max F n, ?_⟩
      have h := (lexAll_mono (Nat.le_max_left F n) (Nat.le_max_right F n) (Tz.new src) []).resolve_left hn
      unfold parseStrN
      rw [h] at hl
      rw [hl]
      nofun
  obtain ⟨N, h⟩ := key
  exact ⟨_, N, rfl, h⟩

/-! ## From the source to the tree -/

/-- A source is parsed to what its tokens are parsed to. -/
theorem source_of_tokens (src : Text) (n : Nat) (toks : List TokSpan) (ss : List Stmt) (hl : spansOf n src = some toks)
    (h : ∀ m, Sourced toks → ParsesTo m toks ss) :
    ∃ ss', eraseStmts ss' = ss ∧ Ends src (.ok ss') := by
  unfold spansOf at hl
  have hs := lexAll_scanned (fuel := n) (n := n) (Scanned.start (src := src))
  cases hl' : lexAll n n (Tz.new src) [] with
  | ok r =>
    obtain ⟨toks', t⟩ := r
    rw [hl'] at hl hs
    cases hl
    obtain ⟨x, -, -, t0, h0⟩ := hs
    obtain ⟨ss', h1, h2⟩ := h t.st.lineMap (scanned_sourced h0)
    refine ⟨ss', h1, max n (6 * toks.length + 2), ?_, nofun⟩
    have hm := (lexAll_mono (Nat.le_max_left n (6 * toks.length + 2)) (Nat.le_max_left n (6 * toks.length + 2))
      (Tz.new src) []).resolve_left (by rw [hl']; nofun)
    unfold parseStrN
    rw [hm] at hl'
    rw [hl']
    exact h2 _ (Nat.le_max_right _ _)
  | err e => rw [hl'] at hl; cases hl
  | panic p => rw [hl'] at hl; cases hl
  | oof => rw [hl'] at hl; cases hl

/-- A source whose tokens form a program of the grammar is parsed to the tree the grammar gives it. -/
theorem source_parses (src : Text) (n : Nat) (toks : List TokSpan) (ss : List Stmt) (hl : spansOf n src = some toks)
    (hne : visible toks ≠ []) (h : Derives .tops (visible toks) ss) :
    ∃ ss', eraseStmts ss' = ss ∧ Ends src (.ok ss') :=
  source_of_tokens src n toks ss hl fun m hP => program_parses m toks ss hP hne h

/-! ## Examples -/

theorem scanned_of_spans {n : Nat} {src : Text} {toks : List TokSpan} (h : spansOf n src = some toks) : ∃ t, Scanned src toks t := by
  unfold spansOf at h
  have hs := lexAll_scanned (fuel := n) (n := n) (Scanned.start (src := src))
  cases hl : lexAll n n (Tz.new src) [] with
  | ok r =>
    rw [hl] at h hs
    cases h
    obtain ⟨x, -, -, h0⟩ := hs
    exact h0
  | err e => rw [hl] at h; cases h
  | panic p => rw [hl] at h; cases h
  | oof => rw [hl] at h; cases h

/-- A source of several lines with braces, comments, a property access and numbers. -/
def scanSample : Text := c!"<?php\nif ($a) { // x\n  $a->b = 'c\nd' + 1.5;\n}\n"

/-- The hypotheses of `C05`, `C08`, `C29`, `C30` hold at the end of the scan of the sample: a state after all of its
16 tokens, in a source without interpolated strings. -/
example : ∃ toks t, Scanned scanSample toks t ∧ Moment scanSample t ∧ toks.length = 16 ∧ ¬ HasQuote scanSample ∧ ¬ HasBlock scanSample := by
  have h : ∃ toks, spansOf 40 scanSample = some toks ∧ toks.length = 16 := by
    have h : (spansOf 40 scanSample).map List.length = some 16 := by decide +kernel
    simpa using h
  obtain ⟨toks, h1, h2⟩ := h
  obtain ⟨t, ht⟩ := scanned_of_spans h1
  refine ⟨toks, t, ht, .token ht, h2, ?_, ?_⟩
  · unfold HasQuote; decide +kernel
  · unfold HasBlock; decide +kernel

/-- The other hypothesis of `C08_terminates_partial`: the blocks in these strings are simple and closed. -/
example : HasBlock c!"<?php echo \"{$a->b[0]} ${c}\";" ∧ ¬ HasWild c!"<?php echo \"{$a->b[0]} ${c}\";" ∧ ¬ HasStray c!"<?php echo \"{$a->b[0]} ${c}\";" := by
  refine ⟨by unfold HasBlock; decide +kernel, tamed_sound (by decide +kernel), ?_⟩
  rintro ⟨pre, c, post, h | h⟩
  · have hn : ¬ c!"0x" <:+: c!"<?php echo \"{$a->b[0]} ${c}\";" := by decide +kernel
    exact hn ⟨pre, c :: post, h.1.symm⟩
  · have hn : ¬ c!"0b" <:+: c!"<?php echo \"{$a->b[0]} ${c}\";" := by decide +kernel
    exact hn ⟨pre, c :: post, h.1.symm⟩

/-- A brace is open after the first six tokens of the sample: the hypothesis of `C29_no_underflow_partial`. -/
example : ∃ toks t, Scanned c!"<?php\nif ($a) { " toks t ∧ count closesBrace toks < count opensBrace toks := by
  have h : ∃ toks, spansOf 40 c!"<?php\nif ($a) { " = some toks ∧ count closesBrace toks < count opensBrace toks := by
    have h : (spansOf 40 c!"<?php\nif ($a) { ").any (fun toks => decide (count closesBrace toks < count opensBrace toks)) = true := by
      decide +kernel
    simpa [Option.any_eq_true] using h
  obtain ⟨toks, h1, h2⟩ := h
  obtain ⟨t, ht⟩ := scanned_of_spans h1
  exact ⟨toks, t, ht, h2⟩

/-- The exceptional case of `C05_line_table` occurs: behind the closing label of a heredoc the table already has
the start of the next line. -/
example : ∃ toks t, Scanned c!"<?php <<<A\nx\nA;\n" toks t ∧ ¬ LinesOk t.st.lineMap t.st.srcPos := by
  have e : (match nextToken 5 (Tz.new c!"<?php <<<A\nx\nA;\n") with
      | .ok _ t1 => match nextToken 5 t1 with
        | .ok _ t2 => decide (t2.st.srcPos = 14 ∧ 16 ∈ t2.st.lineMap.data)
        | _ => false
      | _ => false) = true := by decide +kernel
  split at e
  · rename_i x t1 h1
    split at e
    · rename_i y t2 h2
      obtain ⟨h3, h4⟩ := of_decide_eq_true e
      refine ⟨_, t2, .next 5 (.next 5 .start h1) h2, fun h => ?_⟩
      have := h.upto 16 h4
      omega
    · cases e
  · cases e

/-- **C30** fails for strings: the last part of an interpolated string gets the range of the whole string, and so
overlaps the other parts. -/
theorem C30_overlap : ∃ toks, spansOf 20 c!"<?php \"a$b c\";" = some toks ∧
    ∃ x y, [x, y].Sublist toks ∧ isNumber x.tok = false ∧ isNumber y.tok = false ∧ y.span.start < x.span.stop := by
  have h : (spansOf 20 c!"<?php \"a$b c\";").any (fun toks => match toks with
      | [_, _, _, x, y, _, _] => !isNumber x.tok && !isNumber y.tok && decide (y.span.start < x.span.stop)
      | _ => false) = true := by decide +kernel
  obtain ⟨h0, h2⟩ := (Option.any_eq_true_iff_get _ _).1 h
  have h1 := (Option.some_get h0).symm
  generalize (spansOf 20 c!"<?php \"a$b c\";").get h0 = toks at h1 h2
  refine ⟨toks, h1, ?_⟩
  split at h2
  · rename_i a b c x y d e
    simp only [Bool.and_eq_true, Bool.not_eq_true', decide_eq_true_eq] at h2
    refine ⟨x, y, ?_, h2.1.1, h2.1.2, h2.2⟩
    exact .cons _ (.cons _ (.cons _ (.cons_cons _ (.cons_cons _ (.cons _ (.cons _ .slnil))))))
  · cases h2

end Pico
