import Verif.Props.LineMap
import Verif.Lemmas.Bytes
import Verif.Props.Parser
/-!
# Between the tokenizer and the parser (C15, C27)
-/
namespace Pico

/-- Comments, open tags and close tags: the tokens that mean nothing to the grammar. -/
def Token.invisible : Token → Bool
  | .comment _ => true
  | .k .OpenTag => true
  | .k .CloseTag => true
  | _ => false

theorem stripTokens_eq (toks : List TokSpan) :
    stripTokens toks = (toks.filter fun t => !t.tok.invisible).flatMap stripToken := by
  induction toks with
  | nil => rfl
  | cons t ts ih =>
    have h0 : t.tok.invisible = true → stripToken t = [] := by
      intro h
      unfold stripToken
      unfold Token.invisible at h
      split at h <;> simp_all
    show stripToken t ++ stripTokens ts = _
    rw [ih, List.filter_cons]
    by_cases h : t.tok.invisible = true
    · simp [h, h0 h]
    · simp [h]

/-- **C15.** Two token sequences that differ only in comments, open tags and close tags (added, removed,
changed or moved) have the same outcome: the same statements, the same error, the same abort. -/
theorem C15_invisible (n : Nat) (m : LineMap) (toks toks' : List TokSpan)
    (h : (toks.filter fun t => !t.tok.invisible) = toks'.filter fun t => !t.tok.invisible) :
    parseTokensN n m toks = parseTokensN n m toks' := by
  unfold parseTokensN
  rw [stripTokens_eq, stripTokens_eq toks', h]

/-- **C15**, one token at a time: adding a comment, open tag or close tag at any place. -/
theorem C15_insert (n : Nat) (m : LineMap) (a b : List TokSpan) (t : TokSpan) (h : t.tok.invisible = true) :
    parseTokensN n m (a ++ t :: b) = parseTokensN n m (a ++ b) := by
  apply C15_invisible
  simp [List.filter_append, h]

/-- The hypothesis of `C15_invisible` holds for sequences with and without a comment and an open tag. -/
example : (sampleTokens.filter fun t => !t.tok.invisible) =
    ((⟨.comment c!"x", mkSpan 0 3⟩ :: sampleTokens.tail).filter fun t => !t.tok.invisible) ∧
    (sampleTokens.filter fun t => !t.tok.invisible).length = 5 := by decide

theorem mem_stripTokens {x : TokSpan} {toks : List TokSpan} (h : x ∈ stripTokens toks) :
    ∃ t ∈ toks, t.tok.invisible = false ∧ x ∈ stripToken t ∧ x.span = t.span := by
  rw [stripTokens_eq] at h
  obtain ⟨t, ht, hx⟩ := List.mem_flatMap.1 h
  obtain ⟨h1, h2⟩ := List.mem_filter.1 ht
  refine ⟨t, h1, by simpa using h2, hx, ?_⟩
  unfold stripToken at hx
  split at hx <;> simp_all
  rcases hx with rfl | rfl | rfl <;> rfl

theorem stripToken_getLast {t : TokSpan} (h : t.tok.invisible = false) :
    ∃ x, (stripToken t).getLast? = some x ∧ x.span = t.span := by
  unfold stripToken
  unfold Token.invisible at h
  split at h
  · cases h
  · cases h
  · cases h
  · split <;> simp_all

theorem stripTokens_getLast {toks : List TokSpan} {x : TokSpan} (h : (stripTokens toks).getLast? = some x) :
    ∃ t, (toks.filter fun t => !t.tok.invisible).getLast? = some t ∧ x.span = t.span := by
  rw [stripTokens_eq] at h
  have hv : ∀ t ∈ (toks.filter fun t => !t.tok.invisible), t.tok.invisible = false := by
    intro t ht
    simpa using (List.mem_filter.1 ht).2
  generalize (toks.filter fun t => !t.tok.invisible) = vis at h hv
  rcases List.eq_nil_or_concat vis with rfl | ⟨l, t, rfl⟩
  · simp at h
  · obtain ⟨y, hy1, hy2⟩ := stripToken_getLast (hv t (by simp))
    refine ⟨t, by simp, ?_⟩
    rw [List.concat_eq_append, List.flatMap_append] at h
    simp only [List.flatMap_cons, List.flatMap_nil, List.append_nil] at h
    rw [List.getLast?_append, hy1] at h
    simp at h
    rw [← h, hy2]

theorem spannedErr_err {m : LineMap} {a b : Nat} {pe : PErr} {s : Option SyntaxErr} {e : SpannedErr}
    (h : spannedErr m a b pe s = .err e) :
    e.start = a ∧ e.stop = b ∧ m.lineFromPosition b = some e.line ∧
      m.line e.line = some (e.lineStart, e.lineEnd) ∧ e.error = pe ∧ e.syntaxErr = s := by
  unfold spannedErr at h
  split at h
  · cases h
  · rename_i line hl
    split at h
    · cases h
    · rename_i ls le hr
      cases h
      exact ⟨rfl, rfl, hl, hr, rfl, rfl⟩

/-- **C27**, the range of an error of the syntax stage: it is exactly the range of a token of the input
other than a comment or tag, or the one position behind the last such token; and the reported line is the
one the line table gives for its end. -/
theorem C27_range_partial (n : Nat) (m : LineMap) (toks : List TokSpan) (e : SpannedErr)
    (h : parseTokensN n m toks = .err e) :
    ((∃ t ∈ toks, t.tok.invisible = false ∧ e.start = t.span.start ∧ e.stop = t.span.stop) ∨
      (∃ t, (toks.filter fun t => !t.tok.invisible).getLast? = some t ∧ e.start = t.span.stop ∧
        e.stop = t.span.stop + 1)) ∧
    m.lineFromPosition e.stop = some e.line ∧ m.line e.line = some (e.lineStart, e.lineEnd) := by
  unfold parseTokensN at h
  dsimp only at h
  split at h
  · cases h
  · cases h
  · cases h
  · split at h
    · split at h
      · rename_i pe p hp hlt t ht
        obtain ⟨h1, h2, h3, h4, -, -⟩ := spannedErr_err h
        obtain ⟨u, hu1, hu2, -, hu3⟩ := mem_stripTokens (List.mem_of_getElem? ht)
        rw [← h2] at h3
        exact ⟨.inl ⟨u, hu1, hu2, by rw [h1, hu3], by rw [h2, hu3]⟩, h3, h4⟩
      · cases h
    · split at h
      · rename_i pe p hp hlt t ht
        obtain ⟨h1, h2, h3, h4, -, -⟩ := spannedErr_err h
        obtain ⟨u, hu1, hu2⟩ := stripTokens_getLast ht
        rw [← h2] at h3
        exact ⟨.inr ⟨u, hu1, by rw [h1, hu2], by rw [h2, hu2]⟩, h3, h4⟩
      · cases h

/-- A reported range on one line of the source is formatted without aborting: the line's range is a slice of
the source (its ends are offsets of characters), the range starts on the line and is not empty. -/
theorem C27_message_partial (e : SpannedErr) (dbg : List Token → Text) (pre line post : Text)
    (hs : e.lineStart = byteLen pre) (he : e.lineEnd = byteLen pre + byteLen line)
    (h1 : e.lineStart ≤ e.start) (h2 : e.start < e.stop) :
    e.errorMessage dbg (some (pre ++ line ++ post)) = some (c!"expected one of " ++ dbg e.error.tokens ++
      c!" at line " ++ intText e.line ++ c!"\n" ++ line ++ c!"\n" ++
      List.replicate (e.start - e.lineStart) ' ' ++ c!"^" ++ List.replicate (e.stop - e.start - 1) '~') := by
  unfold SpannedErr.errorMessage sliceBytes
  dsimp only
  rw [hs, he, if_pos (by omega), List.append_assoc, dropBytes_append]
  simp only [Option.bind_some]
  rw [Nat.add_sub_cancel_left, takeBytes_append]
  dsimp only
  rw [if_neg (by omega), if_neg (by omega)]

/-- A failing token sequence: `echo ;` is rejected at its semicolon, and the message can be formatted. -/
example : (match parseTokensN 20 ⟨[0], 12⟩ [⟨.k .OpenTag, mkSpan 0 5⟩, ⟨.k .Echo, mkSpan 6 10⟩,
      ⟨.k .SemiColon, mkSpan 11 12⟩] with
    | .err e => decide (e.start = 11 ∧ e.stop = 12 ∧ e.line = 0) && (e.errorMessage (fun _ => []) (some c!"<?php echo ;")).isSome
    | _ => false) = true := by decide +kernel

end Pico
