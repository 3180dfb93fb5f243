import Verif.Spec.Document
import Verif.Props.Complete
import Verif.Props.Strings
import Verif.Props.Positions
/-!
# Here documents and now documents from the source to the tree (C58)
-/
namespace Pico

/-- A building block as a part of a literal. -/
def DqItem.snip : DqItem → Snip
  | .plain c => .plain c
  | .esc c v => .esc ['\\', c] (utf8 [v])
  | .raw c => .esc ['\\', c] (utf8 ['\\', c])
  | .hex ds => .esc ('\\' :: 'x' :: ds) [numberValue 16 ds]
  | .dollar => .plain '$'
  | .brace => .plain '{'
  | .var n => .var n
  | .prop n p => .prop n p

theorem snip_src (its : List DqItem) : fragSrc (its.map DqItem.snip) = dqSrc its := by
  induction its with
  | nil => rfl
  | cons it its ih =>
    have h : it.snip.src = it.src := by cases it <;> rfl
    show it.snip.src ++ fragSrc (its.map DqItem.snip) = it.src ++ dqSrc its
    rw [h, ih]

theorem HereOk.frags {tag rest : Text} {its : List DqItem} (h : HereOk tag its rest) : FragsOk (.here tag) (its.map DqItem.snip) rest := by
  induction its with
  | nil => trivial
  | cons it its ih =>
    refine ⟨?_, ih h.2⟩
    rw [snip_src]
    have h1 := h.1
    generalize dqSrc its ++ rest = r at h1 ⊢
    cases it with
    | plain c =>
      refine ⟨h1.1, ?_, h1.2.2.2⟩
      rintro (⟨rfl, -⟩ | ⟨rfl, -⟩)
      · exact h1.2.1 rfl
      · exact h1.2.2.1 rfl
    | esc c v => exact .known c v h1.1
    | raw c =>
      refine .other c (fun hc => h1 ?_) ?_
      · have : ∀ c ∈ c!"nrtfve\"\\$u", c ∈ c!"nrtfve\"\\$xXu" := by decide
        exact this c hc
      · rintro (rfl | rfl)
        · exact absurd (by decide) (show 'x' ∉ c!"nrtfve\"\\$xXu" from h1)
        · exact absurd (by decide) (show 'X' ∉ c!"nrtfve\"\\$xXu" from h1)
    | hex ds => exact .hex 'x' ds (.inl rfl) h1.1 h1.2.1
    | dollar =>
      refine ⟨by decide, ?_, fun h => absurd h (by decide)⟩
      rintro (⟨-, h | h⟩ | ⟨h, -⟩)
      · exact h h1.1
      · exact h1.2 h
      · exact absurd h (by decide)
    | brace =>
      refine ⟨by decide, ?_, fun h => absurd h (by decide)⟩
      rintro (⟨h, -⟩ | ⟨-, h⟩)
      · exact absurd h (by decide)
      · exact h1 h
    | var n => exact ⟨identifier_label h1.1, h1.2⟩
    | prop n p => exact ⟨identifier_label h1.1, identifier_label h1.2.1, h1.2.2⟩

theorem utf8_ne {s : Text} (h : s ≠ []) : utf8 s ≠ [] := by
  intro e
  exact h (utf8_inj (b := []) e)

theorem textTok_part (s : Text) : TextPart (utf8 s) (textTok s) := by
  unfold textTok
  split
  · subst_vars; exact .none
  · rename_i h; exact .some (utf8_ne h) (.text s)

theorem HereOk.parts {tag rest : Text} {its : List DqItem} (h : HereOk tag its rest) : ∀ s, Parts (utf8 s) (its.map DqItem.snip) (dqToks s its) := by
  induction its with
  | nil => exact fun s => .nil (textTok_part s)
  | cons it its ih =>
    intro s
    have ih := ih h.2
    have h1 := h.1
    cases it with
    | plain c => exact .plain c (utf8_append s [c] ▸ ih _)
    | esc c v => exact .esc _ _ (utf8_append s [v] ▸ ih _)
    | raw c => exact .esc _ _ (utf8_append s ['\\', c] ▸ ih _)
    | hex ds =>
      have hv : utf8 [Char.ofNat (numberValue 16 ds)] = [numberValue 16 ds] := by
        have h2 : numberValue 16 ds < 128 := h1.2.2
        rw [utf8_one, encodeChar_ofNat (.inl (by omega)), if_pos (by omega)]
      exact .esc _ _ (hv ▸ utf8_append s _ ▸ ih _)
    | dollar => exact .plain '$' (utf8_append s ['$'] ▸ ih _)
    | brace => exact .plain '{' (utf8_append s ['{'] ▸ ih _)
    | var n => exact .var n (textTok_part s) (ih [])
    | prop n p => exact .prop n p (textTok_part s) (ih [])

theorem semi_scrap : Scrap c!";" [.k .SemiColon] c!"\n" := by
  refine .symbol (by decide) (by unfold Longest; decide) ?_
  rintro (⟨c, r, h, _⟩ | ⟨q, h⟩ | ⟨q, h⟩ | ⟨r, h, _⟩ | ⟨h, _⟩)
  · cases h
  · cases h
  · cases h
  · cases h
  · exact absurd h (by decide)

/-- A script that returns a document. -/
theorem return_laid {w : Text} {ks : List Token} (h : Doc w ks c!";\n") (hk : ks ≠ [.k .ObjectOp]) :
    Laid .html (c!"<?php return " ++ w ++ c!";\n") (.k .OpenTag :: .k .Return :: (ks ++ [.k .SemiColon])) := by
  have hb : Blank c!" " := by unfold Blank; decide
  have h1 : Laid .script (c!";" ++ c!"\n") ([.k .SemiColon] ++ []) := .piece [] c!";" _ nofun semi_scrap (.scriptEnd (by unfold Blank; decide))
  have h2 : Laid .script (c!" " ++ w ++ c!";\n") (ks ++ [.k .SemiColon]) := .piece c!" " w ks hb (.doc [] w ks (.inl rfl) h) (by rw [if_neg hk]; exact h1)
  have h3 : Laid .script (c!" " ++ c!"return" ++ (c!" " ++ w ++ c!";\n")) ([identifierToken c!"return"] ++ (ks ++ [.k .SemiColon])) :=
    .piece c!" " c!"return" _ hb (.word rfl rfl (by decide) (fun h => absurd h (by decide)) (fun h => absurd h (by decide))) (by
      rw [if_neg (by decide)]; exact h2)
  have := open_laid h3
  have hr : identifierToken c!"return" = .k .Return := by decide
  rw [hr] at this
  simpa using this

theorem dqToks_closed (its : List DqItem) : ∀ s, ∀ t ∈ dqToks s its, closesBrace t = false ∧ seenAs t = [t] := by
  have ht : ∀ s : Text, ∀ t ∈ textTok s, closesBrace t = false ∧ seenAs t = [t] := by
    intro s t h
    unfold textTok at h
    split at h
    · cases h
    · rw [List.mem_singleton.1 h]; exact ⟨rfl, rfl⟩
  induction its with
  | nil => exact ht
  | cons it its ih =>
    intro s
    cases it with
    | var n =>
      intro t h
      rcases List.mem_append.1 h with h | h
      · exact ht s t h
      · rcases List.mem_cons.1 h with rfl | h
        · exact ⟨rfl, rfl⟩
        · exact ih [] t h
    | prop n p =>
      intro t h
      rcases List.mem_append.1 h with h | h
      · exact ht s t h
      · rcases List.mem_cons.1 h with rfl | h
        · exact ⟨rfl, rfl⟩
        rcases List.mem_cons.1 h with rfl | h
        · exact ⟨rfl, rfl⟩
        rcases List.mem_cons.1 h with rfl | h
        · exact ⟨rfl, rfl⟩
        · exact ih [] t h
    | _ => exact ih _

theorem closed_none {d : Nat} {ts : List Token} (h : ∀ t ∈ ts, closesBrace t = false) : Closed d ts := by
  rintro a b rfl
  have : a.filter closesBrace = [] := List.filter_eq_nil_iff.2 fun t ht => by simp [h t (List.mem_append_left _ ht)]
  rw [this]; exact Nat.zero_le _

theorem seen_self {ts : List Token} (h : ∀ t ∈ ts, seenAs t = [t]) : ts.flatMap seenAs = ts := by
  induction ts with
  | nil => rfl
  | cons t ts ih => rw [List.flatMap_cons, h t (by simp), ih fun x hx => h x (by simp [hx])]; rfl

/-- A script that returns a document, from the source to the tree. -/
theorem return_parses {w : Text} {ks : List Token} {e : Expr} (h : Doc w ks c!";\n") (hk : ks ≠ [.k .ObjectOp])
    (hw : ¬ HasWild (c!"<?php return " ++ w ++ c!";\n")) (hs : ¬ HasStray (c!"<?php return " ++ w ++ c!";\n"))
    (hc : ∀ t ∈ ks, closesBrace t = false ∧ seenAs t = [t]) (he : Derives (.expr 0 prefixLevel) ks e) :
    ∃ ss, Ends (c!"<?php return " ++ w ++ c!";\n") (.ok ss) ∧ eraseStmts ss = [bareS (.ret (some e))] := by
  have hc' : ∀ t ∈ Token.k .Return :: (ks ++ [.k .SemiColon]), closesBrace t = false ∧ seenAs t = [t] := by
    intro t ht
    rcases List.mem_cons.1 ht with rfl | ht
    · exact ⟨rfl, rfl⟩
    rcases List.mem_append.1 ht with ht | ht
    · exact hc t ht
    · rw [List.mem_singleton.1 ht]; exact ⟨rfl, rfl⟩
  have hv : (Token.k .OpenTag :: .k .Return :: (ks ++ [.k .SemiColon])).flatMap seenAs = .k .Return :: (ks ++ [.k .SemiColon]) := by
    rw [List.flatMap_cons, seen_self fun t ht => (hc' t ht).2]; rfl
  obtain ⟨ss, h1, h2⟩ := C07_laid_partial _ _ [bareS (.ret (some e))] (return_laid h hk) hw hs
    (closed_none fun t ht => by
      rcases List.mem_cons.1 ht with rfl | ht
      · rfl
      · exact (hc' t ht).1)
    (fun hd => by
      have := hd.2
      rw [← List.cons_append, ← List.cons_append, List.getLast?_concat] at this
      cases this)
    (by rw [hv]; nofun)
    (by
      rw [hv]
      have := DerivesX.tops_cons (.t_stmt (.s_return (.o_some he))) .tops_nil
      simpa using this)
  exact ⟨ss, h2, h1⟩

theorem ends_semi : EndsDoc c!";\n" := ⟨c!";", c!"\n", [], rfl, .inr rfl, .inl rfl⟩

/-- **C58** for here documents. A here document of any text, escapes, variables `$a` and properties `$a->b`, that is not empty, is parsed to a
concatenation whose leaves, read left to right, are exactly the variables and properties and the pieces of text between them. The label may
be written with quotation marks, and behind blanks. No line may begin with the label, and a quotation mark may not be written as `\"`
(`C58_fails`). Hypotheses `hw` and `hs` exclude the texts on which the tokenizer is not known to end (see C42, C43). -/
theorem C58_here_partial (b q tag nl : Text) (its : List DqItem) (hb : Spaces b) (hq : q = [] ∨ q = c!"\"") (ht : IsLabel tag)
    (hn : Newline nl (dqSrc its ++ c!"\n")) (h : HereOk tag its (c!"\n" ++ tag ++ c!";\n")) (hne : dqLeaves [] its ≠ [])
    (hw : ¬ HasWild (docScript b q tag nl (dqSrc its))) (hs : ¬ HasStray (docScript b q tag nl (dqSrc its))) :
    ∃ e ss, Ends (docScript b q tag nl (dqSrc its)) (.ok ss) ∧ eraseStmts ss = [bareS (.ret (some e))] ∧
      concatLeaves e = dqLeaves [] its := by
  have hd := Doc.here (rest := c!";\n") b q tag nl (its.map DqItem.snip) (dqToks [] its) hb hq ht (by rw [snip_src]; exact hn) h.frags
    (h.parts []) ends_semi
  rw [snip_src] at hd
  have hsrc : docScript b q tag nl (dqSrc its) =
      c!"<?php return " ++ (c!"<<<" ++ b ++ q ++ tag ++ q ++ nl ++ dqSrc its ++ c!"\n" ++ tag) ++ c!";\n" := by
    simp [docScript]
  rw [hsrc] at hw hs ⊢
  obtain ⟨e, es, hm⟩ := List.exists_cons_of_ne_nil hne
  have hl := dqParts_leaves its []
  rw [hm] at hl
  obtain ⟨ss, h1, h2⟩ := return_parses hd (by simp) hw hs (by
    intro t ht
    rcases List.mem_append.1 ht with ht | ht
    · rcases List.mem_cons.1 ht with rfl | ht
      · exact ⟨rfl, rfl⟩
      · exact dqToks_closed its [] t ht
    · rw [List.mem_singleton.1 ht]; exact ⟨rfl, rfl⟩) (DerivesX.e_heredoc (p := 0) (dqParts_derive its []) hl)
  refine ⟨_, ss, h1, h2, ?_⟩
  rw [concatAll_leaves e es (hm ▸ dqLeaves_leaf its []), hm]

theorem now_frags {tag rest : Text} : ∀ {body : Text}, '\\' ∉ body → '$' ∉ body → '{' ∉ body →
    (∀ pre post, body = pre ++ '\n' :: post → ¬ tag <+: post ++ rest) →
    FragsOk (.now tag) (body.map .plain) rest ∧ fragSrc (body.map .plain) = body ∧ fragBytes (body.map .plain) = utf8 body
  | [], _, _, _, _ => ⟨trivial, rfl, rfl⟩
  | c :: body, h1, h2, h3, h4 => by
    simp only [List.mem_cons, not_or] at h1 h2 h3
    obtain ⟨i1, i2, i3⟩ := now_frags (tag := tag) (rest := rest) (body := body) h1.2 h2.2 h3.2 fun pre post e => h4 (c :: pre) post (by rw [e]; rfl)
    refine ⟨⟨⟨Ne.symm h1.1, Ne.symm h2.1, Ne.symm h3.1, ?_⟩, i1⟩, ?_, ?_⟩
    · rintro rfl
      rw [i2]
      exact h4 [] body rfl
    · show c :: fragSrc (body.map .plain) = _
      rw [i2]
    · show utf8 [c] ++ fragBytes (body.map .plain) = _
      rw [i3, ← utf8_append]; rfl

theorem no_wild {src : Text} (h : '$' ∉ src) : ¬ HasWild src := by
  rintro ⟨pre, rest, rfl | rfl, -⟩ <;> exact h (by simp)

theorem now_script (b tag nl body : Text) (hb : Spaces b) (ht : IsLabel tag) (hn : Newline nl (body ++ c!"\n")) (h : '$' ∉ body) :
    '$' ∉ docScript b c!"'" tag nl body := by
  have h1 : '$' ∉ b := fun hm => by rcases hb _ hm with h | h <;> exact absurd h (by decide)
  have h2 : '$' ∉ tag := fun hm => by rcases ht.2.2 _ hm with h | h <;> exact absurd h (by decide)
  have h3 : '$' ∉ nl := by rcases hn with rfl | rfl | ⟨rfl, -⟩ <;> decide
  simp [docScript, h, h1, h2, h3]

/-- **C58** for now documents. A now document stands for the text between its labels, character by character. It may not contain
`\`, `$` or `{`, and no line after the first may begin with the label (`C58_fails`, `C45_fails_nowdoc`). -/
theorem C58_now_partial (b tag nl body : Text) (hb : Spaces b) (ht : IsLabel tag) (hn : Newline nl (body ++ c!"\n"))
    (h1 : '\\' ∉ body) (h2 : '$' ∉ body) (h3 : '{' ∉ body)
    (h4 : ∀ pre post, body = pre ++ '\n' :: post → ¬ tag <+: post ++ (c!"\n" ++ tag ++ c!";\n"))
    (hs : ¬ HasStray (docScript b c!"'" tag nl body)) :
    ∃ ss, Ends (docScript b c!"'" tag nl body) (.ok ss) ∧ eraseStmts ss = [bareS (.ret (some (bare (.str body))))] := by
  have hw : ¬ HasWild (docScript b c!"'" tag nl body) := no_wild (now_script b tag nl body hb ht hn h2)
  obtain ⟨i1, i2, i3⟩ := now_frags (tag := tag) (rest := c!"\n" ++ tag ++ c!";\n") h1 h2 h3 h4
  have hd := Doc.now (rest := c!";\n") b tag nl (body.map .plain) (.encaps body) hb ht (by rw [i2]; exact hn) i1 (by rw [i3]; exact .text body)
    ends_semi
  rw [i2] at hd
  have hsrc : docScript b c!"'" tag nl body =
      c!"<?php return " ++ (c!"<<<" ++ b ++ c!"'" ++ tag ++ c!"'" ++ nl ++ body ++ c!"\n" ++ tag) ++ c!";\n" := by
    simp [docScript]
  rw [hsrc] at hw hs ⊢
  exact return_parses hd (by simp) hw hs (by
    intro t ht
    rw [List.mem_singleton.1 ht]; exact ⟨rfl, rfl⟩) (.e_var (p := 0) (.v_str body (.a_nil false _)))

/-- The conditions of `C58_here_partial` hold for a document of three lines with an escape, a variable, a property and a quotation mark. -/
example : let its : List DqItem := [.plain 'x', .prop c!"a" c!"b", .plain '\n', .plain '"', .esc 't' '\t', .plain 'E', .plain '\n', .var c!"c"]
    HereOk c!"EOT" its (c!"\n" ++ c!"EOT" ++ c!";\n") ∧ dqLeaves [] its ≠ [] ∧ ¬ HasWild (docScript c!" " c!"\"" c!"EOT" c!"\n" (dqSrc its)) ∧
      ¬ HasStray (docScript c!" " c!"\"" c!"EOT" c!"\n" (dqSrc its)) ∧ IsLabel c!"EOT" := by
  refine ⟨?_, nofun, tamed_sound (by decide +kernel), fun h => absurd (strays_of h) (by decide +kernel), by unfold IsLabel; decide⟩
  refine ⟨⟨?_, ?_, ?_, ?_⟩, ⟨rfl, rfl, rfl⟩, ⟨?_, ?_, ?_, ?_⟩, ⟨?_, ?_, ?_, ?_⟩, ⟨?_, ?_⟩, ⟨?_, ?_, ?_, ?_⟩, ⟨?_, ?_, ?_, ?_⟩, ⟨rfl, rfl, ?_, ?_⟩, trivial⟩
  all_goals first | decide | (intro _; decide) | (show _ ∈ dqEscapes; decide) | skip
  intro r h
  cases h

theorem now_lines {tag body rest : Text} (h : ((List.range (body.length + 1)).map body.drop).all (fun t => match t with | '\n' :: post => !decide (tag <+: post ++ rest) | _ => true) = true) :
    ∀ pre post, body = pre ++ '\n' :: post → ¬ tag <+: post ++ rest := by
  rintro pre post rfl
  have := List.all_eq_true.1 h ('\n' :: post) (List.mem_map.2 ⟨pre.length, List.mem_range.2 (by simp; omega), by simp⟩)
  simpa using this

/-- The conditions of `C58_now_partial` hold for a document of three lines. -/
example : let body := c!"x \"y\" 'z'\n\n }A"
    '\\' ∉ body ∧ '$' ∉ body ∧ '{' ∉ body ∧ Newline c!"\r\n" (body ++ c!"\n") ∧
      (∀ pre post, body = pre ++ '\n' :: post → ¬ c!"A" <+: post ++ (c!"\n" ++ c!"A" ++ c!";\n")) ∧
      ¬ HasStray (docScript [] c!"'" c!"A" c!"\r\n" body) :=
  ⟨by decide, by decide, by decide, .inr (.inl rfl), now_lines (by decide +kernel), fun h => absurd (strays_of h) (by decide +kernel)⟩

/-- The script returns this text. -/
theorem returns_text {src s : Text} {n : Nat} (h : returns (fun ss => match ss with
    | [.mk (.ret (some (.mk (.str t) _))) _] => decide (t = s)
    | _ => false) (fun _ => false) (parseStrN n src) = true) :
    ∃ ss, Ends src (.ok ss) ∧ eraseStmts ss = [bareS (.ret (some (bare (.str s))))] := by
  obtain ⟨ss, h1, h2⟩ := returns_ok h
  refine ⟨ss, h1, ?_⟩
  split at h2
  · rw [← of_decide_eq_true h2]; rfl
  · cases h2

/-- **C58** fails in general.
A now document has no escapes in PHP; here `\\` and `\'` are decoded in it.
In a here document `\"` are two characters in PHP; here they are one.
Octal escapes are kept as they are, in PHP `\101` is `A`.
Where lines end with a carriage return and a line feed, the text keeps the carriage return of its last line.
Documents without a line are rejected, and here documents of one empty line.
A line that only begins with the label ends the document, which is then rejected, except for the first line, which does not even end it if
it is the label. -/
theorem C58_fails :
    (∃ ss, Ends (docScript [] c!"'" c!"A" c!"\n" c!"x\\\\y\\'") (.ok ss) ∧ eraseStmts ss = [bareS (.ret (some (bare (.str c!"x\\y'"))))]) ∧
    (∃ ss, Ends (docScript [] [] c!"A" c!"\n" c!"x\\\"y") (.ok ss) ∧ eraseStmts ss = [bareS (.ret (some (bare (.str c!"x\"y"))))]) ∧
    (∃ ss, Ends (docScript [] [] c!"A" c!"\n" c!"\\101") (.ok ss) ∧ eraseStmts ss = [bareS (.ret (some (bare (.str c!"\\101"))))]) ∧
    (∃ ss, Ends (docScript [] [] c!"A" c!"\r\n" c!"x\r") (.ok ss) ∧ eraseStmts ss = [bareS (.ret (some (bare (.str c!"x\r"))))]) ∧
    (∃ e, Ends c!"<?php return <<<A\nA;\n" (.err e)) ∧ (∃ e, Ends c!"<?php return <<<'A'\nA;\n" (.err e)) ∧
    (∃ e, Ends (docScript [] [] c!"A" c!"\n" []) (.err e)) ∧
    (∃ e, Ends (docScript [] [] c!"A" c!"\n" c!"x\nAB") (.err e)) ∧ (∃ e, Ends (docScript [] c!"'" c!"A" c!"\n" c!"x\nAB") (.err e)) ∧
    (∃ ss, Ends (docScript [] [] c!"A" c!"\n" c!"A") (.ok ss) ∧ eraseStmts ss = [bareS (.ret (some (bare (.str c!"A"))))]) := by
  have err {src : Text} (h : returns (fun _ => false) (fun _ => true) (parseStrN 60 src) = true) : ∃ e, Ends src (.err e) := by
    obtain ⟨e, h, -⟩ := returns_err h
    exact ⟨e, h⟩
  exact ⟨returns_text (n := 60) (by decide +kernel), returns_text (n := 60) (by decide +kernel), returns_text (n := 60) (by decide +kernel),
    returns_text (n := 60) (by decide +kernel), err (by decide +kernel), err (by decide +kernel), err (by decide +kernel), err (by decide +kernel),
    err (by decide +kernel), returns_text (n := 60) (by decide +kernel)⟩

end Pico
