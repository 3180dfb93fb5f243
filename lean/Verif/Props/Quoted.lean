import Verif.Props.Strings
import Verif.Lemmas.LexMeans
import Verif.Props.Agree
import Verif.Props.Document
import Verif.Lemmas.UniqueStr
/-!
# Literals between double quotes denote what the language says (C59)
-/
namespace Pico

private def literalItem : DqItem → Bool
  | .var _ => false
  | .prop _ _ => false
  | _ => true

private theorem leaves_literal : ∀ (its : List DqItem) (s : Text), (∀ i ∈ its, literalItem i = true) →
    dqLeaves s its = textLeaf (s ++ its.flatMap DqItem.val)
  | [], s, _ => by simp [dqLeaves]
  | i :: its, s, h => by
    have hi := h i List.mem_cons_self
    have ih := leaves_literal its (s ++ i.val) fun j hj => h j (List.mem_cons_of_mem _ hj)
    cases i with
    | var => cases hi
    | prop => cases hi
    | _ => rw [dqLeaves, ih, List.flatMap_cons, List.append_assoc] <;> nofun

private theorem utf8_cons (c : Char) (s : Text) : utf8 (c :: s) = utf8 [c] ++ utf8 s := utf8_append [c] s

private theorem concat_text {e : Expr} {s : Text} (h : concatLeaves e = [bare (.str s)]) : e = bare (.str s) := by
  have hne : ∀ e : Expr, concatLeaves e ≠ [] := by
    intro e
    fun_induction concatLeaves e with
    | case1 l r _ ih1 ih2 => simp [ih1]
    | case2 => simp
  unfold concatLeaves at h
  split at h
  · rename_i l r _
    have h1 := List.length_pos_iff.2 (hne l)
    have h2 := List.length_pos_iff.2 (hne r)
    have := congrArg List.length h
    simp at this
    omega
  · simpa using h

private theorem items_text (its : List DqItem) (h : DqOk its) (hl : ∀ i ∈ its, literalItem i = true) :
    ∃ ss, Ends (c!"<?php return \"" ++ dqSrc its ++ c!"\";") (.ok ss) ∧
      eraseStmts ss = [bareS (.ret (some (bare (.str (its.flatMap DqItem.val)))))] := by
  obtain ⟨e, ss, h1, h2, h3⟩ := C25_interpolation its h
  refine ⟨ss, h1, ?_⟩
  rw [leaves_literal its [] hl] at h3
  have : e = bare (.str (its.flatMap DqItem.val)) := by
    refine concat_text (h3.trans ?_)
    unfold textLeaf
    cases hv : its.flatMap DqItem.val <;> simp [hv]
  rw [h2, this]

/-- The script that returns the literal. -/
private theorem return_tokens {x : Text} {bs : List Nat} (hx : DqMeans false x bs) :
    ∃ n ts, spansOf n (c!"<?php return \"" ++ x ++ c!"\";") = some ts ∧
      ts.map TokSpan.tok = .k .OpenTag :: .k .Return :: .k .DoubleQuote :: (meansTok bs ++ [.k .DoubleQuote, .k .SemiColon]) := by
  obtain ⟨n, ts, h1, h2⟩ := means_tokens [.gap c!" ", .lex (.word c!"return"), .gap c!" "] [.lex (.sym c!";" .SemiColon)] (d := 0) (d' := 0) hx
    ⟨by unfold Blank; decide, ⟨rfl, by decide⟩, ⟨rfl, fun _ => ⟨fun h => absurd h (by decide), fun h => absurd h (by decide)⟩⟩, by unfold Blank; decide, trivial⟩ rfl (apartB_ok rfl) rfl
  refine ⟨n, ts, ?_, ?_⟩
  · rw [← h1]
    congr 1
    simp [render, Item.text, Lexeme.text]
  · rw [h2]
    have hr : identifierToken c!"return" = .k .Return := by decide
    simp [toks, hr, Lexeme.tok]

/-- **C59** (partial): a literal between double quotes that is written without the escape sequences `DqMeans` leaves out, and denotes a
text, denotes the text the language says. Missing: the escape sequences that are left out (see `C59_fails_octal` and `C59_fails_abort`), and
bytes that are no text (`C59_fails_bytes`). -/
theorem C59_text_partial (x s : Text) (h : DqMeans false x (utf8 s)) :
    ∃ ss, Ends (c!"<?php return \"" ++ x ++ c!"\";") (.ok ss) ∧ eraseStmts ss = [bareS (.ret (some (bare (.str s))))] := by
  obtain ⟨n, ts, h1, h2⟩ := return_tokens h
  have hv : visible ts = .k .Return :: (.k .DoubleQuote :: (meansTok (utf8 s) ++ [.k .DoubleQuote])) ++ [.k .SemiColon] := by
    rw [visible_eq, h2]
    unfold meansTok bytesToken
    rw [utf8_eq, decode_encode]
    cases (encode s).isEmpty <;> rfl
  have he : Derives (.expr 0 prefixLevel) (.k .DoubleQuote :: (meansTok (utf8 s) ++ [.k .DoubleQuote])) (bare (.str s)) := by
    cases s with
    | nil => exact .e_emptyString
    | cons c s =>
      have : meansTok (utf8 (c :: s)) = [.encaps (c :: s)] := by
        have hne := utf8_ne (s := c :: s) (by simp)
        unfold meansTok bytesToken
        rw [utf8_eq] at hne ⊢
        rw [decode_encode]
        cases hu : encode (c :: s) with
        | nil => exact absurd hu hne
        | cons => rfl
      rw [this]
      have hd := dqParts_derive [] (c :: s)
      have hl := dqParts_leaves [] (c :: s)
      exact .e_string hd hl
  obtain ⟨ss, g1, g2⟩ := source_parses _ n ts [bareS (.ret (some (bare (.str s))))] h1 (by rw [hv]; nofun) (by
    rw [hv]
    have := DerivesX.tops_cons (.t_stmt (.s_return (.o_some he))) .tops_nil
    simpa using this)
  exact ⟨ss, g2, g1⟩

/-- `a\t$\x41{\q\xC3\Xa9\x` is such a literal; it denotes an `a`, a tabulator, `$A{\qé\x`. -/
example : DqMeans false c!"a\\t$\\x41{\\q\\xC3\\Xa9\\x" (utf8 c!"a\t$A{\\qé\\x") :=
  .plain 'a' (by decide) (.letter 't' 9 (by decide) (.dollar (by intro c hc; cases hc; decide) (.hex (ds := c!"41") 'x' (.inl rfl) (.inl rfl)
    (by decide) (.inr (by decide)) (.brace (by decide) (.other 'q' (by decide) (.hex (ds := c!"C3") 'x' (.inl rfl) (.inl rfl) (by decide)
    (.inr (by decide)) (.hex (ds := c!"a9") 'X' (.inr rfl) (.inl rfl) (by decide) (.inr (by decide)) (.noHex 'x' (.inl rfl) nofun
    (.inr nofun) .nil))))))))

private theorem binary_rejected (n : Nat) (bs : List Nat) (a b c d e : Span) :
    ∃ x p, parseTopStatementList (recN (n + 20)) [⟨.k .Return, a⟩, ⟨.k .DoubleQuote, b⟩, ⟨.binary bs, c⟩, ⟨.k .DoubleQuote, d⟩, ⟨.k .SemiColon, e⟩] 0 =
      .err x p := ⟨_, _, rfl⟩

/-- **C59** fails for all literals whose bytes are no text: they are rejected. -/
theorem C59_fails_bytes (x : Text) (bs : List Nat) (h : DqMeans false x bs) (hb : ∀ s, utf8 s ≠ bs) :
    ∃ e, Ends (c!"<?php return \"" ++ x ++ c!"\";") (.err e) := by
  obtain ⟨n, ts, h1, h2⟩ := return_tokens h
  have ht : meansTok bs = [.binary bs] := by
    unfold meansTok bytesToken
    cases bs with
    | nil => exact absurd rfl (hb [])
    | cons b bs =>
      have : decode (b :: bs) = none := by
        cases hd : decode (b :: bs) with
        | none => rfl
        | some s => exact absurd ((utf8_eq s).trans (encode_decode _ _ hd)) (hb s)
      rw [this]
      rfl
  rw [ht] at h2
  obtain ⟨s0, s1, s2, s3, s4, s5, rfl⟩ : ∃ s0 s1 s2 s3 s4 s5, ts = [⟨.k .OpenTag, s0⟩, ⟨.k .Return, s1⟩, ⟨.k .DoubleQuote, s2⟩, ⟨.binary bs, s3⟩,
      ⟨.k .DoubleQuote, s4⟩, ⟨.k .SemiColon, s5⟩] := by
    rcases ts with _ | ⟨⟨a, sa⟩, _ | ⟨⟨b, sb⟩, _ | ⟨⟨c, sc⟩, _ | ⟨⟨d, sd⟩, _ | ⟨⟨e, se⟩, _ | ⟨⟨f, sf⟩, _ | ⟨g, ts⟩⟩⟩⟩⟩⟩⟩ <;> simp at h2
    obtain ⟨rfl, rfl, rfl, rfl, rfl, rfl⟩ := h2
    exact ⟨sa, sb, sc, sd, se, sf, rfl⟩
  obtain ⟨t, hm, e1⟩ := spans_scanned (spansOf_le (m := n + 20) (by omega) h1)
  obtain ⟨e, p, hp⟩ := binary_rejected n bs s1 s2 s3 s4 s5
  have hst : stripTokens [⟨.k .OpenTag, s0⟩, ⟨.k .Return, s1⟩, ⟨.k .DoubleQuote, s2⟩, ⟨.binary bs, s3⟩, ⟨.k .DoubleQuote, s4⟩, ⟨.k .SemiColon, s5⟩] =
    [⟨.k .Return, s1⟩, ⟨.k .DoubleQuote, s2⟩, ⟨.binary bs, s3⟩, ⟨.k .DoubleQuote, s4⟩, ⟨.k .SemiColon, s5⟩] := rfl
  have : ∃ z, parseTokensN (n + 20) t.st.lineMap [⟨.k .OpenTag, s0⟩, ⟨.k .Return, s1⟩, ⟨.k .DoubleQuote, s2⟩, ⟨.binary bs, s3⟩,
      ⟨.k .DoubleQuote, s4⟩, ⟨.k .SemiColon, s5⟩] = .err z := by
    unfold parseTokensN
    dsimp only
    rw [hst, hp]
    dsimp only
    split
    · rename_i hlt
      rw [List.getElem?_eq_getElem hlt]
      obtain ⟨z, hz, -⟩ := spanned_ok hm _ _ e none
      exact ⟨z, hz⟩
    · obtain ⟨z, hz, -⟩ := spanned_ok hm s5.stop (s5.stop + 1) e none
      exact ⟨z, hz⟩
  obtain ⟨z, hz⟩ := this
  exact ⟨z, n + 20, e1.trans hz, nofun⟩

/-- `\xff` is such a literal. -/
example : DqMeans false c!"\\xff" [255] ∧ ∀ s, utf8 s ≠ [255] :=
  ⟨.hex (ds := c!"ff") (x := []) 'x' (.inl rfl) (.inl rfl) (by decide) (.inr (by decide)) .nil, fun s h => by
    rw [utf8_eq] at h
    have := decode_encode s
    rw [h] at this
    exact absurd this (by rw [show decode [255] = none by decide +kernel]; nofun)⟩

/-- **C59** fails for all literals with `\e`, `\u{…}`, or with `\x` and a letter in the place of one of its digits (`\x4g` is `\x4` and a
`g`, `\xyz` is just that text): wherever the literal is in a script, and whatever follows, `parse_str` aborts. -/
theorem C59_fails_abort (is : List Item) (d : Nat) (x w rest : Text) (bs : List Nat) (hx : DqMeans false x bs) (hw : badEscape w)
    (h : Apart false is (c!"\"" ++ x ++ w ++ rest)) (hb : braces 0 is = some d) :
    ∃ p, Ends (c!"<?php" ++ render is ++ c!"\"" ++ x ++ w ++ rest) (.panic p) := by
  have hsrc : c!"<?php" ++ render is ++ c!"\"" ++ x ++ w ++ rest = c!"<?php" ++ (render is ++ (c!"\"" ++ x ++ w ++ rest)) := by simp
  rw [hsrc]
  generalize htl : c!"\"" ++ x ++ w ++ rest = tail at h ⊢
  have htl' : tail = '"' :: (x ++ (w ++ rest)) := by rw [← htl]; simp
  have big : ∃ p, lexAll ((toks false is).length + 5) ((toks false is).length + 5) (Tz.new (c!"<?php" ++ (render is ++ tail))) [] = .panic p := by
    obtain ⟨sp, t1, h1, h2, h3, hp⟩ := open_tag (render is ++ tail) ((toks false is).length + 4)
    have hi := inv_new (c!"<?php" ++ (render is ++ tail))
    obtain ⟨out, t2, g1, g2, g3, g4, g5⟩ := run_items is tail ((toks false is).length + 2) d t1 false 0 (.of_at h2)
      ⟨hi.next h1, hp, .inl h3⟩ h hb [⟨.k .OpenTag, sp⟩]
    have hlen : out.length = (toks false is).length := by rw [← g1, List.length_map]
    rw [htl'] at g3
    obtain ⟨g0, hg0, hat⟩ := Ahead.lex (c := '"') (by decide) g3
    obtain ⟨t3, m, e, hm3, -, hat3, -⟩ := g4.enter ((toks false is).length + 2)
    obtain ⟨p, f1⟩ := step_bad hg0 (hat3 _ hat) hm3 hx hw m
    refine ⟨p, ?_⟩
    rw [lexAll_step (ts := ⟨.k .OpenTag, sp⟩) h1 nofun]
    have := g2 4
    rw [show 4 + out.length = (toks false is).length + 4 by omega] at this
    refine this.trans ?_
    show lexAll _ (3 + 1) _ _ = _
    unfold lexAll
    rw [e.trans f1]
  obtain ⟨p, big⟩ := big
  refine ⟨p, (toks false is).length + 5, ?_, nofun⟩
  unfold parseStrN
  rw [big]

/-- `<?php echo "a\x4g";` meets the hypotheses. -/
example : let is : List Item := [.gap c!" ", .lex (.word c!"echo"), .gap c!" "]
    DqMeans false c!"a" (utf8 c!"a") ∧ badEscape c!"\\x4g" ∧ Apart false is (c!"\"" ++ c!"a" ++ c!"\\x4g" ++ c!"\";") ∧ braces 0 is = some 0 ∧
      c!"<?php" ++ render is ++ c!"\"" ++ c!"a" ++ c!"\\x4g" ++ c!"\";" = c!"<?php echo \"a\\x4g\";" :=
  ⟨.plain 'a' (by decide) .nil, .inr (.inr (.inr ⟨'x', '4', 'g', .inl rfl, rfl, by decide⟩)), apartB_ok rfl, rfl, rfl⟩

/-- **C59** fails for every number of a character in octal digits: the literal denotes the backslash and the digits. -/
theorem C59_fails_octal (ds : Text) (hne : ds ≠ []) (hl : ds.length ≤ 3) (hd : ∀ c ∈ ds, octalDigit c = true) :
    DqMeans true ('\\' :: ds) [numberValue 8 ds % 256] ∧ utf8 ('\\' :: ds) ≠ [numberValue 8 ds % 256] ∧
    ∃ ss, Ends (c!"<?php return \"\\" ++ ds ++ c!"\";") (.ok ss) ∧ eraseStmts ss = [bareS (.ret (some (bare (.str ('\\' :: ds)))))] := by
  have hoct : ∀ c, octalDigit c = true → c ∉ c!"nrtfve\"\\$xXu" ∧ (c ≠ '\\' ∧ c ≠ '"' ∧ c ≠ '$' ∧ c ≠ '{') ∧ utf8 [c] ≠ [] := by
    intro c hc
    have hc' : c ∈ c!"01234567" := by simpa [octalDigit] using hc
    have : ∀ c ∈ c!"01234567", c ∉ c!"nrtfve\"\\$xXu" ∧ (c ≠ '\\' ∧ c ≠ '"' ∧ c ≠ '$' ∧ c ≠ '{') ∧ utf8 [c] ≠ [] := by decide
    exact this c hc'
  refine ⟨?_, ?_, ?_⟩
  · have := DqMeans.octal (full := true) (x := []) rfl hne hl hd nofun .nil
    rwa [List.append_nil] at this
  · intro h
    cases ds with
    | nil => exact hne rfl
    | cons d ds =>
      have hlen := congrArg List.length h
      rw [utf8_cons, utf8_cons d] at hlen
      have := List.length_pos_iff.2 (hoct d (hd d List.mem_cons_self)).2.2
      have h1 : (utf8 ['\\']).length = 1 := by decide
      simp only [List.length_append, h1, List.length_cons, List.length_nil] at hlen
      omega
  · cases ds with
    | nil => exact absurd rfl hne
    | cons d ds =>
      have hsrc : ∀ l : Text, dqSrc (l.map DqItem.plain) = l ∧ (l.map DqItem.plain).flatMap DqItem.val = l := by
        intro l
        induction l with
        | nil => exact ⟨rfl, rfl⟩
        | cons c l ih =>
          refine ⟨?_, ?_⟩
          · show [c] ++ dqSrc (l.map DqItem.plain) = _
            rw [ih.1]; rfl
          · rw [List.map_cons, List.flatMap_cons, ih.2]; rfl
      have hok : ∀ l : Text, (∀ c ∈ l, octalDigit c = true) → DqOk (l.map DqItem.plain) := by
        intro l
        induction l with
        | nil => intro _; trivial
        | cons c l ih => exact fun h => ⟨(hoct c (h c List.mem_cons_self)).2.1, ih fun c' hc => h c' (List.mem_cons_of_mem _ hc)⟩
      have := items_text (.raw d :: ds.map DqItem.plain) ⟨(hoct d (hd d List.mem_cons_self)).1, hok ds fun c hc => hd c (List.mem_cons_of_mem _ hc)⟩
        (by
          intro i hi
          rcases List.mem_cons.1 hi with rfl | hi
          · rfl
          · obtain ⟨c, -, rfl⟩ := List.mem_map.1 hi
            rfl)
      rw [List.flatMap_cons, (hsrc ds).2] at this
      have e : dqSrc (.raw d :: ds.map DqItem.plain) = '\\' :: d :: ds := by
        show ['\\', d] ++ dqSrc (ds.map DqItem.plain) = _
        rw [(hsrc ds).1]; rfl
      rw [e] at this
      simpa [DqItem.val] using this

example : c!"101" ≠ [] ∧ c!"101".length ≤ 3 ∧ (∀ c ∈ c!"101", octalDigit c = true) ∧ numberValue 8 c!"101" % 256 = 'A'.toNat := by decide

/-- **C59** fails for every number of a character in octal digits anywhere in a literal of plain characters: the literal denotes the text
between the quotes as it is written. -/
theorem C59_fails_octal_inside (a ds b : Text) (ha : ∀ c ∈ a, c ∉ c!"\\\"${") (hb : ∀ c ∈ b, c ∉ c!"\\\"${") (hne : ds ≠ []) (hl : ds.length ≤ 3)
    (hd : ∀ c ∈ ds, octalDigit c = true) (hm : ds.length < 3 → ∀ c, b.head? = some c → octalDigit c = false) :
    DqMeans true (a ++ '\\' :: (ds ++ b)) (utf8 a ++ (numberValue 8 ds % 256 :: utf8 b)) ∧
    utf8 (a ++ '\\' :: (ds ++ b)) ≠ utf8 a ++ (numberValue 8 ds % 256 :: utf8 b) ∧
    ∃ ss, Ends (c!"<?php return \"" ++ (a ++ '\\' :: (ds ++ b)) ++ c!"\";") (.ok ss) ∧
      eraseStmts ss = [bareS (.ret (some (bare (.str (a ++ '\\' :: (ds ++ b))))))] := by
  have hoct : ∀ c, octalDigit c = true → c ∉ c!"nrtfve\"\\$xXu" ∧ c ∉ c!"\\\"${" ∧ utf8 [c] ≠ [] := by
    intro c hc
    have hc' : c ∈ c!"01234567" := by simpa [octalDigit] using hc
    have : ∀ c ∈ c!"01234567", c ∉ c!"nrtfve\"\\$xXu" ∧ c ∉ c!"\\\"${" ∧ utf8 [c] ≠ [] := by decide
    exact this c hc'
  have hplain : ∀ (l x : Text) (bs : List Nat), (∀ c ∈ l, c ∉ c!"\\\"${") → DqMeans true x bs → DqMeans true (l ++ x) (utf8 l ++ bs) := by
    intro l x bs
    induction l with
    | nil => exact fun _ h => h
    | cons c l ih =>
      intro hc h
      have := DqMeans.plain c (hc c List.mem_cons_self) (ih (fun c' h' => hc c' (List.mem_cons_of_mem _ h')) h)
      rw [utf8_cons, List.append_assoc]
      exact this
  cases ds with
  | nil => exact absurd rfl hne
  | cons d ds =>
    refine ⟨?_, ?_, ?_⟩
    · refine hplain a _ _ ha (.octal rfl hne hl hd hm ?_)
      have := hplain b [] [] hb .nil
      simpa using this
    · intro h
      rw [utf8_append] at h
      have h := List.append_cancel_left h
      have hlen := congrArg List.length h
      rw [List.cons_append, utf8_cons, utf8_cons d, utf8_append] at hlen
      have := List.length_pos_iff.2 (hoct d (hd d List.mem_cons_self)).2.2
      have h1 : (utf8 ['\\']).length = 1 := by decide
      simp only [List.length_append, h1, List.length_cons] at hlen
      omega
    · have hsrc : ∀ (l : Text) (its : List DqItem), dqSrc (l.map DqItem.plain ++ its) = l ++ dqSrc its ∧
          (l.map DqItem.plain ++ its).flatMap DqItem.val = l ++ its.flatMap DqItem.val := by
        intro l its
        induction l with
        | nil => exact ⟨rfl, rfl⟩
        | cons c l ih =>
          refine ⟨?_, ?_⟩
          · show [c] ++ dqSrc (l.map DqItem.plain ++ its) = _
            rw [ih.1]; rfl
          · rw [List.map_cons, List.cons_append, List.flatMap_cons, ih.2]; rfl
      have hok : ∀ (l : Text) (its : List DqItem), (∀ c ∈ l, c ∉ c!"\\\"${") → DqOk its → DqOk (l.map DqItem.plain ++ its) := by
        intro l its
        induction l with
        | nil => exact fun _ h => h
        | cons c l ih =>
          intro h h2
          have hc := h c List.mem_cons_self
          refine ⟨?_, ih (fun c' hc => h c' (List.mem_cons_of_mem _ hc)) h2⟩
          simpa [DqItem.Ok] using hc
      have hrest : ∀ c ∈ ds ++ b, c ∉ c!"\\\"${" := by
        intro c hc
        rcases List.mem_append.1 hc with hc | hc
        · exact (hoct c (hd c (List.mem_cons_of_mem _ hc))).2.1
        · exact hb c hc
      have := items_text (a.map DqItem.plain ++ (.raw d :: ((ds ++ b).map DqItem.plain ++ [])))
        (hok _ (.raw d :: ((ds ++ b).map DqItem.plain ++ [])) ha ⟨(hoct d (hd d List.mem_cons_self)).1, hok _ _ hrest trivial⟩)
        (by
          intro i hi
          simp only [List.mem_append, List.mem_cons, List.mem_map, List.not_mem_nil, or_false] at hi
          rcases hi with ⟨c, -, rfl⟩ | rfl | ⟨c, -, rfl⟩ <;> rfl)
      rw [(hsrc _ _).1, (hsrc _ _).2, List.flatMap_cons, (hsrc _ _).2] at this
      have e : dqSrc (.raw d :: ((ds ++ b).map DqItem.plain ++ [])) = '\\' :: d :: (ds ++ b) := by
        show ['\\', d] ++ dqSrc ((ds ++ b).map DqItem.plain ++ []) = _
        rw [(hsrc _ _).1]
        show ['\\', d] ++ ((ds ++ b) ++ []) = _
        simp
      rw [e] at this
      simpa [DqItem.val] using this

example : (∀ c ∈ c!"é 8", c ∉ c!"\\\"${") ∧ (c!"12").length < 3 ∧ octalDigit '8' = false ∧ numberValue 8 c!"12" % 256 = 10 := by decide

/-- **C59** fails for `\e`, `\u{41}` and `\x4g`, which the language knows: the parser aborts. -/
theorem C59_fails : (DqMeans true c!"\\e" [27] ∧ ∃ p, Ends c!"<?php return \"\\e\";" (.panic p)) ∧
    (DqMeans true c!"\\u{41}" (utf8 c!"A") ∧ ∃ p, Ends c!"<?php return \"\\u{41}\";" (.panic p)) ∧
    (DqMeans true c!"\\x4g" [4, 103] ∧ ∃ p, Ends c!"<?php return \"\\x4g\";" (.panic p)) := by
  have ab {src : Text} (h : (parseStrN 60 src).isPanic = true) : ∃ p, Ends src (.panic p) := by
    obtain ⟨p, hp⟩ := Outcome.exists_panic h
    exact ⟨p, Ends.of 60 hp (by simp)⟩
  refine ⟨⟨.escape (x := []) rfl .nil, ab (by decide +kernel)⟩, ⟨.unicode (x := []) (ds := c!"41") rfl (by decide) (by decide) (by decide) .nil,
    ab (by decide +kernel)⟩, ⟨.hex (x := c!"g") (ds := c!"4") 'x' (.inl rfl) (.inr ⟨rfl, by intro c hc; cases hc; decide⟩) (by decide) (.inl rfl)
      (.plain 'g' (by decide) .nil), ab (by decide +kernel)⟩⟩

end Pico
