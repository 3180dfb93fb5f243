import Verif.Lemmas.Respace
import Verif.Props.Scan
/-!
# Scripts given by their lexemes (C34 and the other statements at the level of source texts)
-/
namespace Pico

/-- The tokens of a script are those of its items; behind the open tag all but numbers stand past its first two bytes. -/
theorem script_spans (is : List Item) (closed : Bool) (h : Script is closed) :
    ∃ n ts, spansOf n (scriptText is closed) = some ts ∧
      ts.map TokSpan.tok = .k .OpenTag :: (toks false is ++ if closed then [.k .CloseTag] else []) ∧ Past ts.tail := by
  obtain ⟨ha, d, hb⟩ := h
  cases closed with
  | false => exact items_tokens is d [] (.inl rfl) ha hb
  | true => exact items_tokens is d c!"?>" (.inr rfl) ha hb

/-- The tokens of a script are the tokens of its items. -/
theorem script_tokens (is : List Item) (closed : Bool) (h : Script is closed) :
    ∃ n ts, spansOf n (scriptText is closed) = some ts ∧
      ts.map TokSpan.tok = .k .OpenTag :: (toks false is ++ if closed then [.k .CloseTag] else []) := by
  obtain ⟨n, ts, h1, h2, -⟩ := script_spans is closed h
  exact ⟨n, ts, h1, h2⟩

theorem visible_eq (ts : List TokSpan) : visible ts = (ts.map TokSpan.tok).flatMap seenAs := by
  unfold visible
  rw [List.flatMap_map]

/-- Neither a tag nor text outside of tags. -/
def ordinary : Token → Bool
  | .k .OpenTag => false
  | .k .CloseTag => false
  | .inlineHtml _ => false
  | .k .OpenTagWithEcho => false
  | _ => true

theorem strip_ordinary {t : Token} (h : ordinary t = true) : seenAs t = if isComment t then [] else [t] := by
  cases t with
  | k k => cases k <;> first | rfl | cases h
  | inlineHtml s => cases h
  | _ => rfl

theorem identifier_ordinary (w : Text) : ordinary (identifierToken w) = true := by
  unfold identifierToken
  cases h : reservedWords.lookup w with
  | none => rfl
  | some k =>
    have hh : ∀ p ∈ reservedWords, ordinary (.k p.2) = true := by decide +kernel
    exact hh _ (lookup_mem h)

theorem Lexeme.ordinary {l : Lexeme} (h : l.Ok) (prop : Bool) : Pico.ordinary (l.tok prop) = true := by
  cases l with
  | word w =>
    cases prop
    · exact identifier_ordinary w
    · rfl
  | sym w k =>
    have hh : ∀ p ∈ symbols, Pico.ordinary (.k p.2) = true := by decide +kernel
    exact hh _ h
  | cast b w b' k =>
    have hh : ∀ p ∈ castWords, Pico.ordinary (.k p.2) = true := by decide +kernel
    exact hh _ h.2.2
  | _ => rfl

theorem textTok_ordinary (s : Text) : ∀ x ∈ textTok s, ordinary x = true := by
  unfold textTok
  split
  · nofun
  · intro x hx; rw [List.mem_singleton.1 hx]; rfl

theorem dqToks_ordinary (its : List DqItem) : ∀ s, ∀ x ∈ dqToks s its, ordinary x = true := by
  induction its with
  | nil => exact textTok_ordinary
  | cons it its ih =>
    intro s x hx
    cases it with
    | var n =>
      simp only [dqToks, List.mem_append, List.mem_cons] at hx
      rcases hx with hx | rfl | hx
      · exact textTok_ordinary s x hx
      · rfl
      · exact ih _ x hx
    | prop n p =>
      simp only [dqToks, List.mem_append, List.mem_cons] at hx
      rcases hx with hx | rfl | rfl | rfl | hx
      · exact textTok_ordinary s x hx
      · rfl
      · rfl
      · rfl
      · exact ih _ x hx
    | _ => exact ih _ x hx

theorem Apart.ordinary {is : List Item} {tail : Text} : ∀ {prop : Bool}, Apart prop is tail → ∀ t ∈ toks prop is, Pico.ordinary t = true := by
  induction is with
  | nil => intro prop _ t ht; cases ht
  | cons i is ih =>
    intro prop ha t ht
    cases i with
    | lex l =>
      rcases List.mem_cons.1 ht with rfl | ht
      · exact Lexeme.ordinary ha.1 prop
      · exact ih ha.2.2 t ht
    | gap w => exact ih ha.2 t ht
    | dq its =>
      simp only [toks, List.mem_cons, List.mem_append] at ht
      rcases ht with rfl | ht | rfl | ht
      · rfl
      · exact dqToks_ordinary its [] t ht
      · rfl
      · exact ih ha.2 t ht
    | block body =>
      rcases List.mem_cons.1 ht with rfl | ht
      · rfl
      · exact ih ha.2.2 t ht
    | line o body =>
      rcases List.mem_cons.1 ht with rfl | ht
      · rfl
      · exact ih ha.2.2.2 t ht

theorem strip_all {ts : List Token} (h : ∀ t ∈ ts, ordinary t = true) : ts.flatMap seenAs = ts.filter fun t => !isComment t := by
  induction ts with
  | nil => rfl
  | cons t ts ih =>
    rw [List.flatMap_cons, strip_ordinary (h t (by simp)), ih fun x hx => h x (by simp [hx]), List.filter_cons]
    cases isComment t <;> rfl

/-- What the parser sees of a script. -/
theorem script_visible (is : List Item) (closed : Bool) (h : Script is closed) :
    ∃ n ts, spansOf n (scriptText is closed) = some ts ∧ visible ts = codeToks is := by
  obtain ⟨n, ts, h1, h2⟩ := script_tokens is closed h
  refine ⟨n, ts, h1, ?_⟩
  rw [visible_eq, h2, List.flatMap_cons, List.flatMap_append, strip_all h.1.ordinary]
  cases closed <;> simp [codeToks, seenAs]

/-- A script whose tokens form a program of the grammar is parsed to the tree the grammar gives it. -/
theorem script_parses (is : List Item) (closed : Bool) (ss : List Stmt) (h : Script is closed) (hne : codeToks is ≠ [])
    (hd : Derives .tops (codeToks is) ss) :
    ∃ ss', eraseStmts ss' = ss ∧ Ends (scriptText is closed) (.ok ss') := by
  obtain ⟨n, ts, h1, h2⟩ := script_visible is closed h
  exact source_parses _ n ts ss h1 (by rw [h2]; exact hne) (by rw [h2]; exact hd)

theorem spansOf_le {n m : Nat} {src : Text} {x : List TokSpan} (hnm : n ≤ m) (h : spansOf n src = some x) : spansOf m src = some x := by
  unfold spansOf at h ⊢
  split at h
  · rename_i a b hl
    cases h
    have := (lexAll_mono hnm hnm (Tz.new src) []).resolve_left (by rw [hl]; nofun)
    rw [← this, hl]
  · cases h

theorem Respaced.script {is js : List Item} (hr : Respaced is js) {closed : Bool} (h : Script is closed) : Script js closed :=
  ⟨hr.apart h.1, h.2.imp fun d hd => (hr.braces 0).trans hd⟩

/-- C34 (partial): a script with other blanks between its lexemes has the same tokens. Missing: heredocs, nowdocs,
backquotes and strings with `{$..}`, `${..}` or `$a[..]` among the lexemes (`Item` does not describe them), blanks in
places where there were none, and the replacement of a line end by spaces, for which the claim is false (`C34_fails`). -/
theorem C34_tokens_partial (is js : List Item) (closed : Bool) (h : Script is closed) (hr : Respaced is js) :
    ∃ n ts us, spansOf n (scriptText is closed) = some ts ∧ spansOf n (scriptText js closed) = some us ∧
      us.map TokSpan.tok = ts.map TokSpan.tok := by
  obtain ⟨n, ts, h1, h2⟩ := script_tokens is closed h
  obtain ⟨m, us, h3, h4⟩ := script_tokens js closed (hr.script h)
  refine ⟨max n m, ts, us, spansOf_le (Nat.le_max_left _ _) h1, spansOf_le (Nat.le_max_right _ _) h3, ?_⟩
  rw [h2, h4, hr.toks]

/-- C34 (partial) for trees: if the tokens form a program of the grammar, both scripts are parsed to its tree. -/
theorem C34_tree_partial (is js : List Item) (closed : Bool) (ss : List Stmt) (h : Script is closed) (hr : Respaced is js)
    (hne : codeToks is ≠ []) (hd : Derives .tops (codeToks is) ss) :
    ∃ s1 s2, Ends (scriptText is closed) (.ok s1) ∧ Ends (scriptText js closed) (.ok s2) ∧
      eraseStmts s1 = ss ∧ eraseStmts s2 = ss := by
  have hc : codeToks js = codeToks is := by unfold codeToks; rw [hr.toks]
  obtain ⟨s1, e1, p1⟩ := script_parses is closed ss h hne hd
  obtain ⟨s2, e2, p2⟩ := script_parses js closed ss (hr.script h) (by rw [hc]; exact hne) (by rw [hc]; exact hd)
  exact ⟨s1, s2, p1, p2, e1, e2⟩

/-! ## Example: `$a = 1;` on one line and on three -/

def exampleItems (b : Text) : List Item :=
  [.gap b, .lex (.var c!"a"), .gap b, .lex (.sym c!"=" .Equal), .gap b, .lex (.int c!"1" 1), .lex (.sym c!";" .SemiColon)]

theorem example_script : Script (exampleItems c!" ") false := by
  have hb : Blank c!" " := by intro c hc; simp at hc; exact .inl hc
  refine ⟨⟨hb, rfl, rfl, hb, (by decide : _ ∈ symbols), ⟨?_, nofun, nofun⟩, hb, ⟨.dec c!"1" nofun ?_ nofun, by decide⟩, rfl, (by decide : _ ∈ symbols),
    ⟨nofun, nofun, nofun⟩, trivial⟩, 0, rfl⟩
  · intro c hc
    cases hc
    rfl
  · intro c hc
    simp at hc
    rw [hc]
    rfl

theorem example_respaced : Respaced (exampleItems c!" ") (exampleItems c!"\n\n ") := by
  have hb : Blank c!"\n\n " := by
    intro c hc
    simp at hc
    rcases hc with rfl | rfl
    · exact .inr (.inr (.inr rfl))
    · exact .inl rfl
  have hs : Spaces c!"\n\n " → Spaces c!" " := fun h => by
    rcases h '\n' (by simp) with h | h <;> cases h
  exact .gap _ _ nofun nofun hb hs (.lex _ (.gap _ _ nofun nofun hb hs (.lex _ (.gap _ _ nofun nofun hb hs (.lex _ (.lex _ .nil))))))

example : Derives .tops (codeToks (exampleItems c!" "))
    [bareS (.expr (bare (.assign (bare (.var (.name c!"a"))) (bare (.int 1)))))] :=
  .tops_cons (.t_stmt (.s_expr (.e_assign (p := 0) (.v_name c!"a" (.a_nil _ _)) (.e_int (p := 0) 1)))) .tops_nil

example : ∃ n ts us, spansOf n c!"<?php $a = 1;" = some ts ∧ spansOf n c!"<?php\n\n $a\n\n =\n\n 1;" = some us ∧
    us.map TokSpan.tok = ts.map TokSpan.tok := C34_tokens_partial _ _ false example_script example_respaced

end Pico
