import Verif.Lemmas.Front
import Verif.Spec.Agree
import Verif.Props.Source
import Verif.Props.Violations
import Verif.Lemmas.ScriptCheck
/-!
# The outcome depends on the tokens only (C34, C38, C40)
-/
namespace Pico
open P

theorem spanned_ok {src : Text} {t : Tz} (h : Moment src t) (a b : Nat) (e : PErr) (s : Option SyntaxErr) :
    ∃ x, spannedErr t.st.lineMap a b e s = .err x ∧ x.error = e ∧ x.syntaxErr = s := by
  obtain ⟨line, start, stop, h1, h2, -⟩ := C05_lookup src t h b
  unfold spannedErr
  rw [h1]
  dsimp only
  rw [h2]
  exact ⟨_, rfl, rfl, rfl⟩

/-- Two token sequences which the parser sees alike, up to positions, have the same outcome. -/
theorem tokens_agree {src src' : Text} {t t' : Tz} (hm : Moment src t) (hm' : Moment src' t') (n : Nat) {ts us : List TokSpan}
    (h : visible ts = visible us) (hp : Fronted ts) (hq : Fronted us) :
    (parseTokensN n t.st.lineMap ts = .oof ∧ parseTokensN n t'.st.lineMap us = .oof) ∨
      Agree (parseTokensN n t.st.lineMap ts) (parseTokensN n t'.st.lineMap us) := by
  have ht : (stripTokens ts).map TokSpan.tok = (stripTokens us).map TokSpan.tok := by rw [← visible_strip, ← visible_strip, h]
  have hlen : (stripTokens ts).length = (stripTokens us).length := by simpa using congrArg List.length ht
  obtain ⟨_, hr⟩ := list_rel n ht hp.fore hq.fore
  unfold parseTokensN
  dsimp only
  revert hr
  generalize parseTopStatementList (recN n) (stripTokens ts) 0 = x
  generalize parseTopStatementList (recN n) (stripTokens us) 0 = y
  intro hr
  cases hr with
  | ok p _ h => exact .inr (.ok h.eq)
  | panic p => exact .inr (.panic p)
  | oof => exact .inl ⟨rfl, rfl⟩
  | err e p _ =>
    right
    dsimp only
    rw [hlen]
    by_cases hlt : e.pos < (stripTokens us).length
    · have hlt' : e.pos < (stripTokens ts).length := by rw [hlen]; exact hlt
      rw [if_pos hlt, if_pos hlt, List.getElem?_eq_getElem hlt, List.getElem?_eq_getElem hlt']
      dsimp only
      obtain ⟨x, h1, h2, h3⟩ := spanned_ok hm (stripTokens ts)[e.pos].span.start (stripTokens ts)[e.pos].span.stop e none
      obtain ⟨y, g1, g2, g3⟩ := spanned_ok hm' (stripTokens us)[e.pos].span.start (stripTokens us)[e.pos].span.stop e none
      rw [h1, g1]
      exact .err (h2.trans g2.symm) (h3.trans g3.symm)
    · rw [if_neg hlt, if_neg hlt]
      cases h1 : (stripTokens ts).getLast? with
      | none =>
        have : stripTokens us = [] := List.length_eq_zero_iff.1 (by
          rw [← hlen, List.getLast?_eq_none_iff.1 h1]; rfl)
        rw [this]
        exact .panic _
      | some a =>
        cases h2 : (stripTokens us).getLast? with
        | none =>
          exfalso
          have := hlen
          rw [List.getLast?_eq_none_iff.1 h2] at this
          rw [List.length_eq_zero_iff.1 this] at h1
          cases h1
        | some b =>
          dsimp only
          obtain ⟨x, h1, h2, h3⟩ := spanned_ok hm a.span.stop (a.span.stop + 1) e none
          obtain ⟨y, g1, g2, g3⟩ := spanned_ok hm' b.span.stop (b.span.stop + 1) e none
          rw [h1, g1]
          exact .err (h2.trans g2.symm) (h3.trans g3.symm)

theorem spans_scanned {n : Nat} {src : Text} {ts : List TokSpan} (h : spansOf n src = some ts) :
    ∃ t, Moment src t ∧ parseStrN n src = parseTokensN n t.st.lineMap ts := by
  unfold spansOf at h
  have hs := lexAll_scanned (fuel := n) (n := n) (Scanned.start (src := src))
  unfold parseStrN
  revert h hs
  generalize lexAll n n (Tz.new src) [] = x
  intro h hs
  cases x with
  | ok y =>
    obtain ⟨toks, t⟩ := y
    cases h
    obtain ⟨x, -, h1, -⟩ := hs
    exact ⟨t, .token h1, rfl⟩
  | err e => cases h
  | panic p => cases h
  | oof => cases h

/-- **C40**: how `parse_str` ends depends on the tokens of the source only. If two sources have the same tokens apart
from comments and open and close tags (`visible`, where `<?=` counts as `echo` and text outside of tags as `echo` of
that text), they have the same outcome up to positions: the same tree, the same error or the same panic, or neither
returns. That the tokens are the same is needed: directly behind `->` a comment changes the token of the next word
(`C38_fails`). -/
theorem C40_tokens (src src' : Text) (n m : Nat) (ts us : List TokSpan) (h1 : spansOf n src = some ts)
    (h2 : spansOf m src' = some us) (h : visible ts = visible us) (r : Outcome SpannedErr (List Stmt)) (hr : Ends src r) :
    ∃ r', Ends src' r' ∧ Agree r r' := by
  obtain ⟨k, e, hne⟩ := hr
  obtain ⟨t, hm, e1⟩ := spans_scanned (spansOf_le (m := n + m + k) (by omega) h1)
  obtain ⟨t', hm', e2⟩ := spans_scanned (spansOf_le (m := n + m + k) (by omega) h2)
  have hagree := tokens_agree hm hm' (n + m + k) h (spans_fronted h1) (spans_fronted h2)
  have er : parseStrN (n + m + k) src = r := by
    rw [← e]; exact parseStrN_le (by omega) _ (by rw [e]; exact hne)
  rw [← e1, ← e2, er] at hagree
  rcases hagree with ⟨rfl, -⟩ | hagree
  · exact absurd rfl hne
  · refine ⟨_, ⟨_, rfl, ?_⟩, hagree⟩
    intro ho
    rw [ho] at hagree
    cases hagree

/-- **C38** (partial) in terms of the text. Two scripts which have the same
tokens apart from comments, written with whatever blanks, comments, blanks within type casts, spellings of integers
and strings, and with or without a close tag, have the same outcome up to positions: the same tree, the same error or
the same panic. Missing: what `Item` does not describe, for which see `C40_tokens`. -/
theorem C38_script_partial (is js : List Item) (closed closed' : Bool) (h : Script is closed) (h' : Script js closed')
    (hc : codeToks is = codeToks js) (r : Outcome SpannedErr (List Stmt)) (hr : Ends (scriptText is closed) r) :
    ∃ r', Ends (scriptText js closed') r' ∧ Agree r r' := by
  obtain ⟨n1, ts, h1, h2, -⟩ := script_spans is closed h
  obtain ⟨n2, us, g1, g2, -⟩ := script_spans js closed' h'
  have hv : ∀ {is : List Item} {closed : Bool} {ts : List TokSpan}, Script is closed →
      ts.map TokSpan.tok = .k .OpenTag :: (toks false is ++ if closed then [.k .CloseTag] else []) → visible ts = codeToks is := by
    intro is closed ts h h2
    rw [visible_eq, h2, List.flatMap_cons, List.flatMap_append, strip_all h.1.ordinary]
    cases closed <;> simp [codeToks, seenAs]
  exact C40_tokens _ _ _ _ _ _ h1 g1 ((hv h h2).trans (hc.trans (hv h' g2).symm)) r hr

/-- **C34** (partial) for all outcomes: scripts that differ in their blanks only are parsed alike, whether the parser
accepts, rejects or panics. Missing: what `Item` and `Respaced` leave out, see `C34_tokens_partial`. -/
theorem C34_outcome_partial (is js : List Item) (closed : Bool) (h : Script is closed) (hr : Respaced is js)
    (r : Outcome SpannedErr (List Stmt)) (he : Ends (scriptText is closed) r) :
    ∃ r', Ends (scriptText js closed) r' ∧ Agree r r' :=
  C38_script_partial is js closed closed h (hr.script h) (by unfold codeToks; rw [hr.toks]) r he

/-- **C38** fails for a comment between `->` and a reserved word: `$a->list;` is accepted, `$a->/*x*/list;` is not. -/
theorem C38_fails : ∃ ss e, Ends c!"<?php $a->list;" (.ok ss) ∧ Ends c!"<?php $a->/*x*/list;" (.err e) := by
  obtain ⟨ss, h⟩ := Outcome.exists_ok (o := parseStrN 60 c!"<?php $a->list;") (by decide +kernel)
  obtain ⟨e, h'⟩ := Outcome.exists_err (o := parseStrN 60 c!"<?php $a->/*x*/list;") (by decide +kernel)
  exact ⟨ss, e, Ends.of 60 h (by simp), Ends.of 60 h' (by simp)⟩

/-! ## Examples -/

/-- `<?php f($a,'x'); if(`, which is rejected, … -/
def rejectedItems : List Item :=
  [.gap c!" ", .lex (.word c!"f"), .lex (.sym c!"(" .ParenthesesOpen), .lex (.var c!"a"), .lex (.sym c!"," .Comma),
   .lex (.str c!"x" c!"x"), .lex (.sym c!")" .ParenthesesClose), .lex (.sym c!";" .SemiColon), .gap c!" ",
   .lex (.word c!"if"), .lex (.sym c!"(" .ParenthesesOpen), .lex (.sym c!";" .SemiColon)]

/-- … and the same with comments, line ends and a close tag. -/
def rejectedItems' : List Item :=
  [.gap c!" ", .block c!" call ", .lex (.word c!"f"), .gap c!" ", .lex (.sym c!"(" .ParenthesesOpen), .gap c!"\n",
   .lex (.var c!"a"), .lex (.sym c!"," .Comma), .gap c!" ", .line c!"//" c!" arg", .gap c!"\n",
   .lex (.str c!"x" c!"x"), .lex (.sym c!")" .ParenthesesClose), .lex (.sym c!";" .SemiColon), .gap c!"\n",
   .lex (.word c!"if"), .lex (.sym c!"(" .ParenthesesOpen), .lex (.sym c!";" .SemiColon)]

/-- Two scripts that meet the hypotheses of `C38_script_partial`: both are rejected, with the same expected tokens. -/
example : ∃ e e', Ends c!"<?php f($a,'x'); if(;" (.err e) ∧
    Ends c!"<?php /* call */f (\n$a, // arg\n'x');\nif(;?>" (.err e') ∧ e.error = e'.error ∧ e.syntaxErr = e'.syntaxErr := by
  obtain ⟨e, h⟩ := Outcome.exists_err (o := parseStrN 60 c!"<?php f($a,'x'); if(;") (by decide +kernel)
  have h1 : Ends (scriptText rejectedItems false) (.err e) := Ends.of 60 h (by simp)
  obtain ⟨r, h2, h3⟩ := C38_script_partial rejectedItems rejectedItems' false true (script_check (by decide +kernel))
    (script_check (by decide +kernel)) (by decide +kernel) _ h1
  cases h3 with
  | err a b => exact ⟨e, _, h1, h2, a, b⟩

/-- A page with text around its script and a here document … -/
def pageA : Text := c!"Hello <?php $a = <<<X\nb\nX;\n echo $a; // show\n?> you"

/-- … and the same with other tags, blanks, comments and notations. -/
def pageB : Text := c!"<?='Hello ';/* set */\n  $a= <<<YY\nb\nYY;\necho /* it */ $a;?> you"

/-- Two sources that meet the hypotheses of `C40_tokens`. -/
example : ∃ ss ss', Ends pageA (.ok ss) ∧ Ends pageB (.ok ss') ∧ eraseStmts ss = eraseStmts ss' ∧ ss.length = 4 := by
  obtain ⟨ts, h1⟩ := Option.isSome_iff_exists.1 (show (spansOf 60 pageA).isSome = true by decide +kernel)
  obtain ⟨us, h2⟩ := Option.isSome_iff_exists.1 (show (spansOf 60 pageB).isSome = true by decide +kernel)
  have hv : visible ts = visible us := by
    have : (spansOf 60 pageA).map visible = (spansOf 60 pageB).map visible := by decide +kernel
    rw [h1, h2] at this
    exact Option.some.inj this
  obtain ⟨ss, h⟩ := Outcome.exists_ok (o := parseStrN 60 pageA) (by decide +kernel)
  have hl : ss.length = 4 := by
    have : (match parseStrN 60 pageA with | .ok ss => ss.length | _ => 0) = 4 := by decide +kernel
    rw [h] at this
    exact this
  have he : Ends pageA (.ok ss) := Ends.of 60 h (by simp)
  obtain ⟨r, h3, h4⟩ := C40_tokens pageA pageB 60 60 ts us h1 h2 hv _ he
  cases h4 with
  | ok h => exact ⟨ss, _, he, h3, h, hl⟩

/-- Scripts that meet the hypotheses of `C34_outcome_partial`. -/
example (ss : List Stmt) (h : Ends c!"<?php $a = 1;" (.ok ss)) :
    ∃ r', Ends c!"<?php\n\n $a\n\n =\n\n 1;" r' ∧ Agree (.ok ss) r' :=
  C34_outcome_partial _ _ false example_script example_respaced _ h

end Pico
