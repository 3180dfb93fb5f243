import Verif.Lemmas.LexNow
import Verif.Lemmas.ScriptCheck
import Verif.Props.Agree
/-!
# Finished commands are reported as unfinished (C45)
-/
namespace Pico

/-- A script behind which the tokenizer finds an error. -/
theorem script_unfinished {is : List Item} {d : Nat} {c : Char} {tl : Text} {what : String} (hc : isBlank c = false)
    (h : Apart false is (c :: tl)) (hb : braces 0 is = some d)
    (hs : ∀ (t : Tz) (g : Text) (prop : Bool) (n : Nat), Blank g → At t (g ++ (c :: tl)) → Mode t prop d →
      ∃ sp t', nextToken (n + 2) t = .err (.unterminated what sp) t') :
    ∃ e sp, Ends (c!"<?php" ++ (render is ++ (c :: tl))) (.err e) ∧ e.syntaxErr = some (.unterminated what sp) := by
  obtain ⟨sp, u, big⟩ : ∃ sp u, lexAll ((toks false is).length + 5) ((toks false is).length + 5) (Tz.new (c!"<?php" ++ (render is ++ (c :: tl)))) [] =
      .err (.unterminated what sp, u) := by
    obtain ⟨sp, t1, h1, h2, h3, hp⟩ := open_tag (render is ++ (c :: tl)) ((toks false is).length + 4)
    have hi := inv_new (c!"<?php" ++ (render is ++ (c :: tl)))
    obtain ⟨out, t2, g1, g2, g3, g4, g5⟩ := run_items is (c :: tl) ((toks false is).length + 2) d t1 false 0 (.of_at h2)
      ⟨hi.next h1, hp, .inl h3⟩ h hb [⟨.k .OpenTag, sp⟩]
    have hlen : out.length = (toks false is).length := by rw [← g1, List.length_map]
    obtain ⟨g0, hg0, hat⟩ := Ahead.lex (c := c) hc g3
    obtain ⟨t3, m, e, hm3, -, hat3, -⟩ := g4.enter ((toks false is).length + 2)
    obtain ⟨sp', u, f1⟩ := hs t3 g0 _ m hg0 (hat3 _ hat) hm3
    refine ⟨sp', u, ?_⟩
    rw [lexAll_step (ts := ⟨.k .OpenTag, sp⟩) h1 nofun]
    have := g2 4
    rw [show 4 + out.length = (toks false is).length + 4 by omega] at this
    refine this.trans ?_
    show lexAll _ (3 + 1) _ _ = _
    unfold lexAll
    rw [e.trans f1]
  have hmom := lexAll_scanned (fuel := (toks false is).length + 5) (n := (toks false is).length + 5) (.start (src := c!"<?php" ++ (render is ++ (c :: tl))))
  rw [big] at hmom
  obtain ⟨er, f1, -, f2⟩ := spanned_ok hmom sp.start sp.stop ⟨[], 0⟩ (some (.unterminated what sp))
  refine ⟨er, sp, ⟨(toks false is).length + 5, ?_, nofun⟩, f2⟩
  unfold parseStrN
  rw [big]
  exact f1

/-- **C45** fails for every command of a script that is written on one line and has no `\`, `"`, `$` or `{` in it: it is closed, but if a
double quote or a backslash follows later on the line, or if the source ends there, then it is reported as unfinished. -/
theorem C45_fails_class (is : List Item) (d : Nat) (x y w : Text) (hx : ∀ c ∈ x, c ∉ c!"\\\"${\n") (hy : ∀ c ∈ y, c ∉ c!"\\\"${\n")
    (hw : stopsCommand w) (h : Apart false is (c!"`" ++ x ++ c!"`" ++ y ++ w)) (hb : braces 0 is = some d) :
    ∃ e sp, Ends (c!"<?php" ++ render is ++ c!"`" ++ x ++ c!"`" ++ y ++ w) (.err e) ∧ e.syntaxErr = some (.unterminated "Backquote" sp) := by
  have htl : c!"`" ++ x ++ c!"`" ++ y ++ w = '`' :: ((x ++ c!"`" ++ y) ++ w) := by simp
  have hsrc : c!"<?php" ++ render is ++ c!"`" ++ x ++ c!"`" ++ y ++ w = c!"<?php" ++ (render is ++ ('`' :: ((x ++ c!"`" ++ y) ++ w))) := by simp
  rw [hsrc]
  rw [htl] at h
  have hno : ∀ c ∈ x ++ c!"`" ++ y, isDqStop c = false := by
    intro c hc
    have key : c ∉ c!"\\\"${\n" → isDqStop c = false := by
      intro hc
      simp only [List.mem_cons, List.not_mem_nil, or_false, not_or] at hc
      simp [isDqStop, hc]
    rcases List.mem_append.1 hc with hc | hc
    · rcases List.mem_append.1 hc with hc | hc
      · exact key (hx c hc)
      · rw [List.mem_singleton.1 hc]; decide
    · exact key (hy c hc)
  exact script_unfinished (by decide) h hb fun t g prop n hg hat hm => step_command hno hw hg hat hm n

/-- **C45** fails for every now document in which a `$` or `{` stands before its closing label, and no backslash before that: whatever
follows, be it the closing label, the document is reported as unfinished. -/
theorem C45_fails_nowdocs (is : List Item) (d : Nat) (b tag x rest : Text) (c : Char) (hs : Spaces b) (ht : IsLabel tag) (hc : c = '$' ∨ c = '{')
    (hx : ∀ d ∈ x, d ∉ c!"\\${") (hl : ∀ u v, x = u ++ '\n' :: v → ¬ tag <+: v ++ c :: rest)
    (h : Apart false is (c!"<<<" ++ b ++ c!"'" ++ tag ++ c!"'\n" ++ x ++ [c] ++ rest)) (hb : braces 0 is = some d) :
    ∃ e sp, Ends (c!"<?php" ++ render is ++ c!"<<<" ++ b ++ c!"'" ++ tag ++ c!"'\n" ++ x ++ [c] ++ rest) (.err e) ∧
      e.syntaxErr = some (.unterminated "Here/Nowdoc" sp) := by
  have htl : c!"<<<" ++ b ++ c!"'" ++ tag ++ c!"'\n" ++ x ++ [c] ++ rest =
      '<' :: (c!"<<" ++ (b ++ (c!"'" ++ (tag ++ (c!"'" ++ (c!"\n" ++ (x ++ c :: rest))))))) := by simp
  have hsrc : c!"<?php" ++ render is ++ c!"<<<" ++ b ++ c!"'" ++ tag ++ c!"'\n" ++ x ++ [c] ++ rest =
      c!"<?php" ++ (render is ++ ('<' :: (c!"<<" ++ (b ++ (c!"'" ++ (tag ++ (c!"'" ++ (c!"\n" ++ (x ++ c :: rest))))))))) := by simp
  rw [hsrc]
  rw [htl] at h
  exact script_unfinished (by decide) h hb fun t g prop n hg hat hm => step_now hs ht hc hx hl hg hat hm n

/-- ``<?php echo `ls`;`` meets the hypotheses. -/
example : let is : List Item := [.gap c!" ", .lex (.word c!"echo"), .gap c!" "]
    stopsCommand c!";" ∧ Apart false is (c!"`" ++ c!"ls" ++ c!"`" ++ [] ++ c!";") ∧ braces 0 is = some 0 ∧
      c!"<?php" ++ render is ++ c!"`" ++ c!"ls" ++ c!"`" ++ [] ++ c!";" = c!"<?php echo `ls`;" :=
  ⟨.inr (.inr ⟨';', rfl, by decide⟩), apartB_ok rfl, rfl, rfl⟩

/-- ``<?php echo <<<'A'⏎a⏎b $c⏎A;⏎`` meets the hypotheses of `C45_fails_nowdocs`. -/
example : let is : List Item := [.gap c!" ", .lex (.word c!"echo"), .gap c!" "]
    IsLabel c!"A" ∧ (∀ u v, c!"a\nb " = u ++ '\n' :: v → ¬ c!"A" <+: v ++ '$' :: c!"c\nA;\n") ∧
      Apart false is (c!"<<<" ++ [] ++ c!"'" ++ c!"A" ++ c!"'\n" ++ c!"a\nb " ++ ['$'] ++ c!"c\nA;\n") ∧ braces 0 is = some 0 ∧
      c!"<?php" ++ render is ++ c!"<<<" ++ [] ++ c!"'" ++ c!"A" ++ c!"'\n" ++ c!"a\nb " ++ ['$'] ++ c!"c\nA;\n" =
        c!"<?php echo <<<'A'\na\nb $c\nA;\n" := by
  refine ⟨⟨nofun, by intro c hc; cases hc; rfl, by intro c hc; rw [List.mem_singleton.1 hc]; exact .inl rfl⟩, ?_, apartB_ok rfl, rfl, rfl⟩
  intro u v e hp
  match u, e with
  | [], e => simp at e
  | [_], e =>
    simp only [List.cons_append, List.nil_append, List.cons.injEq] at e
    rw [← e.2.2] at hp
    obtain ⟨r, hr⟩ := hp
    cases hr
  | [_, _], e => simp at e
  | [_, _, _], e => simp at e
  | _ :: _ :: _ :: _ :: u, e => simp at e

end Pico
