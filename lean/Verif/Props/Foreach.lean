import Verif.Lemmas.RtName
import Verif.Lemmas.ScriptCheck
import Verif.Props.Agree
import Verif.Props.Parser
/-!
# Two kinds of nodes whose range does not enclose what they were read from (C44)
-/
namespace Pico
open P

private theorem blank_one : Blank c!" " := by intro c hc; simp at hc; exact .inl hc

/-- A loop over `$x` with a reference to `$v`. -/
private def loopItems (x b v : Text) : List Item :=
  [.gap c!" ", .lex (.word c!"foreach"), .lex (.sym c!"(" .ParenthesesOpen), .lex (.var x), .gap c!" ", .lex (.word c!"as"), .gap c!" ",
    .lex (.sym c!"&" .Ampersand), .gap b, .lex (.var v), .lex (.sym c!")" .ParenthesesClose), .lex (.sym c!"{" .CurlyBracesOpen),
    .lex (.sym c!"}" .CurlyBracesClose)]

private theorem word_before {w r : Text} (h1 : endsIdentifier r = true) (h2 : w ≠ c!"yield") (h3 : w ≠ c!"b") : Lexeme.Before false (.word w) r :=
  ⟨h1, fun _ => ⟨fun e => absurd e h2, fun e => absurd e h3⟩⟩

private theorem loop_script {x b v : Text} (hx : isIdentifier x = true) (hv : isIdentifier v = true) (hb : Blank b) :
    Script (loopItems x b v) false := by
  refine ⟨⟨blank_one, (by decide : _ ∧ _), word_before rfl nofun nofun, (by decide : _ ∈ symbols), ⟨?_, fun _ => castAheadB_false rfl, nofun⟩,
    hx, rfl, blank_one, (by decide : _ ∧ _), word_before rfl nofun nofun, blank_one, (by decide : _ ∈ symbols), ⟨?_, nofun, nofun⟩, hb, hv, rfl,
    (by decide : _ ∈ symbols), ⟨?_, nofun, nofun⟩, (by decide : _ ∈ symbols), ⟨?_, nofun, nofun⟩, (by decide : _ ∈ symbols), ⟨nofun, nofun, nofun⟩, trivial⟩, 0, rfl⟩
  · intro c hc
    cases hc
    rfl
  · intro c hc
    cases b with
    | nil => cases hc; decide
    | cons a b =>
      cases hc
      rcases hb c (by simp) with rfl | rfl | rfl | rfl <;> decide
  · intro c hc
    cases hc
    decide
  · intro c hc
    cases hc
    decide

private theorem loop_parse (m : LineMap) (n : Nat) (x v : Text) (s0 s1 s2 s3 s4 s5 s6 s7 s8 s9 : Span) (h : 1 ≤ s6.start) :
    parseTokensN (n + 60) m [⟨.k .OpenTag, s0⟩, ⟨.k .Foreach, s1⟩, ⟨.k .ParenthesesOpen, s2⟩, ⟨.variable x, s3⟩, ⟨.k .As, s4⟩,
      ⟨.k .Ampersand, s5⟩, ⟨.variable v, s6⟩, ⟨.k .ParenthesesClose, s7⟩, ⟨.k .CurlyBracesOpen, s8⟩, ⟨.k .CurlyBracesClose, s9⟩] =
    .ok [.mk (.forEach (.mk (.var (.name x)) s3) none (.mk (.reference (.mk (.var (.name v)) s6)) (mkSpan (s6.start - 1) s6.start)) [])
      (mkSpan s1.start s9.stop)] := by
  obtain ⟨_ | p, q⟩ := s6
  · cases h
  · rfl

private theorem spans_ten {ts : List TokSpan} {a b c d e f g h i j : Token} (he : ts.map TokSpan.tok = [a, b, c, d, e, f, g, h, i, j]) :
    ∃ s0 s1 s2 s3 s4 s5 s6 s7 s8 s9, ts = [⟨a, s0⟩, ⟨b, s1⟩, ⟨c, s2⟩, ⟨d, s3⟩, ⟨e, s4⟩, ⟨f, s5⟩, ⟨g, s6⟩, ⟨h, s7⟩, ⟨i, s8⟩, ⟨j, s9⟩] := by
  rcases ts with _ | ⟨⟨a, sa⟩, _ | ⟨⟨b, sb⟩, _ | ⟨⟨c, sc⟩, _ | ⟨⟨d, sd⟩, _ | ⟨⟨e, se⟩, _ | ⟨⟨f, sf⟩, _ | ⟨⟨g, sg⟩, _ | ⟨⟨h, sh⟩, _ | ⟨⟨i, si⟩, _ | ⟨⟨j, sj⟩, _ | ⟨k, ts⟩⟩⟩⟩⟩⟩⟩⟩⟩⟩⟩ <;>
    simp at he
  obtain ⟨rfl, rfl, rfl, rfl, rfl, rfl, rfl, rfl, rfl, rfl⟩ := he
  exact ⟨sa, sb, sc, sd, se, sf, sg, sh, si, sj, rfl⟩

/-- **C44** fails for every reference in `foreach`: whatever stands between `&` and the variable, the range of the reference is the byte before
the variable, so that the range of the variable is not inside of it. -/
theorem C44_fails_foreach (x v b : Text) (hx : isIdentifier x = true) (hv : isIdentifier v = true) (hb : Blank b) :
    ∃ n ts t ss sp e, spansOf n (c!"<?php foreach($" ++ x ++ c!" as &" ++ b ++ c!"$" ++ v ++ c!"){}") = some ts ∧ t ∈ ts ∧ t.tok = .variable v ∧
      Ends (c!"<?php foreach($" ++ x ++ c!" as &" ++ b ++ c!"$" ++ v ++ c!"){}") (.ok ss) ∧
      ss = [.mk (.forEach e none (.mk (.reference (.mk (.var (.name v)) t.span)) (mkSpan (t.span.start - 1) t.span.start)) []) sp] := by
  have he : scriptText (loopItems x b v) false = c!"<?php foreach($" ++ x ++ c!" as &" ++ b ++ c!"$" ++ v ++ c!"){}" := by
    simp [scriptText, loopItems, render, Item.text, Lexeme.text]
  obtain ⟨n, ts, h1, h2, h3⟩ := script_spans _ false (loop_script hx hv hb)
  rw [he] at h1
  have h5 : ts.map TokSpan.tok = [.k .OpenTag, .k .Foreach, .k .ParenthesesOpen, .variable x, .k .As, .k .Ampersand, .variable v,
    .k .ParenthesesClose, .k .CurlyBracesOpen, .k .CurlyBracesClose] := h2
  obtain ⟨s0, s1, s2, s3, s4, s5, s6, s7, s8, s9, rfl⟩ := spans_ten h5
  have h4 : 2 ≤ s6.start := h3 ⟨.variable v, s6⟩ (by simp) rfl
  obtain ⟨t, -, e1⟩ := spans_scanned (spansOf_le (m := n + 60) (by omega) h1)
  exact ⟨n, _, ⟨.variable v, s6⟩, _, _, _, h1, by simp, rfl, ⟨n + 60, e1.trans (loop_parse _ n x v s0 s1 s2 s3 s4 s5 s6 s7 s8 s9 (by omega)), nofun⟩, rfl⟩

/-- `<?php foreach($a as &⏎$b){}` meets the hypotheses. -/
example : isIdentifier c!"a" = true ∧ isIdentifier c!"b" = true ∧ Blank c!"\n" :=
  ⟨rfl, rfl, by intro c hc; simp at hc; simp [hc]⟩

/-! ## `clone` -/

/-- A sum whose second operand is a clone. -/
private def cloneItems (a s s' v : Text) : List Item :=
  [.gap c!" ", .lex (.var a), .lex (.sym c!"+" .Plus), .gap s, .lex (.word c!"clone"), .gap s', .lex (.var v), .lex (.sym c!";" .SemiColon)]

private theorem clone_script {a s s' v : Text} (ha : isIdentifier a = true) (hv : isIdentifier v = true) (hs : Blank s) (hs' : Blank s') :
    Script (cloneItems a s s' v) false := by
  refine ⟨⟨blank_one, ha, rfl, (by decide : _ ∈ symbols), ⟨?_, nofun, nofun⟩, hs, (by decide : _ ∧ _), word_before ?_ nofun nofun, hs',
    hv, rfl, (by decide : _ ∈ symbols), ⟨nofun, nofun, nofun⟩, trivial⟩, 0, rfl⟩
  · intro c hc
    cases s with
    | nil => cases hc; decide
    | cons d s =>
      cases hc
      rcases hs c (by simp) with rfl | rfl | rfl | rfl <;> decide
  · cases s' with
    | nil => rfl
    | cons d s' => rcases hs' d (by simp) with rfl | rfl | rfl | rfl <;> rfl

private theorem clone_parse (m : LineMap) (n : Nat) (a v : Text) (s0 s1 s2 s3 s4 s5 : Span) :
    parseTokensN (n + 60) m [⟨.k .OpenTag, s0⟩, ⟨.variable a, s1⟩, ⟨.k .Plus, s2⟩, ⟨.k .Clone, s3⟩, ⟨.variable v, s4⟩, ⟨.k .SemiColon, s5⟩] =
    .ok [.mk (.expr (.mk (.binary .Add (.mk (.var (.name a)) s1) (.mk (.clone (.mk (.var (.name v)) s4)) s3)) (mkSpan s1.start s3.stop))) (mkSpan s1.start s5.stop)] := by
  rfl

private theorem clone_quotes {a v s s' : Text} (ha : isIdentifier a = true) (hv : isIdentifier v = true) (hs : Blank s) (hs' : Blank s') :
    ¬ HasQuote (c!"<?php $" ++ a ++ c!"+" ++ s ++ c!"clone" ++ s' ++ c!"$" ++ v ++ c!";") := by
  have id : ∀ {w : Text} (c : Char), isIdentifier w = true → isIdChar c = false → w.count c = 0 := by
    intro w c hw hc
    refine List.count_eq_zero.2 fun hm => ?_
    rw [List.all_eq_true.1 (isIdentifier_all hw) c hm] at hc
    cases hc
  have bl : ∀ {w : Text} (c : Char), Blank w → isBlank c = false → w.count c = 0 := by
    intro w c hw hc
    refine List.count_eq_zero.2 fun hm => ?_
    rcases hw c hm with rfl | rfl | rfl | rfl <;> cases hc
  have key : ∀ {p : Text} (c : Char), p <:+: c!"<?php $" ++ a ++ c!"+" ++ s ++ c!"clone" ++ s' ++ c!"$" ++ v ++ c!";" → isIdChar c = false →
      isBlank c = false → p.count c ≤ c!"<?php $+clone$;".count c := by
    intro p c hp h1 h2
    have := hp.sublist.count_le c
    simp only [List.count_append, id c ha h1, id c hv h1, bl c hs h2, bl c hs' h2] at this
    refine Nat.le_trans this (Nat.le_of_eq ?_)
    show _ = (c!"<?php $" ++ c!"+" ++ c!"clone" ++ c!"$" ++ c!";").count c
    simp only [List.count_append]
    omega
  rintro (h | h | h)
  · exact absurd (key '"' h (by decide) (by decide)) (by decide)
  · exact absurd (key '`' h (by decide) (by decide)) (by decide)
  · exact absurd (key '<' h (by decide) (by decide)) (by decide)

/-- **C44** fails for every `clone` that ends a sum: the range of the sum ends with the keyword, before the operand of `clone`. -/
theorem C44_fails_clone (a v s s' : Text) (ha : isIdentifier a = true) (hv : isIdentifier v = true) (hs : Blank s) (hs' : Blank s') :
    ∃ n ts c t ss sp sq l, spansOf n (c!"<?php $" ++ a ++ c!"+" ++ s ++ c!"clone" ++ s' ++ c!"$" ++ v ++ c!";") = some ts ∧
      [c, t].Sublist ts ∧ c.tok = .k .Clone ∧ t.tok = .variable v ∧
      Ends (c!"<?php $" ++ a ++ c!"+" ++ s ++ c!"clone" ++ s' ++ c!"$" ++ v ++ c!";") (.ok ss) ∧
      ss = [.mk (.expr (.mk (.binary .Add l (.mk (.clone (.mk (.var (.name v)) t.span)) c.span)) sp)) sq] ∧
      sp.stop = c.span.stop ∧ sp.stop ≤ t.span.start := by
  have he : scriptText (cloneItems a s s' v) false = c!"<?php $" ++ a ++ c!"+" ++ s ++ c!"clone" ++ s' ++ c!"$" ++ v ++ c!";" := by
    simp [scriptText, cloneItems, render, Item.text, Lexeme.text]
  obtain ⟨n, ts, h1, h2, -⟩ := script_spans _ false (clone_script ha hv hs hs')
  rw [he] at h1
  have h5 : ts.map TokSpan.tok = [.k .OpenTag, .variable a, .k .Plus, .k .Clone, .variable v, .k .SemiColon] := h2
  obtain ⟨s0, s1, s2, s3, s4, s5, rfl⟩ : ∃ s0 s1 s2 s3 s4 s5, ts = [⟨.k .OpenTag, s0⟩, ⟨.variable a, s1⟩, ⟨.k .Plus, s2⟩, ⟨.k .Clone, s3⟩,
      ⟨.variable v, s4⟩, ⟨.k .SemiColon, s5⟩] := by
    rcases ts with _ | ⟨⟨a, sa⟩, _ | ⟨⟨b, sb⟩, _ | ⟨⟨c, sc⟩, _ | ⟨⟨d, sd⟩, _ | ⟨⟨e, se⟩, _ | ⟨⟨f, sf⟩, _ | ⟨g, ts⟩⟩⟩⟩⟩⟩⟩ <;> simp at h5
    obtain ⟨rfl, rfl, rfl, rfl, rfl, rfl⟩ := h5
    exact ⟨sa, sb, sc, sd, se, sf, rfl⟩
  obtain ⟨t, -, e1⟩ := spans_scanned (spansOf_le (m := n + 60) (by omega) h1)
  obtain ⟨u, hu⟩ := scanned_of_spans h1
  have ho := C30_ordered_partial _ _ u hu (clone_quotes ha hv hs hs')
  have ho : [(⟨.k .OpenTag, s0⟩ : TokSpan), ⟨.variable a, s1⟩, ⟨.k .Plus, s2⟩, ⟨.k .Clone, s3⟩, ⟨.variable v, s4⟩, ⟨.k .SemiColon, s5⟩].Pairwise
    (fun x y => x.span.stop ≤ y.span.start) := ho
  have hl : s3.stop ≤ s4.start := (List.pairwise_cons.1 (List.pairwise_cons.1 (List.pairwise_cons.1 (List.pairwise_cons.1 ho).2).2).2).1
    ⟨.variable v, s4⟩ (by simp)
  exact ⟨n, _, ⟨.k .Clone, s3⟩, ⟨.variable v, s4⟩, _, _, _, _, h1,
    .cons _ (.cons _ (.cons _ (.cons_cons _ (.cons_cons _ (List.nil_sublist _))))), rfl, rfl,
    ⟨n + 60, e1.trans (clone_parse _ n a v s0 s1 s2 s3 s4 s5), nofun⟩, rfl, rfl, hl⟩

/-- `<?php $a+ clone $b;` meets the hypotheses. -/
example : isIdentifier c!"a" = true ∧ isIdentifier c!"b" = true ∧ Blank c!" " := ⟨rfl, rfl, blank_one⟩

end Pico
