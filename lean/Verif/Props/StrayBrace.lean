import Verif.Lemmas.LexItem
import Verif.Lemmas.ScriptCheck
import Verif.Props.Violations
/-!
# Every script with a closing brace too many aborts (C07, C29)
-/
namespace Pico
open T

private theorem other_stray {t : Tz} {r : Text} (h : At t ('}' :: r)) (hs : t.st.stack = []) :
    labelOrOther t.st.srcPos t = .panic .unreachable := by
  have h1 : At t (c!"}" ++ r) := h
  have hpop : popState (t.adv 1) = .panic .unreachable := by
    unfold popState
    refine (bind_ok (m := getSt) (t' := t.adv 1) rfl).trans ?_
    show (match t.st.stack with
      | x :: xs => setSt { (t.adv 1).st with state := x, stack := xs }
      | [] => abort .unreachable) (t.adv 1) = _
    rw [hs]
    rfl
  have htok : matchTok ⟨Kw.repr .CurlyBracesClose, .CurlyBracesClose, .pop⟩ t = .panic .unreachable := by
    unfold matchTok
    rw [bind_ok (input_at h), if_pos (by rfl)]
    refine (bind_ok inputPos_at).trans ?_
    refine (bind_ok (advanceBytes_at' h1 rfl)).trans ?_
    refine (bind_ok inputPos_at).trans ?_
    exact bind_panic hpop
  have hclose : matchCurlyClose t = .panic .unreachable := by
    unfold matchCurlyClose
    exact bind_panic htok
  have ho : inScriptingOtherToken t = .panic .unreachable := by
    unfold inScriptingOtherToken
    rw [orElse_none (matchFirst_none tableA h (by rfl)), orElse_none (yield_none h (by rfl)), orElse_none (matchFirst_none tableB h (by rfl)),
      orElse_none (cast_none_paren h (by rfl)), orElse_none (matchFirst_none tableC h (by rfl))]
    unfold T.orElse
    rw [hclose]
  have hlab : label t = .ok none t := label_none h (by intro c hc; cases hc; exact .inl (by decide))
  unfold labelOrOther
  rw [bind_ok (setPos_here rfl), bind_ok hlab, bind_ok (setPos_here rfl), ho]

private theorem token_stray (n : Nat) {t : Tz} {g r : Text} (hg : Blank g) (hm : Mode t false 0) (hat : At t (g ++ '}' :: r)) :
    nextToken (n + 1) t = .panic .unreachable := by
  have hmv := Moved.ws hat hg.all
  have hs : inScriptingToken (nextToken n) n t = .panic .unreachable :=
    (plain_scripting (nextToken n) n hat hg.all rfl rfl).trans (other_stray hmv.at' (hmv.stack.trans hm.stack))
  unfold nextToken
  rw [hm.state]
  simp only [Bool.false_eq_true, if_false]
  rw [hs]

/-- **C29** and **C07** fail for every script in which a brace is closed that is not open, wherever it is and whatever follows: `parse_str`
aborts, and reports nothing. -/
theorem C29_fails_class (is : List Item) (rest : Text) (h : Apart false is (c!"}" ++ rest)) (hb : braces 0 is = some 0) :
    Ends (c!"<?php" ++ render is ++ c!"}" ++ rest) (.panic .unreachable) := by
  have hsrc : c!"<?php" ++ render is ++ c!"}" ++ rest = c!"<?php" ++ (render is ++ (c!"}" ++ rest)) := by simp
  rw [hsrc]
  have big : lexAll ((toks false is).length + 5) ((toks false is).length + 5) (Tz.new (c!"<?php" ++ (render is ++ (c!"}" ++ rest)))) [] =
      .panic .unreachable := by
    obtain ⟨sp, t1, h1, h2, h3, hp⟩ := open_tag (render is ++ (c!"}" ++ rest)) ((toks false is).length + 4)
    have hi := inv_new (c!"<?php" ++ (render is ++ (c!"}" ++ rest)))
    obtain ⟨out, t2, g1, g2, g3, g4, g5⟩ := run_items is (c!"}" ++ rest) ((toks false is).length + 2) 0 t1 false 0 (.of_at h2)
      ⟨hi.next h1, hp, .inl h3⟩ h hb [⟨.k .OpenTag, sp⟩]
    have hlen : out.length = (toks false is).length := by rw [← g1, List.length_map]
    rw [lexAll_step (ts := ⟨.k .OpenTag, sp⟩) h1 nofun]
    have := g2 4
    rw [show 4 + out.length = (toks false is).length + 4 by omega] at this
    refine this.trans ?_
    have hun : nextToken ((toks false is).length + 2 + 3) t2 = .panic .unreachable := by
      obtain ⟨g0, hg0, hat⟩ := Ahead.lex (c := '}') (by decide) g3
      obtain ⟨t3, m, e, hm, -, hat3, -, hp3⟩ := g4.enter ((toks false is).length + 2)
      rw [e]
      cases hpr : endsProp false is with
      | false =>
        rw [hpr] at hm
        exact token_stray _ hg0 hm (hat3 _ hat)
      | true =>
        rw [hpr] at hm
        obtain ⟨t4, ht, hat4, hm4, -, hp4⟩ := lexProp_other hg0 (hat3 _ hat) hm rfl (by intro c hc; cases hc; exact .inl (by decide)) rfl (m + 1)
        rw [ht]
        exact token_stray _ (g := []) nofun hm4 hat4
    show lexAll _ (3 + 1) _ _ = _
    unfold lexAll
    rw [hun]
  refine ⟨(toks false is).length + 5, ?_, nofun⟩
  unfold parseStrN
  rw [big]

/-- `<?php f(); } g();` meets the hypotheses. -/
example : let is : List Item := [.gap c!" ", .lex (.word c!"f"), .lex (.sym c!"(" .ParenthesesOpen), .lex (.sym c!")" .ParenthesesClose),
      .lex (.sym c!";" .SemiColon), .gap c!" "]
    Apart false is (c!"}" ++ c!" g();") ∧ braces 0 is = some 0 ∧ c!"<?php" ++ render is ++ c!"}" ++ c!" g();" = c!"<?php f(); } g();" :=
  ⟨apartB_ok rfl, rfl, rfl⟩

end Pico
