import Verif.Lemmas.LexItem
import Verif.Lemmas.ScriptCheck
import Verif.Spec.Outcome
/-!
# A class of sources on which the tokenizer does not come to an end (C08)
-/
namespace Pico
open T

/-- At the end of the source the tokenizer delivers the end token again and again, so that the loop that collects the tokens of a block does not end. -/
theorem block_end (n : Nat) : ∀ (b : Nat) (acc : List TokSpan) (t : Tz) (g : Text), t.st.state = .inScripting → Blank g → At t g →
    blockLoop (nextToken n) b acc t = .oof
  | 0, _, _, _, _, _, _ => rfl
  | b + 1, acc, t, g, hs, hg, hat => by
    unfold blockLoop
    cases n with
    | zero => rfl
    | succ n =>
      rw [next_scripting hs (scripting_end _ _ hat hg.all)]
      have hat' : At t (g ++ []) := by rw [List.append_nil]; exact hat
      have hm := Moved.ws hat' hg.all
      exact block_end (n + 1) b _ _ [] (hm.state.trans hs) nofun hm.at'

theorem block_var (n b : Nat) (acc : List TokSpan) {t : Tz} {w g : Text} (hs : t.st.state = .inScripting) (hw : isIdentifier w = true)
    (hg : Blank g) (hat : At t ('$' :: (w ++ g))) : blockLoop (nextToken n) b acc t = .oof := by
  cases b with
  | zero => rfl
  | succ b =>
    unfold blockLoop
    cases n with
    | zero => rfl
    | succ n =>
      have hword := Word.of_identifier hw
      have he : endsIdentifier g = true := by
        cases g with
        | nil => rfl
        | cons c g =>
          rcases hg c (by simp) with rfl | rfl | rfl | rfl <;> rfl
      have hr := endsIdentifier_head he
      have hmv := Moved.ws (w := []) (t := t) hat rfl
      have h := hmv.at'
      have hm2 := Moved.adv' (a := '$' :: w) h (n := 1 + w.length) (by
        rw [byteLen_cons_ascii _ _ (by decide), byteLen_ascii hword.asc])
      have hall := hmv.trans hm2
      rw [next_scripting hs ((scripting_start _ _ (w := []) hat rfl rfl (by simp)).trans (by
        rw [orElse_none (hereNowDoc_none _ _ h rfl rfl), orElse_none (show bnum _ = _ from prefixedNum_none _ _ _ h rfl),
          orElse_none (show hnum _ = _ from prefixedNum_none _ _ _ h rfl),
          orElse_none (onum_none h (by simp) (by intro c hc; cases hc; decide) rfl),
          orElse_none (dqString_none _ _ h rfl rfl), orElse_ok (variable_some h hword hr)]))]
      exact block_end (n + 1) b _ _ g (hall.state.trans hs) hg hall.at'

theorem strBlock_unending (n b : Nat) (bytes : List Byte) (parts : List TokSpan) {t : Tz} {w g : Text} (hp : 1 ≤ t.st.srcPos) (hw : isIdentifier w = true)
    (hg : Blank g) (hat : At t ('{' :: '$' :: (w ++ g))) : strBlock (nextToken n) b bytes parts true t = .oof := by
  have h1 : At t (c!"{" ++ ('$' :: (w ++ g))) := hat
  have hm := Moved.adv' h1 (n := 1) rfl
  unfold strBlock
  refine (bind_ok (advanceBytes_at' h1 rfl)).trans ?_
  refine (bind_ok (input_at hm.at')).trans ?_
  rw [if_pos (by simp [startsWith])]
  tstep ((t.adv 1).st) (t.adv 1)
  tstep (()) ({ t.adv 1 with st := { (t.adv 1).st with state := .inScripting, stack := [.doNothing] } })
  refine (bind_ok inputPos_at).trans ?_
  refine (bind_ok (subT_le ?_)).trans ?_
  · exact Nat.le_add_left 1 _
  exact bind_oof (block_var n b _ rfl hw hg hm.at')

theorem dq_unending (n b : Nat) {t : Tz} {x w g : Text} (hp : 1 ≤ t.st.srcPos) (hx : ∀ c ∈ x, isDqStop c = false) (hw : isIdentifier w = true)
    (hg : Blank g) (hat : At t ('"' :: (x ++ '{' :: '$' :: (w ++ g)))) : matchDqString (nextToken n) b t = .oof := by
  have h1 : At t (c!"\"" ++ (x ++ '{' :: '$' :: (w ++ g))) := hat
  have hm := Moved.adv' h1 (n := 1) rfl
  have h2 := hm.at'
  have hpos : position isDqStop (x ++ '{' :: '$' :: (w ++ g)) = some x.length := by
    clear h1 hm h2 hat
    induction x with
    | nil => rfl
    | cons c x ih =>
      rw [List.cons_append, position, hx c (by simp), ih fun c hc => hx c (by simp [hc])]
      rfl
  have hadv : dqAdvance (t.adv 1) = .ok x ((t.adv 1).adv (byteLen x)) := by
    unfold dqAdvance
    rw [bind_ok (input_at h2), hpos]
    exact advanceChars_at h2 rfl
  have hm2 := Moved.adv h2
  unfold matchDqString
  rw [bind_ok (input_at hat), if_neg (by
      simp only [byteLen, byteLen_append]
      have h1 : ('"' : Char).utf8Size = 1 := by decide
      have h2 : ('$' : Char).utf8Size = 1 := by decide
      have h3 : ('{' : Char).utf8Size = 1 := by decide
      omega)]
  tstep (t.st) t
  rw [if_neg (by simp [startsWith]), if_pos (by simp [startsWith])]
  refine (bind_ok (advanceBytes_at' h1 rfl)).trans ?_
  apply bind_oof
  unfold dqLoop
  refine (bind_ok hadv).trans ?_
  dsimp only
  refine (bind_ok (input_at hm2.at')).trans ?_
  exact bind_oof (strBlock_unending n b _ _ (Nat.le_trans hp (Nat.le_trans (Nat.le_add_right _ 1) (Nat.le_add_right _ _))) hw hg hm2.at')

theorem token_unending (n : Nat) {t : Tz} {g0 x w g : Text} {d : Nat} (hg0 : Blank g0) (hx : ∀ c ∈ x, isDqStop c = false)
    (hw : isIdentifier w = true) (hg : Blank g) (hm : Mode t false d) (hp : 1 ≤ t.st.srcPos)
    (hat : At t (g0 ++ '"' :: (x ++ '{' :: '$' :: (w ++ g)))) : nextToken n t = .oof := by
  cases n with
  | zero => rfl
  | succ n =>
    have hmv := Moved.ws hat hg0.all
    have h := hmv.at'
    have hs : inScriptingToken (nextToken n) n t = .oof := by
      refine (scripting_start _ _ hat hg0.all rfl (by simp)).trans ?_
      rw [orElse_none (hereNowDoc_none _ _ h rfl rfl), orElse_none (show bnum _ = _ from prefixedNum_none _ _ _ h rfl),
        orElse_none (show hnum _ = _ from prefixedNum_none _ _ _ h rfl),
        orElse_none (onum_none h (by simp) (by intro c hc; cases hc; decide) rfl)]
      exact orElse_oof (dq_unending n n (Nat.le_trans hp (ws_le t g0)) hx hw hg h)
    unfold nextToken
    rw [hm.state]
    simp only [Bool.false_eq_true, if_false]
    rw [hs]

/-- **C08** fails for a whole class of sources. Whatever script `is` stands in front, if the source ends in `"…{$name`, in the middle of the
first variable of a string with braces, then the tokenizer does not come to an end, and neither does the parser. -/
theorem C08_fails_class (is : List Item) (x w g : Text) (d : Nat) (hx : ∀ c ∈ x, c ∉ c!"\\\"\n${") (hw : isIdentifier w = true) (hg : Blank g)
    (h : Apart false is (c!"\"" ++ x ++ c!"{$" ++ w ++ g)) (hb : braces 0 is = some d) :
    ∀ n, parseStrN n (c!"<?php" ++ render is ++ c!"\"" ++ x ++ c!"{$" ++ w ++ g) = .oof := by
  intro n
  have hx' : ∀ c ∈ x, isDqStop c = false := by
    intro c hc
    have := hx c hc
    simp only [List.mem_cons, List.not_mem_nil, or_false, not_or] at this
    simp [isDqStop, this]
  have hsrc : c!"<?php" ++ render is ++ c!"\"" ++ x ++ c!"{$" ++ w ++ g = c!"<?php" ++ (render is ++ (c!"\"" ++ x ++ c!"{$" ++ w ++ g)) := by simp
  rw [hsrc]
  generalize htl : c!"\"" ++ x ++ c!"{$" ++ w ++ g = tail at h ⊢
  have htl' : tail = '"' :: (x ++ '{' :: '$' :: (w ++ g)) := by rw [← htl]; simp
  have big : ∀ k, lexAll (k + (toks false is).length + 5) (k + (toks false is).length + 5) (Tz.new (c!"<?php" ++ (render is ++ tail))) [] = .oof := by
    intro k
    obtain ⟨sp, t1, h1, h2, h3, hp⟩ := open_tag (render is ++ tail) (k + (toks false is).length + 4)
    have hi := inv_new (c!"<?php" ++ (render is ++ tail))
    obtain ⟨out, t2, g1, g2, g3, g4, g5⟩ := run_items is tail (k + (toks false is).length + 2) d t1 false 0 (.of_at h2)
      ⟨hi.next h1, hp, .inl h3⟩ h hb [⟨.k .OpenTag, sp⟩]
    have hlen : out.length = (toks false is).length := by rw [← g1, List.length_map]
    rw [lexAll_step (ts := ⟨.k .OpenTag, sp⟩) h1 nofun]
    have := g2 (k + 4)
    rw [show k + 4 + out.length = k + (toks false is).length + 4 by omega] at this
    refine this.trans ?_
    have hun : nextToken (k + (toks false is).length + 2 + 3) t2 = .oof := by
      rw [htl'] at g3
      obtain ⟨g0, hg0, hat⟩ := Ahead.lex (c := '"') (by decide) g3
      obtain ⟨t3, m, e, hm, -, hat3, -, hp3⟩ := g4.enter (k + (toks false is).length + 2)
      have hpos := g4.pos
      rw [e]
      cases hpr : endsProp false is with
      | false =>
        rw [hpr] at hm
        exact token_unending _ hg0 hx' hw hg hm (by omega) (hat3 _ hat)
      | true =>
        rw [hpr] at hm
        obtain ⟨t4, ht, hat4, hm4, -, hp4⟩ := lexProp_other hg0 (hat3 _ hat) hm rfl (by intro c hc; cases hc; exact .inl (by decide)) rfl (m + 1)
        rw [ht]
        exact token_unending _ (g0 := []) nofun hx' hw hg hm4 (by omega) hat4
    show lexAll _ (k + 3 + 1) _ _ = _
    unfold lexAll
    rw [hun]
  have hn : lexAll n n (Tz.new (c!"<?php" ++ (render is ++ tail))) [] = .oof := by
    rcases lexAll_mono (f := n) (f' := n + (toks false is).length + 5) (by omega) (n := n) (n' := n + (toks false is).length + 5) (by omega)
      (Tz.new (c!"<?php" ++ (render is ++ tail))) [] with h | h
    · exact h
    · rw [h, big n]
  unfold parseStrN
  rw [hn]

/-- `<?php echo $a; echo "x {$b` meets the hypotheses. -/
example : let is : List Item := [.gap c!" ", .lex (.word c!"echo"), .gap c!" ", .lex (.var c!"a"), .lex (.sym c!";" .SemiColon), .gap c!" ",
      .lex (.word c!"echo"), .gap c!" "]
    Apart false is (c!"\"" ++ c!"x " ++ c!"{$" ++ c!"b" ++ []) ∧ braces 0 is = some 0 ∧ isIdentifier c!"b" = true ∧
      (∀ c ∈ c!"x ", c ∉ c!"\\\"\n${") ∧
      c!"<?php" ++ render is ++ c!"\"" ++ c!"x " ++ c!"{$" ++ c!"b" ++ [] = c!"<?php echo $a; echo \"x {$b" :=
  ⟨apartB_ok rfl, rfl, rfl, by decide, rfl⟩

end Pico
