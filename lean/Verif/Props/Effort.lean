import Verif.Lemmas.CountOpen
import Verif.Lemmas.Sink
import Verif.Props.Source
import Verif.Props.Parser
/-!
# How deep the parser recurses, and how often it calls itself (C55, C56)
-/
namespace Pico

/-- The source with `d` prefix operators in front of a number. -/
def nots (d : Nat) : Text := c!"<?php " ++ List.replicate d '!' ++ c!"1;"

/-- The source with `d` parentheses that are not closed. -/
def unclosed (d : Nat) : Text := c!"<?php " ++ List.replicate d '('

/-- The source with an operand behind `d` parentheses that are not closed. -/
def operands (d : Nat) : Text := c!"<?php 1+" ++ List.replicate d '(' ++ c!"1;"

/-! ## Their tokens -/

private def notItems (d : Nat) : List Item :=
  List.replicate d (.lex (.sym c!"!" .BoolNot)) ++ [.lex (.int c!"1" 1), .lex (.sym c!";" .SemiColon)]

private theorem notItems_succ (d : Nat) : notItems (d + 1) = .lex (.sym c!"!" .BoolNot) :: notItems d := rfl

private theorem notItems_render (d : Nat) : render (notItems d) = List.replicate d '!' ++ c!"1;" := by
  induction d with
  | zero => rfl
  | succ d ih => rw [notItems_succ, render, ih]; rfl

private theorem notItems_toks (d : Nat) :
    toks false (notItems d) = List.replicate d (.k .BoolNot) ++ [.int 1, .k .SemiColon] := by
  induction d with
  | zero => rfl
  | succ d ih =>
    rw [notItems_succ]
    show _ :: toks false (notItems d) = _
    rw [ih]
    rfl

private theorem notItems_braces (d : Nat) : braces 0 (notItems d) = some 0 := by
  induction d with
  | zero => rfl
  | succ d ih => rw [notItems_succ]; exact ih

private theorem notItems_apart (d : Nat) : Apart false (notItems d) [] := by
  induction d with
  | zero =>
    refine ⟨⟨.dec c!"1" nofun ?_ nofun, by decide⟩, rfl, (by decide : _ ∈ symbols), ⟨nofun, nofun, nofun⟩, trivial⟩
    intro c hc
    simp at hc
    rw [hc]
    rfl
  | succ d ih =>
    rw [notItems_succ]
    refine ⟨(by decide : _ ∈ symbols), ⟨fun c hc => ?_, nofun, nofun⟩, ih⟩
    rw [notItems_render] at hc
    cases d with
    | zero => cases hc; decide
    | succ d => cases hc; decide

private theorem blank_one : Blank c!" " := by intro c hc; simp at hc; exact .inl hc

private theorem nots_text (d : Nat) : nots d = scriptText (.gap c!" " :: notItems d) false := by
  unfold nots scriptText
  rw [render, notItems_render]
  simp [Item.text]

private theorem nots_script (d : Nat) : Script (.gap c!" " :: notItems d) false :=
  ⟨⟨blank_one, notItems_apart d⟩, 0, notItems_braces d⟩

private theorem nots_code (d : Nat) :
    codeToks (.gap c!" " :: notItems d) = List.replicate d (.k .BoolNot) ++ [.int 1, .k .SemiColon] := by
  unfold codeToks
  show (toks false (notItems d)).filter _ = _
  rw [notItems_toks]
  simp [isComment]

theorem nots_tokens (d : Nat) : ∃ n ts, spansOf n (nots d) = some ts ∧
    visible ts = List.replicate d (.k .BoolNot) ++ [.int 1, .k .SemiColon] := by
  obtain ⟨n, ts, h1, h2⟩ := script_visible _ false (nots_script d)
  exact ⟨n, ts, by rw [nots_text]; exact h1, by rw [h2, nots_code]⟩

private def parenItems (d : Nat) : List Item := List.replicate d (.lex (.sym c!"(" .ParenthesesOpen))

private theorem parenItems_render (d : Nat) : render (parenItems d) = List.replicate d '(' := by
  induction d with
  | zero => rfl
  | succ d ih =>
    show c!"(" ++ render (parenItems d) = _
    rw [ih]
    rfl

private theorem parenItems_toks (d : Nat) : toks false (parenItems d) = List.replicate d (.k .ParenthesesOpen) := by
  induction d with
  | zero => rfl
  | succ d ih =>
    show _ :: toks false (parenItems d) = _
    rw [ih]
    rfl

private theorem parenItems_braces (d : Nat) : braces 0 (parenItems d) = some 0 := by
  induction d with
  | zero => rfl
  | succ d ih => exact ih

private theorem no_cast (d : Nat) : ¬ CastAhead (List.replicate d '(' ++ []) := by
  rintro ⟨b, w, b', r, h, -⟩
  have hm : ')' ∈ List.replicate d '(' ++ [] := by rw [h]; simp
  simp at hm

private theorem parenItems_apart (d : Nat) : Apart false (parenItems d) [] := by
  induction d with
  | zero => trivial
  | succ d ih =>
    refine ⟨(by decide : _ ∈ symbols), ⟨fun c hc => ?_, fun _ => ?_, nofun⟩, ih⟩
    · have hc : (render (parenItems d) ++ []).head? = some c := hc
      rw [parenItems_render] at hc
      cases d with
      | zero => cases hc
      | succ d => cases hc; decide
    · show ¬ CastAhead (render (parenItems d) ++ [])
      rw [parenItems_render]
      exact no_cast d

theorem unclosed_tokens (d : Nat) : ∃ n ts, spansOf n (unclosed d) = some ts ∧
    visible ts = List.replicate d (.k .ParenthesesOpen) := by
  have hs : Script (.gap c!" " :: parenItems d) false := ⟨⟨blank_one, parenItems_apart d⟩, 0, parenItems_braces d⟩
  obtain ⟨n, ts, h1, h2⟩ := script_visible _ false hs
  refine ⟨n, ts, ?_, ?_⟩
  · have : unclosed d = scriptText (.gap c!" " :: parenItems d) false := by
      unfold unclosed scriptText
      rw [render, parenItems_render]
      simp [Item.text]
    rw [this]
    exact h1
  · rw [h2]
    unfold codeToks
    show (toks false (parenItems d)).filter _ = _
    rw [parenItems_toks]
    simp [isComment]

private def dropItems (d : Nat) : List Item := parenItems d ++ [.lex (.int c!"1" 1), .lex (.sym c!";" .SemiColon)]

private theorem dropItems_render (d : Nat) : render (dropItems d) = List.replicate d '(' ++ c!"1;" := by
  induction d with
  | zero => rfl
  | succ d ih =>
    show c!"(" ++ render (dropItems d) = _
    rw [ih]
    rfl

private theorem dropItems_toks (d : Nat) :
    toks false (dropItems d) = List.replicate d (.k .ParenthesesOpen) ++ [.int 1, .k .SemiColon] := by
  induction d with
  | zero => rfl
  | succ d ih =>
    show _ :: toks false (dropItems d) = _
    rw [ih]
    rfl

private theorem dropItems_braces (d : Nat) : braces 0 (dropItems d) = some 0 := by
  induction d with
  | zero => rfl
  | succ d ih => exact ih

private theorem one_apart : Apart false [.lex (.int c!"1" 1), .lex (.sym c!";" .SemiColon)] [] := notItems_apart 0

private theorem no_cast' (d : Nat) : ¬ CastAhead (List.replicate d '(' ++ c!"1;" ++ []) := by
  rintro ⟨b, w, b', r, h, -⟩
  have hm : ')' ∈ List.replicate d '(' ++ c!"1;" ++ [] := by rw [h]; simp
  simp at hm

private theorem dropItems_apart (d : Nat) : Apart false (dropItems d) [] := by
  induction d with
  | zero => exact one_apart
  | succ d ih =>
    refine ⟨(by decide : _ ∈ symbols), ⟨fun c hc => ?_, fun _ => ?_, nofun⟩, ih⟩
    · have hc : (render (dropItems d) ++ []).head? = some c := hc
      rw [dropItems_render] at hc
      cases d with
      | zero => cases hc; decide
      | succ d => cases hc; decide
    · show ¬ CastAhead (render (dropItems d) ++ [])
      rw [dropItems_render]
      exact no_cast' d

private def operandItems (d : Nat) : List Item :=
  .gap c!" " :: .lex (.int c!"1" 1) :: .lex (.sym c!"+" .Plus) :: dropItems (d + 1)

theorem operands_tokens (d : Nat) : ∃ n ts, spansOf n (operands (d + 1)) = some ts ∧ visible ts = dropped d := by
  have hs : Script (operandItems d) false := by
    refine ⟨⟨blank_one, one_apart.1, rfl, (by decide : _ ∈ symbols), ⟨fun c hc => ?_, nofun, nofun⟩, dropItems_apart (d + 1)⟩, 0, dropItems_braces (d + 1)⟩
    have hc : (render (dropItems (d + 1)) ++ []).head? = some c := hc
    rw [dropItems_render] at hc
    cases hc
    decide
  obtain ⟨n, ts, h1, h2⟩ := script_visible _ false hs
  refine ⟨n, ts, ?_, ?_⟩
  · have : operands (d + 1) = scriptText (operandItems d) false := by
      unfold operands scriptText operandItems
      rw [render, render, render, dropItems_render]
      simp [Item.text, Lexeme.text]
    rw [this]
    exact h1
  · rw [h2]
    unfold codeToks operandItems
    show (_ :: _ :: toks false (dropItems (d + 1))).filter _ = _
    rw [dropItems_toks]
    simp [isComment, dropped, Lexeme.tok, List.replicate_succ]

private theorem same_tokens {src : Text} {n n' : Nat} {ts us : List TokSpan} (h : spansOf n src = some ts) (h' : spansOf n' src = some us) :
    ts = us := by
  have e1 := spansOf_le (Nat.le_max_left n n') h
  have e2 := spansOf_le (Nat.le_max_right n n') h'
  rw [e1] at e2
  cases e2
  rfl

/-! ## C55 -/

/-- **C55** (upper bound): six nested calls for each token, and two more, are always enough. -/
theorem C55_depth_partial (src : Text) (n : Nat) (toks : List TokSpan) (_ : spansOf n src = some toks) (m : LineMap) :
    parseTokensN (6 * toks.length + 2) m toks ≠ .oof := C09_terminates m toks _ (Nat.le_refl _)

private theorem nots_derives (d : Nat) : ∃ e, Derives (.expr prefixLevel prefixLevel) (List.replicate d (.k .BoolNot) ++ [.int 1]) e := by
  induction d with
  | zero => exact ⟨_, .e_int 1⟩
  | succ d ih =>
    obtain ⟨e, h⟩ := ih
    exact ⟨_, .e_prefix (kw := .BoolNot) rfl h⟩

theorem nots_accepted (d : Nat) : ∃ ss, Ends (nots d) (.ok ss) := by
  obtain ⟨e, h⟩ := nots_derives d
  have hd : Derives .tops (codeToks (.gap c!" " :: notItems d)) [bareS (.expr e)] := by
    rw [nots_code]
    have := DerivesX.tops_cons (.t_stmt (.s_expr (weaken_level h (Nat.zero_le _)))) .tops_nil
    simpa using this
  obtain ⟨ss, -, h⟩ := script_parses _ false _ (nots_script d) (by rw [nots_code]; simp) hd
  exact ⟨ss, by rw [nots_text]; exact h⟩

/-- There is no limit on the depth: for every number there is an accepted source, hardly longer than the number, that needs
more nested calls. (The program keeps them on the stack of the thread, which is limited.) -/
theorem C55_fails (k : Nat) : ∃ src, src.length = k + 9 ∧ (∃ ss, Ends src (.ok ss)) ∧
    (∃ n toks, spansOf n src = some toks) ∧ ∀ n toks m, spansOf n src = some toks → parseTokensN k m toks = .oof := by
  refine ⟨nots (k + 1), by simp [nots], nots_accepted _, ?_, ?_⟩
  · obtain ⟨n, ts, h, -⟩ := nots_tokens (k + 1)
    exact ⟨n, ts, h⟩
  · intro n toks m h
    obtain ⟨n', ts, h1, h2⟩ := nots_tokens (k + 1)
    cases same_tokens h h1
    have hs := top_sinks (toks := stripTokens toks) (k := k) (by rw [← visible_strip, h2]; rfl)
    have hk : parseTopStatementList (recN k) (stripTokens toks) 0 = .oof := by
      rcases parseTopStatementList_mono (recN_le (Nat.le_succ k)) (stripTokens toks) 0 with h | h
      · exact h
      · rw [h]; exact hs
    unfold parseTokensN
    simp only [hk]

/-! ## C56 -/

/-- The counter does not change what `parse_tokens` does: with it the statements are parsed to the same outcome. -/
theorem C56_counter (n : Nat) (toks : List TokSpan) (pos : Nat) :
    (parseTopStatementListQ (exprQ n) (recN n) toks pos).1 = parseTopStatementList (recN n) toks pos :=
  counted_outcome n toks pos

/-- Every further parenthesis that is not closed doubles the number of calls of `parse_expression`: whenever the parser has
come to an end, it has made `2 ^ d` of them at least. -/
theorem C56_doubling (d : Nat) (n : Nat) (toks : List TokSpan) (m : LineMap) (k : Nat) (h : spansOf n (unclosed (d + 1)) = some toks)
    (hk : parseTokensN k m toks ≠ .oof) : 2 ^ (d + 1) ≤ exprCalls k toks := by
  obtain ⟨n', ts, h1, h2⟩ := unclosed_tokens (d + 1)
  cases same_tokens h h1
  rw [visible_strip] at h2
  refine top_costs h2 (by simp [NoKw]) k (fun ho => hk ?_) (statement_costs rfl (fun k hk => ?_) (fun k hk he => ?_) ?_)
  · unfold parseTokensN
    simp only [ho]
  · cases hk
    decide
  · cases he
    simp at hk
  · have := (exprQ_dear (toks := stripTokens toks) (l := []) parenQ_end d k .None).costs
    rw [List.append_nil] at this
    exact this

/-- The same for sources that are accepted: the parser drops the operand for which it has made all these calls. -/
theorem C56_doubling_accepted (d : Nat) : (∃ ss, Ends (operands (d + 1)) (.ok ss) ∧ eraseStmts ss = [bareS (.expr (bare (.int 1)))]) ∧
    ∀ n toks m k, spansOf n (operands (d + 1)) = some toks → parseTokensN k m toks ≠ .oof → 2 ^ (d + 1) ≤ exprCalls k toks := by
  obtain ⟨n', ts, h1, h2⟩ := operands_tokens d
  rw [visible_strip] at h2
  refine ⟨?_, fun n toks m k h hk => ?_⟩
  · obtain ⟨ss', he, h⟩ := source_of_tokens _ n' ts [bareS (.expr (bare (.int 1)))] h1 fun m _ => by
      obtain ⟨ss, he, hp⟩ := dropped_parses d h2
      refine ⟨ss, he, fun n hn => ?_⟩
      have hl := stripTokens_length ts
      unfold parseTokensN
      simp only [hp n (by omega)]
    exact ⟨ss', h, he⟩
  · cases same_tokens h h1
    refine dropped_costs d k h2 fun ho => hk ?_
    unfold parseTokensN
    simp only [ho]

private theorem below_pow (a b : Nat) : ∃ d, a * (d + 11) ^ b < 2 ^ (d + 1) := by
  have hlt : ∀ n : Nat, n < 2 ^ n := fun n => Nat.lt_two_pow_self
  obtain ⟨s, hs⟩ : ∃ s, s = 2 * (a + b + 11) := ⟨_, rfl⟩
  have h1 : a + 2 * s * b + 11 ≤ 2 ^ (2 * s) := by
    have h2 : (s + 1) * (s + 1) ≤ 2 ^ s * 2 ^ s := Nat.mul_le_mul (hlt s) (hlt s)
    have h6 : 2 ^ (2 * s) = 2 ^ s * 2 ^ s := by rw [Nat.two_mul, Nat.pow_add]
    rw [h6]
    have h3 : 2 * s * b ≤ s * s := by
      rw [Nat.mul_comm 2 s, Nat.mul_assoc]
      exact Nat.mul_le_mul_left s (by omega)
    have h4 : (s + 1) * (s + 1) = s * s + 2 * s + 1 := by rw [Nat.add_mul, Nat.mul_add]; omega
    omega
  refine ⟨2 ^ (2 * s) - 11, ?_⟩
  have h5 : 2 ^ (2 * s) - 11 + 11 = 2 ^ (2 * s) := by omega
  rw [h5, ← Nat.pow_mul]
  calc a * 2 ^ (2 * s * b) < 2 ^ a * 2 ^ (2 * s * b) := Nat.mul_lt_mul_of_pos_right (hlt a) (Nat.pow_pos (by omega))
    _ = 2 ^ (a + 2 * s * b) := by rw [Nat.pow_add]
    _ ≤ 2 ^ (2 ^ (2 * s) - 11 + 1) := Nat.pow_le_pow_right (by omega) (by omega)

/-- No polynomial in the length of the source bounds the number of calls, not even for sources that are accepted. -/
theorem C56_fails (a b : Nat) : ∃ src ss, Ends src (.ok ss) ∧ ∃ n toks, spansOf n src = some toks ∧
    ∀ k m, parseTokensN k m toks ≠ .oof → a * src.length ^ b < exprCalls k toks := by
  obtain ⟨d, hd⟩ := below_pow a b
  obtain ⟨n, ts, h1, -⟩ := operands_tokens d
  obtain ⟨⟨ss, h2, -⟩, h3⟩ := C56_doubling_accepted d
  refine ⟨operands (d + 1), ss, h2, n, ts, h1, fun k m hk => ?_⟩
  have hl : (operands (d + 1)).length = d + 11 := by simp [operands]
  rw [hl]
  exact Nat.lt_of_lt_of_le hd (h3 n ts m k h1 hk)

/-- With enough fuel the parser does come to an end: the hypothesis of `C56_doubling` can be met. -/
example (d : Nat) : ∃ n toks, spansOf n (unclosed (d + 1)) = some toks ∧
    ∀ m, parseTokensN (6 * toks.length + 2) m toks ≠ .oof := by
  obtain ⟨n, ts, h1, -⟩ := unclosed_tokens (d + 1)
  exact ⟨n, ts, h1, fun m => C09_terminates m ts _ (Nat.le_refl _)⟩

example : ∃ n toks, spansOf n (nots 5) = some toks ∧ visible toks = [.k .BoolNot, .k .BoolNot, .k .BoolNot, .k .BoolNot, .k .BoolNot,
    .int 1, .k .SemiColon] := nots_tokens 5

end Pico
