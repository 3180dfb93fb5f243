import Verif.Lemmas.LexSpec
import Verif.Model.Printer
/-!
# How string literals are printed
-/
namespace Pico

/-- The body of a printed literal. -/
def litBody (s : Text) : Text :=
  let out := replaceQuote (replaceBsQuote s)
  out ++ if endsWithBs out then c!"\\" else []

theorem printStr (dbl : Text → Text) (s : Text) (sp : Span) :
    printExprToString dbl (.mk (.str s) sp) = some (c!"'" ++ litBody s ++ c!"'") := by
  unfold litBody
  cases h : endsWithBs (replaceQuote (replaceBsQuote s)) with
  | true =>
    simp [printExprToString, pExpr, pExprK, wrStr, h, W.cond, W.seq, wr, stringTarget, WSt.new]
  | false =>
    simp [printExprToString, pExpr, pExprK, wrStr, h, W.cond, W.seq, wr, stringTarget, WSt.new, W.skip]

theorem replaceBsQuote_cons {c : Char} {cs : Text} (h : c ≠ '\\') :
    replaceBsQuote (c :: cs) = c :: replaceBsQuote cs := by
  conv => lhs; unfold replaceBsQuote
  split
  · rename_i heq; cases heq
  · rename_i heq; cases heq; exact absurd rfl h
  · rename_i heq; cases heq; rfl

theorem replaceBsQuote_bs {c : Char} {cs : Text} (h : c ≠ '\'') :
    replaceBsQuote ('\\' :: c :: cs) = '\\' :: replaceBsQuote (c :: cs) := by
  conv => lhs; unfold replaceBsQuote
  split
  · rename_i heq; cases heq
  · rename_i heq; cases heq; exact absurd rfl h
  · rename_i heq; cases heq; rfl

theorem replaceQuote_cons {c : Char} {cs : Text} (h : c ≠ '\'') :
    replaceQuote (c :: cs) = c :: replaceQuote cs := by
  conv => lhs; unfold replaceQuote
  split
  · rename_i heq; cases heq
  · rename_i heq; cases heq; exact absurd rfl h
  · rename_i heq; cases heq; rfl

theorem endsWithBs_append {p o : Text} (h : endsWithBs p = false) : endsWithBs (p ++ o) = endsWithBs o := by
  cases o with
  | nil => rw [List.append_nil, h]; rfl
  | cons c o => simp [endsWithBs, List.getLast?_append, List.getLast?_cons]

theorem litBody_step {s cs p : Text}
    (h : replaceQuote (replaceBsQuote s) = p ++ replaceQuote (replaceBsQuote cs)) (hp : endsWithBs p = false) :
    litBody s = p ++ litBody cs := by
  unfold litBody
  dsimp only
  rw [h, endsWithBs_append hp, List.append_assoc]

/-- The printed body of a text without two backslashes in a row consists of characters and escapes that stand for
the text. -/
theorem litBody_items (n : Nat) (s : Text) (hn : s.length ≤ n) (h : ¬ c!"\\\\" <:+: s) :
    ∃ its : List SqItem, its.flatMap SqItem.src = litBody s ∧ its.flatMap SqItem.val = s ∧
      ∀ x ∈ its, x.ok = true := by
  induction n generalizing s with
  | zero =>
    have : s = [] := List.eq_nil_of_length_eq_zero (by omega)
    subst this
    exact ⟨[], rfl, rfl, by simp⟩
  | succ n ih =>
    cases s with
    | nil => exact ⟨[], rfl, rfl, by simp⟩
    | cons c cs =>
      have hl : cs.length ≤ n := by simpa using hn
      have hcs : ¬ c!"\\\\" <:+: cs := fun hi => h (hi.trans (List.suffix_cons c cs).isInfix)
      by_cases hb : c = '\\'
      · subst hb
        cases cs with
        | nil => exact ⟨[.esc '\\'], by decide, rfl, by simp [SqItem.ok]⟩
        | cons d ds =>
          have hds : ¬ c!"\\\\" <:+: ds := fun hi => hcs (hi.trans (List.suffix_cons d ds).isInfix)
          have hdb : d ≠ '\\' := by
            rintro rfl
            exact h (List.prefix_append c!"\\\\" ds).isInfix
          obtain ⟨its, h1, h2, h3⟩ := ih ds (by simp at hl; omega) hds
          by_cases hq : d = '\''
          · subst hq
            refine ⟨.esc '\\' :: .esc '\'' :: its, ?_, ?_, ?_⟩
            · rw [litBody_step (cs := ds) (p := c!"\\\\\\'") (by simp [replaceBsQuote, replaceQuote]) (by decide), ← h1]
              rfl
            · simp only [List.flatMap_cons, SqItem.val, h2]
              rfl
            · intro x hx
              simp only [List.mem_cons] at hx
              rcases hx with rfl | rfl | hx
              · decide
              · decide
              · exact h3 x hx
          · refine ⟨.raw d :: its, ?_, ?_, ?_⟩
            · rw [litBody_step (cs := ds) (p := ['\\', d]), ← h1]
              · rfl
              · rw [replaceBsQuote_bs hq, replaceBsQuote_cons hdb, replaceQuote_cons (by decide), replaceQuote_cons hq]
                rfl
              · simp [endsWithBs, hdb]
            · simp only [List.flatMap_cons, SqItem.val, h2]
              rfl
            · intro x hx
              simp only [List.mem_cons] at hx
              rcases hx with rfl | hx
              · simp [SqItem.ok, hdb, hq]
              · exact h3 x hx
      · obtain ⟨its, h1, h2, h3⟩ := ih cs hl hcs
        by_cases hq : c = '\''
        · subst hq
          refine ⟨.esc '\'' :: its, ?_, ?_, ?_⟩
          · rw [litBody_step (cs := cs) (p := c!"\\'") (by rw [replaceBsQuote_cons hb]; rfl) (by decide), ← h1]
            rfl
          · simp only [List.flatMap_cons, SqItem.val, h2]
            rfl
          · intro x hx
            simp only [List.mem_cons] at hx
            rcases hx with rfl | hx
            · decide
            · exact h3 x hx
        · refine ⟨.plain c :: its, ?_, ?_, ?_⟩
          · rw [litBody_step (cs := cs) (p := [c]) (by rw [replaceBsQuote_cons hb, replaceQuote_cons hq]; rfl)
              (by simp [endsWithBs, hb]), ← h1]
            rfl
          · simp only [List.flatMap_cons, SqItem.val, h2]
            rfl
          · intro x hx
            simp only [List.mem_cons] at hx
            rcases hx with rfl | hx
            · simp [SqItem.ok, hb, hq]
            · exact h3 x hx

end Pico
