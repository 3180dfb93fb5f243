import Verif.Props.Sound
import Verif.Props.Source
import Verif.Lemmas.Nest
/-!
# Brackets that do not match (C50)

A closing bracket without an opening one is never accepted. The converse fails: tokens that are dropped may have opened
brackets.
-/
namespace Pico

/-- Whatever the tokens: if they are accepted, no bracket is closed that has not been opened. -/
theorem C50_tokens_partial (m : LineMap) (n : Nat) (toks : List TokSpan) (ss : List Stmt) (h : parseTokensN n m toks = .ok ss) :
    NoStray (visible toks) :=
  (derives_nn (C49_tokens m n toks ss h)).noStray

/-- The same for sources: if up to some point more brackets of a kind have been closed than opened, the source is not
accepted. -/
theorem C50_source_partial (src : Text) (n : Nat) (toks : List TokSpan) (hs : spansOf n src = some toks) (b : Bracket)
    (us vs : List Token) (hv : visible toks = us ++ vs) (hb : us.countP b.opens < us.countP b.closes) (ss : List Stmt) :
    ¬ Ends src (.ok ss) := by
  intro h
  obtain ⟨n', m, ts, h1, h2⟩ := ok_tokens h
  have e1 := spansOf_le (Nat.le_max_left n n') hs
  have e2 := spansOf_le (Nat.le_max_right n n') h1
  rw [e1] at e2
  cases e2
  have := C50_tokens_partial m n' toks ss h2 b us vs hv
  omega

/-- In whatever follows from the rules of the grammar alone the brackets match. -/
theorem C50_grammar (ts : List Token) (ss : List Stmt) (h : Derives .tops ts ss) : Balanced ts := derives_ba h []

/-- Not so in accepted sources. -/
theorem C50_fails : ∃ src ss n toks, Ends src (.ok ss) ∧ spansOf n src = some toks ∧ ¬ Balanced (visible toks) := by
  have h : (match parseStrN 60 c!"<?php f([1, (2]);" with
      | .ok _ => true
      | _ => false) = true := by decide +kernel
  have h' : ((spansOf 60 c!"<?php f([1, (2]);").map fun ts => nest [] (visible ts)) = some none := by decide +kernel
  split at h
  · rename_i ss he
    obtain ⟨toks, h1, h2⟩ := Option.map_eq_some_iff.mp h'
    exact ⟨_, ss, 60, toks, Ends.of 60 he (by simp), h1, by unfold Balanced; rw [h2]; simp⟩
  · cases h

/-! ## Examples -/

/-- A source to which `C50_source_partial` applies. -/
example : ∃ toks us vs, spansOf 40 c!"<?php f(1)); $a;" = some toks ∧ visible toks = us ++ vs ∧
    us.countP Bracket.round.opens < us.countP Bracket.round.closes := by
  have h : ((spansOf 40 c!"<?php f(1)); $a;").map visible) =
      some ([.string c!"f", .k .ParenthesesOpen, .int 1, .k .ParenthesesClose, .k .ParenthesesClose] ++
        [.k .SemiColon, .variable c!"a", .k .SemiColon]) := by decide +kernel
  obtain ⟨toks, h1, h2⟩ := Option.map_eq_some_iff.mp h
  exact ⟨toks, _, _, h1, h2, by decide⟩

/-- What `nest` says of brackets that do not match. -/
example : nest [] [.k .ParenthesesOpen, .k .SquareBracketOpen, .k .SquareBracketClose] = some [.round] ∧
    nest [] [.k .ParenthesesOpen, .k .SquareBracketOpen, .k .ParenthesesClose] = none := ⟨rfl, rfl⟩

end Pico
