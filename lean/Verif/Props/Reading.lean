import Verif.Lemmas.ReadStmt
import Verif.Props.Source
import Verif.Props.Violations
/-!
# Trees are readings of the tokens (C22, C39)
-/
namespace Pico
open P

theorem upto_all (toks : List TokSpan) (p : Nat) : ∃ us, toks.map TokSpan.tok = upto toks p ++ us := by
  refine ⟨(toks.drop p).map TokSpan.tok, ?_⟩
  unfold upto
  rw [← List.map_append, List.take_append_drop]

/-- Whatever the tokens, well-formed or not: the statements that are returned can be read off them from left to
right. -/
theorem C39_tokens (m : LineMap) (n : Nat) (toks : List TokSpan) (ss : List Stmt) (h : parseTokensN n m toks = .ok ss) :
    ReadOff (stmtsMarks ss) (visible toks) := by
  unfold parseTokensN at h
  dsimp only at h
  have hy := parseTopStatementList_read (recN_read n) (stripTokens toks) [] 0 .nil (Nat.le_refl _)
  unfold Wr at hy
  split at h
  · rename_i ss' q e
    rw [e] at hy
    cases h
    obtain ⟨us, hu⟩ := upto_all (stripTokens toks) q
    rw [visible_strip, hu]
    exact hy.2.skips _
  · cases h
  · cases h
  · exfalso
    split at h
    · split at h
      · unfold spannedErr at h
        split at h
        · cases h
        · split at h <;> cases h
      · cases h
    · split at h
      · unfold spannedErr at h
        split at h
        · cases h
        · split at h <;> cases h
      · cases h

/-- The statements of an accepted source can be read off the tokens of the source from left to right: each name,
variable, literal, operator and keyword of the tree stands for tokens of its own, in the order of the source. -/
theorem C39_reading (src : Text) (ss : List Stmt) (h : Ends src (.ok ss)) :
    ∃ n ts, spansOf n src = some ts ∧ ReadOff (stmtsMarks ss) (visible ts) := by
  obtain ⟨n, h, -⟩ := h
  unfold parseStrN at h
  cases e : lexAll n n (Tz.new src) [] with
  | ok x =>
    obtain ⟨ts, t⟩ := x
    rw [e] at h
    exact ⟨n, ts, by simp [spansOf, e], C39_tokens _ _ _ _ h⟩
  | err x =>
    rw [e] at h
    exfalso
    dsimp only at h
    split at h
    · cases h
    · unfold spannedErr at h
      split at h
      · cases h
      · split at h <;> cases h
  | panic p => rw [e] at h; cases h
  | oof => rw [e] at h; cases h

/-! ## What this means for numbers -/

/-- The integer literals among the marks of a tree. -/
def intsOf (ms : List Mark) : List Int :=
  ms.filterMap fun m => match m with
    | .int v => some v
    | _ => none

/-- The integer literals among tokens. -/
def intToks (ts : List Token) : List Int :=
  ts.filterMap fun t => match t with
    | .int v => some (v : Int)
    | _ => none

theorem ReadOff.ints {ms : List Mark} {ts : List Token} (h : ReadOff ms ts) : (intsOf ms).Sublist (intToks ts) := by
  induction h with
  | nil => exact List.Sublist.refl _
  | skip h t ih =>
    unfold intToks at ih ⊢
    rw [List.filterMap_append]
    exact ih.trans (List.sublist_append_left _ _)
  | read h hm ih =>
    unfold intToks intsOf at ih ⊢
    rw [List.filterMap_append, List.filterMap_append]
    refine ih.append ?_
    cases hm with
    | int v => exact List.Sublist.refl _
    | _ => exact List.nil_sublist _

/-- The full claim of C22 (nothing is dropped) is false, see `C22_fails`. What holds for every accepted source is
the other half: the tree has no integer literal more than the source, and they keep their order. (The same holds
for all other parts of the tree, see `C39_reading`.) -/
theorem C22_ints_partial (src : Text) (ss : List Stmt) (h : Ends src (.ok ss)) :
    ∃ n ts, spansOf n src = some ts ∧ (intsOf (stmtsMarks ss)).Sublist (intToks (ts.map TokSpan.tok)) := by
  obtain ⟨n, ts, h1, h2⟩ := C39_reading src ss h
  refine ⟨n, ts, h1, ?_⟩
  have h3 := h2.ints
  have : intToks (visible ts) = intToks (ts.map TokSpan.tok) := by
    clear h1 h2 h3
    rw [visible_eq]
    induction ts with
    | nil => rfl
    | cons t ts ih =>
      obtain ⟨tok, sp⟩ := t
      have hs : intToks (seenAs tok) = intToks [tok] := by
        cases tok with
        | k k => cases k <;> rfl
        | _ => rfl
      unfold intToks at ih hs ⊢
      rw [List.map_cons, List.flatMap_cons, List.filterMap_append, ih, hs, ← List.filterMap_append]
      rfl
  rwa [this] at h3

/-! ## Examples -/

/-- A source that is accepted though it is malformed: nothing is added to repair it. -/
theorem example_reading : ∃ ss, Ends c!"<?php $a = f(1, 'x') - 2 + ;" (.ok ss) ∧
    stmtsMarks ss = [.var c!"a", .kw [.Equal], .path ⟨false, none, c!"f"⟩, .kw [.ParenthesesOpen], .int 1, .str c!"x",
      .kw [.Minus], .int 2] := by
  have h : (match parseStrN 60 c!"<?php $a = f(1, 'x') - 2 + ;" with
      | .ok [.mk (.expr (.mk (.assign (.mk (.var (.name ['a'])) _) (.mk (.binary .Sub
          (.mk (.call (.mk (.path ⟨false, none, ['f']⟩) _) [.mk (.int 1) _, .mk (.str ['x']) _]) _)
          (.mk (.int 2) _)) _)) _)) _] => true
      | _ => false) = true := by decide +kernel
  split at h
  · rename_i he
    exact ⟨_, Ends.of 60 he (by simp), rfl⟩
  · cases h

example : ∃ n ts, spansOf n c!"<?php $a = f(1, 'x') - 2 + ;" = some ts ∧
    ReadOff [.var c!"a", .kw [.Equal], .path ⟨false, none, c!"f"⟩, .kw [.ParenthesesOpen], .int 1, .str c!"x",
      .kw [.Minus], .int 2] (visible ts) := by
  obtain ⟨ss, h, hm⟩ := example_reading
  rw [← hm]
  exact C39_reading _ ss h

/-- The order matters: `ReadOff` does not hold for swapped operands. -/
example : ¬ ReadOff [.int 2, .kw [.Minus], .int 1] [.int 1, .k .Minus, .int 2] := by
  intro h
  have := h.ints
  revert this
  decide

end Pico
