import Verif.Lemmas.TokRun
import Verif.Spec.Outcome
/-!
# A source on which the tokenizer does not come to an end (C08)
-/
namespace Pico
open T

/-- An unterminated block inside a double-quoted string: `<?php "{$a`. -/
def loopSrc : Text := c!"<?php \"{$a"

/-- The states of the scan of `loopSrc`. -/
def loopAt (p : Nat) (stack : List LexState) : Tz :=
  ⟨loopSrc, ⟨p, .inScripting, stack, 1, ⟨[0], 10⟩, false⟩, []⟩

set_option maxRecDepth 10000

theorem loop_end (n : Nat) :
    nextToken (n + 1) (loopAt 10 [.doNothing]) = .ok ⟨.k .End, mkSpan 10 10⟩ (loopAt 10 [.doNothing]) := rfl

theorem loop_var (n : Nat) :
    nextToken (n + 1) (loopAt 8 [.doNothing]) = .ok ⟨.variable c!"a", mkSpan 8 10⟩ (loopAt 10 [.doNothing]) :=
  rfl

theorem loop_block_end (n b : Nat) (acc : List TokSpan) :
    blockLoop (nextToken n) b acc (loopAt 10 [.doNothing]) = .oof := by
  induction b generalizing acc with
  | zero => rfl
  | succ b ih =>
    unfold blockLoop
    cases n with
    | zero => rfl
    | succ n => rw [loop_end]; exact ih _

theorem loop_block (n b : Nat) (acc : List TokSpan) :
    blockLoop (nextToken n) b acc (loopAt 8 [.doNothing]) = .oof := by
  cases b with
  | zero => rfl
  | succ b =>
    unfold blockLoop
    cases n with
    | zero => rfl
    | succ n => rw [loop_var]; exact loop_block_end _ _ _

theorem loop_strBlock (n b : Nat) (bytes : List Byte) (parts : List TokSpan) :
    strBlock (nextToken n) b bytes parts true (loopAt 7 []) = .oof := by
  unfold strBlock
  tstep (c!"{") (loopAt 8 [])
  tstep (c!"$a") (loopAt 8 [])
  rw [if_pos (by decide)]
  tstep ((loopAt 8 []).st) (loopAt 8 [])
  tstep (()) (loopAt 8 [.doNothing])
  tstep (8) (loopAt 8 [.doNothing])
  tstep (7) (loopAt 8 [.doNothing])
  rw [bind_oof (loop_block n b _)]

theorem loop_dq (n b : Nat) : matchDqString (nextToken n) b (loopAt 6 []) = .oof := by
  unfold matchDqString
  tstep (c!"\"{$a") (loopAt 6 [])
  rw [if_neg (by decide)]
  tstep ((loopAt 6 []).st) (loopAt 6 [])
  dsimp only
  rw [if_neg (by decide), if_pos (by decide)]
  tstep (c!"\"") (loopAt 7 [])
  apply bind_oof
  unfold dqLoop
  tstep ([]) (loopAt 7 [])
  tstep (c!"{$a") (loopAt 7 [])
  show (strBlock (nextToken n) b _ _ true >>= _) _ = _
  exact bind_oof (loop_strBlock n b _ _)

theorem loop_token (n : Nat) : nextToken n (loopAt 5 []) = .oof := by
  cases n with
  | zero => rfl
  | succ n =>
    have h : inScriptingToken (nextToken n) n (loopAt 5 []) = .oof := by
      unfold inScriptingToken
      tstep (()) (loopAt 6 [])
      tstep (c!"\"{$a") (loopAt 6 [])
      rw [if_neg (by decide)]
      tstep (6) (loopAt 6 [])
      tskip (loopAt 6 [])
      tskip (loopAt 6 [])
      tskip (loopAt 6 [])
      tskip (loopAt 6 [])
      exact orElse_oof (loop_dq n n)
    unfold nextToken
    show (match LexState.inScripting, inScriptingToken (nextToken n) n (loopAt 5 []) with
      | .emitQueue, r => r
      | _, .err .none t' =>
        if t'.st.restart then nextToken n { t' with st := { t'.st with restart := false } }
        else .err .none t'
      | _, r => r) = _
    rw [h]

/-- C08 fails: on `<?php "{$a` no amount of fuel is enough: the loop collecting the tokens of the block
(src/tokenizer.rs:670-672) receives the end token again and again. -/
theorem C08_fails : ∃ src, ∀ n, parseStrN n src = .oof := by
  refine ⟨loopSrc, fun n => ?_⟩
  have h : lexAll n n (Tz.new loopSrc) [] = .oof := by
    cases n with
    | zero => rfl
    | succ n =>
      unfold lexAll
      have h0 : nextToken (n + 1) (Tz.new loopSrc) = .ok ⟨.k .OpenTag, mkSpan 0 5⟩ (loopAt 5 []) := rfl
      rw [h0]
      dsimp only
      rw [if_neg (by decide)]
      cases n with
      | zero => rfl
      | succ n =>
        unfold lexAll
        rw [loop_token]
  unfold parseStrN
  rw [h]

end Pico
