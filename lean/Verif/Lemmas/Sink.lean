import Verif.Lemmas.GramFail
/-!
# Prefix operators use up the depth of the recursion
-/
namespace Pico
open P

section
variable {α β : Type} {toks : List TokSpan}

/-- In front of the tokens `l`, `m` does not come to an end within the depth it is given. -/
structure Sinks (toks : List TokSpan) (m : P α) (l : List Token) : Prop where
  run : Tail toks l → m toks (posOf toks l) = .oof

theorem Sinks.step {m : P α} {f : α → P β} {l l' : List Token} {a : α} (h : Step toks m l a l') (hf : Sinks toks (f a) l') :
    Sinks toks (m >>= f) l := by
  refine ⟨fun ht => ?_⟩
  obtain ⟨h1, h2⟩ := h ht
  show P.bnd m f _ _ = _
  unfold P.bnd
  rw [h1]
  exact hf.run h2

theorem Sinks.bind_left {m : P α} {f : α → P β} {l : List Token} (h : Sinks toks m l) : Sinks toks (m >>= f) l := by
  refine ⟨fun ht => ?_⟩
  show P.bnd m f _ _ = _
  unfold P.bnd
  rw [h.run ht]

theorem Sinks.attempt {m : P α} {l : List Token} (h : Sinks toks m l) : Sinks toks (P.attempt m) l := by
  refine ⟨fun ht => ?_⟩
  unfold P.attempt
  rw [h.run ht]

theorem expr_sinks (l : List Token) (k : Nat) : ∀ q, Sinks toks ((recN k).expr q) (List.replicate k (.k .BoolNot) ++ l) := by
  induction k with
  | zero => exact fun q => ⟨fun _ => rfl⟩
  | succ k ih =>
    intro q
    show Sinks toks (parseExpression (recN k) q) (.k .BoolNot :: (List.replicate k (.k .BoolNot) ++ l))
    unfold parseExpression parseOperand
    exact .bind_left (.step peek_step (.step getPos_step (.step setPos_next (.bind_left (ih _)))))

theorem statement_sinks (l : List Token) (k : Nat) :
    Sinks toks (parseTopStatement (recN (k + 1))) (.k .BoolNot :: (List.replicate k (.k .BoolNot) ++ l)) := by
  unfold parseTopStatement
  refine .step (eat_miss (by simp [NoKw])) (.step (eat_miss (by simp [NoKw])) ?_)
  unfold parseStatement
  refine .step peek_step (.step getPos_step ?_)
  show Sinks toks (parseOtherStmt (recN (k + 1)) none) _
  unfold parseOtherStmt
  refine .step (ooDeclaration_fails (by simp [NoKw]) (by simp [NoKw]) (by simp [NoKw]) (by simp [NoKw]) (by simp [NoKw])).attempt ?_
  refine .step peek_step ?_
  show Sinks toks (P.getPos >>= fun p => parseExprStmt (recN (k + 1)) _) _
  refine .step getPos_step ?_
  unfold parseExprStmt
  exact .bind_left (.attempt (expr_sinks l (k + 1) .None))

theorem top_sinks {l : List Token} {k : Nat}
    (ht : toks.map TokSpan.tok = .k .BoolNot :: (List.replicate k (.k .BoolNot) ++ l)) :
    parseTopStatementList (recN (k + 1)) toks 0 = .oof := by
  have hlen : toks.length = k + l.length + 1 := by simpa using congrArg List.length ht
  have hpos : posOf toks (.k .BoolNot :: (List.replicate k (.k .BoolNot) ++ l)) = 0 := by simp [posOf, hlen]
  have h : Sinks toks (parseTopStatementList (recN (k + 1))) (.k .BoolNot :: (List.replicate k (.k .BoolNot) ++ l)) := by
    unfold parseTopStatementList
    refine .step (a := k + l.length + 1) (l' := .k .BoolNot :: (List.replicate k (.k .BoolNot) ++ l))
      (fun h => ⟨by unfold P.tokCount; rw [hlen], h⟩) ?_
    refine .step (a := k + l.length) (l' := .k .BoolNot :: (List.replicate k (.k .BoolNot) ++ l)) (fun h => ⟨rfl, h⟩) ?_
    have h2 : Sinks toks (P.loopN (fun (stmts : List Stmt) => do
        let p ← getPos
        if p ≤ k + l.length then
          let s ← parseTopStatement (recN (k + 1))
          return .inl (stmts ++ [s])
        else return .inr stmts) (toks.length + 2) []) (.k .BoolNot :: (List.replicate k (.k .BoolNot) ++ l)) := by
      unfold P.loopN
      refine .bind_left (.step getPos_step ?_)
      rw [hpos, if_pos (Nat.zero_le _)]
      exact .bind_left (statement_sinks l k)
    exact ⟨h2.run⟩
  have := h.run ⟨[], ht⟩
  rwa [hpos] at this

end

end Pico
