import Verif.Props.RoundTrip
import Verif.Lemmas.PrinterErase
/-!
# Parentheses the printer drops (C20)
-/
namespace Pico

/-- **C20** fails for every sign and every `instanceof` behind it whose left side is not put in parentheses: `!($a instanceof B)` is accepted, and
what is printed for it is read as `(!$a) instanceof B`. -/
theorem C20_fails_class (dbl : Text → Text) (op : UnaryOp) (l r : Expr) (s : Span) (hop : op.prefixText.2 = true) (hw : l.kind.wrapped = false)
    (hs : l.lead ≠ .sign) (h : rtExpr dbl .plain (.mk (.instanceOf l r) s) = true) :
    ∃ inner e sp text e' sp', printExprToString dbl (.mk (.instanceOf l r) s) = some inner ∧
      Ends (c!"<?php\nreturn " ++ (op.prefixText.1 ++ c!"(" ++ inner ++ c!")") ++ c!";\n?>") (.ok [.mk (.ret (some e)) sp]) ∧
      e.erase = bare (.unary op (bare (.instanceOf l.erase r.erase))) ∧
      printExprToString dbl e = some text ∧
      Ends (c!"<?php\nreturn " ++ text ++ c!";\n?>") (.ok [.mk (.ret (some e')) sp']) ∧
      e'.erase = bare (.instanceOf (bare (.unary op l.erase)) r.erase) ∧ e'.erase ≠ e.erase := by
  have hp : op.isPostfix = false := by cases op <;> first | rfl | cases hop
  have hb : l.kind.bracketed = false := (bracketed_wrapped _).trans hw
  -- the source with parentheses
  obtain ⟨is, ts, he⟩ := (rt_expr .plain _ h).plain h 0
  obtain ⟨is', hpc, hst, hd⟩ := he.paren
  have hd := hd [] _ (.a_nil _ _)
  rw [List.append_nil] at hd
  have hpre := prefix_piece hp (num := false) (hpc.mono fun _ _ => trivial) hst (.inl nofun)
  have hpt := (litA c!"return " [.k .Return] 0 0 (by decide) rfl).free (hpre.then (litA c!";" [.k .SemiColon] 0 0 (by decide) rfl) (by decide))
  have hdt := DerivesX.tops_cons (.t_stmt (.s_return (.o_some (.e_prefix (pre_bin op hp).2.2 (.e_var hd))))) .tops_nil
  rw [List.append_nil] at hdt
  obtain ⟨out, h1, ss', h2, h3⟩ := script_of_piece hpt hdt nofun
  have hin := he.pc'.txt
  have hout : out = c!"return " ++ ((op.prefixText.1 ++ c!"(" ++ render is ++ c!")") ++ c!";") := by
    rw [chunkText_append, chunkText_append, chunkText_append, chunkText_append, chunkText_append, hin] at h1
    cases h1
    simp
  obtain ⟨e, sp, rfl, h5⟩ := ret_inv h2
  -- the printed text is that of another expression
  have hsame : printExprToString dbl e = printExprToString dbl (.mk (.instanceOf (.mk (.unary op l) s) r) s) := by
    have hE : printExprToString dbl e = printExprToString dbl (.mk (.unary op (.mk (.instanceOf l r) s)) s) := by
      have e1 : e.erase = (Expr.mk (.unary op (.mk (.instanceOf l r) s)) s).erase := h5
      unfold printExprToString
      rw [← print_erase_expr, e1, print_erase_expr]
    rw [hE, printExprToString_eq, printExprToString_eq]
    show chunkText (w op.prefixText.1 ⧺ (if op.prefixText.2 then cParens false (.mk (.instanceOf l r) s) (cExpr dbl 0 (.mk (.instanceOf l r) s)) else cExpr dbl 0 (.mk (.instanceOf l r) s)) ⧺ cPostfix op) =
      chunkText ((w op.prefixText.1 ⧺ (if op.prefixText.2 then cParens false l (cExpr dbl 0 l) else cExpr dbl 0 l) ⧺ cPostfix op) ⧺ w c!" instanceof " ⧺ cExpr dbl 0 r)
    rw [hop, if_pos rfl, if_pos rfl, unwrapped_text _ _ _ hb, unwrapped_text (.mk (.instanceOf l r) s) _ _ rfl,
      show cPostfix op = [] from by cases op <;> first | rfl | (cases hp; done)]
    show chunkText (w op.prefixText.1 ⧺ (cExpr dbl 0 l ⧺ w c!" instanceof " ⧺ cExpr dbl 0 r) ⧺ []) = _
    simp only [List.append_nil, List.append_assoc]
  have h2' : rtExpr dbl .plain (.mk (.instanceOf (.mk (.unary op l) s) r) s) = true := by
    have h' : (rtExpr dbl .plain l && l.grade == .tight && (classRef r || rtExpr dbl .plain r && crefOk r)) = true := h
    rw [Bool.and_eq_true, Bool.and_eq_true] at h'
    have hg : (l.grade != .inst) = true := by rw [eq_of_beq h'.1.2]; rfl
    have hsg : signOk l = true := by
      unfold signOk
      rw [Bool.or_eq_true]
      exact .inr (by simpa using hs)
    show (rtExprK dbl .plain (.unary op l) && (if op.isPostfix || l.kind.bracketed then Grade.tight else l.grade) == .tight &&
      (classRef r || rtExpr dbl .plain r && crefOk r)) = true
    have hu : rtExprK dbl .plain (.unary op l) = true := by
      cases op <;> first | cases hop; done | (show (rtExpr dbl .plain l && (signOk l && (l.kind.bracketed || l.grade != .inst))) = true; rw [h'.1.1, hsg, hg, hb]; rfl)
    rw [hu, hp, hb, h'.2, eq_of_beq h'.1.2]
    rfl
  obtain ⟨text, k1, e', sp', k2, k3⟩ := C20_round_trip_partial dbl _ h2'
  refine ⟨_, e, sp, text, e', sp', by rw [printExprToString_eq, hin], ?_, h5, hsame.trans k1, k2, k3, ?_⟩
  · rw [hout] at h3
    have : c!"<?php\n" ++ (c!"return " ++ ((op.prefixText.1 ++ c!"(" ++ render is ++ c!")") ++ c!";")) ++ c!"\n?>" =
        c!"<?php\nreturn " ++ (op.prefixText.1 ++ c!"(" ++ render is ++ c!")") ++ c!";\n?>" := by simp
    rw [← this]
    exact h3
  · rw [k3, h5]
    exact nofun

/-- `!($a instanceof B)` and `-([1] instanceof \\B)`. -/
example (dbl : Text → Text) : UnaryOp.prefixText .Not = (c!"!", true) ∧
    (ExprK.wrapped (.var (.name c!"a")) = false ∧ (Expr.mk (.var (.name c!"a")) ⟨0, 0, none⟩).lead ≠ .sign) ∧
    rtExpr dbl .plain (.mk (.instanceOf (.mk (.var (.name c!"a")) ⟨0, 0, none⟩) (.mk (.path ⟨false, none, c!"B"⟩) ⟨0, 0, none⟩)) ⟨0, 0, none⟩) = true ∧
    (ExprK.wrapped (.array [(none, .mk (.int 1) ⟨0, 0, none⟩)]) = false ∧ (Expr.mk (.array [(none, .mk (.int 1) ⟨0, 0, none⟩)]) ⟨0, 0, none⟩).lead ≠ .sign) ∧
    rtExpr dbl .plain (.mk (.instanceOf (.mk (.array [(none, .mk (.int 1) ⟨0, 0, none⟩)]) ⟨0, 0, none⟩) (.mk (.path ⟨true, none, c!"B"⟩) ⟨0, 0, none⟩))
      ⟨0, 0, none⟩) = true :=
  ⟨rfl, ⟨rfl, nofun⟩, rfl, ⟨rfl, nofun⟩, rfl⟩

end Pico
