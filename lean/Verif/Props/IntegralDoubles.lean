import Verif.Props.Doubles
import Verif.Props.Complete
/-!
# Doubles that are integers (C52)
-/
namespace Pico

private theorem shown {l : Text} (h : (f64FromStr l).Integral) : ∃ m : Nat, showLit l = Nat.toDigits 10 m := by
  have hv := f64FromStr_valid l
  unfold showLit
  cases hx : f64FromStr l with
  | none => rw [hx] at h; cases h
  | some v =>
    rw [hx] at h hv
    have h0 := (search_int hv.1 hv.2).2 h
    refine ⟨(f64Search v 1383 0).1, ?_⟩
    show decimalText (f64Search v 1383 0).1 (f64Search v 1383 0).2 = _
    rw [h0, decimalText_int]

private theorem same_text {l : Text} {m : Nat} (h : showLit l = Nat.toDigits 10 m) :
    rewriteFile showLit [bareS (.ret (some (bare (.double l))))] = rewriteFile showLit [bareS (.ret (some (bare (.int m))))] := by
  have e : pExprK (stringTarget showLit) (.double l) = pExprK (stringTarget showLit) (.int m) := by
    simp only [pExprK]
    show wr _ (showLit l) = _
    rw [h]
    rfl
  unfold rewriteFile printToString printStatements bareS bare
  simp only [pStmts, pStmt, pStmtK, pExpr, pOptExpr, e]

private theorem accepted {ds fs : Text} (hne : ds ≠ []) (hd : ∀ c ∈ ds ++ fs, c.isDigit = true) :
    ∃ sp sp', Ends (c!"<?php return " ++ ds ++ c!"." ++ fs ++ c!";") (.ok [.mk (.ret (some (.mk (.double (ds ++ c!"." ++ fs)) sp))) sp']) := by
  have hscript : Script [.gap c!" ", .lex (.word c!"return"), .gap c!" ", .lex (.double ds fs), .lex (.sym c!";" .SemiColon)] false := by
    refine ⟨⟨by unfold Blank; decide, ⟨rfl, by decide⟩, ⟨rfl, fun _ => ⟨fun h => absurd h (by decide), fun h => absurd h (by decide)⟩⟩,
      by unfold Blank; decide, ⟨hne, fun c hc => hd c (List.mem_append_left _ hc), fun c hc => hd c (List.mem_append_right _ hc)⟩, rfl, apartB_ok rfl⟩, 0, rfl⟩
  have hder : Derives .tops [.k .Return, .double (ds ++ c!"." ++ fs), .k .SemiColon] [bareS (.ret (some (bare (.double (ds ++ c!"." ++ fs)))))] :=
    .tops_cons (.t_stmt (.s_return (.o_some (.e_double _)))) .tops_nil
  obtain ⟨ss, h1, h2⟩ := script_parses _ false _ hscript (by nofun) hder
  have hsrc : scriptText [.gap c!" ", .lex (.word c!"return"), .gap c!" ", .lex (.double ds fs), .lex (.sym c!";" .SemiColon)] false =
      c!"<?php return " ++ ds ++ c!"." ++ fs ++ c!";" := by simp [scriptText, render, Item.text, Lexeme.text]
  rw [hsrc] at h2
  obtain ⟨e, sp', rfl, h3⟩ := ret_inv h1
  obtain ⟨k, sp⟩ := e
  have hk : k = .double (ds ++ c!"." ++ fs) := by
    injection h3 with h3
    cases k <;> simp_all [ExprK.erase]
  subst hk
  exact ⟨sp, sp', h2⟩

/-- **C52** fails for every double that is an integer: it is accepted as a double, and the rewritten file, if the digits written for the double
are those of a number below `2 ^ 63`, returns this integer. -/
theorem C52_fails_class (ds fs : Text) (hne : ds ≠ []) (hd : ∀ c ∈ ds ++ fs, c.isDigit = true) (hi : (f64FromStr (ds ++ c!"." ++ fs)).Integral) :
    ∃ m sp sp' out, Ends (c!"<?php return " ++ ds ++ c!"." ++ fs ++ c!";") (.ok [.mk (.ret (some (.mk (.double (ds ++ c!"." ++ fs)) sp))) sp']) ∧
      Rewrites showLit (c!"<?php return " ++ ds ++ c!"." ++ fs ++ c!";") out ∧ out = c!"<?php\nreturn " ++ Nat.toDigits 10 m ++ c!";\n\n?>" ∧
      f64FromStr (Nat.toDigits 10 m) = f64FromStr (ds ++ c!"." ++ fs) ∧
      (m < 2 ^ 63 → ∃ sq sq', Ends out (.ok [.mk (.ret (some (.mk (.int m) sq))) sq'])) := by
  obtain ⟨m, hm⟩ := shown hi
  have hv := C52_same_value (ds ++ c!"." ++ fs)
  generalize hL : ds ++ c!"." ++ fs = l at hi hm hv
  obtain ⟨sp, sp', h2⟩ := accepted hne hd
  rw [hL] at h2
  have hout : rewriteFile showLit [bareS (.ret (some (bare (.int m))))] = some (c!"<?php\nreturn " ++ Nat.toDigits 10 m ++ c!";\n\n?>") := by
    have ht : printToString showLit [bareS (.ret (some (bare (.int m))))] = some (c!"return " ++ Nat.toDigits 10 m ++ c!";\n") := by
      rfl
    unfold rewriteFile
    rw [ht]
    simp
  refine ⟨m, sp, sp', _, h2, ⟨_, h2, (C36_rewrite showLit _ _ rfl).trans ((same_text hm).trans hout)⟩, rfl, by rw [← hm, hv], fun hlt => ?_⟩
  obtain ⟨out, g1, ss', g2, g3⟩ := C21_round_trip_partial showLit [bareS (.ret (some (bare (.int m))))] nofun (by
    simp only [rtTops, List.all_cons, List.all_nil, Bool.and_true, bareS, bare, rtTop, rtStmt, rtStmtK, rtOpt, rtExpr, rtExprK, Bool.and_eq_true,
      decide_eq_true_eq]
    omega)
  rw [hout] at g1
  cases g1
  obtain ⟨e, sq', rfl, g4⟩ := ret_inv g3
  obtain ⟨k, sq⟩ := e
  have hk : k = .int m := by
    injection g4 with g4
    cases k <;> simp_all [ExprK.erase]
  subst hk
  exact ⟨sq, sq', g2⟩

/-- **C52** fails for every double that is too large for an `f64`: the rewritten file returns the constant `inf`. -/
theorem C52_fails_infinite (ds fs : Text) (hne : ds ≠ []) (hd : ∀ c ∈ ds ++ fs, c.isDigit = true) (hi : f64FromStr (ds ++ c!"." ++ fs) = none) :
    ∃ sp sp' out, Ends (c!"<?php return " ++ ds ++ c!"." ++ fs ++ c!";") (.ok [.mk (.ret (some (.mk (.double (ds ++ c!"." ++ fs)) sp))) sp']) ∧
      Rewrites showLit (c!"<?php return " ++ ds ++ c!"." ++ fs ++ c!";") out ∧
      ∃ sq sq', Ends out (.ok [.mk (.ret (some (.mk (.path ⟨false, none, c!"inf"⟩) sq))) sq']) := by
  obtain ⟨sp, sp', h⟩ := accepted hne hd
  have hs : showLit (ds ++ c!"." ++ fs) = c!"inf" := by
    unfold showLit
    rw [hi]
    rfl
  have hp : rewriteFile showLit [.mk (.ret (some (.mk (.double (ds ++ c!"." ++ fs)) sp))) sp'] = some c!"<?php\nreturn inf;\n\n?>" := by
    have e : pExprK (stringTarget showLit) (.double (ds ++ c!"." ++ fs)) = wr (stringTarget showLit) c!"inf" := by
      simp only [pExprK]
      show wr _ (showLit (ds ++ c!"." ++ fs)) = _
      rw [hs]
    unfold rewriteFile printToString printStatements
    simp only [pStmts, pStmt, pStmtK, pExpr, e]
    rfl
  have h2 : (match parseStrN 60 c!"<?php\nreturn inf;\n\n?>" with
      | .ok [.mk (.ret (some (.mk (.path p) _))) _] => p == ⟨false, none, c!"inf"⟩
      | _ => false) = true := by decide +kernel
  split at h2
  · rename_i p sq sq' he
    cases eq_of_beq h2
    exact ⟨sp, sp', _, h, ⟨_, h, hp⟩, sq, sq', Ends.of 60 he (by simp)⟩
  · cases h2

/-- A one and 309 zeros. -/
example : (∀ c ∈ ('1' :: List.replicate 309 '0') ++ c!"0", c.isDigit = true) ∧ f64FromStr (('1' :: List.replicate 309 '0') ++ c!"." ++ c!"0") = none := by
  decide +kernel

private theorem integral_mul (k : Nat) : F64.Integral (some (k * 2 ^ 1074)) := Nat.dvd_mul_left _ _

/-- The double `10.00` is an integer. -/
example : (f64FromStr (c!"10" ++ c!"." ++ c!"00")).Integral ∧ c!"10" ≠ [] ∧ (∀ c ∈ c!"10" ++ c!"00", c.isDigit = true) := by
  have h1 : f64FromStr (c!"10" ++ c!"." ++ c!"00") = some (10 * 2 ^ 1074) := by decide +kernel
  rw [h1]
  exact ⟨integral_mul 10, by decide, by decide⟩

end Pico
