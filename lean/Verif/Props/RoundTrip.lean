import Verif.Lemmas.RtAll
import Verif.Props.Source
import Verif.Props.Violations
/-!
# C20, C21: what has been printed is parsed back

The trees these theorems speak about are described in `Spec/RoundTrip.lean`.
-/
namespace Pico

variable {dbl : Text → Text}

theorem script_of_piece {cs : List Chunk} {is : List Item} {ts : List Token} {ss : List Stmt} (hp : Piece 0 0 Any cs is ts) (hd : Derives .tops ts ss)
    (hne : ss ≠ []) : ∃ out, chunkText cs = some out ∧ ∃ ss', eraseStmts ss' = ss ∧ Ends (c!"<?php\n" ++ out ++ c!"\n?>") (.ok ss') := by
  have hl := litA c!"\n" [] 0 0 (by decide) rfl
  have hf := hl.free (hp.free hl)
  rw [List.append_nil, List.nil_append] at hf
  refine ⟨_, hp.txt, ?_⟩
  have hs : Script (litItems c!"\n" ++ (is ++ litItems c!"\n")) true := ⟨hf.ap _ trivial, _, hf.br 0⟩
  have hc : codeToks (litItems c!"\n" ++ (is ++ litItems c!"\n")) = ts := by
    unfold codeToks
    rw [codeToks_of _ _ hf.cd, hf.tk]
  obtain ⟨ss', h1, h2⟩ := script_parses _ true ss hs (by rw [hc]; exact tops_nonempty hd hne) (by rw [hc]; exact hd)
  refine ⟨ss', h1, ?_⟩
  have ht : scriptText (litItems c!"\n" ++ (is ++ litItems c!"\n")) true = c!"<?php\n" ++ render is ++ c!"\n?>" := by
    unfold scriptText
    rw [render_append, render_append]
    show c!"<?php" ++ (c!"\n" ++ (render is ++ c!"\n")) ++ c!"?>" = _
    simp
  rw [← ht]
  exact h2

/-- C21 (partial): a file written back with `<?php` and `?>` around its printed statements is parsed to the same statements, up to
source positions. Missing: the trees `rtTops` excludes, for some of which the claim is false (`C21_fails`). -/
theorem C21_round_trip_partial (dbl : Text → Text) (ss : List Stmt) (hne : ss ≠ []) (h : rtTops dbl ss = true) :
    ∃ out, rewriteFile dbl ss = some out ∧ ∃ ss', Ends out (.ok ss') ∧ eraseStmts ss' = eraseStmts ss := by
  obtain ⟨is, ts, hp, hd⟩ := rt_tops ss h
  have hne' : eraseStmts ss ≠ [] := by
    cases ss with
    | nil => exact absurd rfl hne
    | cons => exact nofun
  obtain ⟨out, h1, ss', h2, h3⟩ := script_of_piece hp hd hne'
  refine ⟨_, ?_, ss', h3, h2⟩
  unfold rewriteFile
  rw [printToString_eq, h1]
  rfl

theorem ret_inv : ∀ {ss : List Stmt} {x : Expr}, eraseStmts ss = [bareS (.ret (some x))] → ∃ e sp, ss = [.mk (.ret (some e)) sp] ∧ e.erase = x
  | [], _, h => by cases h
  | _ :: _ :: _, _, h => by injection h with _ h; cases h
  | [.mk k sp], x, h => by
    cases k with
    | ret e =>
      cases e with
      | none => cases h
      | some e =>
        injection h with h
        injection h with h
        injection h with h
        injection h with h
        exact ⟨e, sp, rfl, h⟩
    | _ => cases h

/-- C20 (partial): the printed form of an expression, in a statement `return ..;`, is parsed to the same expression, up to source
positions. Missing: the trees `rtExpr` excludes, for some of which the claim is false (`C20_fails`). -/
theorem C20_round_trip_partial (dbl : Text → Text) (e : Expr) (h : rtExpr dbl .plain e = true) :
    ∃ out, printExprToString dbl e = some out ∧
      ∃ e' sp, Ends (c!"<?php\nreturn " ++ out ++ c!";\n?>") (.ok [.mk (.ret (some e')) sp]) ∧ e'.erase = e.erase := by
  obtain ⟨is, ts, he⟩ := (rt_expr .plain e h).plain h 0
  obtain ⟨s, hs⟩ := he.any
  have hp := (litA c!"return " [.k .Return] 0 0 (by decide) rfl).free (he.pc'.then (litA c!";" [.k .SemiColon] 0 0 (by decide) rfl) (by decide))
  have hd := DerivesX.tops_cons (.t_stmt (.s_return (.o_some hs))) .tops_nil
  rw [List.append_nil] at hd
  obtain ⟨out, h1, ss', h2, h3⟩ := script_of_piece hp hd nofun
  have ht := he.pc'.txt
  refine ⟨_, by rw [printExprToString_eq, ht], ?_⟩
  rw [chunkText_append, chunkText_append, ht] at h1
  cases h1
  obtain ⟨e', sp, rfl, h5⟩ := ret_inv h2
  refine ⟨e', sp, ?_, h5⟩
  have : c!"<?php\n" ++ (c!"return " ++ (render is ++ c!";")) ++ c!"\n?>" = c!"<?php\nreturn " ++ render is ++ c!";\n?>" := by simp
  rw [← this]
  exact h3

/-- A negative number, which the parser never puts into a literal, is printed with its sign: the text reads back as the
negation of the positive literal. -/
theorem C20_negative (dbl : Text → Text) (n : Nat) (h0 : 0 < n) (h1 : n < 2 ^ 63) (sp : Span) :
    ∃ out, printExprToString dbl (.mk (.int (-(n : Int))) sp) = some out ∧
      ∃ e' sp', Ends (c!"<?php\nreturn " ++ out ++ c!";\n?>") (.ok [.mk (.ret (some e')) sp']) ∧
        e'.erase = (Expr.mk (.unary .Negative (.mk (.int n) sp)) sp).erase := by
  have ht : printExprToString dbl (.mk (.int (-(n : Int))) sp) = printExprToString dbl (.mk (.unary .Negative (.mk (.int n) sp)) sp) := by
    obtain ⟨m, rfl⟩ := Nat.exists_eq_add_of_lt h0
    rw [printExprToString_eq, printExprToString_eq]
    have : (-(((0 + m + 1 : Nat)) : Int)) = Int.negSucc m := by omega
    rw [this]
    show chunkText (w (intText (Int.negSucc m))) = chunkText (w c!"-" ++ w (intText (Int.ofNat (0 + m + 1))) ++ [])
    simp [w, chunkText, intText]
  rw [ht]
  refine C20_round_trip_partial dbl _ ?_
  have h2 : (n : Int) < 2 ^ 63 := by
    have : (n : Int) < ((2 ^ 63 : Nat) : Int) := Int.ofNat_lt.2 h1
    exact this
  simp [rtExpr, rtExprK, signOk, Expr.lead, ExprK.lead, Expr.grade, ExprK.grade, ExprK.bracketed, Expr.kind]
  exact h2

example : 0 < 5 ∧ 5 < 2 ^ 63 := by decide

/-- C20 fails in general: `!($a instanceof B)` is printed as `!$a instanceof B`, which is `(!$a) instanceof B`. -/
theorem C20_fails (dbl : Text → Text) : ∃ e sp text e' sp', Ends c!"<?php return !($a instanceof B);" (.ok [.mk (.ret (some e)) sp]) ∧
    printExprToString dbl e = some text ∧ Ends (c!"<?php\nreturn " ++ text ++ c!";\n?>") (.ok [.mk (.ret (some e')) sp']) ∧ e'.erase ≠ e.erase := by
  have h : (match parseStrN 60 c!"<?php return !($a instanceof B);" with
      | .ok [.mk (.ret (some (.mk (.unary .Not (.mk (.instanceOf (.mk (.var (.name n)) _) (.mk (.path p) _)) _)) _))) _] =>
        n == c!"a" && p == ⟨false, none, c!"B"⟩
      | _ => false) = true := by decide +kernel
  have h' : (match parseStrN 60 c!"<?php\nreturn !$a instanceof B;\n?>" with
      | .ok [.mk (.ret (some (.mk (.instanceOf _ _) _))) _] => true
      | _ => false) = true := by decide +kernel
  split at h
  · rename_i n s1 p s2 s3 s4 s5 he
    split at h'
    · rename_i l r s6 s7 he'
      simp only [Bool.and_eq_true, beq_iff_eq] at h
      obtain ⟨rfl, rfl⟩ := h
      exact ⟨_, _, c!"!$a instanceof B", _, _, Ends.of 60 he (by simp), rfl, Ends.of 60 he' (by simp), by simp [Expr.erase, ExprK.erase]⟩
    · cases h'
  · cases h

/-! ### Cases that meet the hypotheses -/

private def sp0 : Span := ⟨0, 0, none⟩

/-- `$a->b['c'] += f(1, new D) . "x" ? [1 => 2] : function($x) { return -$x; }` -/
example (dbl : Text → Text) : rtExpr dbl .plain
    (.mk (.compoundAssign (.mk (.arrayIdx (.mk (.objMember (.mk (.var (.name c!"a")) sp0) [.mk (.path ⟨false, none, c!"b"⟩) sp0]) sp0)
        [some (.mk (.str c!"c") sp0)]) sp0) .Add
      (.mk (.ternary (.mk (.binary .Concat (.mk (.call (.mk (.path ⟨false, none, c!"f"⟩) sp0)
          [.mk (.int 1) sp0, .mk (.new (.mk (.path ⟨true, none, c!"D"⟩) sp0) []) sp0]) sp0) (.mk (.str c!"x") sp0)) sp0)
        (some (.mk (.array [(some (.mk (.int 1) sp0), .mk (.int 2) sp0)]) sp0))
        (.mk (.function (.mk [.mk c!"x" false false none none]
          (some [.mk (.ret (some (.mk (.unary .Negative (.mk (.var (.name c!"x")) sp0)) sp0))) sp0]) [] false)) sp0)) sp0)) sp0) = true := rfl

/-- A file with declarations, as the parser delivers it. -/
example : (match parseStrN 900 c!"<?php\nnamespace A\\B;\nuse C\\D as E;\nabstract class F extends E implements G, H {\n  const X = 1;\n  private static $p = [1, 2];\n  use T, U { T::m insteadof U; n as k; }\n  public function m(array &$a, E $b = null, ...$c) { foreach ($a as $k => &$v) { if ($k == 1) { echo $v, 'x'; continue; } else { unset($a[$k]); } } return $this->p; }\n  abstract function n();\n}\nswitch ($x) { case 1: case 2: f(); break; default: throw new E('y'); }\ntry { do { $i++; } while ($i < 10); } catch (E $e) { list($a, $b) = g(...$c); } finally { $a .= 'z'; }\n" with
    | .ok ss => rtTops id ss && (ss.length == 5)
    | _ => false) = true := by decide +kernel

end Pico
