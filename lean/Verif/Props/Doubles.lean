import Verif.Lemmas.Float
import Verif.Lemmas.PrinterDoubles
import Verif.Lemmas.ShapeDoubles
import Verif.Props.Accepted
/-!
# Floating point numbers (C52)

The other theorems about printing hold for every way to write a double. Here it is the one of Rust: `f64FromStr` and
`f64Display` are what `f64::from_str` and `{}` compute.
-/
namespace Pico

set_option exponentiation.threshold 3000

/-- **C52**, reading: of all `f64` there are, a literal `ds.fs` is read as the one nearest to `dsfs / 10^|fs|`; if two
are equally near, as the one of the two that is even. (`v / 2^1074` is the number that is read, `w / 2^1074` any other.) -/
theorem C52_nearest (ds fs : Text) (hd : ∀ c ∈ ds ++ fs, c.isDigit = true) (v : Nat)
    (h : f64FromStr (ds ++ c!"." ++ fs) = some v) : F64.Valid (some v) ∧ ∀ w, F64.Valid (some w) → w ≠ v →
      distance (decVal (ds ++ fs) * 2 ^ 1074) (v * 10 ^ fs.length) < distance (decVal (ds ++ fs) * 2 ^ 1074) (w * 10 ^ fs.length) ∨
      distance (decVal (ds ++ fs) * 2 ^ 1074) (v * 10 ^ fs.length) = distance (decVal (ds ++ fs) * 2 ^ 1074) (w * 10 ^ fs.length) ∧
        2 * distance v w ∣ v := by
  rw [fromStr_literal hd] at h
  have hp : 0 < 10 ^ fs.length := Nat.pow_pos (by omega)
  refine ⟨f64Round_valid hp h, fun w hw hne => ?_⟩
  obtain ⟨h1, h2⟩ := f64Round_near hp h w hw.1
  rcases Nat.lt_or_ge (distance (decVal (ds ++ fs) * 2 ^ 1074) (v * 10 ^ fs.length))
    (distance (decVal (ds ++ fs) * 2 ^ 1074) (w * 10 ^ fs.length)) with h3 | h3
  · exact .inl h3
  · exact .inr ⟨Nat.le_antisymm h1 h3, h2 (Nat.le_antisymm h1 h3) hne⟩

/-- **C52**, overflow: a literal is read as infinity exactly if it is at least `2^1024 - 2^970`. -/
theorem C52_infinite (ds fs : Text) (hd : ∀ c ∈ ds ++ fs, c.isDigit = true) :
    f64FromStr (ds ++ c!"." ++ fs) = none ↔ (2 ^ 1024 - 2 ^ 970) * 10 ^ fs.length ≤ decVal (ds ++ fs) := by
  rw [fromStr_literal hd, f64Round_inf _ (Nat.pow_pos (by omega))]
  have e : 2 ^ 2098 - 2 ^ 2044 = (2 ^ 1024 - 2 ^ 970) * 2 ^ 1074 := by rw [Nat.sub_mul, ← Nat.pow_add, ← Nat.pow_add]
  rw [e, Nat.mul_right_comm]
  exact Nat.mul_le_mul_right_iff (Nat.pow_pos (by omega))

/-- **C52**, writing: what is written for a number is read as this number. -/
theorem C52_reads_back (x : F64) (h : F64.Valid x) : f64FromStr (f64Display x) = x := f64_reads_back h

/-- The same for literals: the literal that the printer writes denotes the same `f64`. -/
theorem C52_same_value (l : Text) : f64FromStr (showLit l) = f64FromStr l := showLit_value l

/-- **C52**, shape: a number is written as digits with a point between them, but for integers, which are written without
the point, and infinity. -/
theorem C52_shape (x : F64) (h : F64.Valid x) :
    (x = none ∧ f64Display x = c!"inf") ∨
    (x.Integral ∧ f64Display x ≠ [] ∧ ∀ c ∈ f64Display x, c.isDigit = true) ∨
    (x ≠ none ∧ ¬ x.Integral ∧ ∃ ds fs, f64Display x = ds ++ c!"." ++ fs ∧ ds ≠ [] ∧ fs ≠ [] ∧
      ∀ c ∈ ds ++ fs, c.isDigit = true) := by
  cases x with
  | none => exact .inl ⟨rfl, rfl⟩
  | some v =>
    rcases f64Display_some h.1 h.2 with h' | ⟨h1, h2⟩
    · exact .inr (.inl h')
    · exact .inr (.inr ⟨nofun, h1, h2⟩)

theorem display_split {x : F64} (h : F64.Valid x) {ds fs : Text} (hd : ∀ c ∈ ds ++ fs, c.isDigit = true)
    (he : f64Display x = ds ++ c!"." ++ fs) : ∃ v, x = some v ∧ (f64Search v 1383 0).2 = fs.length ∧
      (f64Search v 1383 0).1 = decVal (ds ++ fs) := by
  cases x with
  | none =>
    exfalso
    have : '.' ∈ f64Display none := by
      rw [he]
      simp
    simp [f64Display] at this
  | some v =>
    refine ⟨v, rfl, ?_⟩
    replace he : decimalText (f64Search v 1383 0).1 (f64Search v 1383 0).2 = ds ++ c!"." ++ fs := he
    generalize (f64Search v 1383 0).1 = num, (f64Search v 1383 0).2 = scale at he
    have hp := splitPoint_point (ds := ds) (fs := fs) fun c hc => hd c (by simp [hc])
    rw [← he] at hp
    by_cases hs : scale = 0
    · exfalso
      subst hs
      have : '.' ∈ decimalText num 0 := by
        rw [he]
        simp
      rw [decimalText_int] at this
      exact absurd (isDigit_toDigits this) (by decide)
    · rw [decimalText_point hs, splitPoint_point fun c hc => isDigit_toDigits hc] at hp
      obtain ⟨h1, h2, -⟩ := fracText_props (num := num) hs
      cases hp
      refine ⟨h2.symm, ?_⟩
      rw [decVal_eq, digitsNat_append, h1, h2, (digitsNat_toDigits _).1, Nat.mul_comm]
      exact (Nat.div_add_mod _ _).symm

/-- **C52**, shortest: no literal with fewer digits behind the point than the printer writes denotes the same `f64`, and
none with as many is nearer to it. -/
theorem C52_shortest (x : F64) (h : F64.Valid x) (ds fs : Text) (hd : ∀ c ∈ ds ++ fs, c.isDigit = true)
    (he : f64Display x = ds ++ c!"." ++ fs) (ds' fs' : Text) (hd' : ∀ c ∈ ds' ++ fs', c.isDigit = true)
    (he' : f64FromStr (ds' ++ c!"." ++ fs') = x) : fs.length ≤ fs'.length ∧
      (fs.length = fs'.length → ∀ v, x = some v → distance (v * 10 ^ fs.length) (decVal (ds ++ fs) * 2 ^ 1074) ≤
        distance (v * 10 ^ fs'.length) (decVal (ds' ++ fs') * 2 ^ 1074)) := by
  obtain ⟨v, rfl, h1, h2⟩ := display_split h hd he
  rw [fromStr_literal hd'] at he'
  have h3 := search_shortest he'
  rw [h1] at h3
  refine ⟨h3, fun hl v' hv' => ?_⟩
  cases hv'
  by_cases h0 : (f64Search v 1383 0).2 = 0
  · exfalso
    rw [h1] at h0
    obtain rfl := List.eq_nil_of_length_eq_zero h0
    have hi := (search_int h.1 h.2).1 (by rw [h1]; rfl)
    rcases f64Display_some h.1 h.2 with ⟨-, -, h4⟩ | ⟨h4, -⟩
    · refine absurd (h4 '.' ?_) (by decide)
      rw [he]
      simp
    · exact h4 hi
  · rw [← hl, ← h1] at he'
    have := search_nearest he' h0
    rw [h1, h2] at this
    rw [← hl]
    exact this

theorem takeWhile_digits {ds r : Text} (h : ∀ c ∈ ds, c.isDigit = true) :
    (ds ++ c!"." ++ r).takeWhile Char.isDigit = ds ∧ (ds ++ c!"." ++ r).dropWhile Char.isDigit = '.' :: r := by
  rw [List.append_assoc]
  constructor
  · rw [List.takeWhile_append_of_pos h]
    simp
  · rw [List.dropWhile_append_of_pos h]
    simp

/-- When `clTops` allows the double that the printer writes for the literal `l`: it is finite and not an integer. -/
theorem C52_allowed (l : Text) : doubleOk showLit (showLit l) = true ↔ f64FromStr l ≠ none ∧ ¬ (f64FromStr l).Integral := by
  have hv := f64FromStr_valid l
  have hi := showLit_idem l
  have hs := C52_shape _ hv
  unfold doubleOk
  rw [hi]
  change f64FromStr l = none ∧ showLit l = _ ∨ (f64FromStr l).Integral ∧ showLit l ≠ [] ∧ (∀ c ∈ showLit l, c.isDigit = true) ∨
    f64FromStr l ≠ none ∧ ¬ (f64FromStr l).Integral ∧ ∃ ds fs, showLit l = ds ++ c!"." ++ fs ∧ _ at hs
  rcases hs with ⟨h1, h2⟩ | ⟨h1, h2, h3⟩ | ⟨h1, h2, ds, fs, h3, h4, h5, h6⟩
  · rw [h1, h2]
    exact ⟨fun h => absurd h (by decide), fun h => absurd rfl h.1⟩
  · refine ⟨fun h => ?_, fun h => absurd h1 h.2⟩
    exfalso
    have : (showLit l).dropWhile Char.isDigit = [] := by
      have := List.dropWhile_append_of_pos (l₂ := []) h3
      simpa using this
    rw [this] at h
    simp at h
  · refine ⟨fun _ => ⟨h1, h2⟩, fun _ => ?_⟩
    obtain ⟨e1, e2⟩ := takeWhile_digits (r := fs) (fun c hc => h6 c (by simp [hc]) : ∀ c ∈ ds, c.isDigit = true)
    rw [h3, e1, e2]
    cases ds with
    | nil => exact absurd rfl h4
    | cons d ds =>
      simp only [BEq.rfl, Bool.true_and, List.isEmpty_cons, Bool.not_false, List.all_eq_true]
      exact fun c hc => h6 c (by simp [hc])

/-- The printer does not tell literals of the same `f64` apart. -/
theorem C52_printed (ss : List Stmt) : rewriteFile showLit (redblStmts showLit ss) = rewriteFile showLit ss := by
  unfold rewriteFile printToString printStatements
  rw [print_redbl_stmts (stringTarget showLit) showLit showLit_idem]

/-- **C52** (partial) for accepted sources: the rewritten file is parsed to the same tree, in which every double is
written in the way of Rust; by `C52_same_value` it denotes the same number. Missing: the constructs `clTops` excludes, in
particular doubles that are integers or infinite (`C52_allowed`), for which the claim is false (`C52_fails`). -/
theorem C52_accepted_partial (src : Text) (ss : List Stmt) (h : Ends src (.ok ss)) (hne : ss ≠ [])
    (hc : clTops showLit (redblStmts showLit ss) = true) :
    ∃ out, rewriteFile showLit ss = some out ∧
      ∃ ss', Ends out (.ok ss') ∧ eraseStmts ss' = eraseStmts (redblStmts showLit ss) := by
  rw [← C52_printed]
  refine C21_round_trip_partial showLit _ ?_ (rt_of_tops _ ?_ hc)
  · cases ss with
    | nil => exact absurd rfl hne
    | cons s ss => nofun
  · rw [sh_redbl_tops]
    exact C48_source src ss h

/-- Rewriting again changes nothing. -/
theorem C52_idempotent_partial (src : Text) (ss : List Stmt) (h : Ends src (.ok ss)) (hne : ss ≠ [])
    (hc : clTops showLit (redblStmts showLit ss) = true) : ∃ out, Rewrites showLit src out ∧ Rewrites showLit out out := by
  obtain ⟨out, h1, ss', h2, h3⟩ := C52_accepted_partial src ss h hne hc
  refine ⟨out, ⟨ss, h, h1⟩, ss', h2, ?_⟩
  rw [C36_rewrite showLit _ _ h3, C52_printed, h1]

theorem fails_of {n : Nat} {src out : Text} (h : (match parseStrN n src with
    | .ok [.mk (.ret (some (.mk (.double l) _))) _] => rewriteFile showLit [.mk (.ret (some (.mk (.double l) Span.new))) Span.new] == some out
    | _ => false) = true) : Rewrites showLit src out ∧ ∃ l sp sp', Ends src (.ok [.mk (.ret (some (.mk (.double l) sp))) sp']) := by
  split at h
  · rename_i l sp sp' he
    have he' := Ends.of n he (by simp)
    exact ⟨⟨_, he', (C36_rewrite showLit _ _ rfl).trans (eq_of_beq h)⟩, l, sp, sp', he'⟩
  · cases h

/-- **C52** fails for integers and infinity: `1.0` is rewritten to `1`, which is read as an integer;
`99999999999999999999.0` to `100000000000000000000`, which the parser panics on; and a number with 310 digits to `inf`,
which is read as a name. -/
theorem C52_fails :
    (∃ out, Rewrites showLit c!"<?php return 1.0;" out ∧ ∃ sp sp', Ends out (.ok [.mk (.ret (some (.mk (.int 1) sp))) sp'])) ∧
    (∃ out, Rewrites showLit c!"<?php return 99999999999999999999.0;" out ∧ ∃ p, Ends out (.panic p)) ∧
    (∃ out, Rewrites showLit (c!"<?php return 1" ++ List.replicate 309 '0' ++ c!".0;") out ∧
      ∃ p sp sp', Ends out (.ok [.mk (.ret (some (.mk (.path p) sp))) sp'])) := by
  refine ⟨⟨c!"<?php\nreturn 1;\n\n?>", (fails_of (n := 60) (by decide +kernel)).1, ?_⟩,
    ⟨c!"<?php\nreturn 100000000000000000000;\n\n?>", (fails_of (n := 60) (by decide +kernel)).1, ?_⟩,
    ⟨c!"<?php\nreturn inf;\n\n?>", (fails_of (n := 400) (by decide +kernel)).1, ?_⟩⟩
  · have h : (match parseStrN 60 c!"<?php\nreturn 1;\n\n?>" with
        | .ok [.mk (.ret (some (.mk (.int v) _))) _] => v == 1
        | _ => false) = true := by decide +kernel
    split at h
    · rename_i v sp sp' he
      obtain rfl := eq_of_beq h
      exact ⟨sp, sp', Ends.of 60 he (by simp)⟩
    · cases h
  · have h : (match parseStrN 60 c!"<?php\nreturn 100000000000000000000;\n\n?>" with
        | .panic _ => true
        | _ => false) = true := by decide +kernel
    split at h
    · rename_i p he
      exact ⟨p, Ends.of 60 he (by simp)⟩
    · cases h
  · have h : (match parseStrN 60 c!"<?php\nreturn inf;\n\n?>" with
        | .ok [.mk (.ret (some (.mk (.path _) _))) _] => true
        | _ => false) = true := by decide +kernel
    split at h
    · rename_i p sp sp' he
      exact ⟨p, sp, sp', Ends.of 60 he (by simp)⟩
    · cases h

/-! ## Examples -/

theorem half_value : f64FromStr c!".50" = some (2 ^ 1073) := by decide +kernel

theorem half_allowed : f64FromStr c!".50" ≠ none ∧ ¬ (f64FromStr c!".50").Integral := by
  rw [half_value]
  exact ⟨nofun, fun h => absurd (Nat.le_of_dvd (Nat.pow_pos (by omega)) h)
    (Nat.not_le_of_lt (Nat.pow_lt_pow_right (by omega) (by omega)))⟩

/-- A source to which `C52_accepted_partial` applies; its double is not written in the way of Rust. -/
example : ∃ ss, Ends c!"<?php return $a * .50;" (.ok ss) ∧ ss ≠ [] ∧ clTops showLit (redblStmts showLit ss) = true := by
  have key : ∀ (l : Text) s1 s2 s3 s4, doubleOk showLit (showLit l) = true → clTops showLit (redblStmts showLit
      [.mk (.ret (some (.mk (.binary .Mul (.mk (.var (.name c!"a")) s1) (.mk (.double l) s2)) s3))) s4]) = true := by
    intro l s1 s2 s3 s4 hd
    generalize hg : showLit = g at hd ⊢
    simp only [redblStmts, Stmt.redbl, StmtK.redbl, redblOpt, Expr.redbl, ExprK.redbl, Variable.redbl, clTops, clTop, clStmt, clStmtK,
      clOpt, clExpr, clExprK, List.all_cons, List.all_nil, Bool.and_true]
    rw [hd]
    rfl
  have h : (match parseStrN 60 c!"<?php return $a * .50;" with
      | .ok [.mk (.ret (some (.mk (.binary .Mul (.mk (.var (.name a)) _) (.mk (.double l) _)) _))) _] => a == c!"a" && l == c!".50"
      | _ => false) = true := by decide +kernel
  split at h
  · rename_i a s1 l s2 s3 s4 he
    simp only [Bool.and_eq_true] at h
    obtain rfl := eq_of_beq h.1
    obtain rfl := eq_of_beq h.2
    refine ⟨_, Ends.of 60 he (by simp), nofun, ?_⟩
    exact key _ _ _ _ _ ((C52_allowed _).2 half_allowed)
  · cases h

/-- What is written for it. -/
example : showLit c!".50" = c!"0.5" := by decide +kernel

/-- `0.5`, `1.0` and `0.1` as `f64`. -/
example : f64FromStr c!"0.5" = some (2 ^ 1073) ∧ f64FromStr c!"1.0" = some (2 ^ 1074) ∧
    f64FromStr c!"0.1" = some (0x1999999999999a * 2 ^ 1018) := by decide +kernel

/-- `2^53 + 1` lies between two `f64` and is read as the even one. -/
example : f64FromStr c!"9007199254740993.0" = some (2 ^ 53 * 2 ^ 1074) ∧
    f64FromStr c!"9007199254740995.0" = some ((2 ^ 53 + 4) * 2 ^ 1074) := by decide +kernel

end Pico
