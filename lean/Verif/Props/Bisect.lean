import Verif.Lemmas.Bisect
/-!
# C28: the bisecting tester
-/
namespace Pico

/-- The files left behind by the tester, and the index it printed as bad. -/
def BisectOut.files? : BisectOut → Option Files
  | .report _ _ fs => some fs
  | .panicIndex _ fs => some fs
  | .oof => none

/-- The index printed after `bad:`. -/
def BisectOut.printedBad? : BisectOut → Option Nat
  | .report bad _ _ => some bad
  | .panicIndex bad _ => bad
  | .oof => none

/-- **C28**, restoring: whatever the runs do to the files they are given and however they end, the search
terminates and leaves every file with its original content. -/
theorem C28_restores (run : RunFile) (len : Nat) (fs : Files) : (bisect run len fs).files? = some fs := by
  obtain ⟨l, h, e, -⟩ := bisectLoop_spec run fs (fun _ _ => True) (fun _ _ _ _ _ _ _ => trivial)
    (fun _ _ _ _ _ _ _ => trivial) (len + 1) 0 len (Nat.zero_le _) (by omega) trivial
  unfold bisect
  rw [e]
  simp only
  split
  · split <;> rfl
  · rfl

/-- **C28**, isolation, abstractly: if a range of files passes exactly when it contains no bad file and there
is a bad file, the printed index is the first bad file. -/
theorem C28_isolates (run : RunFile) (len : Nat) (fs : Files) (bad : Nat → Prop)
    (hrange : ∀ lo hi, lo < hi → hi ≤ len →
      ((runRange run (hi - lo) lo fs).2 = true ↔ ∀ j, lo ≤ j → j < hi → ¬ bad j))
    (hbad : ∃ j, j < len ∧ bad j) :
    ∃ i, (bisect run len fs).printedBad? = some i ∧ i < len ∧ bad i ∧ ∀ j, j < i → ¬ bad j := by
  obtain ⟨l, h, e, a1, a2, a3, a4, a5⟩ := bisectLoop_spec run fs
    (fun lo hi => hi ≤ len ∧ (∃ j, lo ≤ j ∧ j < hi ∧ bad j) ∧ ∀ j, j < lo → ¬ bad j)
    (by
      rintro lo mid hi h1 h2 ⟨h3, ⟨j, j1, j2, j3⟩, h4⟩ hp
      have := (hrange lo mid h1 (by omega)).1 hp
      refine ⟨h3, ⟨j, ?_, j2, j3⟩, ?_⟩
      · rcases Nat.lt_or_ge j mid with h | h
        · exact absurd j3 (this j j1 h)
        · exact h
      · intro k hk
        rcases Nat.lt_or_ge k lo with h | h
        · exact h4 k h
        · exact this k h hk)
    (by
      rintro lo mid hi h1 h2 ⟨h3, -, h4⟩ hp
      refine ⟨by omega, ?_, h4⟩
      have hne : ¬ ∀ j, lo ≤ j → j < mid → ¬ bad j := by
        intro h
        have := (hrange lo mid h1 (by omega)).2 h
        rw [this] at hp
        cases hp
      exact Classical.byContradiction fun hc => hne fun j x y z => hc ⟨j, x, y, z⟩)
    (len + 1) 0 len (Nat.zero_le _) (by omega)
    ⟨Nat.le_refl _, (let ⟨j, x, y⟩ := hbad; ⟨j, Nat.zero_le _, x, y⟩), fun j hj => absurd hj (Nat.not_lt_zero _)⟩
  obtain ⟨h1, ⟨j, j1, j2, j3⟩, h2⟩ := a5
  have hj : j = l := by omega
  subst hj
  refine ⟨j, ?_, by omega, j3, h2⟩
  unfold bisect
  rw [e]
  simp only
  rw [if_pos (by omega)]
  split <;> rfl

/-- **C28** for the tester as it is: `rw` parses and prints a file, the check accepts the tree exactly if
each file is acceptable by itself, and the original tree is accepted. If rewriting some file fails or makes it
unacceptable, the tester prints the first such file, and all files are as before. -/
theorem C28_bisect (rw : Text → Option Text) (ok : Nat → Text → Prop) (check : Files → Bool)
    (hcheck : ∀ fs : Files, check fs = true ↔ ∀ i, ok i (fs i)) (len : Nat) (fs : Files)
    (horig : ∀ i, ok i (fs i))
    (hbad : ∃ j, j < len ∧ ¬ ∃ t, rw (fs j) = some t ∧ ok j t) :
    ∃ i, (bisect (stdRun rw check) len fs).printedBad? = some i ∧ i < len ∧
      (¬ ∃ t, rw (fs i) = some t ∧ ok i t) ∧ (∀ j, j < i → ∃ t, rw (fs j) = some t ∧ ok j t) ∧
      (bisect (stdRun rw check) len fs).files? = some fs := by
  obtain ⟨i, h1, h2, h3, h4⟩ := C28_isolates (stdRun rw check) len fs
    (fun j => ¬ ∃ t, rw (fs j) = some t ∧ ok j t)
    (by
      intro lo hi hlt hle
      rw [stdRun_range rw ok check hcheck fs horig (hi - lo) lo fs (by omega) (fun _ _ => rfl)]
      constructor
      · rintro ⟨h, -⟩ j x y hn
        exact hn (h j x (by omega))
      · intro h
        refine ⟨fun j x y => Classical.not_not.1 (h j x (by omega)), fun j _ => horig j⟩) hbad
  exact ⟨i, h1, h2, h3, fun j hj => Classical.not_not.1 (h4 j hj), C28_restores _ _ _⟩

/-- The hypotheses of `C28_bisect` are met by four files of which the third is broken by the rewrite. -/
example :
    let rw : Text → Option Text := fun t => if t = c!"c" then some c!"broken" else some t
    let ok : Nat → Text → Prop := fun _ t => t ≠ c!"broken"
    let fs : Files := fun i => if i = 2 then c!"c" else c!"a"
    (∀ i, ok i (fs i)) ∧ (∃ j, j < 4 ∧ ¬ ∃ t, rw (fs j) = some t ∧ ok j t) ∧
      (bisect (stdRun rw (fun fs => (fs 0 != c!"broken") && (fs 1 != c!"broken") && (fs 2 != c!"broken") &&
        (fs 3 != c!"broken"))) 4 fs).printedBad? = some 2 := by
  refine ⟨?_, ⟨2, by decide, ?_⟩, by decide⟩
  · intro i; simp only; split <;> decide
  · rintro ⟨t, h1, h2⟩
    simp only [if_true] at h1
    cases h1
    exact h2 rfl

/-- The tester does not always end normally: with the bad file last it prints the right index and then
aborts on `files[high]` (ci/tester/main.rs:140), and without files it aborts at once. -/
theorem C28_report_aborts :
    (∃ run fs fs', bisect run 2 fs = .panicIndex (some 1) fs') ∧
      (∃ run fs, bisect run 0 fs = .panicIndex none fs) := by
  refine ⟨⟨fun _ i _ => (none, i != 1), fun _ => [], _, rfl⟩, ⟨fun _ _ _ => (none, true), fun _ => [], rfl⟩⟩

end Pico
