import Verif.Model.Bisect
/-! Running and reverting ranges of files; the search loop. -/
namespace Pico

theorem runRange_outside (run : RunFile) : ∀ (n i : Nat) (fs : Files) (j : Nat),
    (j < i ∨ i + n ≤ j) → (runRange run n i fs).1 j = fs j := by
  intro n
  induction n with
  | zero => intro i fs j _; rfl
  | succ n ih =>
    intro i fs j hj
    unfold runRange
    have key : ∀ o : Option Text, (match o with | some t => fs.write i t | none => fs) j = fs j := by
      intro o
      cases o with
      | none => rfl
      | some t => simp only [Files.write]; rw [if_neg (by omega)]
    simp only
    split
    · rw [ih (i + 1) _ j (by omega)]; exact key _
    · exact key _

theorem revertRange_spec (saved : Files) : ∀ (n i : Nat) (fs : Files) (j : Nat),
    revertRange saved n i fs j = if i ≤ j ∧ j < i + n then saved j else fs j := by
  intro n
  induction n with
  | zero => intro i fs j; simp only [revertRange]; rw [if_neg (by omega)]
  | succ n ih =>
    intro i fs j
    rw [revertRange, ih]
    by_cases h1 : j = i
    · subst h1
      simp only [Files.write]
      rw [if_neg (by omega), if_pos trivial, if_pos (by omega)]
    · by_cases h2 : i + 1 ≤ j ∧ j < i + 1 + n
      · rw [if_pos h2, if_pos (by omega)]
      · rw [if_neg h2, if_neg (by omega)]; simp [Files.write, h1]

theorem revert_run (run : RunFile) (saved : Files) (n i : Nat) :
    revertRange saved n i (runRange run n i saved).1 = saved := by
  funext j
  rw [revertRange_spec]
  split
  · rfl
  · exact runRange_outside run n i saved j (by omega)

/-- The search loop on unchanged files: it ends with the files unchanged and `high - low ≤ 1`; whatever is
true of an interval and inherited by the half that is kept, is true of the last interval. -/
theorem bisectLoop_spec (run : RunFile) (saved : Files) (Inv : Nat → Nat → Prop)
    (hpass : ∀ lo mid hi, lo < mid → mid < hi → Inv lo hi →
      (runRange run (mid - lo) lo saved).2 = true → Inv mid hi)
    (hfail : ∀ lo mid hi, lo < mid → mid < hi → Inv lo hi →
      (runRange run (mid - lo) lo saved).2 = false → Inv lo mid) :
    ∀ (fuel low high : Nat), low ≤ high → high - low < fuel → Inv low high →
      ∃ l h, bisectLoop run saved fuel low high saved = some (l, h, saved) ∧ h - l ≤ 1 ∧
        low ≤ l ∧ h ≤ high ∧ (low < high → l < h) ∧ Inv l h := by
  intro fuel
  induction fuel with
  | zero => intro low high _ hf; omega
  | succ fuel ih =>
    intro low high hle hf hinv
    unfold bisectLoop
    by_cases hgap : high - low > 1
    · simp only [hgap, if_true, revert_run]
      cases hp : (runRange run ((low + high) / 2 - low) low saved).2 with
      | true =>
        simp only [if_true]
        obtain ⟨l, h, e, a1, a2, a3, a4, a5⟩ := ih ((low + high) / 2) high (by omega) (by omega)
          (hpass low _ high (by omega) (by omega) hinv hp)
        exact ⟨l, h, e, a1, by omega, a3, fun _ => a4 (by omega), a5⟩
      | false =>
        simp only [Bool.false_eq_true, if_false]
        obtain ⟨l, h, e, a1, a2, a3, a4, a5⟩ := ih low ((low + high) / 2) (by omega) (by omega)
          (hfail low _ high (by omega) (by omega) hinv hp)
        exact ⟨l, h, e, a1, a2, by omega, fun _ => a4 (by omega), a5⟩
    · simp only [hgap, if_false]
      exact ⟨low, high, rfl, by omega, Nat.le_refl _, Nat.le_refl _, id, hinv⟩

/-- The standard run over a range whose files are still original and whose predecessors in the range have
been rewritten to acceptable contents. -/
theorem stdRun_range (rw : Text → Option Text) (ok : Nat → Text → Prop) (check : Files → Bool)
    (hcheck : ∀ fs : Files, check fs = true ↔ ∀ i, ok i (fs i)) (orig : Files)
    (horig : ∀ i, ok i (orig i)) : ∀ (n i : Nat) (fs : Files), 0 < n →
    (∀ j, i ≤ j → fs j = orig j) →
    ((runRange (stdRun rw check) n i fs).2 = true ↔
      (∀ j, i ≤ j → j < i + n → ∃ t, rw (orig j) = some t ∧ ok j t) ∧ ∀ j, j < i → ok j (fs j)) := by
  intro n
  induction n with
  | zero => intro i fs h; omega
  | succ n ih =>
    intro i fs _ hfs
    have hrun : stdRun rw check fs i (n != 0) =
        match rw (orig i) with
        | none => (none, false)
        | some t => (some t, (n != 0) || check (fs.write i t)) := by
      simp only [stdRun, hfs i (Nat.le_refl _)]
      cases rw (orig i) <;> rfl
    unfold runRange
    cases hr : rw (orig i) with
    | none =>
      rw [hr] at hrun
      simp only [hrun]
      simp only [Bool.false_eq_true, if_false, false_iff]
      rintro ⟨h, -⟩
      obtain ⟨t, ht, -⟩ := h i (Nat.le_refl _) (by omega)
      rw [hr] at ht; cases ht
    | some t =>
      rw [hr] at hrun
      simp only [hrun]
      clear hrun
      cases n with
      | zero =>
        have h1 : ((0 != 0) || check (Files.write fs i t)) = true ↔ ∀ j, ok j (Files.write fs i t j) := by
          rw [show ((0 : Nat) != 0) = false from rfl, Bool.false_or]; exact hcheck _
        have h2 : (runRange (stdRun rw check) 0 (i + 1) (Files.write fs i t)).2 = true := rfl
        have h3 : ∀ b : Bool, ((if b = true then runRange (stdRun rw check) 0 (i + 1) (Files.write fs i t)
            else (Files.write fs i t, false)).2 = true) ↔ b = true := by
          intro b; cases b <;> simp [runRange]
        rw [h3, h1]
        constructor
        · intro h
          refine ⟨?_, ?_⟩
          · intro j h1 h2
            have : j = i := by omega
            subst this
            refine ⟨t, hr, ?_⟩
            have := h j
            simpa [Files.write] using this
          · intro j hj
            have := h j
            simp only [Files.write] at this
            rwa [if_neg (by omega)] at this
        · rintro ⟨h1, h2⟩ j
          simp only [Files.write]
          by_cases hj : j = i
          · subst hj
            rw [if_pos rfl]
            obtain ⟨t', ht', hok⟩ := h1 j (Nat.le_refl _) (by omega)
            rw [hr] at ht'; cases ht'; exact hok
          · rw [if_neg hj]
            rcases Nat.lt_or_ge j i with h | h
            · exact h2 j h
            · rw [hfs j h]; exact horig j
      | succ m =>
        rw [show ((m + 1 : Nat) != 0) = true from rfl, Bool.true_or, if_pos rfl]
        rw [ih (i + 1) (Files.write fs i t) (by omega) (by
          intro j hj
          simp only [Files.write]
          rw [if_neg (by omega)]
          exact hfs j (by omega))]
        constructor
        · rintro ⟨h1, h2⟩
          refine ⟨?_, ?_⟩
          · intro j hj1 hj2
            rcases Nat.eq_or_lt_of_le hj1 with rfl | h
            · refine ⟨t, hr, ?_⟩
              have := h2 i (by omega)
              simpa [Files.write] using this
            · exact h1 j (by omega) (by omega)
          · intro j hj
            have := h2 j (by omega)
            simp only [Files.write] at this
            rwa [if_neg (by omega)] at this
        · rintro ⟨h1, h2⟩
          refine ⟨fun j a b => h1 j (by omega) (by omega), ?_⟩
          intro j hj
          simp only [Files.write]
          by_cases hji : j = i
          · subst hji
            rw [if_pos rfl]
            obtain ⟨t', ht', hok⟩ := h1 j (Nat.le_refl _) (by omega)
            rw [hr] at ht'; cases ht'; exact hok
          · rw [if_neg hji]; exact h2 j (by omega)

end Pico
