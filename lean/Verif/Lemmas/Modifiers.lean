import Verif.Model.Ast
/-! Folding `|||` over a list. -/
namespace Pico

theorem foldl_or_and (f : α → Nat) (b : Nat) (ms : List α) : ∀ a : Nat,
    ((ms.foldl (fun flag m => flag ||| f m) a) &&& b ≠ 0) ↔
      (a &&& b ≠ 0 ∨ ∃ m ∈ ms, f m &&& b ≠ 0) := by
  induction ms with
  | nil => intro a; simp
  | cons m ms ih =>
    intro a
    rw [List.foldl_cons, ih]
    have h : ((a ||| f m) &&& b ≠ 0) ↔ (a &&& b ≠ 0 ∨ f m &&& b ≠ 0) := by
      rw [Nat.and_or_distrib_right]
      constructor
      · intro h
        by_cases ha : a &&& b = 0
        · right
          intro h2
          apply h
          simp [ha, h2]
        · exact Or.inl ha
      · intro h h2
        rw [Nat.or_eq_zero_iff] at h2
        rcases h with h | h
        · exact h h2.1
        · exact h h2.2
    rw [h]
    simp only [List.mem_cons, exists_eq_or_imp, or_assoc]

/-- Bits of a fold of `|||` are the bits of the members. -/
theorem foldl_or_testBit (f : α → Nat) (i : Nat) (ms : List α) : ∀ a : Nat,
    (ms.foldl (fun flag m => flag ||| f m) a).testBit i = (a.testBit i || ms.any (fun m => (f m).testBit i)) := by
  induction ms with
  | nil => intro a; simp
  | cons m ms ih => intro a; rw [List.foldl_cons, ih]; simp [Bool.or_assoc]

theorem any_congr_mem (p : α → Bool) {l l' : List α} (h : ∀ x, x ∈ l ↔ x ∈ l') : l.any p = l'.any p := by
  rw [Bool.eq_iff_iff]; simp [h]

end Pico
