import Verif.Lemmas.Modifiers
/-!
# C03: modifier sets
-/
namespace Pico

/-- **C03** for classes: membership is exactly occurrence in the list. -/
theorem C03_class_modifiers (ms : List ClassModifier) (m : ClassModifier) :
    (ClassModifiers.new ms).has m = true ↔ m ∈ ms := by
  have := foldl_or_and ClassModifier.bit m.bit ms 0
  unfold ClassModifiers.has ClassModifiers.new
  simp only [bne_iff_ne]
  rw [this]
  have h : ∀ a : ClassModifier, a.bit &&& m.bit ≠ 0 ↔ a = m := by
    intro a; cases a <;> cases m <;> decide
  simp [h]

/-- **C03** for members. -/
theorem C03_member_modifiers (ms : List MemberModifier) (m : MemberModifier) :
    (MemberModifiers.new ms).has m = true ↔ m ∈ ms := by
  have := foldl_or_and MemberModifier.bit m.bit ms 0
  unfold MemberModifiers.has MemberModifiers.new
  simp only [bne_iff_ne]
  rw [this]
  have h : ∀ a : MemberModifier, a.bit &&& m.bit ≠ 0 ↔ a = m := by
    intro a; cases a <;> cases m <;> decide
  simp [h]

/-- **C03**: `none()` has no modifier. -/
theorem C03_none (m : ClassModifier) (m' : MemberModifier) :
    ClassModifiers.none.has m = false ∧ MemberModifiers.none.has m' = false := by
  cases m <;> cases m' <;> decide

/-- **C03**: two lists with the same elements, in whatever order and multiplicity, give equal sets (the
Rust `==` on the bit field). -/
theorem C03_extensional_class (ms ms' : List ClassModifier) (h : ∀ m, m ∈ ms ↔ m ∈ ms') :
    ClassModifiers.new ms = ClassModifiers.new ms' := by
  unfold ClassModifiers.new
  congr 1
  apply Nat.eq_of_testBit_eq
  intro i
  rw [foldl_or_testBit, foldl_or_testBit, any_congr_mem _ h]

/-- **C03** for members: order and duplicates do not matter. -/
theorem C03_extensional_member (ms ms' : List MemberModifier) (h : ∀ m, m ∈ ms ↔ m ∈ ms') :
    MemberModifiers.new ms = MemberModifiers.new ms' := by
  unfold MemberModifiers.new
  congr 1
  apply Nat.eq_of_testBit_eq
  intro i
  rw [foldl_or_testBit, foldl_or_testBit, any_congr_mem _ h]

/-- The hypothesis of `C03_extensional_member` holds for a permutation with a repetition. -/
example : ∀ m, m ∈ [MemberModifier.Static, .Public] ↔ m ∈ [MemberModifier.Public, .Static, .Public] := by
  intro m; cases m <;> decide

end Pico
