import Verif.Model.LineMap
/-! The binary search of the line table. -/
namespace Pico

/-- Non-decreasing, by positions. -/
def NonDecr (l : List Nat) : Prop := ∀ i j a b : Nat, i ≤ j → l[i]? = some a → l[j]? = some b → a ≤ b

theorem nonDecr_of_pairwise {l : List Nat} (h : l.Pairwise (· ≤ ·)) : NonDecr l := by
  intro i j a b hij ha hb
  obtain ⟨hi, rfl⟩ := List.getElem?_eq_some_iff.1 ha
  obtain ⟨hj, rfl⟩ := List.getElem?_eq_some_iff.1 hb
  rcases Nat.lt_or_eq_of_le hij with h' | rfl
  · exact List.pairwise_iff_getElem.1 h i j hi hj h'
  · exact Nat.le_refl _

/-- Invariant of the search: everything up to `a` starts at or before `pos`, everything from `b` on starts
behind it; `b - a` never exceeds the remaining iterations plus one. -/
theorem lineLoop_spec (data : List Nat) (pos : Nat) (hmono : NonDecr data) : ∀ (fuel a b : Nat),
    a < b → b ≤ data.length → b - a ≤ fuel + 1 →
    (∀ v, data[a]? = some v → v ≤ pos) →
    (∀ i v, b ≤ i → data[i]? = some v → pos < v) →
    ∃ r, lineLoop data pos fuel a b = some r ∧ a ≤ r ∧ r < b ∧ (∀ v, data[r]? = some v → v ≤ pos) ∧
      (∀ i v, r < i → data[i]? = some v → pos < v) := by
  intro fuel
  induction fuel with
  | zero =>
    intro a b hab hb hf ha hbv
    refine ⟨a, rfl, Nat.le_refl _, hab, ha, ?_⟩
    intro i v hi hv
    exact hbv i v (by omega) hv
  | succ fuel ih =>
    intro a b hab hb hf ha hbv
    unfold lineLoop
    by_cases hgap : b - a > 1
    · simp only [hgap, if_true]
      have hmid : (a + b) / 2 < data.length := by omega
      rw [List.getElem?_eq_getElem hmid]
      simp only
      by_cases hv : data[(a + b) / 2] > pos
      · simp only [hv, if_true]
        obtain ⟨r, h1, h2, h3, h4, h5⟩ := ih a ((a + b) / 2) (by omega) (by omega) (by omega) ha
          (fun i v hi hiv => by
            have := hmono _ i _ _ hi (List.getElem?_eq_getElem hmid) hiv
            omega)
        exact ⟨r, h1, h2, by omega, h4, h5⟩
      · simp only [hv, if_false]
        obtain ⟨r, h1, h2, h3, h4, h5⟩ := ih ((a + b) / 2) b (by omega) hb (by omega)
          (fun v hv' => by
            rw [List.getElem?_eq_getElem hmid] at hv'
            injection hv' with hv'
            omega) hbv
        exact ⟨r, h1, by omega, h3, h4, h5⟩
    · simp only [hgap, if_false]
      refine ⟨a, rfl, Nat.le_refl _, hab, ha, ?_⟩
      intro i v hi hv
      exact hbv i v (by omega) hv

end Pico
