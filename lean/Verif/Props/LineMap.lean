import Verif.Lemmas.LineMap
/-!
# C04: looking up the line of a byte position
-/
namespace Pico

/-- **C04.** For a non-decreasing table that starts with 0, `line_from_position` ends without an index out of
range at the last line that starts at or before `pos`; the range `line` reports for it starts at or before
`pos`, and, unless it is the last line, ends behind `pos`. The same search with more iterations gives the
same answer, i.e. the loop has ended by itself. -/
theorem C04_line_lookup (m : LineMap) (pos : Nat) (hsorted : m.data.Pairwise (· ≤ ·)) (h0 : m.data[0]? = some 0) :
    ∃ line start stop, m.lineFromPosition pos = some line ∧ m.line line = some (start, stop) ∧
      m.data[line]? = some start ∧ start ≤ pos ∧
      (∀ later v, line < later → m.data[later]? = some v → pos < v) ∧
      (line + 1 < m.data.length → pos < stop) ∧ (m.data.length ≤ line + 1 → stop = m.endPos) ∧
      ∀ extra, lineLoop m.data pos (m.data.length + extra) 0 m.data.length = some line := by
  have hmono := nonDecr_of_pairwise hsorted
  have hlen : 0 < m.data.length := by
    cases h : m.data with
    | nil => simp [h] at h0
    | cons => simp
  have key : ∀ fuel, m.data.length ≤ fuel → ∃ r, lineLoop m.data pos fuel 0 m.data.length = some r ∧
      0 ≤ r ∧ r < m.data.length ∧ (∀ v, m.data[r]? = some v → v ≤ pos) ∧
      (∀ i v, r < i → m.data[i]? = some v → pos < v) := by
    intro fuel hf
    refine lineLoop_spec m.data pos hmono fuel 0 m.data.length hlen (Nat.le_refl _) (by omega) ?_ ?_
    · intro v hv; rw [h0] at hv; injection hv with hv; omega
    · intro i v hi hv
      rw [List.getElem?_eq_none hi] at hv
      cases hv
  obtain ⟨r, h1, -, h3, h4, h5⟩ := key m.data.length (Nat.le_refl _)
  have hr := List.getElem?_eq_getElem h3
  refine ⟨r, m.data[r], if r + 1 < m.data.length then m.data[r + 1]?.getD 0 else m.endPos, h1, ?_, hr,
    h4 _ hr, h5, ?_, ?_, ?_⟩
  · simp [LineMap.line, hr]
  · intro hlt
    rw [if_pos hlt, List.getElem?_eq_getElem hlt]
    exact h5 (r + 1) _ (Nat.lt_succ_self _) (List.getElem?_eq_getElem hlt)
  · intro hge
    rw [if_neg (by omega)]
  · intro extra
    obtain ⟨r', k1, -, k3, k4, k5⟩ := key (m.data.length + extra) (by omega)
    rw [k1]
    have : r' = r := by
      rcases Nat.lt_trichotomy r' r with h | h | h
      · have := k5 r _ h hr
        have := h4 _ hr
        omega
      · exact h
      · have hr' := List.getElem?_eq_getElem k3
        have := h5 r' _ h hr'
        have := k4 _ hr'
        omega
    rw [this]

/-- The hypotheses hold for a table of five lines; position 17 is in the fourth. -/
example : [0, 3, 9, 12, 20].Pairwise (· ≤ ·) ∧ [0, 3, 9, 12, 20][0]? = some 0 ∧
    (LineMap.mk [0, 3, 9, 12, 20] 25).lineFromPosition 17 = some 3 := by decide

end Pico
