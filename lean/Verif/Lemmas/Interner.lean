import Verif.Model.Interner
/-! Invariant of the string interner. -/
namespace Pico

/-- What holds between the interner and its allocator at any moment. -/
structure Interner.Ok (t : Interner) (low : Nat) : Prop where
  bounds : ∀ h ∈ t.strs, low ≤ h.ptr ∧ h.ptr < t.next
  low_le : low ≤ t.next
  same : ∀ h ∈ t.strs, ∀ h' ∈ t.strs, h.ptr = h'.ptr ↔ h.text = h'.text

theorem Interner.ok_new (low : Nat) : (Interner.new low).Ok low :=
  ⟨by simp [Interner.new], Nat.le_refl _, by simp [Interner.new]⟩

/-- One call of `intern`: the handle has the requested text and is in the table afterwards, the table only
grows, and the invariant is kept. -/
theorem Interner.intern_spec {t : Interner} {low : Nat} (hok : t.Ok low) (s : Text) :
    (t.intern s).1.text = s ∧ (t.intern s).1 ∈ (t.intern s).2.strs ∧
      (∀ h ∈ t.strs, h ∈ (t.intern s).2.strs) ∧ (t.intern s).2.Ok low := by
  unfold Interner.intern
  cases hf : t.strs.find? (fun h => h.text == s) with
  | some h =>
    have hm := List.mem_of_find?_eq_some hf
    have hs := List.find?_some hf
    exact ⟨by simpa using hs, hm, fun _ h => h, hok⟩
  | none =>
    have hn : ∀ h ∈ t.strs, h.text ≠ s := by
      intro h hm he
      have := List.find?_eq_none.1 hf h hm
      simp [he] at this
    refine ⟨rfl, by simp, fun h hm => by simp [hm], ?_, ?_, ?_⟩
    · intro h hm
      simp only [List.mem_cons] at hm
      rcases hm with rfl | hm
      · exact ⟨hok.low_le, Nat.lt_succ_self _⟩
      · have := hok.bounds h hm
        exact ⟨this.1, Nat.lt_succ_of_lt this.2⟩
    · exact Nat.le_succ_of_le hok.low_le
    · intro h hm h' hm'
      simp only [List.mem_cons] at hm hm'
      rcases hm with rfl | hm <;> rcases hm' with rfl | hm'
      · simp
      · have := (hok.bounds h' hm').2
        have h1 := hn h' hm'
        constructor
        · intro e; simp only at e; omega
        · intro e; exact absurd e.symm h1
      · have := (hok.bounds h hm).2
        have h1 := hn h hm
        constructor
        · intro e; simp only at e; omega
        · intro e; exact absurd e h1
      · exact hok.same h hm h' hm'

theorem Interner.internAll_spec (ss : List Text) : ∀ {t : Interner} {low : Nat}, t.Ok low →
    (t.internAll ss).1.map Handle.text = ss ∧ (∀ h ∈ (t.internAll ss).1, h ∈ (t.internAll ss).2.strs) ∧
      (∀ h ∈ t.strs, h ∈ (t.internAll ss).2.strs) ∧ (t.internAll ss).2.Ok low := by
  induction ss with
  | nil => intro t low hok; exact ⟨rfl, by simp [Interner.internAll], fun _ h => h, hok⟩
  | cons s ss ih =>
    intro t low hok
    obtain ⟨h1, h2, h3, h4⟩ := Interner.intern_spec hok s
    obtain ⟨i1, i2, i3, i4⟩ := ih h4
    simp only [Interner.internAll]
    refine ⟨by simp [h1, i1], ?_, fun h hm => i3 h (h3 h hm), i4⟩
    intro h hm
    simp only [List.mem_cons] at hm
    rcases hm with rfl | hm
    · exact i3 _ h2
    · exact i2 h hm

end Pico
