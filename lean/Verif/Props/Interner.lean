import Verif.Lemmas.Interner
/-!
# C01, C02: the string interner
-/
namespace Pico

/-- **C01.** In a session of `intern` calls starting from a new interner (whatever the allocator has already
handed out), the `i`-th handle has exactly the `i`-th requested text, also after all later calls. -/
theorem C01_intern_text (firstFree : Nat) (ss : List Text) :
    ((Interner.new firstFree).internAll ss).1.map Handle.text = ss :=
  (Interner.internAll_spec ss (Interner.ok_new firstFree)).1

/-- **C02.** Two handles of the same session are the same allocation exactly if their strings are equal. -/
theorem C02_intern_sharing (firstFree : Nat) (ss : List Text) (i j : Nat) (h h' : Handle)
    (hi : ((Interner.new firstFree).internAll ss).1[i]? = some h)
    (hj : ((Interner.new firstFree).internAll ss).1[j]? = some h') :
    h.ptr = h'.ptr ↔ ss[i]? = ss[j]? := by
  obtain ⟨a, b, _, d⟩ := Interner.internAll_spec ss (Interner.ok_new firstFree)
  have hm := b h (List.mem_of_getElem? hi)
  have hm' := b h' (List.mem_of_getElem? hj)
  rw [d.same h hm h' hm', ← a, List.getElem?_map, List.getElem?_map, hi, hj]
  simp

/-- **C02**, second half: a handle never aliases a block that was allocated before the interner was made. -/
theorem C02_intern_fresh (firstFree : Nat) (ss : List Text) :
    ∀ h ∈ ((Interner.new firstFree).internAll ss).1, firstFree ≤ h.ptr := by
  obtain ⟨_, b, _, d⟩ := Interner.internAll_spec ss (Interner.ok_new firstFree)
  intro h hm
  exact (d.bounds h (b h hm)).1

/-- The hypotheses of `C02_intern_sharing` are met by a session in which calls 0 and 2 ask for the same
text. -/
example : ((Interner.new 7).internAll [c!"a", c!"b", c!"a"]).1[0]? = some ⟨7, c!"a"⟩ ∧
    ((Interner.new 7).internAll [c!"a", c!"b", c!"a"]).1[2]? = some ⟨7, c!"a"⟩ ∧
    ((Interner.new 7).internAll [c!"a", c!"b", c!"a"]).1[1]? = some ⟨8, c!"b"⟩ := by decide

end Pico
