import Verif.Lemmas.LayBase
/-! # Digits and values -/
namespace Pico
open T

theorem isLower_iff (c : Char) : c.isLower = inRange 'a' 'z' c := by
  have ha : 'a'.toNat = 97 := rfl
  have hz : 'z'.toNat = 122 := rfl
  have hv : ∀ k : UInt32, (k ≤ c.val) = (k.toNat ≤ c.toNat) := by
    intro k; rw [UInt32.le_iff_toNat_le]; rfl
  have hv' : ∀ k : UInt32, (c.val ≤ k) = (c.toNat ≤ k.toNat) := by
    intro k; rw [UInt32.le_iff_toNat_le]; rfl
  rw [Bool.eq_iff_iff]
  simp only [Char.isLower, inRange, ha, hz, Bool.and_eq_true, decide_eq_true_eq, ge_iff_le, hv, hv']
  simp

theorem isUpper_iff (c : Char) : c.isUpper = inRange 'A' 'Z' c := by
  have hA : 'A'.toNat = 65 := rfl
  have hZ : 'Z'.toNat = 90 := rfl
  have hv : ∀ k : UInt32, (k ≤ c.val) = (k.toNat ≤ c.toNat) := by
    intro k; rw [UInt32.le_iff_toNat_le]; rfl
  have hv' : ∀ k : UInt32, (c.val ≤ k) = (c.toNat ≤ k.toNat) := by
    intro k; rw [UInt32.le_iff_toNat_le]; rfl
  rw [Bool.eq_iff_iff]
  simp only [Char.isUpper, inRange, hA, hZ, Bool.and_eq_true, decide_eq_true_eq, ge_iff_le, hv, hv']
  simp

theorem digitVal_inv {radix : Nat} {c : Char} {v : Nat} (h : digitVal radix c = some v) :
    (c.isDigit || c.isLower || c.isUpper) = true ∧ digitValue c = v ∧ v < radix := by
  unfold digitVal at h
  unfold digitValue
  rw [isDigit_iff, isLower_iff, isUpper_iff]
  cases h1 : inRange '0' '9' c with
  | true =>
    simp only [h1, if_true] at h ⊢
    split at h
    · cases h; exact ⟨rfl, rfl, by assumption⟩
    · cases h
  | false =>
    cases h2 : inRange 'a' 'z' c with
    | true =>
      simp only [h1, h2, if_true, Bool.false_eq_true, if_false] at h ⊢
      split at h
      · cases h; exact ⟨rfl, rfl, by assumption⟩
      · cases h
    | false =>
      cases h3 : inRange 'A' 'Z' c with
      | true =>
        simp only [h1, h2, h3, if_true, Bool.false_eq_true, if_false] at h ⊢
        split at h
        · cases h; exact ⟨rfl, rfl, by assumption⟩
        · cases h
      | false => simp [h1, h2, h3] at h

theorem digitsVal_inv {radix : Nat} {ds : Text} {acc v : Nat} (h : digitsVal radix acc ds = some v) :
    (∀ c ∈ ds, (c.isDigit || c.isLower || c.isUpper) = true ∧ digitValue c < radix) ∧
      v = ds.foldl (fun v c => v * radix + digitValue c) acc := by
  induction ds generalizing acc with
  | nil => cases h; exact ⟨nofun, rfl⟩
  | cons c ds ih =>
    simp only [digitsVal] at h
    cases hd : digitVal radix c with
    | none => rw [hd] at h; cases h
    | some d =>
      rw [hd] at h
      obtain ⟨h1, h2, h3⟩ := digitVal_inv hd
      obtain ⟨i1, i2⟩ := ih h
      refine ⟨fun x hx => ?_, by rw [i2, List.foldl_cons, h2]⟩
      rcases List.mem_cons.1 hx with rfl | hx
      · exact ⟨h1, h2 ▸ h3⟩
      · exact i1 x hx

theorem fromStrRadix_inv {max radix : Nat} {ds : Text} {v : Nat} (h : fromStrRadix max radix ds = some v) :
    ds ≠ [] ∧ (∀ c ∈ ds, (c.isDigit || c.isLower || c.isUpper) = true ∧ digitValue c < radix) ∧
      v = numberValue radix ds ∧ v ≤ max := by
  unfold fromStrRadix at h
  cases ds with
  | nil => cases h
  | cons c ds =>
    dsimp only at h
    cases hd : digitsVal radix 0 (c :: ds) with
    | none => rw [hd] at h; cases h
    | some d =>
      rw [hd] at h
      dsimp only at h
      split at h
      · cases h
        obtain ⟨h1, h2⟩ := digitsVal_inv hd
        exact ⟨nofun, h1, h2, by assumption⟩
      · cases h

theorem char_eq_of_toNat {c d : Char} (h : c.toNat = d.toNat) : c = d := by
  rw [← Char.ofNat_toNat c, h, Char.ofNat_toNat]

/-- A digit of base 16. -/
theorem hexDigit_of {c : Char} (h : (c.isDigit || c.isLower || c.isUpper) = true ∧ digitValue c < 16) :
    c.isDigit = true ∨ c ∈ c!"abcdefABCDEF" := by
  obtain ⟨h1, h2⟩ := h
  unfold digitValue at h2
  cases hd : c.isDigit with
  | true => exact .inl rfl
  | false =>
    right
    simp only [hd, Bool.false_eq_true, if_false] at h2
    have ha : 'a'.toNat = 97 := rfl
    have hA : 'A'.toNat = 65 := rfl
    have hz : 'z'.toNat = 122 := rfl
    have hZ : 'Z'.toNat = 90 := rfl
    simp only [hd, Bool.false_or] at h1
    rw [isLower_iff, isUpper_iff] at h1
    rw [isLower_iff] at h2
    unfold inRange at h1 h2
    simp only [ha, hA, hz, hZ, Bool.or_eq_true, Bool.and_eq_true, decide_eq_true_eq] at h1 h2
    have : c.toNat ∈ (c!"abcdefABCDEF").map Char.toNat := by
      show c.toNat ∈ [97, 98, 99, 100, 101, 102, 65, 66, 67, 68, 69, 70]
      simp only [List.mem_cons, List.not_mem_nil, or_false]
      split at h2 <;> omega
    obtain ⟨d, hd, he⟩ := List.mem_map.1 this
    rw [← char_eq_of_toNat he]
    exact hd

/-- A digit of base 8. -/
theorem octDigit_of {c : Char} (hd : c.isDigit = true) (h2 : digitValue c < 8) : isOctDigit c = true := by
  unfold digitValue at h2
  simp only [hd, if_true] at h2
  rw [isDigit_iff] at hd
  have h0 : '0'.toNat = 48 := rfl
  have h9 : '9'.toNat = 57 := rfl
  unfold inRange at hd
  simp only [h0, h9, Bool.and_eq_true, decide_eq_true_eq] at h2 hd
  have : c.toNat ∈ (c!"01234567").map Char.toNat := by
    show c.toNat ∈ [48, 49, 50, 51, 52, 53, 54, 55]
    simp only [List.mem_cons, List.not_mem_nil, or_false]
    omega
  obtain ⟨d, hd, he⟩ := List.mem_map.1 this
  rw [← char_eq_of_toNat he]
  have : ∀ d ∈ c!"01234567", isOctDigit d = true := by decide
  exact this d hd

theorem isHexDigit_iff (c : Char) : isHexDigit c = true ↔ (c.isDigit = true ∨ c ∈ c!"abcdefABCDEF") := by
  constructor
  · intro h
    cases hd : c.isDigit with
    | true => exact .inl rfl
    | false =>
      right
      rw [isDigit_iff] at hd
      unfold isHexDigit at h
      rw [hd, Bool.or_false] at h
      have ha : 'a'.toNat = 97 := rfl
      have hA : 'A'.toNat = 65 := rfl
      have hf : 'f'.toNat = 102 := rfl
      have hF : 'F'.toNat = 70 := rfl
      unfold inRange at h
      simp only [ha, hA, hf, hF, Bool.or_eq_true, Bool.and_eq_true, decide_eq_true_eq] at h
      have : c.toNat ∈ (c!"abcdefABCDEF").map Char.toNat := by
        show c.toNat ∈ [97, 98, 99, 100, 101, 102, 65, 66, 67, 68, 69, 70]
        simp only [List.mem_cons, List.not_mem_nil, or_false]
        omega
      obtain ⟨d, hd, he⟩ := List.mem_map.1 this
      rw [← char_eq_of_toNat he]
      exact hd
  · rintro (h | h)
    · rw [isDigit_iff] at h
      simp [isHexDigit, h]
    · have : ∀ d ∈ c!"abcdefABCDEF", isHexDigit d = true := by decide
      exact this c h

end Pico
