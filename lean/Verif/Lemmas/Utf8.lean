import Verif.Model.Basic
/-! # Decoding undoes encoding -/
namespace Pico

theorem char_range (c : Char) : c.toNat < 0xD800 ∨ (0xDFFF < c.toNat ∧ c.toNat < 0x110000) := c.valid

theorem ofNat_toNat (c : Char) : Char.ofNat c.toNat = c := Char.ofNat_toNat c

theorem isCont_low (k : Nat) : isCont (0x80 + k % 64) = true := by
  have h1 : (0x80 : Nat) ≤ 0x80 + k % 64 := by omega
  have h2 : 0x80 + k % 64 < (0xC0 : Nat) := by omega
  simp only [isCont, Bool.and_eq_true, decide_eq_true_eq]
  exact ⟨h1, h2⟩

theorem decode1 (a : Nat) (bs : List Byte) (h : a < 0x80) :
    decode (a :: bs) = (decode bs).map (Char.ofNat a :: ·) := by
  conv => lhs; unfold decode
  rw [if_pos h]

theorem decode2 (a b : Nat) (bs : List Byte) (h1 : 0xC2 ≤ a) (h2 : a < 0xE0) (hb : isCont b = true) :
    decode (a :: b :: bs) = (decode bs).map (Char.ofNat ((a - 0xC0) * 64 + (b - 0x80)) :: ·) := by
  have g1 : ¬ a < 0x80 := by omega
  have g2 : ¬ a < 0xC2 := by omega
  conv => lhs; unfold decode
  rw [if_neg g1, if_neg g2, if_pos h2]
  dsimp only
  rw [if_pos hb]

theorem decode3 (a b c n : Nat) (bs : List Byte) (h1 : 0xE0 ≤ a) (h2 : a < 0xF0) (hb : isCont b = true)
    (hc : isCont c = true) (hn : (a - 0xE0) * 4096 + (b - 0x80) * 64 + (c - 0x80) = n)
    (h3 : 0x800 ≤ n) (h4 : ¬ (0xD800 ≤ n ∧ n < 0xE000)) :
    decode (a :: b :: c :: bs) = (decode bs).map (Char.ofNat n :: ·) := by
  have g1 : ¬ a < 0x80 := by omega
  have g2 : ¬ a < 0xC2 := by omega
  have g3 : ¬ a < 0xE0 := by omega
  conv => lhs; unfold decode
  rw [if_neg g1, if_neg g2, if_neg g3, if_pos h2]
  dsimp only
  rw [hn, if_pos]
  simp only [hb, hc, Bool.true_and, Bool.and_eq_true, Bool.not_eq_true', Bool.and_eq_false_iff,
    decide_eq_true_eq, decide_eq_false_iff_not]
  refine ⟨h3, ?_⟩
  by_cases h : 0xD800 ≤ n
  · exact .inr fun h' => h4 ⟨h, h'⟩
  · exact .inl h

theorem decode4 (a b c d n : Nat) (bs : List Byte) (h1 : 0xF0 ≤ a) (h2 : a < 0xF5) (hb : isCont b = true)
    (hc : isCont c = true) (hd : isCont d = true)
    (hn : (a - 0xF0) * 262144 + (b - 0x80) * 4096 + (c - 0x80) * 64 + (d - 0x80) = n)
    (h3 : 0x10000 ≤ n) (h4 : n < 0x110000) :
    decode (a :: b :: c :: d :: bs) = (decode bs).map (Char.ofNat n :: ·) := by
  have g1 : ¬ a < 0x80 := by omega
  have g2 : ¬ a < 0xC2 := by omega
  have g3 : ¬ a < 0xE0 := by omega
  have g4 : ¬ a < 0xF0 := by omega
  conv => lhs; unfold decode
  rw [if_neg g1, if_neg g2, if_neg g3, if_neg g4, if_pos h2]
  dsimp only
  rw [hn, if_pos]
  simp only [hb, hc, hd, Bool.true_and, Bool.and_eq_true, decide_eq_true_eq]
  exact ⟨h3, h4⟩

theorem decode_encodeChar (c : Char) (bs : List Byte) :
    decode (encodeChar c ++ bs) = (decode bs).map (c :: ·) := by
  have hv := char_range c
  have hc := ofNat_toNat c
  unfold encodeChar
  generalize c.toNat = n at hv hc
  dsimp only
  subst hc
  by_cases h1 : n < 0x80
  · rw [if_pos h1]
    exact decode1 n bs h1
  rw [if_neg h1]
  by_cases h2 : n < 0x800
  · rw [if_pos h2]
    refine (decode2 (0xC0 + n / 64) (0x80 + n % 64) bs (by omega) (by omega) (isCont_low _)).trans ?_
    have : (0xC0 + n / 64 - 0xC0) * 64 + (0x80 + n % 64 - 0x80) = n := by omega
    rw [this]
  rw [if_neg h2]
  by_cases h3 : n < 0x10000
  · rw [if_pos h3]
    exact decode3 (0xE0 + n / 4096) (0x80 + n / 64 % 64) (0x80 + n % 64) n bs (by omega) (by omega)
      (isCont_low _) (isCont_low _) (by omega) (by omega) (by omega)
  rw [if_neg h3]
  exact decode4 (0xF0 + n / 262144) (0x80 + n / 4096 % 64) (0x80 + n / 64 % 64) (0x80 + n % 64) n bs
    (by omega) (by omega) (isCont_low _) (isCont_low _) (isCont_low _) (by omega) (by omega) (by omega)

theorem encode_cons (c : Char) (s : Text) : encode (c :: s) = encodeChar c ++ encode s := rfl

theorem encode_append (a b : Text) : encode (a ++ b) = encode a ++ encode b := by
  simp [encode]

theorem decode_encode (s : Text) : decode (encode s) = some s := by
  induction s with
  | nil => rfl
  | cons c s ih => rw [encode_cons, decode_encodeChar, ih]; rfl

theorem encodeChar_ne (c : Char) : encodeChar c ≠ [] := by
  unfold encodeChar
  dsimp only
  split <;> (try split) <;> (try split) <;> simp

theorem encode_eq_nil {s : Text} : encode s = [] ↔ s = [] := by
  cases s with
  | nil => simp [encode]
  | cons c s => simp [encode_cons, encodeChar_ne]

end Pico
