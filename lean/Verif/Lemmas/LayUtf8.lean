import Verif.Spec.Layout
import Verif.Lemmas.Utf8
import Verif.Lemmas.Lex
/-! # UTF-8 as the specification states it -/
namespace Pico

theorem encodeChar_eq (c : Char) : (String.utf8EncodeChar c).map UInt8.toNat = encodeChar c := by
  have hv : c.toNat < 0x110000 := by rcases char_range c with h | h <;> omega
  have h8 : ∀ n, n < 256 → (UInt8.ofNat n).toNat = n := fun n h => by
    rw [UInt8.toNat_ofNat']; omega
  unfold String.utf8EncodeChar encodeChar
  have hc : c.toNat = c.val.toNat := rfl
  rw [hc] at hv ⊢
  generalize c.val.toNat = n at *
  dsimp only
  by_cases h1 : n < 0x80
  · rw [if_pos (show n ≤ 0x7f by omega), if_pos h1]
    simp only [List.map_cons, List.map_nil, List.cons.injEq, and_true]
    exact h8 _ (by omega)
  rw [if_neg (show ¬ n ≤ 0x7f by omega), if_neg h1]
  by_cases h2 : n < 0x800
  · rw [if_pos (show n ≤ 0x7ff by omega), if_pos h2]
    simp only [List.map_cons, List.map_nil, List.cons.injEq, and_true]
    rw [h8 _ (by omega), h8 _ (by omega)]
    omega
  rw [if_neg (show ¬ n ≤ 0x7ff by omega), if_neg h2]
  by_cases h3 : n < 0x10000
  · rw [if_pos (show n ≤ 0xffff by omega), if_pos h3]
    simp only [List.map_cons, List.map_nil, List.cons.injEq, and_true]
    rw [h8 _ (by omega), h8 _ (by omega), h8 _ (by omega)]
    omega
  rw [if_neg (show ¬ n ≤ 0xffff by omega), if_neg h3]
  simp only [List.map_cons, List.map_nil, List.cons.injEq, and_true]
  rw [h8 _ (by omega), h8 _ (by omega), h8 _ (by omega), h8 _ (by omega)]
  omega

theorem utf8_eq (s : Text) : utf8 s = encode s := by
  unfold utf8 encode
  congr 1
  funext c
  exact encodeChar_eq c

theorem encodeChar_ofNat {n : Nat} (h : n < 0xD800 ∨ (0xDFFF < n ∧ n < 0x110000)) : encodeChar (Char.ofNat n) =
    if n < 0x80 then [n]
    else if n < 0x800 then [0xC0 + n / 64, 0x80 + n % 64]
    else if n < 0x10000 then [0xE0 + n / 4096, 0x80 + n / 64 % 64, 0x80 + n % 64]
    else [0xF0 + n / 262144, 0x80 + n / 4096 % 64, 0x80 + n / 64 % 64, 0x80 + n % 64] := by
  unfold encodeChar
  rw [toNat_ofNat_valid h]

theorem isCont_range {b : Nat} (h : isCont b = true) : 0x80 ≤ b ∧ b < 0xC0 := by
  simpa only [isCont, Bool.and_eq_true, decide_eq_true_eq] using h

/-- Decoded bytes encode to what they were. -/
theorem encode_decode (bs : List Nat) (s : Text) (h : decode bs = some s) : encode s = bs := by
  match bs with
  | [] =>
    unfold decode at h
    cases h; rfl
  | a :: rest =>
    unfold decode at h
    have key : ∀ (n : Nat) (r : List Nat), r.length < (a :: rest).length → (decode r).map (Char.ofNat n :: ·) = some s →
        ∃ q, s = Char.ofNat n :: q ∧ encode q = r := by
      intro n r hr hm
      cases hd : decode r with
      | none => rw [hd] at hm; cases hm
      | some q =>
        rw [hd] at hm
        cases hm
        exact ⟨q, rfl, encode_decode r q hd⟩
    by_cases h1 : a < 0x80
    · rw [if_pos h1] at h
      obtain ⟨q, rfl, hq⟩ := key a rest (by simp) h
      rw [encode_cons, encodeChar_ofNat (.inl (by omega)), if_pos h1, hq]; rfl
    rw [if_neg h1] at h
    by_cases h2 : a < 0xC2
    · rw [if_pos h2] at h; cases h
    rw [if_neg h2] at h
    by_cases h3 : a < 0xE0
    · rw [if_pos h3] at h
      match rest, h with
      | [], h => cases h
      | b :: r, h =>
        dsimp only at h
        cases hb : isCont b with
        | false => rw [hb] at h; cases h
        | true =>
          have hb' := isCont_range hb
          rw [if_pos hb] at h
          obtain ⟨q, rfl, hq⟩ := key _ r (by simp only [List.length_cons]; omega) h
          rw [encode_cons, encodeChar_ofNat (.inl (by omega)), if_neg (by omega), if_pos (by omega), hq]
          simp only [List.cons_append, List.nil_append, List.cons.injEq, and_true]
          omega
    rw [if_neg h3] at h
    by_cases h4 : a < 0xF0
    · rw [if_pos h4] at h
      match rest, h with
      | [], h => cases h
      | [_], h => cases h
      | b :: c :: r, h =>
        dsimp only at h
        split at h
        · rename_i hc
          simp only [Bool.and_eq_true, Bool.not_eq_true', Bool.and_eq_false_iff, decide_eq_true_eq, decide_eq_false_iff_not] at hc
          obtain ⟨⟨⟨hb, hc'⟩, hn⟩, hs⟩ := hc
          have hn : (0x800 : Nat) ≤ (a - 0xE0) * 4096 + (b - 0x80) * 64 + (c - 0x80) := hn
          have hs : ¬ (0xD800 : Nat) ≤ (a - 0xE0) * 4096 + (b - 0x80) * 64 + (c - 0x80) ∨
            ¬ (a - 0xE0) * 4096 + (b - 0x80) * 64 + (c - 0x80) < (0xE000 : Nat) := hs
          have hb' := isCont_range hb
          have hc'' := isCont_range hc'
          obtain ⟨q, rfl, hq⟩ := key _ r (by simp only [List.length_cons]; omega) h
          rw [encode_cons, encodeChar_ofNat (by rcases hs with hs | hs <;> omega), if_neg (by omega), if_neg (by omega), if_pos (by omega), hq]
          simp only [List.cons_append, List.nil_append, List.cons.injEq, and_true]
          omega
        · cases h
    rw [if_neg h4] at h
    by_cases h5 : a < 0xF5
    · rw [if_pos h5] at h
      match rest, h with
      | [], h => cases h
      | [_], h => cases h
      | [_, _], h => cases h
      | b :: c :: d :: r, h =>
        dsimp only at h
        split at h
        · rename_i hc
          simp only [Bool.and_eq_true, decide_eq_true_eq] at hc
          obtain ⟨⟨⟨⟨hb, hc'⟩, hd⟩, hn⟩, hs⟩ := hc
          have hn : (0x10000 : Nat) ≤ (a - 0xF0) * 262144 + (b - 0x80) * 4096 + (c - 0x80) * 64 + (d - 0x80) := hn
          have hs : (a - 0xF0) * 262144 + (b - 0x80) * 4096 + (c - 0x80) * 64 + (d - 0x80) < (0x110000 : Nat) := hs
          have hb' := isCont_range hb
          have hc'' := isCont_range hc'
          have hd' := isCont_range hd
          obtain ⟨q, rfl, hq⟩ := key _ r (by simp only [List.length_cons]; omega) h
          rw [encode_cons, encodeChar_ofNat (by omega), if_neg (by omega), if_neg (by omega), if_neg (by omega), hq]
          simp only [List.cons_append, List.nil_append, List.cons.injEq, and_true]
          omega
        · cases h
    rw [if_neg h5] at h
    cases h
termination_by bs.length

theorem bytesTok_of (bs : List Nat) : BytesTok bs (bytesToken bs) := by
  unfold bytesToken
  cases hd : decode bs with
  | some s =>
    rw [← encode_decode bs s hd, ← utf8_eq]
    exact .text s
  | none =>
    refine .binary fun s hs => ?_
    rw [utf8_eq] at hs
    rw [← hs, decode_encode] at hd
    cases hd

end Pico
