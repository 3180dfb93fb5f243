import Verif.Model.Basic
/-! # Byte offsets into texts -/
namespace Pico

theorem byteLen_append (a b : Text) : byteLen (a ++ b) = byteLen a + byteLen b := by
  induction a with
  | nil => simp [byteLen]
  | cons c a ih => simp [byteLen, ih]; omega

theorem dropBytes_zero (s : Text) : dropBytes s 0 = some s := by cases s <;> rfl

theorem takeBytes_zero (s : Text) : takeBytes s 0 = some [] := by cases s <;> rfl

theorem dropBytes_cons (c : Char) (s : Text) (n : Nat) :
    dropBytes (c :: s) (c.utf8Size + n) = dropBytes s n := by
  have hc : 0 < c.utf8Size := Char.utf8Size_pos c
  obtain ⟨k, hk⟩ : ∃ k, c.utf8Size + n = k + 1 := ⟨c.utf8Size + n - 1, by omega⟩
  rw [hk]
  show (if c.utf8Size ≤ k + 1 then dropBytes s (k + 1 - c.utf8Size) else none) = _
  rw [if_pos (by omega)]
  congr 1
  omega

theorem takeBytes_cons (c : Char) (s : Text) (n : Nat) :
    takeBytes (c :: s) (c.utf8Size + n) = (takeBytes s n).map (c :: ·) := by
  have hc : 0 < c.utf8Size := Char.utf8Size_pos c
  obtain ⟨k, hk⟩ : ∃ k, c.utf8Size + n = k + 1 := ⟨c.utf8Size + n - 1, by omega⟩
  rw [hk]
  show (if c.utf8Size ≤ k + 1 then (takeBytes s (k + 1 - c.utf8Size)).map (c :: ·) else none) = _
  rw [if_pos (by omega)]
  congr 2
  omega

theorem dropBytes_append (a b : Text) : dropBytes (a ++ b) (byteLen a) = some b := by
  induction a with
  | nil => exact dropBytes_zero b
  | cons c a ih =>
    show dropBytes (c :: (a ++ b)) (c.utf8Size + byteLen a) = _
    rw [dropBytes_cons, ih]

theorem takeBytes_append (a b : Text) : takeBytes (a ++ b) (byteLen a) = some a := by
  induction a with
  | nil => exact takeBytes_zero b
  | cons c a ih =>
    show takeBytes (c :: (a ++ b)) (c.utf8Size + byteLen a) = _
    rw [takeBytes_cons, ih]
    rfl

theorem dropBytes_split {s : Text} {n : Nat} {r : Text} (h : dropBytes s n = some r) :
    ∃ p, s = p ++ r ∧ byteLen p = n := by
  induction s generalizing n with
  | nil =>
    cases n with
    | zero => rw [dropBytes_zero] at h; cases h; exact ⟨[], rfl, rfl⟩
    | succ n => cases h
  | cons c s ih =>
    cases n with
    | zero => rw [dropBytes_zero] at h; cases h; exact ⟨[], rfl, rfl⟩
    | succ n =>
      by_cases hc : c.utf8Size ≤ n + 1
      · obtain ⟨k, hk⟩ : ∃ k, n + 1 = c.utf8Size + k := ⟨n + 1 - c.utf8Size, by omega⟩
        rw [hk, dropBytes_cons] at h
        obtain ⟨p, rfl, hp⟩ := ih h
        exact ⟨c :: p, rfl, by simp only [byteLen]; omega⟩
      · have : dropBytes (c :: s) (n + 1) = none := if_neg hc
        rw [this] at h
        cases h

theorem takeBytes_split {s : Text} {n : Nat} {p : Text} (h : takeBytes s n = some p) :
    ∃ r, s = p ++ r ∧ byteLen p = n := by
  induction s generalizing n p with
  | nil =>
    cases n with
    | zero => rw [takeBytes_zero] at h; cases h; exact ⟨[], rfl, rfl⟩
    | succ n => cases h
  | cons c s ih =>
    cases n with
    | zero => rw [takeBytes_zero] at h; cases h; exact ⟨c :: s, rfl, rfl⟩
    | succ n =>
      by_cases hc : c.utf8Size ≤ n + 1
      · obtain ⟨k, hk⟩ : ∃ k, n + 1 = c.utf8Size + k := ⟨n + 1 - c.utf8Size, by omega⟩
        rw [hk, takeBytes_cons] at h
        cases hq : takeBytes s k with
        | none => rw [hq] at h; cases h
        | some q =>
          rw [hq] at h
          cases h
          obtain ⟨r, rfl, hr⟩ := ih hq
          exact ⟨r, rfl, by simp only [byteLen]; omega⟩
      · have : takeBytes (c :: s) (n + 1) = none := if_neg hc
        rw [this] at h
        cases h

theorem dropBytes_add {s r : Text} {n : Nat} (h : dropBytes s n = some r) (k : Nat) :
    dropBytes s (n + k) = dropBytes r k := by
  obtain ⟨p, rfl, rfl⟩ := dropBytes_split h
  clear h
  induction p with
  | nil => simp [byteLen]
  | cons c p ih =>
    show dropBytes (c :: (p ++ r)) (c.utf8Size + byteLen p + k) = _
    rw [Nat.add_assoc, dropBytes_cons, ih]

theorem dropBytes_le {s r : Text} {n : Nat} (h : dropBytes s n = some r) : n + byteLen r = byteLen s := by
  obtain ⟨p, rfl, rfl⟩ := dropBytes_split h
  rw [byteLen_append]

end Pico
