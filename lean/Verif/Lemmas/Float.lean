import Verif.Spec.Float
import Mathlib.Tactic.Ring
import Mathlib.Tactic.Linarith
/-!
# Rounding to `f64`, and shortest digits
-/
namespace Pico

set_option exponentiation.threshold 3000

theorem lt_ulp (q : Nat) : q < 2 ^ (ulpBits q + 53) := by
  refine Nat.lt_of_lt_of_le (Nat.lt_log2_self (n := q)) (Nat.pow_le_pow_right (by omega) ?_)
  unfold ulpBits
  omega

theorem ulp_le {q : Nat} (h : ulpBits q ≠ 0) : 2 ^ (ulpBits q + 52) ≤ q := by
  have hq : q ≠ 0 := by
    rintro rfl
    exact h (by decide)
  refine Nat.le_trans (Nat.pow_le_pow_right (by omega) ?_) (Nat.log2_self_le hq)
  unfold ulpBits at h ⊢
  omega

theorem ulp_dvd {v : Nat} (h : Bits53 v) : 2 ^ ulpBits v ∣ v := by
  obtain ⟨m, t, hm, rfl⟩ := h
  by_cases hs : ulpBits (m * 2 ^ t) = 0
  · rw [hs]
    exact Nat.one_dvd _
  · have h1 := ulp_le hs
    have h2 : m * 2 ^ t < 2 ^ (53 + t) := by
      rw [Nat.pow_add]
      exact Nat.mul_lt_mul_of_pos_right hm (Nat.two_pow_pos t)
    have h3 := (Nat.pow_lt_pow_iff_right (a := 2) (by omega)).1 (Nat.lt_of_le_of_lt h1 h2)
    exact Nat.dvd_trans (Nat.pow_dvd_pow 2 (by omega)) (Nat.dvd_mul_left _ _)

theorem round_exact {w u : Nat} (hu : 0 < u) : roundHalfEven (w * u) u = w := by
  unfold roundHalfEven
  rw [Nat.mul_mod_left, Nat.mul_div_cancel _ hu]
  rw [if_neg (by omega)]

/-- A number that is an `f64` is not rounded. -/
theorem f64Round_exact {v num den : Nat} (h : Bits53 v) (hv : v < 2 ^ 2098) (hd : 0 < den)
    (he : num * 2 ^ 1074 = v * den) : f64Round num den = some v := by
  unfold f64Round
  simp only [he, Nat.mul_div_cancel _ hd]
  obtain ⟨w, hw⟩ := ulp_dvd h
  have e : v * den = w * (den * 2 ^ ulpBits v) := by
    conv_lhs => rw [hw]
    ring
  rw [e, round_exact (Nat.mul_pos hd (Nat.two_pow_pos _))]
  have e2 : w * 2 ^ ulpBits v = v := by rw [Nat.mul_comm]; exact hw.symm
  rw [e2, if_pos hv]

/-- The facts about one rounding: `n / den` is rounded to `q' * 2^s`. -/
structure Rounded (n den s q q' : Nat) : Prop where
  pos : 0 < den
  quot : q = n / (den * 2 ^ s)
  near : q' = q ∧ 2 * (n % (den * 2 ^ s)) ≤ den * 2 ^ s ∨ q' = q + 1 ∧ den * 2 ^ s ≤ 2 * (n % (den * 2 ^ s))
  even : 2 * (n % (den * 2 ^ s)) = den * 2 ^ s → q' % 2 = 0
  small : q < 2 ^ 53
  big : s ≠ 0 → 2 ^ 52 ≤ q

theorem rounded (num : Nat) {den : Nat} (hd : 0 < den) : ∃ s q q', Rounded (num * 2 ^ 1074) den s q q' ∧
    f64Round num den = if q' * 2 ^ s < 2 ^ 2098 then some (q' * 2 ^ s) else none := by
  generalize hn : num * 2 ^ 1074 = n
  refine ⟨ulpBits (n / den), _, roundHalfEven n (den * 2 ^ ulpBits (n / den)), ⟨hd, rfl, ?_, ?_, ?_, ?_⟩, ?_⟩
  · unfold roundHalfEven
    split
    · exact .inr ⟨rfl, by omega⟩
    · exact .inl ⟨rfl, by omega⟩
  · intro h
    unfold roundHalfEven
    split <;> omega
  · rw [← Nat.div_div_eq_div_mul]
    rw [Nat.div_lt_iff_lt_mul (Nat.two_pow_pos _), ← Nat.pow_add, Nat.add_comm]
    exact lt_ulp _
  · intro h
    rw [← Nat.div_div_eq_div_mul]
    rw [Nat.le_div_iff_mul_le (Nat.two_pow_pos _), ← Nat.pow_add, Nat.add_comm]
    exact ulp_le h
  · subst hn
    rfl

theorem Rounded.le {n den s q q' : Nat} (h : Rounded n den s q q') : q' ≤ 2 ^ 53 := by
  have := h.small
  obtain ⟨h1, -⟩ | ⟨h1, -⟩ := h.near <;> omega

/-- What rounding gives is an `f64`. -/
theorem f64Round_valid {num den v : Nat} (hd : 0 < den) (h : f64Round num den = some v) : Bits53 v ∧ v < 2 ^ 2098 := by
  obtain ⟨s, q, q', hr, he⟩ := rounded num hd
  rw [he] at h
  split at h
  · cases h
    refine ⟨?_, by assumption⟩
    by_cases hq : q' = 2 ^ 53
    · exact ⟨1, 53 + s, by decide, by rw [hq, Nat.one_mul, Nat.pow_add]⟩
    · exact ⟨q', s, by have := hr.le; omega, rfl⟩
  · cases h

/-- The case that the other number is a multiple of the same power of two. -/
theorem near_multiple {n u q q' r : Nat} (hn : n = q * u + r) (hr : r < u)
    (hq : q' = q ∧ 2 * r ≤ u ∨ q' = q + 1 ∧ u ≤ 2 * r) (he : 2 * r = u → q' % 2 = 0) (j : Nat) :
    distance n (q' * u) ≤ distance n (j * u) ∧
    (distance n (q' * u) = distance n (j * u) → j ≠ q' → q' % 2 = 0 ∧ (j = q' + 1 ∨ q' = j + 1)) := by
  unfold distance
  obtain hj | hj | hj | hj : j + 1 ≤ q ∨ j = q ∨ j = q + 1 ∨ q + 2 ≤ j := by omega
  · have h1 : j * u + u ≤ q * u := by
      have := Nat.mul_le_mul_right u hj
      rwa [Nat.add_mul, Nat.one_mul] at this
    obtain ⟨rfl, h2⟩ | ⟨rfl, h2⟩ := hq
    · constructor <;> omega
    · rw [Nat.add_mul, Nat.one_mul]
      constructor <;> omega
  · subst hj
    obtain ⟨rfl, h2⟩ | ⟨rfl, h2⟩ := hq
    · constructor <;> omega
    · rw [Nat.add_mul, Nat.one_mul]
      constructor
      · omega
      · intro h3 h4
        exact ⟨he (by omega), .inr rfl⟩
  · subst hj
    obtain ⟨rfl, h2⟩ | ⟨rfl, h2⟩ := hq
    · rw [Nat.add_mul, Nat.one_mul]
      constructor
      · omega
      · intro h3 h4
        exact ⟨he (by omega), .inl rfl⟩
    · constructor <;> omega
  · have h1 : q * u + 2 * u ≤ j * u := by
      have := Nat.mul_le_mul_right u hj
      rwa [Nat.add_mul] at this
    obtain ⟨rfl, h2⟩ | ⟨rfl, h2⟩ := hq
    · constructor <;> omega
    · rw [Nat.add_mul, Nat.one_mul]
      constructor <;> omega

/-- No `f64` is nearer, and if another one is as near, then the result has an even last bit. -/
theorem f64Round_near {num den v : Nat} (hd : 0 < den) (h : f64Round num den = some v) (w : Nat) (hw : Bits53 w) :
    distance (num * 2 ^ 1074) (v * den) ≤ distance (num * 2 ^ 1074) (w * den) ∧
    (distance (num * 2 ^ 1074) (v * den) = distance (num * 2 ^ 1074) (w * den) → w ≠ v → 2 * distance v w ∣ v) := by
  obtain ⟨s, q, q', hr, he⟩ := rounded num hd
  generalize num * 2 ^ 1074 = n at hr ⊢
  rw [he] at h
  split at h
  case isFalse => cases h
  cases h
  have hu : 0 < den * 2 ^ s := Nat.mul_pos hd (Nat.two_pow_pos _)
  have hn : n = q * (den * 2 ^ s) + n % (den * 2 ^ s) := by
    rw [hr.quot, Nat.mul_comm]
    exact (Nat.div_add_mod _ _).symm
  have hm := Nat.mod_lt n hu
  have hnear := hr.near
  have heven := hr.even
  generalize n % (den * 2 ^ s) = r at hn hm hnear heven
  have e1 : q' * 2 ^ s * den = q' * (den * 2 ^ s) := by ring
  rw [e1]
  by_cases hdiv : 2 ^ s ∣ w
  · obtain ⟨j, rfl⟩ := hdiv
    have e2 : 2 ^ s * j * den = j * (den * 2 ^ s) := by ring
    rw [e2]
    obtain ⟨h1, h2⟩ := near_multiple hn hm hnear heven j
    refine ⟨h1, fun h3 h4 => ?_⟩
    have h5 : j ≠ q' := by
      rintro rfl
      exact h4 (Nat.mul_comm _ _)
    obtain ⟨h6, h7⟩ := h2 h3 h5
    have e3 : distance (q' * 2 ^ s) (2 ^ s * j) = 2 ^ s := by
      unfold distance
      rw [Nat.mul_comm (2 ^ s) j]
      obtain rfl | rfl := h7
      · rw [Nat.add_mul, Nat.one_mul]
        generalize q' * 2 ^ s = y
        generalize 2 ^ s = z
        omega
      · rw [Nat.add_mul, Nat.one_mul]
        generalize j * 2 ^ s = y
        generalize 2 ^ s = z
        omega
    rw [e3]
    exact Nat.mul_dvd_mul_right (Nat.dvd_of_mod_eq_zero h6) _
  · have hs : s ≠ 0 := by
      rintro rfl
      exact hdiv (Nat.one_dvd _)
    obtain ⟨m, t, hmt, rfl⟩ := hw
    have hts : t < s := by
      apply Nat.lt_of_not_le
      intro hle
      exact hdiv (Nat.dvd_trans (Nat.pow_dvd_pow 2 hle) (Nat.dvd_mul_left _ _))
    have h1 : m * 2 ^ t < 2 ^ 52 * 2 ^ s := by
      have : m * 2 ^ t < 2 ^ 53 * 2 ^ t := Nat.mul_lt_mul_of_pos_right hmt (Nat.two_pow_pos t)
      refine Nat.lt_of_lt_of_le this ?_
      rw [← Nat.pow_add, ← Nat.pow_add]
      exact Nat.pow_le_pow_right (by omega) (by omega)
    have h2 : m * 2 ^ t * den < q * (den * 2 ^ s) := by
      have h3 : m * 2 ^ t * den < 2 ^ 52 * 2 ^ s * den := Nat.mul_lt_mul_of_pos_right h1 hd
      have h4 : 2 ^ 52 * 2 ^ s * den ≤ q * (den * 2 ^ s) := by
        have : 2 ^ 52 * 2 ^ s * den = 2 ^ 52 * (den * 2 ^ s) := by ring
        rw [this]
        exact Nat.mul_le_mul_right _ (hr.big hs)
      omega
    have h3 : (q + 1) * (den * 2 ^ s) = q * (den * 2 ^ s) + den * 2 ^ s := by ring
    unfold distance
    obtain ⟨rfl, h4⟩ | ⟨rfl, h4⟩ := hnear
    · constructor <;> omega
    · rw [h3]
      constructor <;> omega

theorem inf_edge {n q q' r B : Nat} (hn : n = q * (2 * B) + r) (hm : r < 2 * B)
    (hnear : q' = q ∧ 2 * r ≤ 2 * B ∨ q' = q + 1 ∧ 2 * B ≤ 2 * r) (heven : 2 * r = 2 * B → q' % 2 = 0)
    (hsmall : q < 2 ^ 53) : (q' < 2 ^ 53 → n < (2 ^ 54 - 1) * B) ∧ (¬ q' < 2 ^ 53 → (2 ^ 54 - 1) * B ≤ n) := by
  constructor
  · intro hq
    by_cases hq2 : q + 1 = 2 ^ 53
    · have : q = 2 ^ 53 - 1 := by omega
      subst this
      omega
    · have h1 : q * (2 * B) ≤ (2 ^ 53 - 2) * (2 * B) := Nat.mul_le_mul_right _ (by omega)
      omega
  · intro hq
    have : q = 2 ^ 53 - 1 := by omega
    subst this
    omega

/-- The numbers that are rounded to infinity. -/
theorem f64Round_inf (num : Nat) {den : Nat} (hd : 0 < den) :
    f64Round num den = none ↔ (2 ^ 2098 - 2 ^ 2044) * den ≤ num * 2 ^ 1074 := by
  obtain ⟨s, q, q', hr, he⟩ := rounded num hd
  generalize num * 2 ^ 1074 = n at hr ⊢
  rw [he]
  have e1 : (2 : Nat) ^ 2098 = 2 ^ 54 * 2 ^ 2044 := by rw [← Nat.pow_add]
  have hu : 0 < den * 2 ^ s := Nat.mul_pos hd (Nat.two_pow_pos _)
  have hn : n = q * (den * 2 ^ s) + n % (den * 2 ^ s) := by
    rw [hr.quot, Nat.mul_comm]
    exact (Nat.div_add_mod _ _).symm
  have hm := Nat.mod_lt n hu
  have hnear := hr.near
  have heven := hr.even
  have hsmall := hr.small
  generalize n % (den * 2 ^ s) = r at hn hm hnear heven
  obtain hs | hs | hs : s < 2045 ∨ s = 2045 ∨ 2045 < s := by omega
  · have h1 : q' * 2 ^ s < 2 ^ 2098 := by
      have h2 : q' * 2 ^ s ≤ 2 ^ 53 * 2 ^ 2044 :=
        Nat.mul_le_mul hr.le (Nat.pow_le_pow_right (by omega) (by omega))
      rw [e1]
      have := Nat.two_pow_pos 2044
      omega
    rw [if_pos h1]
    have h3 : n < (2 ^ 2098 - 2 ^ 2044) * den := by
      have h4 : n < 2 ^ 53 * (den * 2 ^ s) := by
        have : (q + 1) * (den * 2 ^ s) ≤ 2 ^ 53 * (den * 2 ^ s) := Nat.mul_le_mul_right _ hsmall
        rw [Nat.add_mul, Nat.one_mul] at this
        omega
      have h5 : 2 ^ 53 * (den * 2 ^ s) ≤ 2 ^ 53 * (den * 2 ^ 2044) :=
        Nat.mul_le_mul_left _ (Nat.mul_le_mul_left _ (Nat.pow_le_pow_right (by omega) (by omega)))
      rw [e1, ← Nat.sub_one_mul, Nat.mul_assoc, Nat.mul_comm (2 ^ 2044) den]
      have : 2 ^ 53 * (den * 2 ^ 2044) ≤ (2 ^ 54 - 1) * (den * 2 ^ 2044) := Nat.mul_le_mul_right _ (by decide)
      omega
    constructor
    · intro h; cases h
    · intro h; omega
  · subst hs
    have e2 : (2 : Nat) ^ 2045 = 2 * 2 ^ 2044 := by rw [Nat.pow_succ, Nat.mul_comm]
    have hA := Nat.two_pow_pos 2044
    have e3 : (2 ^ 2098 - 2 ^ 2044) * den = (2 ^ 54 - 1) * (den * 2 ^ 2044) := by
      rw [e1, ← Nat.sub_one_mul, Nat.mul_assoc, Nat.mul_comm (2 ^ 2044) den]
    rw [e3]
    have e4 : q' * 2 ^ 2045 < 2 ^ 2098 ↔ q' < 2 ^ 53 := by
      have : (2 : Nat) ^ 2098 = 2 ^ 53 * 2 ^ 2045 := by rw [← Nat.pow_add]
      rw [this]
      exact Nat.mul_lt_mul_right (Nat.two_pow_pos _)
    have e5 : den * 2 ^ 2045 = 2 * (den * 2 ^ 2044) := by rw [e2]; ring
    rw [e5] at hn hm hnear heven
    obtain ⟨h1, h2⟩ := inf_edge hn hm hnear heven hsmall
    by_cases hq : q' < 2 ^ 53
    · rw [if_pos (e4.2 hq)]
      exact ⟨nofun, fun h => absurd h (Nat.not_le_of_lt (h1 hq))⟩
    · rw [if_neg (fun h => hq (e4.1 h))]
      exact ⟨fun _ => h2 hq, fun _ => rfl⟩
  · have hq := hr.big (by omega)
    have h1 : 2 ^ 2098 ≤ q * 2 ^ s := by
      have e : (2 : Nat) ^ 2098 = 2 ^ 52 * 2 ^ 2046 := by rw [← Nat.pow_add]
      rw [e]
      exact Nat.mul_le_mul hq (Nat.pow_le_pow_right (by omega) (by omega))
    have h2 : q * 2 ^ s ≤ q' * 2 ^ s := Nat.mul_le_mul_right _ (by omega)
    rw [if_neg (by omega)]
    refine ⟨fun _ => ?_, fun _ => rfl⟩
    have h3 : 2 ^ 2098 * den ≤ q * 2 ^ s * den := Nat.mul_le_mul_right _ h1
    have h4 : (2 ^ 2098 - 2 ^ 2044) * den ≤ 2 ^ 2098 * den := Nat.mul_le_mul_right _ (Nat.sub_le _ _)
    have h5 : q * 2 ^ s * den = q * (den * 2 ^ s) := by ring
    omega

/-! ### Digits -/

theorem digitsNat_append (xs ys : Text) : digitsNat (xs ++ ys) = digitsNat xs * 10 ^ ys.length + digitsNat ys := by
  have : ∀ (ys : Text) (a : Nat), ys.foldl (fun n c => 10 * n + (c.toNat - '0'.toNat)) a =
      a * 10 ^ ys.length + digitsNat ys := by
    intro ys
    induction ys with
    | nil => intro a; simp [digitsNat]
    | cons c cs ih =>
      intro a
      unfold digitsNat
      rw [List.foldl_cons, List.foldl_cons, ih, ih, List.length_cons, Nat.pow_succ]
      ring
  unfold digitsNat
  rw [List.foldl_append, this]
  rfl

theorem digitsNat_toDigits (n : Nat) : digitsNat (Nat.toDigits 10 n) = n ∧ Nat.toDigits 10 n ≠ [] := by
  induction n using Nat.strongRecOn with
  | _ n ih =>
    have hdig : ∀ n, n < 10 → (Nat.digitChar n).toNat - '0'.toNat = n := by decide
    by_cases hn : n < 10
    · rw [Nat.toDigits_of_lt_base hn]
      refine ⟨?_, nofun⟩
      simp only [digitsNat, List.foldl_cons, List.foldl_nil]
      have := hdig n hn
      omega
    · have hq : 0 < n / 10 := by omega
      have hr : n % 10 < 10 := Nat.mod_lt _ (by omega)
      have e := Nat.toDigits_append_toDigits (b := 10) (by omega) hq hr
      rw [Nat.div_add_mod] at e
      obtain ⟨h1, h2⟩ := ih (n / 10) (by omega)
      rw [← e, Nat.toDigits_of_lt_base hr]
      refine ⟨?_, by simp⟩
      rw [digitsNat_append, h1]
      simp only [digitsNat, List.foldl_cons, List.foldl_nil, List.length_cons, List.length_nil]
      have := hdig _ hr
      omega

theorem isDigit_toDigits {n : Nat} {c : Char} (h : c ∈ Nat.toDigits 10 n) : c.isDigit = true :=
  Nat.isDigit_of_mem_toDigits (by omega) (by omega) h

theorem toDigits_length_le {n k : Nat} (hk : 0 < k) (h : n < 10 ^ k) : (Nat.toDigits 10 n).length ≤ k :=
  (Nat.length_toDigits_le_iff (by omega) hk).2 h

/-- The digits behind the point. -/
def fracText (num scale : Nat) : Text :=
  List.replicate (scale - (Nat.toDigits 10 (num % 10 ^ scale)).length) '0' ++ Nat.toDigits 10 (num % 10 ^ scale)

theorem digitsNat_replicate (n : Nat) : digitsNat (List.replicate n '0') = 0 := by
  induction n with
  | zero => rfl
  | succ n ih =>
    rw [List.replicate_succ, ← List.singleton_append, digitsNat_append, ih]
    simp [digitsNat]

theorem fracText_props {num scale : Nat} (h : scale ≠ 0) : digitsNat (fracText num scale) = num % 10 ^ scale ∧
    (fracText num scale).length = scale ∧ ∀ c ∈ fracText num scale, c.isDigit = true := by
  have hlt : num % 10 ^ scale < 10 ^ scale := Nat.mod_lt _ (Nat.pow_pos (by omega))
  have hlen := toDigits_length_le (by omega) hlt
  unfold fracText
  refine ⟨?_, ?_, ?_⟩
  · rw [digitsNat_append, digitsNat_replicate, (digitsNat_toDigits _).1]
    omega
  · rw [List.length_append, List.length_replicate]
    omega
  · intro c hc
    obtain hc | hc := List.mem_append.1 hc
    · rw [List.mem_replicate] at hc
      rw [hc.2]
      decide
    · exact isDigit_toDigits hc

theorem splitPoint_digits {ds : Text} (h : ∀ c ∈ ds, c.isDigit = true) : splitPoint ds = (ds, []) := by
  have h' : ∀ c ∈ ds, (c != '.') = true := by
    intro c hc
    have := h c hc
    by_cases e : c = '.'
    · subst e; cases this
    · simpa using e
  unfold splitPoint
  have h1 := List.takeWhile_append_of_pos (l₂ := []) h'
  have h2 := List.dropWhile_append_of_pos (l₂ := []) h'
  simp only [List.append_nil, List.takeWhile_nil, List.dropWhile_nil] at h1 h2
  rw [h1, h2]
  rfl

theorem splitPoint_point {ds fs : Text} (h : ∀ c ∈ ds, c.isDigit = true) : splitPoint (ds ++ c!"." ++ fs) = (ds, fs) := by
  have h' : ∀ c ∈ ds, (c != '.') = true := by
    intro c hc
    have := h c hc
    by_cases e : c = '.'
    · subst e; cases this
    · simpa using e
  unfold splitPoint
  rw [List.append_assoc, List.takeWhile_append_of_pos h', List.dropWhile_append_of_pos h']
  simp

theorem decimalText_point {num scale : Nat} (h : scale ≠ 0) :
    decimalText num scale = Nat.toDigits 10 (num / 10 ^ scale) ++ c!"." ++ fracText num scale := by
  unfold decimalText
  rw [if_neg h]
  rfl

theorem decimalText_head (num scale : Nat) : decimalText num scale ≠ c!"inf" := by
  have key : ∀ (n : Nat) (r : Text), Nat.toDigits 10 n ++ r ≠ c!"inf" := by
    intro n r h
    obtain ⟨-, hne⟩ := digitsNat_toDigits n
    cases hd : Nat.toDigits 10 n with
    | nil => exact hne hd
    | cons x xs =>
      have hx : x.isDigit = true := isDigit_toDigits (n := n) (by rw [hd]; exact List.mem_cons_self ..)
      rw [hd] at h
      injection h with h1 h2
      subst h1
      cases hx
  by_cases h : scale = 0
  · unfold decimalText
    rw [if_pos h]
    have := key num []
    rwa [List.append_nil] at this
  · rw [decimalText_point h, List.append_assoc]
    exact key _ _

/-- Decimal numbers are read as they are written. -/
theorem fromStr_decimal (num scale : Nat) : f64FromStr (decimalText num scale) = f64Round num (10 ^ scale) := by
  unfold f64FromStr
  rw [if_neg (decimalText_head num scale)]
  by_cases h : scale = 0
  · subst h
    unfold decimalText
    rw [if_pos rfl, splitPoint_digits (fun c hc => isDigit_toDigits hc)]
    simp only [List.append_nil, List.length_nil]
    rw [(digitsNat_toDigits num).1]
  · obtain ⟨h1, h2, h3⟩ := fracText_props (num := num) h
    rw [decimalText_point h, splitPoint_point (fun c hc => isDigit_toDigits hc)]
    simp only
    rw [digitsNat_append, h1, h2, (digitsNat_toDigits _).1, Nat.mul_comm, Nat.div_add_mod]

/-! ### Reading what is displayed -/

theorem f64Try_round {v i a : Nat} (h : f64Try v i = some a) :
    f64Round (a * 10 ^ (309 - i)) (10 ^ (i - 309)) = some v := by
  unfold f64Try at h
  simp only at h
  split at h
  · rename_i hc
    cases h
    rw [Bool.and_eq_true] at hc
    exact beq_iff_eq.1 hc.1
  · split at h
    · rename_i hc
      cases h
      exact beq_iff_eq.1 hc
    · cases h

theorem exact_decimal {v : Nat} (hv : Bits53 v) (hl : v < 2 ^ 2098) (k : Nat) (hk : 1074 = k) :
    f64Round (v * 5 ^ k) (10 ^ k) = some v := by
  refine f64Round_exact hv hl (Nat.pow_pos (by omega)) ?_
  rw [hk, Nat.mul_assoc, ← Nat.mul_pow]

theorem f64Search_succ (v fuel i : Nat) : f64Search v (fuel + 1) i =
    (f64Try v i).elim (f64Search v fuel (i + 1)) fun a => (a * 10 ^ (309 - i), i - 309) := rfl

theorem search_ind {P : Nat × Nat → Prop} {v : Nat} (h0 : P (v * 5 ^ 1074, 1074))
    (h1 : ∀ i a, f64Try v i = some a → P (a * 10 ^ (309 - i), i - 309)) (fuel : Nat) : ∀ i, P (f64Search v fuel i) := by
  induction fuel with
  | zero => exact fun _ => h0
  | succ fuel ih =>
    intro i
    have ht := h1 i
    rw [f64Search_succ]
    generalize f64Try v i = o at ht ⊢
    cases o with
    | none => exact ih (i + 1)
    | some a => exact ht a rfl

theorem f64Search_round {v : Nat} (hv : Bits53 v) (hl : v < 2 ^ 2098) (fuel i : Nat) :
    f64Round (f64Search v fuel i).1 (10 ^ (f64Search v fuel i).2) = some v :=
  search_ind (P := fun p => f64Round p.1 (10 ^ p.2) = some v) (exact_decimal hv hl 1074 rfl) (fun _ _ => f64Try_round) fuel i

theorem f64FromStr_valid (t : Text) : F64.Valid (f64FromStr t) := by
  unfold f64FromStr
  split
  · trivial
  · simp only
    cases h : f64Round _ _ with
    | none => trivial
    | some v => exact f64Round_valid (Nat.pow_pos (by omega)) h

theorem f64_reads_back {x : F64} (h : F64.Valid x) : f64FromStr (f64Display x) = x := by
  cases x with
  | none => rfl
  | some v =>
    unfold f64Display
    rw [fromStr_decimal]
    exact f64Search_round h.1 h.2 _ _

theorem showLit_value (l : Text) : f64FromStr (showLit l) = f64FromStr l := f64_reads_back (f64FromStr_valid l)

theorem showLit_idem (l : Text) : showLit (showLit l) = showLit l := by
  show f64Display (f64FromStr (showLit l)) = _
  rw [showLit_value]
  rfl

/-- Integers are rounded to integers. -/
theorem round_int {num v : Nat} (h : f64Round num 1 = some v) : 2 ^ 1074 ∣ v := by
  obtain ⟨s, q, q', hr, he⟩ := rounded num (den := 1) (by omega)
  rw [he] at h
  split at h
  · cases h
    by_cases hs : 1074 ≤ s
    · exact Nat.dvd_trans (Nat.pow_dvd_pow 2 hs) (Nat.dvd_mul_left _ _)
    · have hd : 1 * 2 ^ s ∣ num * 2 ^ 1074 := by
        rw [Nat.one_mul]
        exact Nat.dvd_trans (Nat.pow_dvd_pow 2 (by omega)) (Nat.dvd_mul_left _ _)
      have h0 : num * 2 ^ 1074 % (1 * 2 ^ s) = 0 := Nat.mod_eq_zero_of_dvd hd
      have hp : 0 < 2 ^ s := Nat.pow_pos (by omega)
      obtain ⟨h1, -⟩ | ⟨-, h1⟩ := hr.near
      · rw [h1, hr.quot, Nat.one_mul, Nat.div_mul_cancel (by rwa [Nat.one_mul] at hd)]
        exact Nat.dvd_mul_left _ _
      · rw [h0] at h1
        omega
  · cases h

theorem search_le {v j : Nat} (h : f64Try v j ≠ none) (fuel : Nat) : ∀ i, i ≤ j → j < i + fuel →
    (f64Search v fuel i).2 ≤ j - 309 := by
  induction fuel with
  | zero => intro i h1 h2; omega
  | succ fuel ih =>
    intro i h1 h2
    rw [f64Search_succ]
    cases ht : f64Try v i with
    | none =>
      have : i ≠ j := by
        rintro rfl
        exact h ht
      exact ih (i + 1) (by omega) (by omega)
    | some a => exact Nat.sub_le_sub_right h1 309

theorem f64Try_int {v : Nat} (hv : Bits53 v) (hl : v < 2 ^ 2098) (hd : 2 ^ 1074 ∣ v) : f64Try v 309 ≠ none := by
  have he : f64Round (v * 10 ^ (309 - 309) / (2 ^ 1074 * 10 ^ (309 - 309)) * 10 ^ (309 - 309)) (10 ^ (309 - 309)) = some v := by
    refine f64Round_exact hv hl (Nat.pow_pos (by omega)) ?_
    rw [Nat.sub_self, Nat.pow_zero, Nat.mul_one, Nat.mul_one, Nat.mul_one, Nat.div_mul_cancel hd]
  unfold f64Try
  simp only [he, BEq.rfl]
  split
  · simp
  · simp

/-- A number is written without a point exactly if it is an integer. -/
theorem search_int {v : Nat} (hv : Bits53 v) (hl : v < 2 ^ 2098) : (f64Search v 1383 0).2 = 0 ↔ 2 ^ 1074 ∣ v := by
  constructor
  · intro h
    have := f64Search_round hv hl 1383 0
    rw [h] at this
    exact round_int this
  · intro h
    have := search_le (f64Try_int hv hl h) 1383 0 (by omega) (by omega)
    omega

theorem decimalText_int (num : Nat) : decimalText num 0 = Nat.toDigits 10 num := rfl

/-- What the printer writes for a number: digits, or digits with a point between them. -/
theorem f64Display_some {v : Nat} (hv : Bits53 v) (hl : v < 2 ^ 2098) :
    (2 ^ 1074 ∣ v ∧ f64Display (some v) ≠ [] ∧ ∀ c ∈ f64Display (some v), c.isDigit = true) ∨
    (¬ 2 ^ 1074 ∣ v ∧ ∃ ds fs, f64Display (some v) = ds ++ c!"." ++ fs ∧ ds ≠ [] ∧ fs ≠ [] ∧
      ∀ c ∈ ds ++ fs, c.isDigit = true) := by
  obtain ⟨num, scale, hd, hi⟩ : ∃ num scale, f64Display (some v) = decimalText num scale ∧ (scale = 0 ↔ 2 ^ 1074 ∣ v) :=
    ⟨_, _, rfl, search_int hv hl⟩
  rw [hd]
  by_cases h : scale = 0
  · refine .inl ⟨hi.1 h, ?_⟩
    subst h
    rw [decimalText_int]
    exact ⟨(digitsNat_toDigits num).2, fun c hc => isDigit_toDigits hc⟩
  · refine .inr ⟨fun h' => h (hi.2 h'), _, _, decimalText_point h, (digitsNat_toDigits _).2, ?_, ?_⟩
    · obtain ⟨-, h2, -⟩ := fracText_props (num := num) h
      intro h'
      rw [h'] at h2
      exact h h2.symm
    · intro c hc
      rcases List.mem_append.1 hc with hc | hc
      · exact isDigit_toDigits hc
      · exact (fracText_props h).2.2 c hc

theorem half_le {n a b d : Nat} (hab : b < a) (hd : 0 < d) (h : distance n (a * d) ≤ distance n (b * d)) :
    (a + b) * d ≤ 2 * n ∧ ((a + b) * d = 2 * n → distance n (a * d) = distance n (b * d)) := by
  have : b * d < a * d := Nat.mul_lt_mul_of_pos_right hab hd
  rw [Nat.add_mul]
  unfold distance at *
  omega

theorem le_half {n a b d : Nat} (hab : b < a) (hd : 0 < d) (h : distance n (b * d) ≤ distance n (a * d)) :
    2 * n ≤ (a + b) * d ∧ ((a + b) * d = 2 * n → distance n (b * d) = distance n (a * d)) := by
  have : b * d < a * d := Nat.mul_lt_mul_of_pos_right hab hd
  rw [Nat.add_mul]
  unfold distance at *
  omega

theorem no_tie {a b : Nat} (hab : b < a) (h1 : 2 * distance a b ∣ a) (h2 : 2 * distance b a ∣ b) : False := by
  have e1 : distance a b = a - b := by unfold distance; omega
  have e2 : distance b a = a - b := by unfold distance; omega
  rw [e1] at h1
  rw [e2] at h2
  have h3 := Nat.dvd_sub h1 h2
  have := Nat.le_of_dvd (by omega) h3
  omega

theorem f64Round_mono {n1 d1 n2 d2 v1 v2 : Nat} (hd1 : 0 < d1) (hd2 : 0 < d2) (hle : n1 * d2 ≤ n2 * d1)
    (h1 : f64Round n1 d1 = some v1) (h2 : f64Round n2 d2 = some v2) : v1 ≤ v2 := by
  apply Nat.le_of_not_lt
  intro hlt
  obtain ⟨a1, b1⟩ := f64Round_near hd1 h1 v2 (f64Round_valid hd2 h2).1
  obtain ⟨a2, b2⟩ := f64Round_near hd2 h2 v1 (f64Round_valid hd1 h1).1
  obtain ⟨c1, e1⟩ := half_le hlt hd1 a1
  obtain ⟨c2, e2⟩ := le_half hlt hd2 a2
  generalize 2 ^ 1074 = K at *
  have hK : n1 * K * d2 ≤ n2 * K * d1 := by
    have := Nat.mul_le_mul_right K hle
    nlinarith
  have m1 := Nat.mul_le_mul_right d2 c1
  have m2 := Nat.mul_le_mul_right d1 c2
  have hc : (v1 + v2) * d1 * d2 = (v1 + v2) * d2 * d1 := by ring
  have k1 : (v1 + v2) * d1 * d2 = 2 * (n1 * K) * d2 := by nlinarith
  have k2 : (v1 + v2) * d2 * d1 = 2 * (n2 * K) * d1 := by nlinarith
  have k1' := Nat.eq_of_mul_eq_mul_right hd2 k1
  have k2' := Nat.eq_of_mul_eq_mul_right hd1 k2
  exact no_tie hlt (b1 (e1 k1') (by omega)) (b2 (e2 k2') (by omega))

/-- The numbers that are rounded to `v` are those of an interval. -/
theorem f64Round_between {n1 d1 n d n2 d2 v : Nat} (hd1 : 0 < d1) (hd : 0 < d) (hd2 : 0 < d2) (hl : n1 * d ≤ n * d1)
    (hr : n * d2 ≤ n2 * d) (h1 : f64Round n1 d1 = some v) (h2 : f64Round n2 d2 = some v) : f64Round n d = some v := by
  cases h : f64Round n d with
  | none =>
    rw [f64Round_inf n hd] at h
    have h3 : f64Round n2 d2 = none := by
      rw [f64Round_inf n2 hd2]
      generalize 2 ^ 2098 - 2 ^ 2044 = B at *
      generalize 2 ^ 1074 = K at *
      have i1 := Nat.mul_le_mul_right d2 h
      have i2 := Nat.mul_le_mul_right K hr
      refine Nat.le_of_mul_le_mul_right ?_ hd
      nlinarith
    rw [h3] at h2
    cases h2
  | some w =>
    have i1 := f64Round_mono hd1 hd hl h1 h
    have i2 := f64Round_mono hd hd2 hr h h2
    rw [show w = v by omega]

theorem search_scale (v fuel i : Nat) (h : i + fuel ≤ 1383) : (f64Search v fuel i).2 ≤ 1074 := by
  induction fuel generalizing i with
  | zero => exact Nat.le_refl _
  | succ fuel ih =>
    rw [f64Search_succ]
    cases ht : f64Try v i with
    | none => exact ih (i + 1) (by omega)
    | some a =>
      show i - 309 ≤ 1074
      omega

/-- If a number with `k` digits behind the point is read as `v` the search is over at the latest there. -/
theorem f64Try_of {v num k : Nat} (h : f64Round num (10 ^ k) = some v) : f64Try v (309 + k) ≠ none := by
  have hk : 0 < 10 ^ k := Nat.pow_pos (by omega)
  obtain ⟨hv, hl⟩ := f64Round_valid hk h
  have hK : 0 < 2 ^ 1074 := Nat.pow_pos (by omega)
  have hx : f64Round v (2 ^ 1074) = some v := f64Round_exact hv hl hK rfl
  have e1 : 309 + k - 309 = k := by omega
  have e2 : 309 - (309 + k) = 0 := by omega
  have hlow : v * 10 ^ k / 2 ^ 1074 * 2 ^ 1074 ≤ v * 10 ^ k := Nat.div_mul_le_self _ _
  have hup : v * 10 ^ k ≤ (v * 10 ^ k / 2 ^ 1074 + 1) * 2 ^ 1074 := by
    rw [Nat.mul_comm (_ + 1)]
    exact Nat.le_of_lt (Nat.lt_mul_div_succ _ hK)
  unfold f64Try
  simp only [e1, e2, Nat.pow_zero, Nat.mul_one]
  generalize v * 10 ^ k / 2 ^ 1074 = a at hlow hup ⊢
  rcases Nat.lt_or_ge a num with hn | hn
  · have : f64Round (a + 1) (10 ^ k) = some v :=
      f64Round_between hK hk hk hup (Nat.mul_le_mul_right _ hn) hx h
    simp only [this, BEq.rfl]
    split
    · simp
    · split
      · simp
      · rename_i h1 h2
        simp [h2] at h1
  · have : f64Round a (10 ^ k) = some v :=
      f64Round_between hk hk hK (Nat.mul_le_mul_right _ hn) hlow h hx
    simp only [this, BEq.rfl]
    split
    · simp
    · simp

/-- No number with fewer digits behind the point is read as `v`. -/
theorem search_shortest {v num k : Nat} (h : f64Round num (10 ^ k) = some v) : (f64Search v 1383 0).2 ≤ k := by
  by_cases hk : k < 1074
  · have := search_le (f64Try_of h) 1383 0 (by omega) (by omega)
    omega
  · have := search_scale v 1383 0 (by omega)
    omega

theorem search_some (v fuel i : Nat) : f64Search v fuel i = (v * 5 ^ 1074, 1074) ∨
    ∃ j a, f64Try v j = some a ∧ f64Search v fuel i = (a * 10 ^ (309 - j), j - 309) := by
  induction fuel generalizing i with
  | zero => exact .inl rfl
  | succ fuel ih =>
    rw [f64Search_succ]
    cases ht : f64Try v i with
    | none => exact ih (i + 1)
    | some a => exact .inr ⟨i, a, ht, rfl⟩

theorem near_floor {n u a r b : Nat} (hn : n = a * u + r) (hr : r < u) (hb : b ≤ a ∨ 2 * r ≤ u) :
    distance n (a * u) ≤ distance n (b * u) := by
  unfold distance
  rcases Nat.lt_or_ge a b with h | h
  · have : (a + 1) * u ≤ b * u := Nat.mul_le_mul_right _ h
    rw [Nat.add_mul] at this
    omega
  · have : b * u ≤ a * u := Nat.mul_le_mul_right _ h
    omega

theorem near_ceil {n u a r b : Nat} (hn : n = a * u + r) (hr : r < u) (hb : a < b ∨ u ≤ 2 * r) :
    distance n ((a + 1) * u) ≤ distance n (b * u) := by
  have e : (a + 1) * u = a * u + u := by rw [Nat.add_mul, Nat.one_mul]
  unfold distance
  rcases Nat.lt_or_ge a b with h | h
  · have : (a + 1) * u ≤ b * u := Nat.mul_le_mul_right _ h
    omega
  · have : b * u ≤ a * u := Nat.mul_le_mul_right _ h
    omega

theorem f64Try_nearest {v k a b : Nat} (h : f64Try v (309 + k) = some a) (hb : f64Round b (10 ^ k) = some v) :
    distance (v * 10 ^ k) (a * 2 ^ 1074) ≤ distance (v * 10 ^ k) (b * 2 ^ 1074) := by
  have hk : 0 < 10 ^ k := Nat.pow_pos (by omega)
  obtain ⟨hv, hl⟩ := f64Round_valid hk hb
  have hK : 0 < 2 ^ 1074 := Nat.pow_pos (by omega)
  have hx : f64Round v (2 ^ 1074) = some v := f64Round_exact hv hl hK rfl
  have e1 : 309 + k - 309 = k := by omega
  have e2 : 309 - (309 + k) = 0 := by omega
  have hlow : v * 10 ^ k / 2 ^ 1074 * 2 ^ 1074 ≤ v * 10 ^ k := Nat.div_mul_le_self _ _
  have hup : v * 10 ^ k ≤ (v * 10 ^ k / 2 ^ 1074 + 1) * 2 ^ 1074 := by
    rw [Nat.mul_comm (_ + 1)]
    exact Nat.le_of_lt (Nat.lt_mul_div_succ _ hK)
  have hn : v * 10 ^ k = v * 10 ^ k / 2 ^ 1074 * 2 ^ 1074 + v * 10 ^ k % 2 ^ 1074 := by
    rw [Nat.mul_comm (_ / _)]
    exact (Nat.div_add_mod _ _).symm
  have hr : v * 10 ^ k % 2 ^ 1074 < 2 ^ 1074 := Nat.mod_lt _ hK
  unfold f64Try at h
  simp only [e1, e2, Nat.pow_zero, Nat.mul_one] at h
  have hf : b ≤ v * 10 ^ k / 2 ^ 1074 → f64Round (v * 10 ^ k / 2 ^ 1074) (10 ^ k) = some v := fun hb' =>
    f64Round_between hk hk hK (Nat.mul_le_mul_right _ hb') hlow hb hx
  have hc : v * 10 ^ k / 2 ^ 1074 < b → f64Round (v * 10 ^ k / 2 ^ 1074 + 1) (10 ^ k) = some v := fun hb' =>
    f64Round_between hK hk hk hup (Nat.mul_le_mul_right _ hb') hx hb
  generalize v * 10 ^ k / 2 ^ 1074 = q at *
  generalize v * 10 ^ k % 2 ^ 1074 = r at *
  split at h
  · rename_i hi
    rw [← Option.some.inj h]
    refine near_ceil hn hr ?_
    rcases Nat.lt_or_ge q b with hq | hq
    · exact .inl hq
    · simp [hf hq] at hi
      exact .inr hi.2
  · rename_i hi
    split at h
    · rw [← Option.some.inj h]
      refine near_floor hn hr ?_
      rcases Nat.lt_or_ge q b with hq | hq
      · simp [hc hq] at hi
        exact .inr (Nat.le_of_lt hi.2)
      · exact .inl hq
    · cases h

/-- Of the numbers with as many digits behind the point that are read as `v` none is nearer to `v`. -/
theorem search_nearest {v b : Nat} (hb : f64Round b (10 ^ (f64Search v 1383 0).2) = some v)
    (hs : (f64Search v 1383 0).2 ≠ 0) :
    distance (v * 10 ^ (f64Search v 1383 0).2) ((f64Search v 1383 0).1 * 2 ^ 1074) ≤
      distance (v * 10 ^ (f64Search v 1383 0).2) (b * 2 ^ 1074) := by
  rcases search_some v 1383 0 with h | ⟨j, a, ht, h⟩
  · rw [h]
    have : v * 10 ^ 1074 = v * 5 ^ 1074 * 2 ^ 1074 := by rw [Nat.mul_assoc, ← Nat.mul_pow]
    rw [show distance (v * 10 ^ 1074) (v * 5 ^ 1074 * 2 ^ 1074) = 0 by rw [this]; unfold distance; omega]
    exact Nat.zero_le _
  · rw [h] at hb hs ⊢
    simp only at hb hs ⊢
    obtain ⟨k, rfl⟩ : ∃ k, j = 309 + k := ⟨j - 309, by omega⟩
    have e1 : 309 + k - 309 = k := by omega
    have e2 : 309 - (309 + k) = 0 := by omega
    rw [e1] at hb ⊢
    rw [e2, Nat.pow_zero, Nat.mul_one]
    exact f64Try_nearest ht hb

theorem decVal_eq (ds : Text) : decVal ds = digitsNat ds := by
  induction ds with
  | nil => rfl
  | cons c cs ih =>
    rw [← List.singleton_append, digitsNat_append, ← ih]
    simp [decVal, digitsNat]

theorem fromStr_literal {ds fs : Text} (h : ∀ c ∈ ds ++ fs, c.isDigit = true) :
    f64FromStr (ds ++ c!"." ++ fs) = f64Round (decVal (ds ++ fs)) (10 ^ fs.length) := by
  unfold f64FromStr
  have hne : ds ++ c!"." ++ fs ≠ c!"inf" := by
    intro h'
    have : '.' ∈ c!"inf" := by
      rw [← h']
      simp
    simp at this
  rw [if_neg hne, splitPoint_point (fun c hc => h c (by simp [hc])), decVal_eq]

end Pico
