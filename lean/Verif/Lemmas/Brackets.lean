import Verif.Spec.Brackets
/-!
# Counting brackets
-/
namespace Pico

/-- What a token adds to the number of open brackets. -/
def Bracket.w (b : Bracket) (t : Token) : Int := (if b.opens t then 1 else 0) - (if b.closes t then 1 else 0)

/-- The number of brackets left open. -/
def Bracket.tot (b : Bracket) : List Token → Int
  | [] => 0
  | t :: ts => b.w t + b.tot ts

/-- The least such number on the way. -/
def Bracket.low (b : Bracket) : List Token → Int
  | [] => 0
  | t :: ts => min 0 (b.w t + b.low ts)

theorem Bracket.tot_append (b : Bracket) (ts us : List Token) : b.tot (ts ++ us) = b.tot ts + b.tot us := by
  induction ts with
  | nil => simp [Bracket.tot]
  | cons t ts ih => simp only [List.cons_append, Bracket.tot, ih]; omega

theorem Bracket.low_append (b : Bracket) (ts us : List Token) : b.low (ts ++ us) = min (b.low ts) (b.tot ts + b.low us) := by
  induction ts with
  | nil =>
    simp only [List.nil_append, Bracket.low, Bracket.tot]
    have : b.low us ≤ 0 := by cases us <;> simp only [Bracket.low] <;> omega
    omega
  | cons t ts ih => simp only [List.cons_append, Bracket.low, Bracket.tot, ih]; omega

theorem Bracket.low_tot (b : Bracket) (ts : List Token) : b.low ts ≤ b.tot ts := by
  induction ts with
  | nil => exact Int.le_refl 0
  | cons t ts ih => simp only [Bracket.low, Bracket.tot]; omega

/-- The form of `NoStray` the proofs use. -/
def Nn (ts : List Token) : Prop := ∀ b : Bracket, 0 ≤ b.low ts

theorem Nn.apply {ts : List Token} (h : Nn ts) (b : Bracket) : 0 ≤ b.low ts := h b

theorem Nn.tot {ts : List Token} (h : Nn ts) (b : Bracket) : 0 ≤ b.tot ts := Int.le_trans (h b) (b.low_tot ts)

theorem Bracket.tot_count (b : Bracket) (ts : List Token) :
    b.tot ts = (ts.countP b.opens : Int) - (ts.countP b.closes : Int) := by
  induction ts with
  | nil => rfl
  | cons t ts ih =>
    simp only [Bracket.tot, ih, Bracket.w, List.countP_cons]
    split <;> split <;> simp <;> omega

theorem Nn.noStray {ts : List Token} (h : Nn ts) : NoStray ts := by
  rintro b us vs rfl
  have h1 := h b
  rw [b.low_append] at h1
  have h2 := b.low_tot us
  have h3 := b.tot_count us
  omega

theorem NoStray.nn {ts : List Token} (h : NoStray ts) : Nn ts := by
  intro b
  have key : ∀ us vs, ts = us ++ vs → 0 ≤ b.tot us + b.low vs := by
    intro us vs
    induction vs generalizing us with
    | nil =>
      intro e
      have := h b us [] e
      have := b.tot_count us
      simp only [Bracket.low]
      omega
    | cons v vs ih =>
      intro e
      have h1 := ih (us ++ [v]) (by simpa using e)
      have h2 := h b us (v :: vs) e
      have h3 := b.tot_count us
      simp only [Bracket.low, b.tot_append, Bracket.tot] at h1 ⊢
      omega
  have := key [] ts rfl
  simpa [Bracket.tot] using this

theorem nn_iff {ts : List Token} : Nn ts ↔ NoStray ts := ⟨Nn.noStray, NoStray.nn⟩

theorem Nn.nil : Nn [] := fun _ => Int.le_refl 0

theorem Nn.app {ts us : List Token} (h : Nn ts) (h' : Nn us) : Nn (ts ++ us) := by
  intro b
  have h1 := h b
  have h2 := h.tot b
  have h3 := h' b
  rw [b.low_append]
  omega

theorem Nn.left {ts us : List Token} (h : Nn (ts ++ us)) : Nn ts := by
  intro b
  have := h b
  rw [b.low_append] at this
  omega

/-- A token that closes nothing. -/
theorem Nn.one {t : Token} (h : ∀ b : Bracket, b.closes t = false) : Nn [t] := by
  intro b
  simp only [Bracket.low, Bracket.w, h b, Bool.false_eq_true, if_false]
  split <;> omega

end Pico
