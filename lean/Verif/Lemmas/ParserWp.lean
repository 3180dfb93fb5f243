import Verif.Model.Parser
/-!
# Reasoning about parser methods

`Wp m toks pos Q E`: running `m` at `pos` ends with an `Ok` satisfying `Q`, an `Err` satisfying `E`, or an
abort; it never runs out of fuel.
-/
namespace Pico
open P

def Wp {α : Type} (m : P α) (toks : List TokSpan) (pos : Nat) (Q : α → Nat → Prop)
    (E : PErr → Nat → Prop) : Prop :=
  match m toks pos with
  | .ok a p => Q a p
  | .err e p => E e p
  | .panic _ => True
  | .oof => False

variable {α β σ : Type} {toks : List TokSpan} {pos : Nat}

theorem Wp.mono {m : P α} {Q Q' : α → Nat → Prop} {E E' : PErr → Nat → Prop} (h : Wp m toks pos Q E)
    (hQ : ∀ a p, Q a p → Q' a p) (hE : ∀ e p, E e p → E' e p) : Wp m toks pos Q' E' := by
  unfold Wp at *
  cases hm : m toks pos with
  | ok a p => rw [hm] at h; exact hQ _ _ h
  | err e p => rw [hm] at h; exact hE _ _ h
  | panic p => trivial
  | oof => rw [hm] at h; exact h

theorem Wp.bind {m : P α} {f : α → P β} {Q : β → Nat → Prop} {E : PErr → Nat → Prop}
    (h : Wp m toks pos (fun a p => Wp (f a) toks p Q E) E) : Wp (m >>= f) toks pos Q E := by
  show Wp (P.bnd m f) toks pos Q E
  unfold Wp P.bnd at *
  cases hm : m toks pos with
  | ok a p => rw [hm] at h; exact h
  | err e p => rw [hm] at h; exact h
  | panic p => trivial
  | oof => rw [hm] at h; exact h

theorem Wp.pure {a : α} {Q : α → Nat → Prop} {E : PErr → Nat → Prop} (h : Q a pos) :
    Wp (pure a) toks pos Q E := h

theorem Wp.iteTrue {m m' : P α} {Q : α → Nat → Prop} {E : PErr → Nat → Prop}
    (h : Wp m toks pos Q E) : Wp (if true = true then m else m') toks pos Q E := h

theorem Wp.iteFalse {m m' : P α} {Q : α → Nat → Prop} {E : PErr → Nat → Prop}
    (h : Wp m' toks pos Q E) : Wp (if false = true then m else m') toks pos Q E := h

theorem Wp.ite {c : Prop} [Decidable c] {m m' : P α} {Q : α → Nat → Prop} {E : PErr → Nat → Prop}
    (h : c → Wp m toks pos Q E) (h' : ¬c → Wp m' toks pos Q E) :
    Wp (if c then m else m') toks pos Q E := by
  by_cases hc : c
  · rw [if_pos hc]; exact h hc
  · rw [if_neg hc]; exact h' hc

theorem Wp.ret {a : α} {Q : α → Nat → Prop} {E : PErr → Nat → Prop} (h : Q a pos) :
    Wp (P.ret a) toks pos Q E := h

theorem Wp.fail {e : PErr} {Q : α → Nat → Prop} {E : PErr → Nat → Prop} (h : E e pos) :
    Wp (P.fail e) toks pos Q E := h

theorem Wp.errHere {ts : List Token} {Q : α → Nat → Prop} {E : PErr → Nat → Prop}
    (h : E ⟨ts, pos⟩ pos) : Wp (P.errHere ts) toks pos Q E := h

theorem Wp.abort {p : Panic} {Q : α → Nat → Prop} {E : PErr → Nat → Prop} :
    Wp (P.abort p) toks pos Q E := trivial

theorem Wp.getPos {Q : Nat → Nat → Prop} {E : PErr → Nat → Prop} (h : Q pos pos) :
    Wp P.getPos toks pos Q E := h

theorem Wp.setPos {q : Nat} {Q : Unit → Nat → Prop} {E : PErr → Nat → Prop} (h : Q () q) :
    Wp (P.setPos q) toks pos Q E := h

theorem Wp.tokCount {Q : Nat → Nat → Prop} {E : PErr → Nat → Prop} (h : Q toks.length pos) :
    Wp P.tokCount toks pos Q E := h

theorem Wp.attempt {m : P α} {Q : Except PErr α → Nat → Prop} {E : PErr → Nat → Prop}
    (h : Wp m toks pos (fun a p => Q (.ok a) p) (fun e p => Q (.error e) p)) :
    Wp (P.attempt m) toks pos Q E := by
  unfold Wp P.attempt at *
  cases hm : m toks pos with
  | ok a p => rw [hm] at h; exact h
  | err e p => rw [hm] at h; exact h
  | panic p => trivial
  | oof => rw [hm] at h; exact h

theorem Wp.peek {Q : Option TokSpan → Nat → Prop} {E : PErr → Nat → Prop}
    (h1 : ∀ t, toks[pos]? = some t → pos < toks.length → Q (some t) pos) (h2 : toks.length ≤ pos → Q none pos) :
    Wp P.peek toks pos Q E := by
  unfold Wp P.peek
  cases ht : toks[pos]? with
  | some t => exact h1 t ht (List.getElem?_eq_some_iff.1 ht).1
  | none => exact h2 (List.getElem?_eq_none_iff.1 ht)

theorem Wp.peekTok {Q : Option Token → Nat → Prop} {E : PErr → Nat → Prop}
    (h1 : ∀ t, pos < toks.length → Q (some t) pos) (h2 : Q none pos) :
    Wp P.peekTok toks pos Q E := by
  unfold Wp P.peekTok
  cases ht : toks[pos]? with
  | some t => exact h1 _ (List.getElem?_eq_some_iff.1 ht).1
  | none => exact h2

theorem Wp.eat {k : Kw} {Q : Option TokSpan → Nat → Prop} {E : PErr → Nat → Prop}
    (h1 : ∀ t, pos < toks.length → Q (some t) (pos + 1)) (h2 : Q none pos) :
    Wp (P.eat k) toks pos Q E := by
  unfold Wp P.eat
  cases ht : toks[pos]? with
  | some t =>
    by_cases hk : t.tok = .k k
    · simp only [hk, if_true]; exact h1 t (List.getElem?_eq_some_iff.1 ht).1
    · simp only [hk, if_false]; exact h2
  | none => exact h2

theorem Wp.eats {k : Kw} {Q : Bool → Nat → Prop} {E : PErr → Nat → Prop}
    (h1 : pos < toks.length → Q true (pos + 1)) (h2 : Q false pos) :
    Wp (P.eats k) toks pos Q E :=
  Wp.bind (Wp.eat (fun _ h => h1 h) h2)

theorem Wp.nextIs {k : Kw} {Q : Bool → Nat → Prop} {E : PErr → Nat → Prop}
    (h1 : pos < toks.length → Q true pos) (h2 : Q false pos) : Wp (P.nextIs k) toks pos Q E := by
  unfold Wp P.nextIs
  cases ht : toks[pos]? with
  | some t =>
    by_cases hk : t.tok = .k k
    · simpa [hk] using h1 (List.getElem?_eq_some_iff.1 ht).1
    · have hb : (some t.tok == some (Token.k k)) = false := by simpa using hk
      simp only [Option.map_some, hb]
      exact h2
  | none => exact h2

theorem Wp.expect {k : Kw} {Q : TokSpan → Nat → Prop} {E : PErr → Nat → Prop}
    (h1 : ∀ t, pos < toks.length → Q t (pos + 1)) (h2 : ∀ e, E e pos) :
    Wp (P.expect k) toks pos Q E :=
  Wp.bind (Wp.eat h1 (h2 _))

theorem Wp.eatString {Q : Option (Text × Span) → Nat → Prop} {E : PErr → Nat → Prop}
    (h1 : ∀ t, pos < toks.length → Q (some t) (pos + 1)) (h2 : Q none pos) :
    Wp P.eatString toks pos Q E := by
  unfold Wp P.eatString
  split
  · rename_i heq
    split at heq
    · rename_i hs
      cases heq
      exact h1 _ (List.getElem?_eq_some_iff.1 hs).1
    · cases heq; exact h2
  · rename_i heq; split at heq <;> cases heq
  · trivial
  · rename_i heq; split at heq <;> cases heq

theorem Wp.eatVariable {Q : Option (Text × Span) → Nat → Prop} {E : PErr → Nat → Prop}
    (h1 : ∀ t, pos < toks.length → Q (some t) (pos + 1)) (h2 : Q none pos) :
    Wp P.eatVariable toks pos Q E := by
  unfold Wp P.eatVariable
  split
  · rename_i heq
    split at heq
    · rename_i hs
      cases heq
      exact h1 _ (List.getElem?_eq_some_iff.1 hs).1
    · cases heq; exact h2
  · rename_i heq; split at heq <;> cases heq
  · trivial
  · rename_i heq; split at heq <;> cases heq

theorem Wp.eatEncaps {Q : Option (Text × Span) → Nat → Prop} {E : PErr → Nat → Prop}
    (h1 : ∀ t, pos < toks.length → Q (some t) (pos + 1)) (h2 : Q none pos) :
    Wp P.eatEncaps toks pos Q E := by
  unfold Wp P.eatEncaps
  split
  · rename_i heq
    split at heq
    · rename_i hs
      cases heq
      exact h1 _ (List.getElem?_eq_some_iff.1 hs).1
    · cases heq; exact h2
  · rename_i heq; split at heq <;> cases heq
  · trivial
  · rename_i heq; split at heq <;> cases heq

theorem Wp.expectString {Q : Text × Span → Nat → Prop} {E : PErr → Nat → Prop}
    (h1 : ∀ t, pos < toks.length → Q t (pos + 1)) (h2 : ∀ e, E e pos) :
    Wp P.expectString toks pos Q E :=
  Wp.bind (Wp.eatString h1 (h2 _))

theorem Wp.expectVariable {Q : Text × Span → Nat → Prop} {E : PErr → Nat → Prop}
    (h1 : ∀ t, pos < toks.length → Q t (pos + 1)) (h2 : ∀ e, E e pos) :
    Wp P.expectVariable toks pos Q E :=
  Wp.bind (Wp.eatVariable h1 (h2 _))

theorem Wp.tokBack {n : Nat} {Q : TokSpan → Nat → Prop} {E : PErr → Nat → Prop}
    (h1 : ∀ t, Q t pos) : Wp (P.tokBack n) toks pos Q E := by
  unfold Wp P.tokBack
  by_cases h : pos < n + 1
  · simp [h]
  · simp only [h, if_false]
    cases toks[pos - 1 - n]? with
    | some t => exact h1 t
    | none => trivial

theorem Wp.lastEnd {Q : Nat → Nat → Prop} {E : PErr → Nat → Prop}
    (h1 : ∀ t, Q t pos) : Wp P.lastEnd toks pos Q E :=
  Wp.bind (Wp.tokBack fun _ => h1 _)

theorem Wp.subP {a b : Nat} {Q : Nat → Nat → Prop} {E : PErr → Nat → Prop}
    (h1 : b ≤ a → Q (a - b) pos) : Wp (P.subP a b) toks pos Q E := by
  unfold P.subP
  by_cases h : b ≤ a
  · simp only [h, if_true]; exact h1 h
  · simp only [h, if_false]; trivial

/-- Loops: a round that continues starts inside the tokens and moves forward. -/
theorem Wp.loop {step : σ → P (σ ⊕ α)} {s : σ} (I : σ → Nat → Prop) {Q : α → Nat → Prop}
    {E : PErr → Nat → Prop} (hI : I s pos)
    (hstep : ∀ s q, I s q → Wp (step s) toks q
      (fun x p => match x with
        | .inl s' => q < toks.length ∧ q < p ∧ I s' p
        | .inr a => Q a p) E) :
    Wp (P.loop step s) toks pos Q E := by
  have key : ∀ n s q, I s q → toks.length - q + 1 ≤ n → Wp (P.loopN step n s) toks q Q E := by
    intro n
    induction n with
    | zero => intro s q _ h; omega
    | succ n ih =>
      intro s q hs hn
      refine Wp.bind ((hstep s q hs).mono ?_ (fun _ _ h => h))
      intro x p hx
      cases x with
      | inl s' => exact ih _ _ hx.2.2 (by omega)
      | inr a => exact hx
  exact key _ _ _ hI (by omega)

end Pico
