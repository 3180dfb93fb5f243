import Verif.Lemmas.LayUtf8
import Verif.Lemmas.TokNext
/-! # What has been read: basics -/
namespace Pico
open T

/-- From `t` the text `w` has been read within one lexical state; `r` is left. -/
structure Lay (t : Tz) (w : Text) (t' : Tz) (r : Text) : Prop where
  src : At t (w ++ r)
  mv : Moved t t' r

theorem Moved.refl {t : Tz} {r : Text} (h : At t r) : Moved t t r := ⟨h, rfl, rfl, rfl, rfl⟩

theorem Lay.refl {t : Tz} {r : Text} (h : At t r) : Lay t [] t r := ⟨h, .refl h⟩

theorem Lay.adv {t : Tz} {w r : Text} (h : At t (w ++ r)) : Lay t w (t.adv (byteLen w)) r := ⟨h, .adv h⟩

theorem Lay.trans {t u v : Tz} {a b r s : Text} (h : Lay t a u s) (h' : Lay u b v r) : Lay t (a ++ b) v r := by
  have e := h.mv.at'.unique h'.src
  subst e
  exact ⟨by rw [List.append_assoc]; exact h.src, h.mv.trans h'.mv⟩

theorem Lay.left {t u : Tz} {a r s : Text} (h : Lay t a u s) (h' : At u r) : s = r := h.mv.at'.unique h'

theorem Lay.nextLine {t u : Tz} {a s : Text} (h : Lay t a u s) : Lay t a { u with st := u.st.nextLine } s :=
  ⟨h.src, h.mv.at', h.mv.code, h.mv.state, h.mv.stack, h.mv.queue⟩

theorem Lay.pos {t u : Tz} {a r : Text} (h : Lay t a u r) : u.st.srcPos = t.st.srcPos + byteLen a := by
  have h1 := h.src.total
  have h2 := h.mv.at'.total
  rw [h.mv.code] at h2
  rw [byteLen_append] at h1
  omega

theorem Lay.ws {t : Tz} {w r : Text} (h : At t (w ++ r)) (hw : w.all isBlank = true) : Lay t w (t.ws w) r := ⟨h, .ws h hw⟩

section
variable {α : Type} {U B : Prop} {t : Tz}

theorem Twp.and {m : T α} {Q Q' : α → Tz → Prop} {E E' : SyntaxErr → Tz → Prop} {U' B' : Prop}
    (h : Twp U B m t Q E) (h' : Twp U' B' m t Q' E') :
    Twp (U ∧ U') (B ∧ B') m t (fun a t' => Q a t' ∧ Q' a t') (fun e t' => E e t' ∧ E' e t') := by
  unfold Twp at *
  cases hm : m t with
  | ok a t' => rw [hm] at h h'; exact ⟨h, h'⟩
  | err e t' => rw [hm] at h h'; exact ⟨h, h'⟩
  | panic p => rw [hm] at h h'; exact fun hp => ⟨h hp, h' hp⟩
  | oof => rw [hm] at h h'; exact ⟨h, h'⟩

theorem Twp.elim {m : T α} {Q : α → Tz → Prop} {E : SyntaxErr → Tz → Prop} (h : Twp U B m t Q E) {a : α} {t' : Tz}
    (hm : m t = .ok a t') : Q a t' := by
  unfold Twp at h; rw [hm] at h; exact h

/-- The text up to the first character satisfying `p`. -/
theorem span_at (p : Char → Bool) (i : Text) :
    ∃ a b, i = a ++ b ∧ (∀ c ∈ a, p c = false) ∧ ∀ c, b.head? = some c → p c = true := by
  induction i with
  | nil => exact ⟨[], [], rfl, nofun, nofun⟩
  | cons c i ih =>
    cases hc : p c with
    | true => exact ⟨[], c :: i, rfl, nofun, fun d hd => by cases hd; exact hc⟩
    | false =>
      obtain ⟨a, b, rfl, ha, hb⟩ := ih
      exact ⟨c :: a, b, rfl, fun d hd => by
        rcases List.mem_cons.1 hd with rfl | hd
        · exact hc
        · exact ha d hd, hb⟩

theorem position_of_span {p : Char → Bool} {a b : Text} (ha : ∀ c ∈ a, p c = false) (hb : ∀ c, b.head? = some c → p c = true) :
    position p (a ++ b) = if b = [] then none else some a.length := by
  rw [position_append p a b ha]
  cases b with
  | nil => rfl
  | cons c b => simp [position, hb c rfl]

theorem tw_span {p : Char → Bool} {i : Text} {d : Nat} {Q : Text → Tz → Prop} {E : SyntaxErr → Tz → Prop}
    (hi : At t i) (hd : i.length ≤ d)
    (h : ∀ a b, i = a ++ b → (∀ c ∈ a, p c = false) → (∀ c, b.head? = some c → p c = true) →
      Lay t a (t.adv (byteLen a)) b → Q a (t.adv (byteLen a))) :
    Twp U B (advanceChars ((position p i).getD d)) t Q E := by
  obtain ⟨a, b, rfl, ha, hb⟩ := span_at p i
  refine tw_advChars hi fun _ => ?_
  have : (a ++ b).take ((position p (a ++ b)).getD d) = a := by
    rw [position_of_span ha hb]
    by_cases hbn : b = []
    · subst hbn
      rw [if_pos rfl, Option.getD_none, List.append_nil, List.take_of_length_le]
      simpa using hd
    · rw [if_neg hbn]
      simp
  rw [this]
  exact h a b rfl ha hb (.adv hi)

theorem endsIdentifier_of {r : Text} (h : ∀ c, r.head? = some c → isLabelChar c = false) : endsIdentifier r = true := by
  cases r with
  | nil => rfl
  | cons c r =>
    have := h c rfl
    rw [isLabelChar_iff, Bool.or_eq_false_iff] at this
    obtain ⟨h1, h2⟩ := this
    simp only [endsIdentifier, h1, Bool.not_false, Bool.true_and, Bool.or_eq_true, decide_eq_true_eq]
    simp only [Bool.and_eq_false_iff, decide_eq_false_iff_not] at h2
    omega

theorem isLabel_of {w : Text} (hne : w ≠ []) (hd : ∀ c, w.head? = some c → inRange '0' '9' c = false)
    (hw : ∀ c ∈ w, isLabelChar c = true) : IsLabel w := by
  refine ⟨hne, fun c hc => by rw [isDigit_iff]; exact hd c hc, fun c hc => ?_⟩
  have := hw c hc
  rw [isLabelChar_iff, Bool.or_eq_true] at this
  simpa using this

theorem IsLabel.lab {w : Text} (h : IsLabel w) : ∀ c ∈ w, isLabelChar c = true := by
  intro c hc
  rw [isLabelChar_iff, Bool.or_eq_true]
  simpa using h.2.2 c hc

/-- What a label is. -/
theorem label_lay {i : Text} {Q : Option (Text × Span) → Tz → Prop} {E : SyntaxErr → Tz → Prop} (hi : At t i)
    (hn : noIdentifier i → Q none t)
    (hs : ∀ w r, i = w ++ r → IsLabel w → endsIdentifier r = true → Lay t w (t.adv (byteLen w)) r →
      Q (some (w, mkSpan t.st.srcPos (t.st.srcPos + w.length))) (t.adv (byteLen w))) :
    Twp U B label t Q E := by
  obtain ⟨a, b, rfl, ha, hb⟩ := span_at (fun c => !isLabelChar c) i
  have hb' : ∀ c, b.head? = some c → isLabelChar c = false := fun c hc => by simpa using hb c hc
  have ha' : ∀ c ∈ a, isLabelChar c = true := fun c hc => by simpa using ha c hc
  cases a with
  | nil =>
    have hno : noIdentifier ([] ++ b) := .inl (endsIdentifier_of hb')
    exact Twp.of_ok (noIdentifier_label hi hno) (hn hno)
  | cons c a =>
    cases hd : inRange '0' '9' c with
    | true =>
      have hno : noIdentifier (c :: a ++ b) := .inr ⟨c, a ++ b, rfl, by rw [isDigit_iff]; exact hd⟩
      exact Twp.of_ok (noIdentifier_label hi hno) (hn hno)
    | false =>
      have hd' : ∀ d, (c :: a).head? = some d → inRange '0' '9' d = false := fun d h => by cases h; exact hd
      exact Twp.of_ok (label_some hi nofun ha' hd' hb')
        (hs _ _ rfl (isLabel_of nofun hd' ha') (endsIdentifier_of hb') (.adv hi))

end

end Pico
