import Verif.Lemmas.Unique
/-!
# Runs that do not fail

`Safe m t Q E`: running `m` in state `t` ends in `Q`, or in `E`, or runs out of fuel; it does not abort.
-/
namespace Pico
open T

def Safe {α : Type} (m : T α) (t : Tz) (Q : α → Tz → Prop) (E : SyntaxErr → Tz → Prop) : Prop :=
  match m t with
  | .ok a t' => Q a t'
  | .err e t' => E e t'
  | .panic _ => False
  | .oof => True

section
variable {α β : Type} {t : Tz} {Q : α → Tz → Prop} {E : SyntaxErr → Tz → Prop}

theorem Safe.of_ok {m : T α} {a : α} {t' : Tz} (h : m t = .ok a t') (hq : Q a t') : Safe m t Q E := by
  unfold Safe; rw [h]; exact hq

theorem Safe.of_err {m : T α} {e : SyntaxErr} {t' : Tz} (h : m t = .err e t') (hq : E e t') : Safe m t Q E := by
  unfold Safe; rw [h]; exact hq

theorem Safe.bind {m : T β} {f : β → T α} (h : Safe m t (fun b t' => Safe (f b) t' Q E) E) : Safe (m >>= f) t Q E := by
  unfold Safe at h ⊢
  rw [bind_apply]
  unfold T.bnd
  cases hm : m t with
  | ok a t' => rw [hm] at h; exact h
  | err e t' => rw [hm] at h; exact h
  | panic p => rw [hm] at h; exact h
  | oof => trivial

theorem Safe.pure {a : α} (h : Q a t) : Safe (pure a : T α) t Q E := h

theorem Safe.fail {e : SyntaxErr} (h : E e t) : Safe (fail e : T α) t Q E := h

theorem Safe.noFuel : Safe (noFuel : T α) t Q E := trivial

theorem Safe.cons {m : T α} {Q' : α → Tz → Prop} {E' : SyntaxErr → Tz → Prop} (h : Safe m t Q' E') (hQ : ∀ a t', Q' a t' → Q a t')
    (hE : ∀ e t', E' e t' → E e t') : Safe m t Q E := by
  unfold Safe at h ⊢
  cases hm : m t with
  | ok a t' => rw [hm] at h; exact hQ _ _ h
  | err e t' => rw [hm] at h; exact hE _ _ h
  | panic p => rw [hm] at h; exact h
  | oof => trivial

theorem Safe.orElse {m n : T α} (h : Safe m t Q (fun e t' => (e = .none → Safe n t' Q E) ∧ (e ≠ .none → E e t'))) :
    Safe (m <||> n) t Q E := by
  unfold Safe at h ⊢
  unfold T.orElse
  cases hm : m t with
  | ok a t' => rw [hm] at h; exact h
  | err e t' =>
    rw [hm] at h
    cases e with
    | none => exact h.1 rfl
    | unterminated w s => exact h.2 nofun
    | unknownCharacter s => exact h.2 nofun
  | panic p => rw [hm] at h; exact h
  | oof => trivial

theorem Safe.ite {c : Prop} [Decidable c] {m n : T α} (h1 : c → Safe m t Q E) (h2 : ¬c → Safe n t Q E) :
    Safe (if c then m else n) t Q E := by
  by_cases hc : c
  · rw [if_pos hc]; exact h1 hc
  · rw [if_neg hc]; exact h2 hc

/-- Together with what is known of the result. -/
theorem Safe.and {m : T α} {Q' : α → Tz → Prop} {E' : SyntaxErr → Tz → Prop} {U B : Prop} (h : Safe m t Q E) (h' : Twp U B m t Q' E') :
    Safe m t (fun a t' => Q a t' ∧ Q' a t') (fun e t' => E e t' ∧ E' e t') := by
  unfold Safe at *
  unfold Twp at h'
  cases hm : m t with
  | ok a t' => rw [hm] at h h'; exact ⟨h, h'⟩
  | err e t' => rw [hm] at h h'; exact ⟨h, h'⟩
  | panic p => rw [hm] at h; exact h
  | oof => trivial

theorem Safe.elim {m : T α} (h : Safe m t Q E) {a : α} {t' : Tz} (hm : m t = .ok a t') : Q a t' := by
  unfold Safe at h; rw [hm] at h; exact h

end

section
variable {t : Tz} {E : SyntaxErr → Tz → Prop}

theorem sf_input {i : Text} {Q : Text → Tz → Prop} (h : At t i) (hq : Q i t) : Safe input t Q E := .of_ok (input_at h) hq

theorem sf_inputPos {Q : Nat → Tz → Prop} (h : Q t.st.srcPos t) : Safe inputPos t Q E := h

theorem sf_subT {a b : Nat} {Q : Nat → Tz → Prop} (hle : b ≤ a) (h : Q (a - b) t) : Safe (subT a b) t Q E := by
  unfold subT
  rw [if_pos hle]
  exact h

theorem sf_advBytes {a b : Text} {n : Nat} {Q : Text → Tz → Prop} (h : At t (a ++ b)) (hn : n = byteLen a)
    (hq : Lay t a (t.adv (byteLen a)) b → Q a (t.adv (byteLen a))) : Safe (advanceBytes n) t Q E := by
  subst hn
  exact .of_ok (advanceBytes_at h) (hq (.adv h))

theorem sf_advChars {i : Text} {n : Nat} {Q : Text → Tz → Prop} (h : At t i)
    (hq : Lay t (i.take n) (t.adv (byteLen (i.take n))) (i.drop n) → Q (i.take n) (t.adv (byteLen (i.take n)))) :
    Safe (advanceChars n) t Q E := by
  unfold advanceChars
  refine .bind (sf_input h ?_)
  have h' : At t (i.take n ++ i.drop n) := by rw [List.take_append_drop]; exact h
  exact sf_advBytes h' rfl hq

theorem sf_advChars' {a b : Text} {n : Nat} {Q : Text → Tz → Prop} (h : At t (a ++ b)) (hn : n = a.length)
    (hq : Lay t a (t.adv (byteLen a)) b → Q a (t.adv (byteLen a))) : Safe (advanceChars n) t Q E := by
  subst hn
  refine sf_advChars h ?_
  rw [List.take_left, List.drop_left]
  exact hq

theorem sf_modSt {f : TState → TState} {Q : Unit → Tz → Prop} (hq : Q () { t with st := f t.st }) : Safe (modSt f) t Q E := hq

theorem sf_label {i : Text} {Q : Option (Text × Span) → Tz → Prop} (hi : At t i)
    (hn : noIdentifier i → Q none t)
    (hs : ∀ w r, i = w ++ r → IsLabel w → endsIdentifier r = true → Lay t w (t.adv (byteLen w)) r →
      Q (some (w, mkSpan t.st.srcPos (t.st.srcPos + w.length))) (t.adv (byteLen w))) : Safe label t Q E := by
  obtain ⟨a, b, rfl, ha, hb⟩ := span_at (fun c => !isLabelChar c) i
  have hb' : ∀ c, b.head? = some c → isLabelChar c = false := fun c hc => by simpa using hb c hc
  have ha' : ∀ c ∈ a, isLabelChar c = true := fun c hc => by simpa using ha c hc
  cases a with
  | nil =>
    have hno : noIdentifier ([] ++ b) := .inl (endsIdentifier_of hb')
    exact .of_ok (noIdentifier_label hi hno) (hn hno)
  | cons c a =>
    cases hd : inRange '0' '9' c with
    | true =>
      have hno : noIdentifier (c :: a ++ b) := .inr ⟨c, a ++ b, rfl, by rw [isDigit_iff]; exact hd⟩
      exact .of_ok (noIdentifier_label hi hno) (hn hno)
    | false =>
      have hd' : ∀ d, (c :: a).head? = some d → inRange '0' '9' d = false := fun d h => by cases h; exact hd
      exact .of_ok (label_some hi nofun ha' hd' hb')
        (hs _ _ rfl (isLabel_of nofun hd' ha') (endsIdentifier_of hb') (.adv hi))

/-! ### What stands in literals -/

theorem sf_escDone {x : Char} {r : Text} {bs : List Byte} {Q : List Byte → Tz → Prop} (h : At t ('\\' :: x :: r))
    (hq : Lay t ['\\', x] (t.adv (byteLen ['\\', x])) r → Q bs (t.adv (byteLen ['\\', x]))) : Safe (escDone bs) t Q E := by
  unfold escDone
  have h' : At t (['\\', x] ++ r) := h
  exact .bind (sf_advChars' h' rfl fun hl => .pure (hq hl))

theorem sf_sqEscape {bytes : List Byte} {x : Char} {r : Text} (h : At t ('\\' :: x :: r)) :
    Safe (strEscape bytes true) t (fun _ _ => True) (fun _ _ => False) := by
  unfold strEscape
  refine .bind (sf_input h ?_)
  simp only [Bool.not_true, Bool.false_and, Bool.false_eq_true, if_false, Bool.true_and, List.getElem?_cons_succ, List.getElem?_cons_zero]
  exact .ite (fun _ => sf_escDone h fun _ => trivial) fun _ => .ite (fun _ => sf_escDone h fun _ => trivial) fun _ => sf_escDone h fun _ => trivial

theorem DqEscape.len {e rest : Text} {v : List Nat} (h : DqEscape e v rest) : v.length ≤ byteLen e := by
  have one : ∀ c : Char, (utf8 [c]).length = c.utf8Size := by
    intro c; rw [utf8_one, encodeChar_length]
  have two : ∀ c : Char, (utf8 ['\\', c]).length = 1 + c.utf8Size := by
    intro c
    rw [show ['\\', c] = ['\\'] ++ [c] from rfl, utf8_append, List.length_append, one, one]
    rfl
  cases h with
  | known c v h =>
    rw [one]
    have : ∀ p ∈ dqEscapes, p.2.utf8Size = 1 := by decide
    have := this _ h
    simp only at this
    have := length_le_byteLen ['\\', c]
    simp only [List.length_cons, List.length_nil] at this
    omega
  | hex x ds hx hl hd =>
    have := length_le_byteLen ('\\' :: x :: ds)
    simp only [List.length_cons, List.length_nil] at this ⊢
    omega
  | other c h hx =>
    rw [two]
    simp [byteLen]
    exact Nat.le_refl _

theorem sf_dqEscape {bytes : List Byte} {e rest : Text} {v : List Nat} (h : At t (e ++ rest)) (he : DqEscape e v rest) (hr : rest ≠ []) :
    Safe (strEscape bytes false) t (fun _ _ => True) (fun _ _ => False) := by
  cases he with
  | known c v hc => exact .of_ok (strEscape_esc h hc bytes) trivial
  | hex x ds hx hl hd =>
    have h1 : At t ('\\' :: x :: (ds ++ rest)) := h
    unfold strEscape
    refine .bind (sf_input h1 ?_)
    obtain ⟨k, hk, hke⟩ : ∃ k, hexEnd ('\\' :: x :: (ds ++ rest)) = k ∧ k = ds.length + 1 := by
      refine ⟨_, rfl, ?_⟩
      unfold hexEnd
      rcases hl with hl | ⟨hl, hn⟩
      · obtain ⟨a, b, rfl⟩ : ∃ a b, ds = [a, b] := by
          rcases ds with _ | ⟨a, _ | ⟨b, _ | ⟨c, ds⟩⟩⟩ <;> simp at hl
          exact ⟨a, b, rfl⟩
        have ha := (hexDigit_class (hd a (by simp))).1
        have hb := (hexDigit_class (hd b (by simp))).1
        simp [ha, hb]
      · obtain ⟨a, rfl⟩ : ∃ a, ds = [a] := by
          rcases ds with _ | ⟨a, _ | ⟨b, ds⟩⟩ <;> simp at hl
          exact ⟨a, rfl⟩
        have ha := (hexDigit_class (hd a (by simp))).1
        cases rest with
        | nil => exact absurd rfl hr
        | cons b rest =>
          have hb : isAlnum b = false := by rw [isAlnum_iff]; exact hn b rfl
          simp [ha, hb]
    have hlen : 1 ≤ ds.length := by omega
    have hval : fromStrRadix 255 16 ds ≠ none := by
      unfold fromStrRadix
      rw [digitsVal_value (fun c hc => ⟨(hexDigit_class (hd c hc)).2.1, (hexDigit_class (hd c hc)).2.2⟩)]
      have : ds ≠ [] := by rintro rfl; simp at hlen
      have hv : ds.foldl (fun v c => v * 16 + digitValue c) 0 ≤ 255 := by
        have hdv : ∀ c ∈ ds, digitValue c < 16 := fun c hc => (hexDigit_class (hd c hc)).2.2
        rcases ds with _ | ⟨a, _ | ⟨b, _ | ⟨c, ds⟩⟩⟩
        · simp
        · have := hdv a (by simp)
          simp only [List.foldl_cons, List.foldl_nil]
          omega
        · have := hdv a (by simp)
          have := hdv b (by simp)
          simp only [List.foldl_cons, List.foldl_nil]
          omega
        · simp only [List.length_cons] at hl; omega
      cases ds with
      | nil => exact absurd rfl this
      | cons a ds =>
        simpa using hv
    have hi : (('\\' :: x :: (ds ++ rest)).take (k + 1)).drop 2 = ds := by
      rw [hke]
      simp
    rcases hx with rfl | rfl
    all_goals
      simp only [List.getElem?_cons_succ, List.getElem?_cons_zero]
      simp only [Bool.not_false, Bool.true_and, Bool.false_and, hk]
      simp only [show ('x' == 'n') = false by decide, show ('x' == 'r') = false by decide, show ('x' == 't') = false by decide,
        show ('x' == 'f') = false by decide, show ('x' == 'v') = false by decide, show ('x' == 'e') = false by decide,
        show ('x' == '"') = false by decide, show ('x' == '\\') = false by decide, show ('x' == '$') = false by decide,
        show ('x' == 'x') = true by decide, show ('X' == 'n') = false by decide, show ('X' == 'r') = false by decide, show ('X' == 't') = false by decide,
        show ('X' == 'f') = false by decide, show ('X' == 'v') = false by decide, show ('X' == 'e') = false by decide,
        show ('X' == '"') = false by decide, show ('X' == '\\') = false by decide, show ('X' == '$') = false by decide,
        show ('X' == 'x') = false by decide, show ('X' == 'X') = true by decide, Bool.true_or, Bool.or_true,
        Bool.false_eq_true, if_false, if_true]
      refine .ite (fun h0 => ?_) fun _ => ?_
      · rw [hke] at h0; simp at h0
      refine .ite (fun h0 => ?_) fun _ => ?_
      · rw [hke] at h0
        have : 1 ≤ rest.length := List.length_pos_iff.2 hr
        simp only [List.length_cons, List.length_append] at h0
        omega
      rw [hi]
      cases hf : fromStrRadix 255 16 ds with
      | none => exact absurd hf hval
      | some b => exact .bind (sf_advChars h1 fun _ => trivial)
  | other c hc hx =>
    have h1 : At t ('\\' :: c :: rest) := h
    by_cases hcx : c = 'x' ∨ c = 'X'
    · unfold strEscape
      refine .bind (sf_input h1 ?_)
      have hk : hexEnd ('\\' :: c :: rest) = 0 := by
        unfold hexEnd
        cases rest with
        | nil => exact absurd rfl hr
        | cons b rest =>
          have hb : isAlnum b = false := by rw [isAlnum_iff]; exact hx hcx b rfl
          simp [hb]
      rcases hcx with rfl | rfl
      all_goals
        simp only [List.getElem?_cons_succ, List.getElem?_cons_zero]
        simp only [Bool.not_false, Bool.true_and, Bool.false_and, hk]
        simp only [show ('x' == 'n') = false by decide, show ('x' == 'r') = false by decide, show ('x' == 't') = false by decide,
          show ('x' == 'f') = false by decide, show ('x' == 'v') = false by decide, show ('x' == 'e') = false by decide,
          show ('x' == '"') = false by decide, show ('x' == '\\') = false by decide, show ('x' == '$') = false by decide,
          show ('x' == 'x') = true by decide, show ('X' == 'n') = false by decide, show ('X' == 'r') = false by decide, show ('X' == 't') = false by decide,
          show ('X' == 'f') = false by decide, show ('X' == 'v') = false by decide, show ('X' == 'e') = false by decide,
          show ('X' == '"') = false by decide, show ('X' == '\\') = false by decide, show ('X' == '$') = false by decide,
          show ('X' == 'x') = false by decide, show ('X' == 'X') = true by decide, Bool.true_or, Bool.or_true,
          Bool.false_eq_true, if_false, if_true, beq_self_eq_true]
        exact sf_escDone h1 fun _ => trivial
    · refine .of_ok (strEscape_raw h1 ?_ bytes) trivial
      simp only [List.mem_cons, List.not_mem_nil, or_false, not_or] at hc hcx ⊢
      simp [hc, hcx]

end
end Pico
