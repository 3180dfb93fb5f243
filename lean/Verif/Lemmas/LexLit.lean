import Verif.Lemmas.LexWord
/-!
# Literals, variables and comments
-/
namespace Pico
open T

variable {t : Tz} {i : Text}

/-- One call of `next_token` in a script. -/
theorem next_scripting {n : Nat} {a : TokSpan} {t' : Tz} (hs : t.st.state = .inScripting)
    (h : inScriptingToken (nextToken n) n t = .ok a t') : nextToken (n + 1) t = .ok a t' := by
  unfold nextToken
  simp only [hs, h]

theorem next_initial {n : Nat} {a : TokSpan} {t' : Tz} (hs : t.st.state = .initial)
    (h : initialToken t = .ok a t') : nextToken (n + 1) t = .ok a t' := by
  unfold nextToken
  simp only [hs, h]

/-- The state before the alternatives are tried. -/
theorem scripting_start (next : T TokSpan) (b : Nat) {w : Text} (h : At t (w ++ i)) (hw : w.all isBlank = true)
    (hb : (i.head?.map isBlank).getD false = false) (hne : i ≠ []) :
    inScriptingToken next b t =
      (matchHereNowDoc next b <||> bnum <||> hnum <||> onumDnumLnum <||> matchDqString next b <||>
      matchVariable <||> matchSqString <||> matchComments <||> matchBackquote next b <||>
      labelOrOther (t.ws w).st.srcPos) (t.ws w) := by
  unfold inScriptingToken
  rw [bind_ok (whitespace_at h hw hb), bind_ok (input_at (h.ws hw)), if_neg (by simpa using hne)]
  exact bind_ok inputPos_at

theorem scripting_end (next : T TokSpan) (b : Nat) {w : Text} (h : At t w) (hw : w.all isBlank = true) :
    inScriptingToken next b t = .ok ⟨.k .End, mkSpan (byteLen t.code) (byteLen t.code)⟩ (t.ws w) := by
  have h' : At t (w ++ []) := by simpa using h
  unfold inScriptingToken
  rw [bind_ok (whitespace_at h' hw rfl), bind_ok (input_at (h'.ws hw))]
  rfl

/-! ### Numbers -/

theorem notDigit_inRange (c : Char) : notDigit c = !inRange '0' '9' c := by
  unfold notDigit inRange
  have h0 : '0'.toNat = 48 := rfl
  have h9 : '9'.toNat = 57 := rfl
  rw [h0, h9]
  by_cases h1 : c.toNat < 48 <;> by_cases h2 : c.toNat > 57 <;> simp_all <;> omega

theorem digit_ascii {c : Char} (h : notDigit c = false) : c.toNat < 128 := by
  unfold notDigit at h
  simp only [Bool.or_eq_false_iff, decide_eq_false_iff_not] at h
  have h9 : '9'.toNat = 57 := rfl
  omega

theorem digits_ascii {w : Text} (h : ∀ c ∈ w, notDigit c = false) : ascii w = true := by
  simp only [ascii, List.all_eq_true, decide_eq_true_eq]
  exact fun c hc => digit_ascii (h c hc)

/-- Decimal and octal integers. -/
theorem onum_int {ds r : Text} {v : Nat} (h : At t (ds ++ r)) (hne : ds ≠ [])
    (hd : ∀ c ∈ ds, notDigit c = false) (hr : ∀ c, r.head? = some c → notDigit c = true ∧ c ≠ '.')
    (hv : (if startsWith ds c!"0" && ds.length > 1 then fromStrRadix i64Max 8 (ds.drop 1)
      else fromStrRadix i64Max 10 ds) = some v) :
    onumDnumLnum t = .ok ⟨.int v, mkSpan t.st.srcPos (t.st.srcPos + ds.length)⟩ (t.adv ds.length) := by
  have hb := byteLen_ascii (digits_ascii hd)
  unfold onumDnumLnum
  rw [bind_ok (input_at h)]
  have hpos : (position notDigit (ds ++ r)).getD (byteLen (ds ++ r)) = ds.length := by
    apply position_getD _ _ _ hd (fun c hc => (hr c hc).1)
    rintro rfl
    simp [hb]
  rw [if_neg (by simp [hne]), hpos]
  refine (bind_ok inputPos_at).trans ?_
  refine (bind_ok (advanceChars_at h rfl)).trans ?_
  refine (bind_ok (input_at (At.adv h))).trans ?_
  have hdot : startsWith r c!"." = false := by
    cases r with
    | nil => rfl
    | cons c r => simp [startsWith, (hr c rfl).2]
  rw [hdot]
  simp only [Bool.not_false, if_true]
  refine (bind_ok inputPos_at).trans ?_
  have hz : (ds.length != 0) = true := by
    cases ds with
    | nil => exact absurd rfl hne
    | cons => rfl
  simp only [hz, if_true, hb]
  by_cases hc : (startsWith ds c!"0" && decide (ds.length > 1)) = true
  · rw [if_pos hc] at hv
    rw [if_pos hc, hv]
    rfl
  · rw [if_neg hc] at hv
    rw [if_neg hc, hv]
    rfl

/-- Hexadecimal and binary integers. -/
theorem prefixedNum_int {pre : Text} {radix : Nat} {isDigit : Char → Bool} {ds r : Text} {v : Nat}
    (h : At t (pre ++ ds ++ r)) (hpre : byteLen pre = 2) (hne : ds ≠ []) (hd : ∀ c ∈ ds, isDigit c = true)
    (hr : ∀ c, r.head? = some c → isDigit c = false) (hv : fromStrRadix i64Max radix ds = some v) :
    prefixedNum pre radix isDigit t =
      .ok ⟨.int v, mkSpan t.st.srcPos ds.length⟩ (t.adv (2 + byteLen ds)) := by
  unfold prefixedNum
  rw [bind_ok (input_at h)]
  rw [List.append_assoc] at h
  have hlen : ¬ (byteLen (pre ++ ds ++ r) < 3) := by
    have := byteLen_pos hne
    rw [byteLen_append, byteLen_append]
    omega
  have hsw : startsWith (pre ++ ds ++ r) pre = true := by rw [List.append_assoc]; exact startsWith_append _ _
  rw [if_neg (by rw [hsw]; simpa using hlen)]
  refine (bind_ok (advanceBytes_at' h hpre.symm)).trans ?_
  have h2 : At (t.adv 2) (ds ++ r) := by rw [← hpre]; exact At.adv h
  refine (bind_ok (input_at h2)).trans ?_
  have hpos : (position (fun c => !isDigit c) (ds ++ r)).getD (ds ++ r).length = ds.length := by
    apply position_getD
    · intro c hc; simp [hd c hc]
    · intro c hc; simp [hr c hc]
    · rintro rfl; simp
  have hp0 : (position (fun c => !isDigit c) (ds ++ r) == some 0) = false := by
    cases ds with
    | nil => exact absurd rfl hne
    | cons c ds =>
      have := hd c (by simp)
      simp only [List.cons_append, position, this, Bool.not_true, Bool.false_eq_true, if_false]
      cases position (fun c => !isDigit c) (ds ++ r) <;> simp
  rw [hp0, hpos]
  simp only [Bool.false_eq_true, if_false]
  refine (bind_ok inputPos_at).trans ?_
  refine (bind_ok (subT_le (by show 2 ≤ t.st.srcPos + 2; omega))).trans ?_
  refine (bind_ok (advanceChars_at h2 rfl)).trans ?_
  simp only [hv]
  rw [Tz.adv_adv]
  show TR.ok _ _ = _
  congr 3

/-- `digits '.' digits`, at least one digit. -/
theorem onum_double {ds fs r : Text} (h : At t (ds ++ '.' :: (fs ++ r))) (hd : ∀ c ∈ ds, notDigit c = false)
    (hf : ∀ c ∈ fs, notDigit c = false) (hr : ∀ c, r.head? = some c → notDigit c = true)
    (hne : ds ≠ [] ∨ fs ≠ []) :
    ∃ sp, onumDnumLnum t = .ok ⟨.double (ds ++ '.' :: fs), sp⟩ (t.adv (ds.length + 1 + fs.length)) := by
  have hb := byteLen_ascii (digits_ascii hd)
  have hb2 := byteLen_ascii (digits_ascii hf)
  refine ⟨mkSpan (t.st.srcPos + (ds.length + 1)) ds.length, ?_⟩
  unfold onumDnumLnum
  rw [bind_ok (input_at h)]
  have hpos : (position notDigit (ds ++ '.' :: (fs ++ r))).getD (byteLen (ds ++ '.' :: (fs ++ r))) = ds.length := by
    apply position_getD _ _ _ hd
    · intro c hc; cases hc; decide
    · intro hc; cases hc
  rw [if_neg (by simp), hpos]
  refine (bind_ok inputPos_at).trans ?_
  refine (bind_ok (advanceChars_at h rfl)).trans ?_
  have h2 : At (t.adv (byteLen ds)) (c!"." ++ (fs ++ r)) := At.adv h
  refine (bind_ok (input_at h2)).trans ?_
  rw [startsWith_append]
  simp only [Bool.not_true, Bool.false_eq_true, if_false]
  refine (bind_ok (advanceChars_at h2 rfl)).trans ?_
  have h3 := At.adv h2
  rw [Tz.adv_adv, hb] at h3 ⊢
  refine (bind_ok (input_at h3)).trans ?_
  have hp2 : (position notDigit (fs ++ r)).getD (fs ++ r).length = fs.length := by
    apply position_getD _ _ _ hf hr
    rintro rfl; simp
  have hcond : (position notDigit (fs ++ r) == some 0 && byteLen (ds ++ c!".") == 1) = false := by
    rcases hne with hne | hne
    · have : byteLen (ds ++ c!".") ≠ 1 := by
        have := byteLen_pos hne
        rw [byteLen_append]
        have h1 : byteLen c!"." = 1 := by decide
        omega
      simp [this]
    · cases fs with
      | nil => exact absurd rfl hne
      | cons c fs =>
        have := hf c (by simp)
        simp only [List.cons_append, position, this, Bool.false_eq_true, if_false]
        cases position notDigit (fs ++ r) <;> simp
  simp only [hcond, hp2, Bool.false_eq_true, if_false]
  refine (bind_ok inputPos_at).trans ?_
  refine (bind_ok (advanceChars_at h3 rfl)).trans ?_
  have hstr : (ds ++ c!"." ++ fs == c!".") = false := by
    rw [beq_eq_false_iff_ne]
    intro heq
    have := congrArg List.length heq
    simp at this
    rcases hne with hne | hne
    · exact hne (List.length_eq_zero_iff.mp (by omega))
    · exact hne (List.length_eq_zero_iff.mp (by omega))
  rw [hstr]
  simp only [Bool.false_eq_true, if_false]
  rw [Tz.adv_adv, hb2]
  show TR.ok _ _ = _
  have h1 : byteLen c!"." = 1 := by decide
  rw [h1]
  simp [Tz.adv]

/-! ### Variables -/

theorem variable_some {w r : Text} (h : At t ('$' :: (w ++ r))) (hw : Word w)
    (hr : ∀ c, r.head? = some c → isLabelChar c = false) :
    matchVariable t = .ok ⟨.variable w, mkSpan t.st.srcPos (t.st.srcPos + 1 + w.length)⟩ (t.adv (1 + w.length)) := by
  unfold matchVariable
  rw [bind_ok (input_at h)]
  have h2 : At t (c!"$" ++ (w ++ r)) := h
  rw [if_neg (by
    have := byteLen_pos hw.ne
    have h1 : ('$' : Char).utf8Size = 1 := by decide
    simp only [byteLen, byteLen_append, startsWith, h1]
    simp
    omega)]
  refine (bind_ok inputPos_at).trans ?_
  refine (bind_ok (advanceBytes_at' h2 rfl)).trans ?_
  refine (bind_ok (label_some (At.adv h2) hw.ne hw.lab hw.dig hr)).trans ?_
  dsimp only
  rw [Tz.adv_adv, byteLen_ascii hw.asc]
  rfl

end Pico
