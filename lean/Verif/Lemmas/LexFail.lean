import Verif.Lemmas.Lex
/-!
# When the alternatives of the tokenizer do not apply

Each lemma: on this remaining input the method reports "no match" and leaves the state as it was.
-/
namespace Pico
open T

variable {t : Tz} {i : Text}

theorem hereNowDoc_none (next : T TokSpan) (b : Nat) (h : At t i) (h1 : startsWith i c!"<<<" = false)
    (h2 : startsWith i c!"b<<<" = false) : matchHereNowDoc next b t = .err .none t := by
  unfold matchHereNowDoc
  rw [bind_ok (input_at h)]
  split
  · rfl
  · tstep (t.st) t
    rw [h1, h2]; rfl

theorem prefixedNum_none (pre : Text) (radix : Nat) (d : Char → Bool) (h : At t i)
    (h1 : startsWith i pre = false) : prefixedNum pre radix d t = .err .none t := by
  unfold prefixedNum
  rw [bind_ok (input_at h), h1]
  simp only [Bool.not_false, Bool.or_true, if_true]
  rfl

theorem dqString_none (next : T TokSpan) (b : Nat) (h : At t i) (h1 : startsWith i c!"\"" = false)
    (h2 : startsWith i c!"b\"" = false) : matchDqString next b t = .err .none t := by
  unfold matchDqString
  rw [bind_ok (input_at h)]
  split
  · rfl
  · tstep (t.st) t
    dsimp only
    rw [h1, h2]; rfl

theorem sqString_none (h : At t i) (h1 : startsWith i c!"'" = false)
    (h2 : startsWith i c!"b'" = false) : matchSqString t = .err .none t := by
  unfold matchSqString
  rw [bind_ok (input_at h)]
  split
  · rfl
  · tstep (t.st) t
    rw [h1, h2]; rfl

theorem backquote_none (next : T TokSpan) (b : Nat) (h : At t i) (h1 : startsWith i c!"`" = false) :
    matchBackquote next b t = .err .none t := by
  unfold matchBackquote
  rw [bind_ok (input_at h)]
  split
  · rfl
  · rw [h1]; rfl

theorem comments_none (h : At t i) (h1 : startsWith i c!"#" = false) (h2 : startsWith i c!"//" = false)
    (h3 : startsWith i c!"/*" = false) : matchComments t = .err .none t := by
  unfold matchComments
  have h4 : startsWith i c!"/**" = false := by
    cases h4 : startsWith i c!"/**" with
    | false => rfl
    | true =>
      obtain ⟨r, rfl⟩ := startsWith_split h4
      simp [startsWith] at h3
  rw [bind_ok inputPos_at, bind_ok (input_at h), h1, h2, h3, h4]
  rfl

theorem variable_none (h : At t i) (h1 : startsWith i c!"$" = false) : matchVariable t = .err .none t := by
  unfold matchVariable
  rw [bind_ok (input_at h), h1]
  simp only [Bool.not_false, Bool.or_true, if_true]
  rfl

theorem label_none (h : At t i) (h1 : ∀ c, i.head? = some c → isLabelChar c = false ∨ inRange '0' '9' c = true) :
    label t = .ok none t := by
  unfold label
  rw [bind_ok (input_at h)]
  cases i with
  | nil => rfl
  | cons c i =>
    dsimp only
    split
    · rfl
    · have h2 : isLabelChar c = false := by
        rcases h1 c rfl with h2 | h2
        · exact h2
        · simp_all
      simp only [position, h2, Bool.not_false, if_true, Option.getD_some, beq_self_eq_true]
      rfl

theorem variable_none' {r : Text} (h : At t ('$' :: r))
    (h1 : ∀ c, r.head? = some c → isLabelChar c = false ∨ inRange '0' '9' c = true) :
    matchVariable t = .err .none t := by
  unfold matchVariable
  rw [bind_ok (input_at h)]
  split
  · rfl
  · refine (bind_ok inputPos_at).trans ?_
    have h2 : At t (c!"$" ++ r) := h
    refine (bind_ok (advanceBytes_at' h2 rfl)).trans ?_
    refine (bind_ok (label_none (At.adv h2) h1)).trans ?_
    dsimp only
    refine (bind_ok (setPos_back rfl)).trans ?_
    rfl

theorem onum_none (h : At t i) (hi : i ≠ []) (h1 : ∀ c, i.head? = some c → notDigit c = true)
    (h2 : startsWith i c!"." = false) : onumDnumLnum t = .err .none t := by
  unfold onumDnumLnum
  cases i with
  | nil => exact absurd rfl hi
  | cons c i =>
    rw [bind_ok (input_at h)]
    simp only [List.isEmpty_cons, Bool.false_eq_true, if_false, position, h1 c rfl, if_true, Option.getD_some]
    refine (bind_ok inputPos_at).trans ?_
    refine (bind_ok (advanceChars_at (a := []) h rfl)).trans ?_
    show (input >>= _) t = _
    rw [bind_ok (input_at h), h2]
    simp only [Bool.not_false, if_true]
    refine (bind_ok inputPos_at).trans ?_
    simp only [bne_self_eq_false, Bool.false_eq_true, if_false]
    refine (bind_ok (setPos_here rfl)).trans ?_
    rfl

/-- A dot that is followed by something else than a digit. -/
theorem onum_dot {c : Char} {r : Text} (h : At t ('.' :: c :: r)) (hc : notDigit c = true) :
    onumDnumLnum t = .err .none t := by
  unfold onumDnumLnum
  rw [bind_ok (input_at h)]
  have h0 : notDigit '.' = true := by decide
  simp only [List.isEmpty_cons, Bool.false_eq_true, if_false, position, h0, if_true, Option.getD_some]
  refine (bind_ok inputPos_at).trans ?_
  refine (bind_ok (advanceChars_at (a := []) h rfl)).trans ?_
  show (input >>= _) t = _
  rw [bind_ok (input_at h)]
  simp only [startsWith, beq_self_eq_true, Bool.and_true, Bool.not_true, Bool.false_eq_true, if_false]
  have h2 : At t (c!"." ++ c :: r) := h
  refine (bind_ok (advanceChars_at h2 rfl)).trans ?_
  refine (bind_ok (input_at (At.adv h2))).trans ?_
  simp only [position, hc, if_true, beq_self_eq_true, Bool.true_and]
  rw [if_pos (by decide)]
  refine (bind_ok (setPos_back rfl)).trans ?_
  rfl

/-- The first characters of the alternatives before keywords, operators and identifiers: literals, variables
and comments begin in none of these ways. -/
def plain (i : Text) : Bool :=
  match i with
  | [] => false
  | c :: r =>
    !(!notDigit c || c == '"' || c == '\'' || c == '`' || c == '#' || startsWith i c!"//" ||
      startsWith i c!"/*" || startsWith i c!"<<<" || startsWith i c!"b'" || startsWith i c!"b\"" ||
      startsWith i c!"b<<<") &&
    (c != '.' || match r with
      | [] => false
      | d :: _ => notDigit d) &&
    (c != '$' || match r with
      | [] => true
      | d :: _ => !isLabelChar d || inRange '0' '9' d)

theorem plain_scripting (next : T TokSpan) (b : Nat) {w : Text} (h : At t (w ++ i)) (hw : w.all isBlank = true)
    (hb : (i.head?.map isBlank).getD false = false) (hp : plain i = true) :
    inScriptingToken next b t = labelOrOther (t.ws w).st.srcPos (t.ws w) := by
  unfold inScriptingToken
  rw [bind_ok (whitespace_at h hw hb)]
  replace h := h.ws hw
  generalize t.ws w = t at *
  rw [bind_ok (input_at h)]
  cases i with
  | nil => simp [plain] at hp
  | cons c r =>
    rw [if_neg (by simp)]
    refine (bind_ok inputPos_at).trans ?_
    simp only [plain, Bool.and_eq_true, Bool.not_eq_true', Bool.or_eq_false_iff, Bool.not_eq_false'] at hp
    obtain ⟨⟨⟨⟨⟨⟨⟨⟨⟨⟨⟨⟨q2, q3⟩, q4⟩, q5⟩, q6⟩, q7⟩, q8⟩, q9⟩, q10⟩, q11⟩, q12⟩, q1⟩, q13⟩ := hp
    have hs : ∀ p : Char, (c == p) = false → startsWith (c :: r) [p] = false := by
      intro p hp; simp [startsWith, hp]
    have hz : (c == '0') = false := by
      cases hz : c == '0' with
      | false => rfl
      | true => rw [beq_iff_eq] at hz; subst hz; exact absurd q2 (by decide)
    have hz' : ∀ p, startsWith (c :: r) ('0' :: p) = false := by
      intro p; simp [startsWith, hz]
    have hv : matchVariable t = .err .none t := by
      cases hd : c == '$' with
      | false => exact variable_none h (hs _ hd)
      | true =>
        rw [beq_iff_eq] at hd
        subst hd
        apply variable_none' h
        intro d hd
        cases r with
        | nil => cases hd
        | cons e r =>
          cases hd
          simpa using q13
    have ho : onumDnumLnum t = .err .none t := by
      cases hd : c == '.' with
      | false => exact onum_none h (by simp) (by intro d hd; cases hd; exact q2) (hs _ hd)
      | true =>
        rw [beq_iff_eq] at hd
        subst hd
        cases r with
        | nil => simp at q1
        | cons e r => exact onum_dot h (by simpa using q1)
    rw [orElse_none (hereNowDoc_none next b h q9 q12),
      orElse_none (show bnum t = _ from prefixedNum_none _ _ _ h (hz' _)), orElse_none (show hnum t = _ from prefixedNum_none _ _ _ h (hz' _)),
      orElse_none ho,
      orElse_none (dqString_none next b h (hs _ q3) q11),
      orElse_none hv, orElse_none (sqString_none h (hs _ q4) q10),
      orElse_none (comments_none h (hs _ q6) q7 q8), orElse_none (backquote_none next b h (hs _ q5))]

end Pico
