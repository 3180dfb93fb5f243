import Verif.Lemmas.LayRest
import Verif.Lemmas.TameText
/-! # Simple expressions between braces are read without errors -/
namespace Pico
open T

section
variable {t : Tz}

/-! ### The scanners do not fail -/

/-- The scanner fails only because something else stands there, for the reason `F`. -/
def Mild (F : Prop) (m : T TokSpan) (t : Tz) : Prop := Twp True True m t (fun _ _ => True) (fun e _ => e = .none ∧ F)

theorem chainN {m n : T TokSpan} {u : Tz} {F G : Prop} {Q : TokSpan → Tz → Prop} (hm : MatchL F m u) (hk : Mild G m u)
    (hQ : ∀ x t', StepM u x t' → Q x t') (hn : F → G → Twp True True n u Q (fun _ _ => False)) :
    Twp True True (m <||> n) u Q (fun _ _ => False) :=
  Twp.orElse ((hm.and hk).mono (fun _ => trivial) (fun _ => trivial) (fun _ _ h => hQ _ _ h.1) fun _ _ h => ⟨fun he => by
    obtain ⟨h1, h2⟩ := h.1 he
    rw [h1]
    exact hn h2 h.2.2, fun he => absurd h.2.1 he⟩)

theorem mild_prefixed (pre : Text) (radix : Nat) (p : Char → Bool) : Mild True (prefixedNum pre radix p) t := by
  unfold Mild prefixedNum
  refine Twp.bind (tw_input fun i hi => ?_)
  refine Twp.ite (fun _ => ⟨rfl, trivial⟩) (fun _ => ?_)
  refine Twp.bind (tw_advBytes' hi fun _ _ _ _ h1 => ?_)
  refine Twp.bind (Twp.of_ok (input_at h1) ?_)
  dsimp only
  refine Twp.ite (fun _ => ⟨rfl, trivial⟩) (fun _ => ?_)
  refine Twp.bind (tw_inputPos ?_)
  refine Twp.bind (tw_subT fun _ => ?_)
  refine Twp.bind (tw_advChars h1 fun _ => ?_)
  split
  · exact trivial
  · exact Twp.abort fun _ => trivial

theorem mild_onum {i : Text} (hi : At t i) (hne : i ≠ []) : Mild (∀ d q, i = d :: q → d.isDigit = false) onumDnumLnum t := by
  unfold Mild onumDnumLnum
  refine Twp.bind (Twp.of_ok (input_at hi) ?_)
  refine Twp.ite (fun h => absurd (List.isEmpty_iff.1 h) hne) (fun _ => ?_)
  dsimp only
  refine Twp.bind (tw_inputPos ?_)
  have hend : ∀ ds r, i = ds ++ r → (∀ c ∈ ds, notDigit c = false) → (∀ c, r.head? = some c → notDigit c = true) →
      ¬ ((position notDigit i).getD (byteLen i) != 0) = true → ∀ d q, i = d :: q → d.isDigit = false := by
    rintro ds r rfl h1 h2 h d q e
    cases ds with
    | nil => exact notDigit_true (h2 d (by rw [show r = d :: q from e]; rfl))
    | cons c ds =>
      exfalso
      apply h
      rw [position_of_span h1 h2]
      split
      · rename_i hr
        subst hr
        have := length_le_byteLen (c :: ds ++ [])
        simp at this ⊢
        omega
      · simp
  refine Twp.bind (tw_span hi (length_le_byteLen i) fun ds r hr hds hrr hl => ?_)
  refine Twp.bind (Twp.of_ok (input_at hl.mv.at') ?_)
  refine Twp.ite (fun _ => ?_) (fun hdot => ?_)
  · refine Twp.bind (tw_inputPos ?_)
    refine Twp.ite (fun _ => ?_) (fun h0 => ?_)
    · refine Twp.ite (fun _ => ?_) (fun _ => ?_)
      · split
        · exact trivial
        · exact Twp.abort fun _ => trivial
      · split
        · exact trivial
        · exact Twp.abort fun _ => trivial
    · refine Twp.bind (m := setPos _) (Twp.of_ok rfl ?_)
      exact ⟨rfl, hend ds r hr hds hrr h0⟩
  · refine Twp.bind (tw_advChars hl.mv.at' fun h2 => ?_)
    refine Twp.bind (Twp.of_ok (input_at h2) ?_)
    refine Twp.ite (fun h => ?_) (fun _ => ?_)
    · refine Twp.bind (m := setPos _) (Twp.of_ok rfl ⟨rfl, ?_⟩)
      rw [Bool.and_eq_true, beq_iff_eq, beq_iff_eq, byteLen_append] at h
      have hd : startsWith r c!"." = true := by simpa using hdot
      obtain ⟨q, rfl⟩ := startsWith_split hd
      have h3 := h.2
      have h4 : byteLen ((c!"." ++ q).take 1) = 1 := rfl
      have h5 := length_le_byteLen ds
      have : ds = [] := List.length_eq_zero_iff.1 (by omega)
      subst this
      intro d q e
      rw [hr] at e
      cases e
      rfl
    · refine Twp.bind (tw_inputPos ?_)
      refine Twp.bind (tw_advChars h2 fun _ => ?_)
      exact Twp.ite (fun _ => Twp.abort fun _ => trivial) (fun _ => trivial)

theorem mild_variable : Mild True matchVariable t := by
  unfold Mild matchVariable
  refine Twp.bind (tw_input fun i hi => ?_)
  refine Twp.ite (fun _ => ⟨rfl, trivial⟩) (fun _ => ?_)
  refine Twp.bind (tw_inputPos ?_)
  refine Twp.bind (tw_advBytes' hi fun _ _ _ _ h1 => ?_)
  refine Twp.bind (label_lay h1 (fun _ => ?_) fun _ _ _ _ _ _ => ?_)
  · exact Twp.bind (m := setPos _) (Twp.of_ok rfl ⟨rfl, trivial⟩)
  · exact trivial

/-- A text without `\` is closed by the next quote. -/
theorem sqLoop_closed (bak : TState) (fuel : Nat) (bytes : List Byte) (t : Tz) {s r : Text} (h : At t (s ++ '\'' :: r))
    (hs : ∀ c ∈ s, c ≠ '\'' ∧ c ≠ '\\') : Twp True True (sqLoop bak fuel bytes) t (fun _ _ => True) (fun _ _ => False) := by
  induction fuel generalizing bytes t s with
  | zero => exact trivial
  | succ fuel ih =>
    unfold sqLoop
    refine Twp.bind (Twp.of_ok (input_at h) ?_)
    dsimp only
    refine Twp.bind (tw_span h (Nat.le_refl _) fun w q hq hw hqq hl => ?_)
    refine Twp.bind (Twp.of_ok (input_at hl.mv.at') ?_)
    rcases List.append_eq_append_iff.1 hq with ⟨a, rfl, ha⟩ | ⟨a, rfl, ha⟩
    · cases a with
      | nil =>
        subst ha
        exact Twp.bind (tw_advBytes' hl.mv.at' fun _ _ _ _ _ => trivial)
      | cons c a =>
        injection ha with h1 h2
        subst h1
        exact absurd (hw '\'' (by simp)) (by decide)
    · cases a with
      | nil =>
        subst ha
        exact Twp.bind (tw_advBytes' hl.mv.at' fun _ _ _ _ _ => trivial)
      | cons c a =>
        subst ha
        have hc := hqq c rfl
        have h2 := hs c (by simp)
        have : c = '\n' := by
          simp only [Bool.or_eq_true, beq_iff_eq] at hc
          rcases hc with (h | h) | h
          · exact absurd h h2.2
          · exact absurd h h2.1
          · exact h
        subst this
        have h3 : At (t.adv (byteLen w)) (c!"\n" ++ (a ++ '\'' :: r)) := hl.mv.at'
        refine Twp.bind (tw_advBytes h3 rfl fun h4 => ?_)
        refine Twp.bind (m := modSt _) (Twp.of_ok rfl ?_)
        exact ih _ _ h4 fun d hd => hs d (by simp [hd])

theorem mild_sq {i r : Text} (hi : At t i) (ht : TameAt i r) : Mild (∀ q, i ≠ '\'' :: q) matchSqString t := by
  unfold Mild matchSqString
  refine Twp.bind (Twp.of_ok (input_at hi) ?_)
  have long : ∀ q, i = '\'' :: q → ¬ byteLen i < 2 := by
    rintro q rfl hb
    obtain ⟨s, v, rfl, _, _⟩ := ht.quote
    have h1 := length_le_byteLen ('\'' :: (s ++ c!"'" ++ v))
    have h2 : ('\'' :: (s ++ c!"'" ++ v)).length = s.length + 1 + v.length + 1 := by simp; omega
    omega
  refine Twp.ite (fun h => ⟨rfl, fun q e => long q e h⟩) (fun _ => ?_)
  refine Twp.bind (m := getSt) (Twp.of_ok rfl ?_)
  dsimp only
  have body : ∀ u j, TameAt ('\'' :: j) r → At u j → Twp True True (do
      let bytes ← sqLoop t.st (i.length + 1) []
      let p ← inputPos
      return ⟨bytesToken bytes, mkSpan t.st.srcPos p⟩ : T TokSpan) u (fun _ _ => True) (fun e _ => e = .none ∧ ∀ q, i ≠ '\'' :: q) := by
    intro u j hj hu
    obtain ⟨s, v, rfl, hs, _⟩ := hj.quote
    have hu : At u (s ++ '\'' :: v) := by simpa using hu
    exact Twp.bind ((sqLoop_closed t.st _ [] u hu hs).cons (fun _ _ _ => Twp.bind (tw_inputPos trivial)) (fun _ _ h => h.elim))
  refine Twp.ite (fun h => ?_) (fun _ => Twp.ite (fun h => ?_) (fun hq => ⟨rfl, fun q e => hq ?_⟩))
  · obtain ⟨j, rfl⟩ := startsWith_split h
    refine Twp.bind (tw_advBytes hi rfl fun h1 => ?_)
    exact body _ _ (ht.pass (w := c!"b") (by decide)) h1
  · obtain ⟨j, rfl⟩ := startsWith_split h
    refine Twp.bind (tw_advBytes hi rfl fun h1 => ?_)
    exact body _ _ ht h1
  · subst e; exact startsWith_append c!"'" q

/-- What does not stand before or in a simple expression. -/
theorem TameAt.no {p i r : Text} (ht : TameAt i r) (h : startsWith i p = true) (b : Text) (c : Char) (q : Text) (hp : p = b ++ c :: q)
    (hb : ∀ c ∈ b, c ≠ '\'' ∧ c ≠ '}') (hc : codeChar c = false) (h1 : c ≠ '}') (h2 : c ≠ '\'') : False := by
  obtain ⟨j, rfl⟩ := startsWith_split h
  subst hp
  rw [List.append_assoc] at ht
  exact (ht.pass hb).not h1 hc h2

theorem mild_doc {next : T TokSpan} (bfuel : Nat) {i r : Text} (hi : At t i) (ht : TameAt i r) : Mild True (matchHereNowDoc next bfuel) t := by
  unfold Mild matchHereNowDoc
  refine Twp.bind (Twp.of_ok (input_at hi) ?_)
  refine Twp.ite (fun _ => ⟨rfl, trivial⟩) (fun _ => ?_)
  refine Twp.bind (m := getSt) (Twp.of_ok rfl ?_)
  refine Twp.ite (fun h => ?_) (fun _ => Twp.ite (fun h => ?_) (fun _ => ⟨rfl, trivial⟩))
  · exact (ht.no h c!"b" '<' c!"<<" rfl (by decide) (by decide) (by decide) (by decide)).elim
  · exact (ht.no h [] '<' c!"<<" rfl (by decide) (by decide) (by decide) (by decide)).elim

theorem mild_dq {next : T TokSpan} (bfuel : Nat) {i r : Text} (hi : At t i) (ht : TameAt i r) : Mild True (matchDqString next bfuel) t := by
  unfold Mild matchDqString
  refine Twp.bind (Twp.of_ok (input_at hi) ?_)
  refine Twp.ite (fun _ => ⟨rfl, trivial⟩) (fun _ => ?_)
  refine Twp.bind (m := getSt) (Twp.of_ok rfl ?_)
  refine Twp.ite (fun h => ?_) (fun _ => Twp.ite (fun h => ?_) (fun _ => ⟨rfl, trivial⟩))
  · exact (ht.no h c!"b" '"' [] rfl (by decide) (by decide) (by decide) (by decide)).elim
  · exact (ht.no h [] '"' [] rfl (by decide) (by decide) (by decide) (by decide)).elim

theorem mild_bq {next : T TokSpan} (bfuel : Nat) {i r : Text} (hi : At t i) (ht : TameAt i r) : Mild True (matchBackquote next bfuel) t := by
  unfold Mild matchBackquote
  refine Twp.bind (Twp.of_ok (input_at hi) ?_)
  refine Twp.ite (fun _ => ⟨rfl, trivial⟩) (fun _ => ?_)
  refine Twp.ite (fun h => ?_) (fun _ => ⟨rfl, trivial⟩)
  exact (ht.no h [] '`' [] rfl (by decide) (by decide) (by decide) (by decide)).elim

theorem mild_comments {i r : Text} (hi : At t i) (ht : TameAt i r) : Mild True matchComments t := by
  unfold Mild matchComments
  refine Twp.bind (tw_inputPos ?_)
  refine Twp.bind (Twp.of_ok (input_at hi) ?_)
  refine Twp.ite (fun h => ?_) (fun _ => Twp.ite (fun h => ?_) (fun _ => Twp.ite (fun h => ?_) (fun _ => Twp.ite (fun h => ?_) (fun _ => ⟨rfl, trivial⟩))))
  · exact (ht.no h [] '#' [] rfl (by decide) (by decide) (by decide) (by decide)).elim
  · exact (ht.no h [] '/' c!"/" rfl (by decide) (by decide) (by decide) (by decide)).elim
  · exact (ht.no h [] '/' c!"**" rfl (by decide) (by decide) (by decide) (by decide)).elim
  · exact (ht.no h [] '/' c!"*" rfl (by decide) (by decide) (by decide) (by decide)).elim

/-- What begins in a simple expression with no blank, digit or quote is a word, a symbol or `$`. -/
theorem TameAt.last {i r : Text} (ht : TameAt i r) (h1 : ∀ d q, i = d :: q → d.isDigit = false) (h2 : ∀ q, i ≠ '\'' :: q)
    (h3 : (i.head?.map isBlank).getD false = false) : ¬ noIdentifier i ∨ (∃ s ∈ symTexts, s <+: i) ∨ c!"$" <+: i := by
  cases i with
  | nil => exact absurd rfl ht.ne
  | cons c i =>
    have key : ∀ c ∈ c!" \t\r\n$-+*%=!&|^~@.,:;>[]()\\", isBlank c = true ∨ [c] ∈ symTexts ∨ c = '$' := by decide
    rcases ht.head with ⟨rfl, rfl⟩ | ⟨hc, _⟩ | rfl
    · exact .inr (.inl ⟨c!"}", by decide, i, rfl⟩)
    · simp only [codeChar, Bool.or_eq_true, decide_eq_true_eq] at hc
      rcases hc with hc | hc
      · refine .inl fun hn => ?_
        rcases hn with h | ⟨d, q, e, hd⟩
        · simp [endsIdentifier, hc] at h
        · rw [h1 d q e] at hd; cases hd
      · rcases key c hc with h | h | rfl
        · simp [h] at h3
        · exact .inr (.inl ⟨[c], h, i, rfl⟩)
        · exact .inr (.inr ⟨i, rfl⟩)
    · exact absurd rfl (h2 i)

theorem rest_tame {next : T TokSpan} (bfuel : Nat) {i r : Text} (hs : Scr t) (hb : BlkOk next bfuel t) (hst : ¬ HasStray t.code)
    (hi : At t i) (ht : TameAt i r) (hbl : (i.head?.map isBlank).getD false = false) (hk : t.st.stack ≠ []) :
    Twp True True (matchHereNowDoc next bfuel <||> bnum <||> hnum <||> onumDnumLnum <||> matchDqString next bfuel <||>
      matchVariable <||> matchSqString <||> matchComments <||> matchBackquote next bfuel <||> labelOrOther t.st.srcPos) t
      (StepL t) (fun _ _ => False) := by
  have hQ : ∀ x t', StepM t x t' → StepL t x t' := fun _ _ h => h.toL
  have hne := ht.ne
  refine chainN (hereNowDoc_lay bfuel hs hb) (mild_doc bfuel hi ht) hQ fun hdoc _ => ?_
  refine chainN (bnum_lay hs hst) (mild_prefixed _ _ _) hQ fun hbin _ => ?_
  refine chainN (hnum_lay hs hst) (mild_prefixed _ _ _) hQ fun hhex _ => ?_
  refine chainN (onum_lay hs hi hne (fun c q e => hhex c q (e ▸ hi)) (fun c q e => hbin c q (e ▸ hi))) (mild_onum hi hne) hQ fun hfr g1 => ?_
  refine chainN (dqString_lay bfuel hs hb) (mild_dq bfuel hi ht) hQ fun hdq _ => ?_
  refine chainN (variable_lay hs) mild_variable hQ fun hv _ => ?_
  refine chainN (sqString_lay hs) (mild_sq hi ht) hQ fun hsq g2 => ?_
  refine chainN (comments_lay hs) (mild_comments hi ht) hQ fun hcm _ => ?_
  refine chainN (backquote_lay bfuel hs hb) (mild_bq bfuel hi ht) hQ fun _ _ => ?_
  obtain ⟨x, t', h⟩ := labelOrOther_ok hi (ht.last g1 g2 hbl) fun _ => hk
  refine Twp.of_ok h (Twp.elim (labelOrOther_lay hs hi hne hv ?_ ?_) h)
  · rintro (⟨c, r, rfl, hc⟩ | h | h | h | h)
    · rw [hfr c r hi] at hc; cases hc
    · exact absurd h (hcm.1 i hi)
    · exact absurd h (hcm.2 i hi)
    · exact h
    · exact absurd h (hdoc i hi).1
  · rintro r rfl (⟨q, rfl⟩ | ⟨q, rfl⟩ | h)
    · exact hsq _ hi ⟨q, rfl⟩
    · exact hdq _ hi ⟨q, rfl⟩
    · exact (hdoc _ hi).2 r rfl h

theorem scripting_tame {next : T TokSpan} (bfuel : Nat) {i r : Text} (hs : Scr t) (hb : BlkOk next bfuel t) (hst : ¬ HasStray t.code)
    (hi : At t i) (ht : TameAt i r) (hk : t.st.stack ≠ []) :
    Twp True True (inScriptingToken next bfuel) t
      (fun x t' => ∃ b u s, i = b ++ s ∧ Lay t b u s ∧ Blank b ∧ TameAt s r ∧ StepL u x t') (fun _ _ => False) := by
  unfold inScriptingToken
  refine Twp.bind (whitespace_lay.cons ?_ (fun _ _ h => h))
  rintro _ u ⟨b, s, hl, hbb, hr⟩
  have e : i = b ++ s := hi.unique hl.src
  subst e
  have hts := ht.pass (blank_pass hbb)
  refine Twp.bind (Twp.of_ok (input_at hl.mv.at') ?_)
  refine Twp.ite (fun he => absurd (List.isEmpty_iff.1 he) hts.ne) (fun he => ?_)
  refine Twp.bind (tw_inputPos ?_)
  exact (rest_tame bfuel (hs.moved hl.mv) (hb.moved hl.mv) (by rw [hl.mv.code]; exact hst) hl.mv.at' hts hr (by rw [hl.mv.stack]; exact hk)).cons
    (fun x t' h => ⟨b, u, s, rfl, hl, hbb, hts, h⟩) (fun _ _ h => h)

end
end Pico
