import Verif.Lemmas.LayTok
import Verif.Lemmas.LexPrint
import Verif.Lemmas.UniqueStr
/-!
# What a printed literal with two backslashes in a row is read back as
-/
namespace Pico
open T

/-- What is read up to the closing quote, and what follows it. -/
def sqDecode : Text → Option (Text × Text)
  | [] => none
  | '\'' :: r => some ([], r)
  | ['\\'] => none
  | '\\' :: c :: r =>
    if c = '\\' ∨ c = '\'' then (sqDecode r).map (fun p => (c :: p.1, p.2)) else (sqDecode r).map (fun p => ('\\' :: c :: p.1, p.2))
  | c :: r => (sqDecode r).map (fun p => (c :: p.1, p.2))

theorem sqDecode_plain {c : Char} (h1 : c ≠ '\\') (h2 : c ≠ '\'') (r : Text) :
    sqDecode (c :: r) = (sqDecode r).map (fun p => (c :: p.1, p.2)) := by
  conv => lhs; unfold sqDecode
  split
  · rename_i h; cases h
  · rename_i h; cases h; exact absurd rfl h2
  · rename_i h; cases h; exact absurd rfl h1
  · rename_i h; cases h; exact absurd rfl h1
  · rename_i h; cases h; rfl

theorem sqDecode_esc (c : Char) (r : Text) : sqDecode ('\\' :: c :: r) =
    if c = '\\' ∨ c = '\'' then (sqDecode r).map (fun p => (c :: p.1, p.2)) else (sqDecode r).map (fun p => ('\\' :: c :: p.1, p.2)) := by
  conv => lhs; unfold sqDecode
  rfl

theorem frags_decode {r : Text} : ∀ {fs : List Snip}, FragsOk .single fs (c!"'" ++ r) →
    ∃ x, sqDecode (fragSrc fs ++ (c!"'" ++ r)) = some (x, r) ∧ utf8 x = fragBytes fs
  | [], _ => ⟨[], rfl, rfl⟩
  | f :: fs, h => by
    obtain ⟨x, h1, h2⟩ := frags_decode h.2
    have hs : fragSrc (f :: fs) ++ (c!"'" ++ r) = f.src ++ (fragSrc fs ++ (c!"'" ++ r)) := by simp [fragSrc]
    rw [hs]
    have hf := h.1
    generalize fragSrc fs ++ (c!"'" ++ r) = z at *
    cases f with
    | plain c =>
      refine ⟨c :: x, ?_, ?_⟩
      · rw [show Snip.src (.plain c) ++ z = c :: z from rfl, sqDecode_plain hf.1 hf.2, h1]; rfl
      · rw [show c :: x = [c] ++ x from rfl, utf8_append, h2]; rfl
    | esc e bs =>
      have he : SqEscape e bs := hf
      cases he with
      | known c hc =>
        refine ⟨c :: x, ?_, ?_⟩
        · rw [show Snip.src (.esc ['\\', c] (utf8 [c])) ++ z = '\\' :: c :: z from rfl, sqDecode_esc, if_pos hc, h1]; rfl
        · rw [show c :: x = [c] ++ x from rfl, utf8_append, h2]; rfl
      | other c hc =>
        refine ⟨'\\' :: c :: x, ?_, ?_⟩
        · rw [show Snip.src (.esc ['\\', c] (utf8 ['\\', c])) ++ z = '\\' :: c :: z from rfl, sqDecode_esc, if_neg (by
            rintro (h | h)
            · exact hc.1 h
            · exact hc.2 h), h1]; rfl
        · rw [show '\\' :: c :: x = ['\\', c] ++ x from rfl, utf8_append, h2]; rfl
    | _ => exact absurd hf id

/-- Backslashes at the begin. -/
def bsLead (s : Text) : Nat := (s.takeWhile (· == '\\')).length

theorem bsLead_bs (s : Text) : bsLead ('\\' :: s) = bsLead s + 1 := by simp [bsLead]
theorem bsLead_other {c : Char} (h : c ≠ '\\') (s : Text) : bsLead (c :: s) = 0 := by simp [bsLead, h]

theorem litBody_other {c : Char} (h1 : c ≠ '\\') (h2 : c ≠ '\'') (cs : Text) : litBody (c :: cs) = c :: litBody cs :=
  litBody_step (p := [c]) (by rw [replaceBsQuote_cons h1, replaceQuote_cons h2]; rfl) (by simp [endsWithBs, h1])

theorem litBody_quote (cs : Text) : litBody ('\'' :: cs) = '\\' :: '\'' :: litBody cs :=
  litBody_step (p := c!"\\'") (by rw [replaceBsQuote_cons (by decide)]; rfl) (by decide)

theorem litBody_bsQuote (cs : Text) : litBody ('\\' :: '\'' :: cs) = '\\' :: '\\' :: '\\' :: '\'' :: litBody cs :=
  litBody_step (p := c!"\\\\\\'") (by simp [replaceBsQuote, replaceQuote]) (by decide)

theorem endsWithBs_cons (c d : Char) (s : Text) : endsWithBs (c :: d :: s) = endsWithBs (d :: s) := by
  simp [endsWithBs, List.getLast?_cons]

theorem litBody_bs {c : Char} (h : c ≠ '\'') (cs : Text) : litBody ('\\' :: c :: cs) = '\\' :: litBody (c :: cs) := by
  unfold litBody
  dsimp only
  rw [replaceBsQuote_bs h, replaceQuote_cons (by decide)]
  have hne : ∃ d r, replaceQuote (replaceBsQuote (c :: cs)) = d :: r := by
    by_cases hb : c = '\\'
    · subst hb
      cases cs with
      | nil => exact ⟨_, _, rfl⟩
      | cons e es =>
        by_cases he : e = '\''
        · subst he; exact ⟨'\\', '\\' :: '\\' :: '\'' :: replaceQuote (replaceBsQuote es), by simp [replaceBsQuote, replaceQuote]⟩
        · rw [replaceBsQuote_bs he, replaceQuote_cons (by decide)]; exact ⟨_, _, rfl⟩
    · rw [replaceBsQuote_cons hb, replaceQuote_cons h]; exact ⟨_, _, rfl⟩
  obtain ⟨d, r, e⟩ := hne
  rw [e, endsWithBs_cons]
  rfl

theorem map_eq_some_of {α β : Type} {f : α → β} {o : Option α} {y : β} (h : o.map f = some y) : ∃ x, o = some x ∧ f x = y := by
  cases o with
  | none => cases h
  | some x => exact ⟨x, rfl, Option.some.inj h⟩

/-- The text read back does not begin with more backslashes. -/
theorem bsLead_le : ∀ (n : Nat) (s : Text), s.length ≤ n → ∀ {z x r : Text}, sqDecode (litBody ('\\' :: s) ++ '\'' :: z) = some (x, r) →
    bsLead x ≤ bsLead ('\\' :: s)
  | _, [], _, z, x, r, h => by
    have e : litBody c!"\\" ++ '\'' :: z = '\\' :: '\\' :: '\'' :: z := rfl
    rw [e, sqDecode_esc, if_pos (.inl rfl)] at h
    obtain ⟨⟨y, r'⟩, h1, h2⟩ := map_eq_some_of h
    cases h1; cases h2
    exact Nat.le_refl 1
  | 0, _ :: _, h, _, _, _, _ => by simp at h
  | n + 1, c :: s, hn, z, x, r, h => by
    have hn' : s.length ≤ n := by simpa using hn
    by_cases hq : c = '\''
    · subst hq
      rw [litBody_bsQuote] at h
      simp only [List.cons_append] at h
      rw [sqDecode_esc, if_pos (.inl rfl)] at h
      obtain ⟨⟨y, r'⟩, h1, h2⟩ := map_eq_some_of h
      rw [sqDecode_esc, if_pos (.inr rfl)] at h1
      obtain ⟨⟨y', r''⟩, h3, h4⟩ := map_eq_some_of h1
      cases h2; cases h4
      rw [bsLead_bs, bsLead_bs, bsLead_other (by decide)]; omega
    · rw [litBody_bs hq] at h
      by_cases hb : c = '\\'
      · subst hb
        cases s with
        | nil =>
          have e : '\\' :: litBody c!"\\" ++ '\'' :: z = '\\' :: '\\' :: '\\' :: '\'' :: z := rfl
          rw [e, sqDecode_esc, if_pos (.inl rfl)] at h
          obtain ⟨⟨y, r'⟩, h1, h2⟩ := map_eq_some_of h
          rw [sqDecode_esc, if_pos (.inr rfl)] at h1
          obtain ⟨⟨y', r''⟩, h3, h4⟩ := map_eq_some_of h1
          cases h2; cases h4
          rw [bsLead_bs, bsLead_bs, bsLead_other (by decide)]; omega
        | cons d ds =>
          by_cases hd : d = '\''
          · subst hd
            rw [litBody_bsQuote] at h
            simp only [List.cons_append] at h
            rw [sqDecode_esc, if_pos (.inl rfl)] at h
            obtain ⟨⟨y, r'⟩, h1, h2⟩ := map_eq_some_of h
            rw [sqDecode_esc, if_pos (.inl rfl)] at h1
            obtain ⟨⟨y', r''⟩, h3, h4⟩ := map_eq_some_of h1
            cases h3; cases h4; cases h2
            rw [bsLead_bs, bsLead_bs, bsLead_bs, bsLead_bs]
            exact Nat.add_le_add_right (Nat.add_le_add_right (Nat.zero_le _) 1) 1
          · rw [litBody_bs hd] at h
            simp only [List.cons_append] at h
            rw [sqDecode_esc, if_pos (.inl rfl)] at h
            obtain ⟨⟨y, r'⟩, h1, h2⟩ := map_eq_some_of h
            cases h2
            rw [bsLead_bs, bsLead_bs, bsLead_bs]
            by_cases hdb : d = '\\'
            · subst hdb
              have : bsLead y ≤ _ := bsLead_le n ds (by simp at hn'; omega) h1
              exact Nat.add_le_add_right (Nat.le_succ_of_le this) 1
            · rw [litBody_other hdb hd, List.cons_append, sqDecode_plain hdb hd] at h1
              obtain ⟨⟨y', r''⟩, h3, h4⟩ := map_eq_some_of h1
              cases h4
              rw [bsLead_other hdb]; omega
      · rw [litBody_other hb hq] at h
        simp only [List.cons_append] at h
        rw [sqDecode_esc, if_neg (by simp [hb, hq])] at h
        obtain ⟨⟨y, r'⟩, h1, h2⟩ := map_eq_some_of h
        cases h2
        rw [bsLead_bs, bsLead_bs, bsLead_other hb, bsLead_other hb]; omega

/-- A text that begins with two backslashes is not read back. -/
theorem two_back {s z r : Text} (h : sqDecode (litBody ('\\' :: '\\' :: s) ++ '\'' :: z) = some ('\\' :: '\\' :: s, r)) : False := by
  rw [litBody_bs (by decide)] at h
  cases s with
  | nil =>
    have e : '\\' :: litBody c!"\\" ++ '\'' :: z = '\\' :: '\\' :: '\\' :: '\'' :: z := rfl
    rw [e, sqDecode_esc, if_pos (.inl rfl)] at h
    obtain ⟨⟨y, r'⟩, h1, h2⟩ := map_eq_some_of h
    rw [sqDecode_esc, if_pos (.inr rfl)] at h1
    obtain ⟨⟨y', r''⟩, h3, h4⟩ := map_eq_some_of h1
    cases h4; cases h2
  | cons d ds =>
    by_cases hd : d = '\''
    · subst hd
      rw [litBody_bsQuote] at h
      simp only [List.cons_append] at h
      rw [sqDecode_esc, if_pos (.inl rfl)] at h
      obtain ⟨⟨y, r'⟩, h1, h2⟩ := map_eq_some_of h
      rw [sqDecode_esc, if_pos (.inl rfl)] at h1
      obtain ⟨⟨y', r''⟩, h3, h4⟩ := map_eq_some_of h1
      cases h3; cases h4; cases h2
    · rw [litBody_bs hd] at h
      simp only [List.cons_append] at h
      rw [sqDecode_esc, if_pos (.inl rfl)] at h
      obtain ⟨⟨y, r'⟩, h1, h2⟩ := map_eq_some_of h
      cases h2
      by_cases hdb : d = '\\'
      · subst hdb
        have := bsLead_le ds.length ds (Nat.le_refl _) h1
        simp only [bsLead_bs] at this
        omega
      · rw [litBody_other hdb hd, List.cons_append, sqDecode_plain hdb hd] at h1
        obtain ⟨⟨y', r''⟩, h3, h4⟩ := map_eq_some_of h1
        injection h4 with h5 h6
        injection h5 with h7 h8
        exact hdb h7

theorem infix_tail_bs {c : Char} {s : Text} (h : c!"\\\\" <:+: c :: s) (hc : c ≠ '\\') : c!"\\\\" <:+: s := by
  rcases List.infix_cons_iff.1 h with h | h
  · obtain ⟨r, h⟩ := h
    cases h
    exact absurd rfl hc
  · exact h

/-- A text with two backslashes in a row is not read back. -/
theorem not_back : ∀ (n : Nat) (s : Text), s.length ≤ n → c!"\\\\" <:+: s → ∀ {z r : Text},
    sqDecode (litBody s ++ '\'' :: z) = some (s, r) → False
  | _, [], _, hi, _, _, _ => absurd hi (by decide)
  | 0, _ :: _, hn, _, _, _, _ => by simp at hn
  | n + 1, c :: s, hn, hi, z, r, h => by
    have hn' : s.length ≤ n := by simpa using hn
    by_cases hb : c = '\\'
    · subst hb
      cases s with
      | nil => exact absurd hi (by decide)
      | cons d ds =>
        have hn2 : ds.length ≤ n := by simp at hn'; omega
        by_cases hdb : d = '\\'
        · subst hdb
          exact two_back h
        · have hi2 : c!"\\\\" <:+: ds := by
            rcases List.infix_cons_iff.1 hi with h | h
            · obtain ⟨r, h⟩ := h
              cases h
              exact absurd rfl hdb
            · exact infix_tail_bs h hdb
          by_cases hq : d = '\''
          · subst hq
            rw [litBody_bsQuote] at h
            simp only [List.cons_append] at h
            rw [sqDecode_esc, if_pos (.inl rfl)] at h
            obtain ⟨⟨y, r'⟩, h1, h2⟩ := map_eq_some_of h
            rw [sqDecode_esc, if_pos (.inr rfl)] at h1
            obtain ⟨⟨y', r''⟩, h3, h4⟩ := map_eq_some_of h1
            injection h4 with h5 h6
            injection h2 with h7 h8
            subst h5 h6
            injection h7 with _ h9
            injection h9 with _ h10
            exact not_back n ds hn2 hi2 ((show y' = ds from h10) ▸ h3)
          · rw [litBody_bs hq, litBody_other hdb hq] at h
            simp only [List.cons_append] at h
            rw [sqDecode_esc, if_neg (by simp [hdb, hq])] at h
            obtain ⟨⟨y, r'⟩, h1, h2⟩ := map_eq_some_of h
            injection h2 with h7 h8
            injection h7 with _ h9
            injection h9 with _ h10
            exact not_back n ds hn2 hi2 ((show y = ds from h10) ▸ h1)
    · have hi2 := infix_tail_bs hi hb
      by_cases hq : c = '\''
      · subst hq
        rw [litBody_quote] at h
        simp only [List.cons_append] at h
        rw [sqDecode_esc, if_pos (.inr rfl)] at h
        obtain ⟨⟨y, r'⟩, h1, h2⟩ := map_eq_some_of h
        injection h2 with h7 h8
        injection h7 with _ h9
        exact not_back n s hn' hi2 ((show y = s from h9) ▸ h1)
      · rw [litBody_other hb hq, List.cons_append, sqDecode_plain hb hq] at h
        obtain ⟨⟨y, r'⟩, h1, h2⟩ := map_eq_some_of h
        injection h2 with h7 h8
        injection h7 with _ h9
        exact not_back n s hn' hi2 ((show y = s from h9) ▸ h1)

/-- A token read from a literal between single quotes is the decoded text. -/
theorem sqString_decode {t : Tz} {z : Text} (h : At t ('\'' :: z)) {m : T TokSpan} :
    Twp True True (matchSqString <||> m) t (fun x _ => ∀ s, x.tok = .encaps s → ∃ r, sqDecode z = some (s, r)) (fun e _ => e ≠ .none) ∨ byteLen ('\'' :: z) < 2 := by
  by_cases hl : byteLen ('\'' :: z) < 2
  · exact .inr hl
  left
  have h1 : At t (c!"'" ++ z) := h
  have key : Twp True True matchSqString t (fun x _ => ∀ s, x.tok = .encaps s → ∃ r, sqDecode z = some (s, r)) (fun e _ => e ≠ .none) := by
    unfold matchSqString
    refine Twp.bind (Twp.of_ok (input_at h) ?_)
    rw [if_neg hl]
    refine Twp.bind (m := getSt) (Twp.of_ok rfl ?_)
    dsimp only
    rw [if_neg (by simp [startsWith]), if_pos (by simp [startsWith])]
    refine Twp.bind (tw_advBytes h1 rfl fun hz => ?_)
    refine Twp.bind ((sqLoop_lay _ _ _ _).cons ?_ (fun _ _ h => h))
    rintro bs t' ⟨fs, r, k1, k2, k3⟩
    refine Twp.bind (tw_inputPos ?_)
    intro s hs
    obtain ⟨x, hx1, hx2⟩ := frags_decode k2
    have hz2 := hz.unique k1.src
    refine ⟨r, ?_⟩
    have hb := bytesTok_of bs
    have hs' : bytesToken bs = .encaps s := hs
    rw [hs', k3] at hb
    generalize hg : [] ++ fragBytes fs = b at hb
    cases hb with
    | text =>
      have : s = x := utf8_inj (by rw [hx2, ← hg]; rfl)
      rw [hz2, this, List.append_assoc]
      exact hx1
  unfold Twp T.orElse at *
  cases hm : matchSqString t with
  | ok a t' => rw [hm] at key; exact key
  | err e t' =>
    rw [hm] at key
    cases e with
    | none => exact absurd rfl key
    | _ => exact key
  | panic p => exact fun _ => trivial
  | oof => trivial

end Pico
