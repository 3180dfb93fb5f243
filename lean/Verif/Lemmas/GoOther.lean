import Verif.Lemmas.GoDoc
import Verif.Lemmas.LayNext
/-! # The last scanner reads what is left -/
namespace Pico
open T

section
variable {t : Tz}

theorem identifier_head {w r : Text} (h : isIdentifier w = true) : ¬ noIdentifier (w ++ r) := by
  cases w with
  | nil => cases h
  | cons c w =>
    simp only [isIdentifier, Bool.and_eq_true, Bool.not_eq_true'] at h
    rintro (hh | ⟨d, q, hh, hd⟩)
    · simp [endsIdentifier, h.1.1] at hh
    · cases hh
      rw [h.1.2] at hd
      cases hd

theorem symTexts_mem {w : Text} {k : Kw} (h : (w, k) ∈ symbols) : w ∈ symTexts :=
  List.mem_cons_of_mem _ (List.mem_map.2 ⟨_, h, rfl⟩)

/-- What is left for the last scanner. -/
theorem Stands.last {i : Text} (h : Stands i) (h1 : ∀ d q, i = d :: q → d.isDigit = false) (h2 : ¬ c!"'" <+: i) (h3 : ¬ c!"\"" <+: i)
    (h4 : ¬ c!"`" <+: i) (h5 : ¬ c!"#" <+: i) (h6 : ¬ c!"//" <+: i) (h7 : ¬ c!"/*" <+: i) (h8 : ∀ c r, i = '.' :: c :: r → c.isDigit = false) :
    ¬ noIdentifier i ∨ (∃ s ∈ symTexts, s <+: i) ∨ c!"$" <+: i := by
  have b : ∀ s : Text, endsIdentifier s = true ∨ True := fun _ => .inr trivial
  have hb : ∀ s : Text, ¬ noIdentifier ('b' :: s) := fun s => identifier_head (w := c!"b") (r := s) (by decide)
  rcases h with ⟨w, ks, r, rfl, h⟩ | h
  · cases h with
    | word h _ _ _ _ => exact .inl (identifier_head h)
    | yieldFrom b _ _ => exact .inl (by simpa using identifier_head (w := c!"yield") (r := b ++ (c!"from" ++ r)) (by decide))
    | «variable» n _ _ => exact .inr (.inr ⟨n ++ r, by simp⟩)
    | dollar h => exact .inr (.inr ⟨r, rfl⟩)
    | int h _ _ _ =>
      exfalso
      have hz : ∀ (c : Char) (q : Text), w = c :: q → c.isDigit = true → False := fun c q e hc => by
        rw [h1 c (q ++ r) (by rw [e]; rfl)] at hc
        cases hc
      cases h with
      | dec _ hne hd _ =>
        cases w with
        | nil => exact hne rfl
        | cons c q => exact hz c q rfl (hd c (by simp))
      | oct ds _ _ => exact hz '0' ds rfl (by decide)
      | hex ds _ _ => exact hz '0' ('x' :: ds) rfl (by decide)
      | bin ds _ _ => exact hz '0' ('b' :: ds) rfl (by decide)
    | double ds fs hd hne hm =>
      exfalso
      cases ds with
      | cons c ds =>
        have := hd c (by simp)
        rw [h1 c _ rfl] at this
        cases this
      | nil =>
        cases fs with
        | nil => exact hne rfl
        | cons c fs =>
          have := hd c (by simp)
          rw [h8 c _ rfl] at this
          cases this
    | symbol h _ _ => exact .inr (.inl ⟨w, symTexts_mem h, List.prefix_append _ _⟩)
    | cast b w b' k _ _ _ => exact .inr (.inl ⟨c!"(", by decide, ⟨b ++ (w ++ (b' ++ (c!")" ++ r))), by simp⟩⟩)
    | line o s h _ _ =>
      exfalso
      rcases h with rfl | rfl
      · exact h5 ⟨s ++ r, by simp⟩
      · exact h6 ⟨s ++ r, by simp⟩
    | block o s h _ =>
      exfalso
      rcases h with rfl | ⟨rfl, _⟩
      · exact h7 ⟨c!"*" ++ (s ++ (c!"*/" ++ r)), by simp⟩
      · exact h7 ⟨s ++ (c!"*/" ++ r), by simp⟩
    | single p fs k hp _ _ =>
      rcases hp with rfl | rfl
      · exact absurd ⟨fragSrc fs ++ (c!"'" ++ r), by simp⟩ h2
      · exact .inl (by simpa using hb (c!"'" ++ (fragSrc fs ++ (c!"'" ++ r))))
    | quoted p fs ts hp _ _ =>
      rcases hp with rfl | rfl
      · exact absurd ⟨fragSrc fs ++ (c!"\"" ++ r), by simp⟩ h3
      · exact .inl (by simpa using hb (c!"\"" ++ (fragSrc fs ++ (c!"\"" ++ r))))
    | back fs ts _ _ => exact absurd ⟨fragSrc fs ++ c!"`", by simp⟩ h4
    | doc p w ks hp h =>
      rcases hp with rfl | rfl
      · obtain ⟨s, rfl⟩ := h.first
        exact .inr (.inl ⟨c!"<<", by decide, ⟨c!"<" ++ (s ++ r), by simp⟩⟩)
      · exact .inl (by simpa using hb (w ++ r))
  · exact .inr (.inl ⟨c!"?>", by decide, h⟩)

theorem rest_go {next : T TokSpan} (bfuel : Nat) {i : Text} (hs : Scr t) (hb : Gb next bfuel t) (hst : ¬ HasStray t.code)
    (hi : At t i) (ha : Stands i) (hdot : i ≠ c!".") (hp : c!"}" <+: i → t.st.stack ≠ []) :
    Safe (matchHereNowDoc next bfuel <||> bnum <||> hnum <||> onumDnumLnum <||> matchDqString next bfuel <||>
      matchVariable <||> matchSqString <||> matchComments <||> matchBackquote next bfuel <||> labelOrOther t.st.srcPos) t
      (StepL t) (fun _ _ => False) := by
  have hne : i ≠ [] := by
    rintro rfl
    rcases ha with ⟨w, ks, r, e, h⟩ | ⟨q, h⟩
    · exact h.first.2.1 e.symm
    · cases h
  have hQ : ∀ x t', StepM t x t' → StepL t x t' := fun _ _ h => h.toL
  refine chainG (hereNowDoc_lay bfuel hs hb.ok) (go_hereNowDoc bfuel hi ha hb) hQ fun hdoc => ?_
  refine chainG (bnum_lay hs hst) (go_bnum hi ha) hQ fun hbin => ?_
  refine chainG (hnum_lay hs hst) (go_hnum hi ha) hQ fun hhex => ?_
  have hx : ∀ c q, i ≠ c!"0x" ++ c :: q := fun c q e => hhex c q (e ▸ hi)
  have hb' : ∀ c q, i ≠ c!"0b" ++ c :: q := fun c q e => hbin c q (e ▸ hi)
  refine chainG' (onum_lay hs hi hne hx hb') (go_onum hi hne ha hdot hx hb') hQ fun hfr g1 => ?_
  refine chainG' (dqString_lay bfuel hs hb.ok) (go_dqString bfuel hi ha hb) hQ fun hdq g2 => ?_
  refine chainG (variable_lay hs) (go_variable hi) hQ fun hv => ?_
  refine chainG' (sqString_lay hs) (go_sqString hi ha) hQ fun hsq g3 => ?_
  refine chainG' (comments_lay hs) (go_comments hi ha) hQ fun hcm g4 => ?_
  refine chainG' (backquote_lay bfuel hs hb.ok) (go_backquote bfuel hi ha hb) hQ fun _ g5 => ?_
  obtain ⟨x, t', h⟩ := labelOrOther_ok hi (ha.last g1 g3 g2 g5 g4 (hcm.1 i hi) (hcm.2 i hi) fun c r e => hfr c r (e ▸ hi)) hp
  refine Safe.of_ok h ?_
  refine Twp.elim (labelOrOther_lay hs hi hne hv ?_ ?_) h
  · rintro (⟨c, r, rfl, hc⟩ | h | h | h | h)
    · rw [hfr c r hi] at hc; cases hc
    · exact absurd h (hcm.1 i hi)
    · exact absurd h (hcm.2 i hi)
    · exact h
    · exact absurd h (hdoc i hi).1
  · rintro r rfl (⟨q, rfl⟩ | ⟨q, rfl⟩ | h)
    · exact hsq _ hi ⟨q, rfl⟩
    · exact hdq _ hi ⟨q, rfl⟩
    · exact (hdoc _ hi).2 r rfl h

end
end Pico
