import Verif.Props.Ranges
import Verif.Lemmas.LayNext
import Verif.Lemmas.TokenizerMono
import Verif.Lemmas.ScriptCheck
/-!
# The ranges of names that are not ASCII (C41)
-/
namespace Pico
open T

private theorem lexAll_code {fuel : Nat} : ∀ (n : Nat) (t : Tz) (acc toks : List TokSpan) (t' : Tz), Inv t →
    lexAll fuel n t acc = .ok (toks, t') → t'.code = t.code
  | 0, _, _, _, _, _, h => by cases h
  | n + 1, t, acc, toks, t', hi, h => by
    unfold lexAll at h
    cases hn : nextToken fuel t with
    | ok x t1 =>
      rw [hn] at h
      dsimp only at h
      have hc := (hi.post hn).code
      split at h
      · cases h; exact hc
      · exact (lexAll_code n t1 _ toks t' (hi.next hn) h).trans hc
    | err e t1 => rw [hn] at h; cases h
    | panic p => rw [hn] at h; cases h
    | oof => rw [hn] at h; cases h

private theorem variable_any {t : Tz} {w r : Text} (h : At t ('$' :: (w ++ r))) (hw : IsLabel w) (hr : ∀ c, r.head? = some c → isLabelChar c = false) :
    matchVariable t = .ok ⟨.variable w, mkSpan t.st.srcPos (t.st.srcPos + 1 + w.length)⟩ (t.adv (1 + byteLen w)) := by
  unfold matchVariable
  rw [bind_ok (input_at h)]
  have h2 : At t (c!"$" ++ (w ++ r)) := h
  rw [if_neg (by
    have := byteLen_pos hw.1
    have h1 : ('$' : Char).utf8Size = 1 := by decide
    simp only [byteLen, byteLen_append, startsWith, h1]
    simp
    omega)]
  refine (bind_ok inputPos_at).trans ?_
  refine (bind_ok (advanceBytes_at' h2 rfl)).trans ?_
  refine (bind_ok (label_some (At.adv h2) hw.1 hw.lab (fun c hc => hw.2.1 c hc) hr)).trans ?_
  dsimp only
  rw [Tz.adv_adv]
  rfl

private theorem byteLen_wide : ∀ {w : Text}, (∃ c ∈ w, 128 ≤ c.toNat) → w.length < byteLen w
  | [], h => by obtain ⟨c, hc, -⟩ := h; cases hc
  | c :: w, h => by
    have h1 := length_le_byteLen w
    have h2 : 1 ≤ c.utf8Size := Char.utf8Size_pos c
    simp only [byteLen, List.length_cons]
    obtain ⟨c', hc, h3⟩ := h
    rcases List.mem_cons.1 hc with rfl | hc
    · have : 2 ≤ c'.utf8Size := by
        have h4 : ¬ c'.val ≤ UInt32.ofNatLT 127 (by decide) := by
          intro h
          have h : c'.val.toNat ≤ 127 := h
          have : c'.toNat = c'.val.toNat := rfl
          omega
        unfold Char.utf8Size
        rw [if_neg h4]
        split
        · decide
        · split <;> decide
      omega
    · have := byteLen_wide ⟨c', hc, h3⟩
      omega

/-- **C41** fails for every variable whose name is not ASCII, wherever it stands in a script that is taken apart: its range ends too early, by
the number of bytes its characters have more than one. -/
theorem C41_fails_class (is : List Item) (d : Nat) (w rest : Text) (h : Apart false is ('$' :: (w ++ rest))) (hp : endsProp false is = false)
    (hb : braces 0 is = some d) (hw : IsLabel w) (hn : ∃ c ∈ w, 128 ≤ c.toNat) (hr : endsIdentifier rest = true) (n : Nat) (toks : List TokSpan)
    (hl : spansOf n (c!"<?php" ++ render is ++ c!"$" ++ w ++ rest) = some toks) :
    ∃ x ∈ toks, x.tok = .variable w ∧ x.span.start = byteLen (c!"<?php" ++ render is) ∧ x.span.stop = x.span.start + 1 + w.length ∧
      x.span.stop < byteLen (c!"<?php" ++ render is ++ c!"$" ++ w) := by
  have hsrc : c!"<?php" ++ render is ++ c!"$" ++ w ++ rest = c!"<?php" ++ (render is ++ '$' :: (w ++ rest)) := by simp
  rw [hsrc] at hl
  obtain ⟨sp, t1, h1, h2, h3, h4⟩ := open_tag (render is ++ '$' :: (w ++ rest)) (n + 2)
  have hi := inv_new (c!"<?php" ++ (render is ++ '$' :: (w ++ rest)))
  obtain ⟨out, t2, g1, g2, g3, g4, g5⟩ := run_items is ('$' :: (w ++ rest)) n d t1 false 0 (.of_at h2) ⟨hi.next h1, h4, .inl h3⟩ h hb
    [⟨.k .OpenTag, sp⟩]
  rw [hp] at g4
  obtain ⟨b, g, r, e, hbb, hg, hat⟩ := g3
  have hbn : b = [] := by
    cases b with
    | nil => rfl
    | cons c b =>
      have hc : '$' = c := (List.cons.inj e).1
      have := hbb c List.mem_cons_self
      rw [← hc] at this
      exact absurd this (by decide)
  subst hbn
  rw [List.nil_append] at e
  subst e
  obtain ⟨t3, m, k1, k2, k3, k4, k5, k6⟩ := g4.enter n
  have hat3 := k4 _ hat
  have hmv := Moved.ws hat3 hg.all
  have hx := hmv.at'
  have hnext : nextToken (n + 3) t2 = .ok ⟨.variable w, mkSpan (t3.ws g).st.srcPos ((t3.ws g).st.srcPos + 1 + w.length)⟩ ((t3.ws g).adv (1 + byteLen w)) := by
    rw [k1]
    refine next_scripting k2.state ((scripting_start _ _ hat3 hg.all rfl (by simp)).trans ?_)
    rw [orElse_none (hereNowDoc_none _ _ hx rfl rfl), orElse_none (show bnum _ = _ from prefixedNum_none _ _ _ hx rfl),
      orElse_none (show hnum _ = _ from prefixedNum_none _ _ _ hx rfl),
      orElse_none (onum_none hx (by simp) (by intro c hc; cases hc; decide) rfl),
      orElse_none (dqString_none _ _ hx rfl rfl), orElse_ok (variable_any hx hw (endsIdentifier_head hr))]
  unfold spansOf at hl
  cases hla : lexAll n n (Tz.new (c!"<?php" ++ (render is ++ '$' :: (w ++ rest)))) [] with
  | err => rw [hla] at hl; cases hl
  | panic => rw [hla] at hl; cases hl
  | oof => rw [hla] at hl; cases hl
  | ok q =>
    obtain ⟨toks', tf⟩ := q
    rw [hla] at hl
    cases hl
    have hmono := (lexAll_mono (f := n) (f' := n + 3) (by omega) (n := n) (n' := n + 1 + out.length + 1) (by omega)
      (Tz.new (c!"<?php" ++ (render is ++ '$' :: (w ++ rest)))) []).resolve_left (by rw [hla]; nofun)
    rw [hla, lexAll_step h1 (by nofun), List.nil_append, g2 (n + 1)] at hmono
    have hcode := (lexAll_code _ _ _ _ _ g4.inv hmono.symm).symm.trans (lexAll_code _ _ _ _ _ hi hla)
    rw [lexAll_step hnext (by nofun)] at hmono
    obtain ⟨z, hz⟩ := lexAll_ext _ _ _ _ _ hmono.symm
    have ht := hx.total
    have hp3 : (t3.ws g).code = t2.code := (g4.inv.post hnext).code
    rw [hp3, hcode] at ht
    have hpos : (t3.ws g).st.srcPos = byteLen (c!"<?php" ++ render is) := by
      have : (Tz.new (c!"<?php" ++ (render is ++ '$' :: (w ++ rest)))).code = (c!"<?php" ++ render is) ++ '$' :: (w ++ rest) := by
        rw [List.append_assoc]; rfl
      rw [this, byteLen_append] at ht
      omega
    refine ⟨_, by rw [hz]; exact List.mem_append_left _ (List.mem_append_right _ (List.mem_singleton_self _)), rfl, hpos, rfl, ?_⟩
    show (t3.ws g).st.srcPos + 1 + w.length < _
    rw [hpos, byteLen_append _ w, byteLen_append _ c!"$"]
    have : byteLen c!"$" = 1 := rfl
    have hlt := byteLen_wide hn
    omega

/-- The beginning of a block, a string and a dot. -/
def nameSample : List Item := [.gap c!" ", .lex (.sym c!"{" .CurlyBracesOpen), .lex (.str c!"x" c!"x"), .lex (.sym c!"." .Dot)]

/-- Such a variable in a block, behind a string. -/
example : IsLabel c!"é" ∧ (∃ c ∈ c!"é", 128 ≤ c.toNat) ∧ endsIdentifier c!";}" = true ∧ Apart false nameSample c!"$é;}" ∧
    endsProp false nameSample = false ∧ braces 0 nameSample = some 1 ∧
    (spansOf 20 (c!"<?php" ++ render nameSample ++ c!"$" ++ c!"é" ++ c!";}")).isSome = true :=
  ⟨by unfold IsLabel; decide, by decide, rfl, apartB_ok rfl, rfl, rfl, by decide +kernel⟩

end Pico
