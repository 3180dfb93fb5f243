import Verif.Lemmas.LexItem
import Verif.Props.Lexing
/-!
# What the words `yield` and `yieldfrom` are read as (C10)

`C10_identifiers_partial` leaves out `yield` with a blank behind it, and `yieldfrom`. These are the remaining cases.
-/
namespace Pico
open T

private theorem yield_pos {t : Tz} {b r : Text} (h : At t (c!"yield" ++ (b ++ r))) (hb : Blank b) :
    At (t.adv 5) (b ++ r) ∧ ((t.adv 5).ws b).st.srcPos = t.st.srcPos + 5 + b.length := by
  refine ⟨At.adv h, ?_⟩
  rw [← hb.len]
  exact (wsGo_fields b hb.all (t.adv 5).st).1

private theorem yield_found {t t' : Tz} {w r : Text} {k : Kw} {p : Nat} (h : At t (w ++ r)) (hw : Lab w)
    (hr : ∀ c, r.head? = some c → isLabelChar c = false) (hA : matchFirst tableA t = .err .none t)
    (hy : matchYield t = .ok ⟨.k k, mkSpan t.st.srcPos p⟩ t') (hp : t.st.srcPos + w.length ≤ p) (hq : t'.st.srcPos = p) :
    labelOrOther t.st.srcPos t = .ok ⟨.k k, mkSpan t.st.srcPos p⟩ t' := by
  have hlab := label_some h hw.ne hw.lab hw.dig hr
  have ho : inScriptingOtherToken t = .ok ⟨.k k, mkSpan t.st.srcPos p⟩ t' := by
    unfold inScriptingOtherToken
    rw [orElse_none hA, orElse_ok hy]
  unfold labelOrOther
  rw [bind_ok (setPos_here rfl), bind_ok hlab, bind_ok (setPos_back rfl)]
  simp only [ho]
  rw [if_pos (by simp only [mkSpan]; omega)]
  subst hq
  rfl

private theorem yield_only {t : Tz} {b r : Text} (h : At t (c!"yield" ++ (b ++ r))) (hb : Blank b)
    (hr : startsBlank r = false) (hf : ¬ c!"from" <+: r) :
    matchYield t = .ok ⟨.k .Yield, mkSpan t.st.srcPos (t.st.srcPos + 5 + b.length)⟩ ((t.adv 5).ws b) := by
  obtain ⟨h5, hpos⟩ := yield_pos h hb
  have hm := Moved.ws h5 hb.all
  have hr' : (r.head?.map isBlank).getD false = false := by
    cases r with
    | nil => rfl
    | cons c r =>
      simp [startsBlank] at hr
      simp [isBlank, hr]
  have hf' : startsWithCi r c!"from" = false := by
    cases hx : startsWithCi r c!"from" with
    | false => rfl
    | true =>
      obtain ⟨q, hq, _⟩ := startsWithCi_split hx
      exact absurd ⟨q, by rw [hq]; rfl⟩ hf
  unfold matchYield
  rw [bind_ok (input_at h), if_pos (by rfl)]
  refine (bind_ok inputPos_at).trans ?_
  refine (bind_ok (advanceBytes_at' h rfl)).trans ?_
  refine (bind_ok (whitespace_at h5 hb.all hr')).trans ?_
  refine (bind_ok (input_at hm.at')).trans ?_
  rw [if_neg (by simp [hf'])]
  refine (bind_ok inputPos_at).trans ?_
  rw [hpos]
  rfl

private theorem yield_from {t : Tz} {b q : Text} (h : At t (c!"yield" ++ (b ++ (c!"from" ++ q)))) (hb : Blank b) :
    matchYield t = .ok ⟨.k .YieldFrom, mkSpan t.st.srcPos (t.st.srcPos + 9 + b.length)⟩ (((t.adv 5).ws b).adv 4) := by
  obtain ⟨h5, hpos⟩ := yield_pos h hb
  have hm := Moved.ws h5 hb.all
  unfold matchYield
  rw [bind_ok (input_at h), if_pos (by rfl)]
  refine (bind_ok inputPos_at).trans ?_
  refine (bind_ok (advanceBytes_at' h rfl)).trans ?_
  refine (bind_ok (whitespace_at h5 hb.all rfl)).trans ?_
  refine (bind_ok (input_at hm.at')).trans ?_
  rw [if_pos (by rfl)]
  refine (bind_ok (advanceBytes_at' hm.at' rfl)).trans ?_
  refine (bind_ok inputPos_at).trans ?_
  have : (((t.adv 5).ws b).adv 4).st.srcPos = t.st.srcPos + 9 + b.length := by
    show ((t.adv 5).ws b).st.srcPos + 4 = _
    rw [hpos]; omega
  exact congrArg (fun x => TR.ok (⟨.k .YieldFrom, mkSpan t.st.srcPos x⟩ : TokSpan) (((t.adv 5).ws b).adv 4)) this

private theorem lab_y : Lab c!"yield" := ⟨by decide, by decide, by decide⟩
private theorem lab_yf : Lab c!"yieldfrom" := ⟨by decide, by decide, by decide⟩

private theorem blank_head {b r : Text} (hb : Blank b) (hne : b ≠ []) : ∀ c, (b ++ r).head? = some c → isLabelChar c = false := by
  intro c hc
  cases b with
  | nil => exact absurd rfl hne
  | cons d b =>
    cases hc
    cases hl : isLabelChar c with
    | false => rfl
    | true =>
      have h1 := label_not_blank hl
      have h2 := List.all_eq_true.1 hb.all c (by simp)
      rw [h1] at h2
      cases h2

private theorem reads_yield {t t' : Tz} {blanks rest i : Text} {k : Kw} {p : Nat} (hb : Blank blanks)
    (ht : InScript t (blanks ++ (c!"yield" ++ i)))
    (hl : labelOrOther (t.ws blanks).st.srcPos (t.ws blanks) = .ok ⟨.k k, mkSpan (t.ws blanks).st.srcPos ((t.ws blanks).st.srcPos + p)⟩ t')
    (hm : Moved (t.ws blanks) t' rest) (n : Nat) :
    ∃ sp t', nextToken (n + 1) t = .ok ⟨.k k, sp⟩ t' ∧ sp.start = t.st.srcPos + blanks.length ∧
      sp.stop = t.st.srcPos + blanks.length + p ∧ InScript t' rest ∧ t'.st.stack = t.st.stack := by
  have hat := ht.at
  have hmv := Moved.ws hat hb.all
  have hpl : plain (c!"yield" ++ i) = true := by rfl
  have hpos : (t.ws blanks).st.srcPos = t.st.srcPos + blanks.length := by
    rw [← hb.len]; exact (wsGo_fields blanks hb.all t.st).1
  refine ⟨_, t', next_scripting ht.1 ((plain_scripting _ _ hat hb.all rfl hpl).trans hl), hpos, ?_,
    ht.moved (hmv.trans hm), (hmv.trans hm).stack⟩
  show (t.ws blanks).st.srcPos + p = _
  rw [hpos]

/-- **C10** for `yield` with blanks behind it and no `from` behind them: it is read as the keyword, but its range takes in the blanks. -/
theorem C10_yield_partial (t : Tz) (blanks b r : Text) (hb : Blank blanks) (hb' : Blank b) (hne : b ≠ [])
    (hr : startsBlank r = false) (hf : ¬ c!"from" <+: r) (ht : InScript t (blanks ++ (c!"yield" ++ (b ++ r)))) :
    Reads t (.k .Yield) (t.st.srcPos + blanks.length) (t.st.srcPos + blanks.length + (5 + b.length))
      fun t' => InScript t' r ∧ t'.st.stack = t.st.stack := by
  intro n
  have hat := (Moved.ws ht.at hb.all).at'
  have hy := yield_only hat hb' hr hf
  rw [Nat.add_assoc] at hy
  exact reads_yield hb ht (yield_found hat lab_y (blank_head hb' hne) (matchFirst_none tableA hat (by rfl)) hy (by
    show _ + 5 ≤ _; omega) (by rw [(yield_pos hat hb').2]; omega)) ((Moved.adv hat).trans (Moved.ws (yield_pos hat hb').1 hb'.all)) n

/-- **C10** fails wherever the letters `from` follow `yield` and blanks: one token is read, whatever follows these letters, and the rest of
the word is read as if it were a word of its own. -/
theorem C10_fails_class (t : Tz) (blanks b q : Text) (hb : Blank blanks) (hb' : Blank b) (hne : b ≠ [])
    (ht : InScript t (blanks ++ (c!"yield" ++ (b ++ (c!"from" ++ q))))) :
    Reads t (.k .YieldFrom) (t.st.srcPos + blanks.length) (t.st.srcPos + blanks.length + (9 + b.length))
      fun t' => InScript t' q ∧ t'.st.stack = t.st.stack := by
  intro n
  have hat := (Moved.ws ht.at hb.all).at'
  have hy := yield_from hat hb'
  rw [Nat.add_assoc] at hy
  have hm := Moved.ws (yield_pos hat hb').1 hb'.all
  exact reads_yield hb ht (yield_found hat lab_y (blank_head hb' hne) (matchFirst_none tableA hat (by rfl)) hy (by
    show _ + 5 ≤ _; omega) (by
    show (((t.ws blanks).adv 5).ws b).st.srcPos + 4 = _
    rw [(yield_pos hat hb').2]; omega)) (((Moved.adv hat).trans hm).trans (Moved.adv hm.at')) n

/-- **C10** fails for the name `yieldfrom`, everywhere. -/
theorem C10_fails_yieldfrom (t : Tz) (blanks q : Text) (hb : Blank blanks) (hq : endsIdentifier q = true)
    (ht : InScript t (blanks ++ (c!"yieldfrom" ++ q))) :
    Reads t (.k .YieldFrom) (t.st.srcPos + blanks.length) (t.st.srcPos + blanks.length + 9)
      fun t' => InScript t' q ∧ t'.st.stack = t.st.stack := by
  intro n
  have hbn : Blank [] := nofun
  have hat : At (t.ws blanks) (c!"yield" ++ ([] ++ (c!"from" ++ q))) := (Moved.ws ht.at hb.all).at'
  have hy := yield_from hat hbn
  have hm := Moved.ws (yield_pos hat hbn).1 hbn.all
  have hfound : labelOrOther (t.ws blanks).st.srcPos (t.ws blanks) = _ :=
    yield_found (w := c!"yieldfrom") (r := q) hat lab_yf (endsIdentifier_head hq) (matchFirst_none tableA hat (by rfl)) hy (by
      show _ + 9 ≤ _; simp) rfl
  exact reads_yield (i := c!"from" ++ q) hb ht hfound (((Moved.adv hat).trans hm).trans (Moved.adv hm.at')) n

/-- The hypotheses hold in `yield $x;` and in `yield fromage;`. -/
example : InScript ⟨c!"<?php yield $x;", ⟨5, .inScripting, [], 1, ⟨[0], 15⟩, false⟩, []⟩ (c!" " ++ (c!"yield" ++ (c!" " ++ c!"$x;"))) ∧
    startsBlank c!"$x;" = false ∧ ¬ c!"from" <+: c!"$x;" ∧
    InScript ⟨c!"<?php yield fromage;", ⟨5, .inScripting, [], 1, ⟨[0], 20⟩, false⟩, []⟩
      (c!" " ++ (c!"yield" ++ (c!" " ++ (c!"from" ++ c!"age;")))) :=
  ⟨⟨rfl, c!"<?php", by decide, by decide⟩, by decide, by decide, rfl, c!"<?php", by decide, by decide⟩

/-- The hypotheses hold in `yieldfrom();`. -/
example : InScript ⟨c!"<?php yieldfrom();", ⟨5, .inScripting, [], 1, ⟨[0], 18⟩, false⟩, []⟩ (c!" " ++ (c!"yieldfrom" ++ c!"();")) ∧
    endsIdentifier c!"();" = true := ⟨⟨rfl, c!"<?php", by decide, by decide⟩, by decide⟩

end Pico
