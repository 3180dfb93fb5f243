import Verif.Lemmas.Unique
import Verif.Props.Agree
import Verif.Spec.Layout
/-!
# C42: the tokens are those of the pieces the source consists of; C43: a source has one reading only
-/
namespace Pico

/-- **C42** for all sources in whose strings `{$` and `${` are followed by a simple closed expression (`HasWild`), without names that
are not ASCII (`C42_fails_names`) and without the
prefix of a hexadecimal or binary number before something else than its digits (`C42_fails`): the source consists of
blanks and pieces only, and the tokens are those of its pieces, in that order. -/
theorem C42_partial (src : Text) (n : Nat) (toks : List TokSpan) (h : spansOf n src = some toks) (hb : ¬ HasWild src)
    (hs : ¬ HasStray src) (ha : ∀ x ∈ toks, ∀ w, x.tok = .string w → ascii w = true) :
    Laid .html src (toks.map TokSpan.tok) := by
  unfold spansOf at h
  split at h
  · rename_i t hl
    cases h
    obtain ⟨b, hb', hr⟩ := lexAll_lay n (Tz.new src) [] _ t (inv_new src) nofun hb hs hl
    obtain rfl : toks = b := hb'
    obtain ⟨rs, r, e, h1, h2⟩ := hr ha
    have h1 : dropBytes src 0 = some r := h1
    rw [dropBytes_zero] at h1
    cases h1
    have e : toks.map TokSpan.tok = rs := e
    rw [e]
    exact h2
  · cases h

/-- Text outside of tags, comments, numbers, strings, casts and properties. -/
def laidSample : Text := c!"é<?php /* n */ $a -> if = (int ) .5 . 0x1f; # é\nyield  from f(\"x\\t$c->d{$e->f[1]} ${g}\", 'é'); ?>é"

/-- A stray prefix, decided. -/
def strays : Text → Bool
  | [] => false
  | c :: r =>
    (c == '0' &&
      match r with
      | 'x' :: d :: _ => !(d.isDigit || d ∈ c!"abcdefABCDEF")
      | 'b' :: d :: _ => !(d == '0' || d == '1')
      | _ => false) || strays r

theorem strays_of {src : Text} (h : HasStray src) : strays src = true := by
  obtain ⟨pre, c, post, h⟩ := h
  induction pre generalizing src with
  | nil =>
    rcases h with ⟨rfl, h1, h2⟩ | ⟨rfl, h1, h2⟩
    · simp only [List.nil_append, List.cons_append, strays]
      simp only [h1, h2]
      rfl
    · simp only [List.nil_append, List.cons_append, strays]
      simp only [beq_eq_false_iff_ne.2 h1, beq_eq_false_iff_ne.2 h2]
      rfl
  | cons d pre ih =>
    rcases h with ⟨rfl, h⟩ | ⟨rfl, h⟩
    · simp only [List.cons_append, strays, ih (.inl ⟨rfl, h⟩), Bool.or_true]
    · simp only [List.cons_append, strays, ih (.inr ⟨rfl, h⟩), Bool.or_true]

def namesOk (toks : List TokSpan) : Bool := toks.all fun x => match x.tok with
  | .string w => ascii w
  | _ => true

theorem namesOk_of {toks : List TokSpan} (h : namesOk toks = true) : ∀ x ∈ toks, ∀ w, x.tok = .string w → ascii w = true := by
  intro x hx w hw
  have := List.all_eq_true.1 h x hx
  rw [hw] at this
  exact this

/-- It meets the hypotheses. -/
example : ∃ toks, spansOf 60 laidSample = some toks ∧ toks.length = 40 ∧ ¬ HasWild laidSample ∧ ¬ HasStray laidSample ∧
    ∀ x ∈ toks, ∀ w, x.tok = .string w → ascii w = true := by
  have h : (spansOf 60 laidSample).any (fun toks => decide (toks.length = 40) && namesOk toks) = true := by decide +kernel
  obtain ⟨h0, h2⟩ := (Option.any_eq_true_iff_get _ _).1 h
  rw [Bool.and_eq_true, decide_eq_true_iff] at h2
  refine ⟨_, (Option.some_get h0).symm, h2.1, ?_, fun h => ?_, namesOk_of h2.2⟩
  · exact tamed_sound (by decide +kernel)
  · exact absurd (strays_of h) (by decide +kernel)

theorem intLit_five {w r : Text} (h : IntLit w 5) (e : c!"0b5" = w ++ r) : False := by
  have : w = [] ∨ w = c!"0" ∨ w = c!"0b" ∨ w = c!"0b5" := by
    rcases w with _ | ⟨a, _ | ⟨b, _ | ⟨c, _ | ⟨d, w⟩⟩⟩⟩
    · exact .inl rfl
    · cases e; exact .inr (.inl rfl)
    · cases e; exact .inr (.inr (.inl rfl))
    · cases e; exact .inr (.inr (.inr rfl))
    · cases e
  generalize hv : 5 = v at h
  cases h with
  | dec ds h hd hz =>
    rcases this with rfl | rfl | rfl | rfl
    · exact h rfl
    · cases hv
    · cases hz rfl
    · cases hz rfl
  | oct ds h hd =>
    rcases this with h1 | h1 | h1 | h1
    · cases h1
    · cases h1; exact h rfl
    · cases h1; exact absurd (hd 'b' (by simp)) (by decide)
    · cases h1; exact absurd (hd 'b' (by simp)) (by decide)
  | hex ds h hd => rcases this with h1 | h1 | h1 | h1 <;> cases h1
  | bin ds h hd =>
    rcases this with h1 | h1 | h1 | h1
    · cases h1
    · cases h1
    · cases h1; exact h rfl
    · cases h1; exact absurd (hd '5' (by simp)) (by decide)

theorem not_laid_five : ¬ Laid .html c!"<?=0b5" [.k .OpenTagWithEcho, .int 5] := by
  intro h
  generalize hs : c!"<?=0b5" = src at h
  cases h with
  | openTag w k hw hm h =>
    have : w = c!"<?=" := by
      have : ∀ p ∈ openTags, p.2 = .OpenTagWithEcho → p.1 = c!"<?=" := by decide
      exact this _ hw rfl
    subst this
    have hs : c!"0b5" = _ := List.append_cancel_left (as := c!"<?=") hs
    subst hs
    clear hw hm
    generalize hs : c!"0b5" = src at h
    generalize ht : [Token.int 5] = ts at h
    cases h with
    | scriptEnd => cases ht
    | closeTag => cases ht
    | piece b w ks hb hw h =>
      have : b = [] := by
        cases b with
        | nil => rfl
        | cons c b =>
          have : '0' = c := by injection hs
          subst this
          exact absurd (hb '0' (by simp)) (by decide)
      subst this
      have hbt : ∀ {bs k}, BytesTok bs k → k ≠ .int 5 := by
        intro bs k h
        cases h <;> nofun
      cases hw <;> try (cases ht; done)
      case int =>
        cases ht
        exact intLit_five (by assumption) (by simpa using hs)
      case word =>
        injection ht with ht
        unfold identifierToken at ht
        split at ht <;> cases ht
      case single =>
        injection ht with ht
        exact hbt (by assumption) ht.symm
      case doc p w hp h =>
        cases h with
        | here => cases ht
        | now =>
          injection ht with ht
          exact hbt (by assumption) ht.symm

/-- **C42** fails for the prefix of a number without a digit behind it: `0b5` is read as `5`. -/
theorem C42_fails : ∃ src n toks, spansOf n src = some toks ∧ ¬ HasWild src ∧ (∀ x ∈ toks, ∀ w, x.tok = .string w → ascii w = true) ∧
    ¬ Laid .html src (toks.map TokSpan.tok) := by
  have h : (spansOf 20 c!"<?=0b5").any (fun toks => namesOk toks && decide (toks.map TokSpan.tok = [.k .OpenTagWithEcho, .int 5])) = true := by
    decide +kernel
  obtain ⟨h0, h2⟩ := (Option.any_eq_true_iff_get _ _).1 h
  rw [Bool.and_eq_true, decide_eq_true_iff] at h2
  refine ⟨c!"<?=0b5", 20, _, (Option.some_get h0).symm, ?_, namesOk_of h2.1, ?_⟩
  · exact tamed_sound (by decide +kernel)
  · rw [h2.2]; exact not_laid_five

/-- And it fails for names that are not ASCII: the end of `éa` is read twice. -/
theorem C42_fails_names : (spansOf 30 c!"<?=éa").map (List.map TokSpan.tok) =
    some [.k .OpenTagWithEcho, .string c!"éa", .string c!"a"] := by decide +kernel

/-- `Spec/Layout` lets back quotes end a command at the end of the source only, as the tokenizer does: two commands are
read as one. -/
theorem C42_backquotes : (spansOf 30 c!"<?=`a`.`b`").map (List.map TokSpan.tok) =
    some [.k .OpenTagWithEcho, .k .Backquote, .encaps c!"a`.`b", .k .Backquote] := by decide +kernel

/-- **C43**, the rules: a text can be read as pieces with one list of tokens only. -/
theorem C43_unique (src : Text) (ts ts' : List Token) (h : Laid .html src ts) (h' : Laid .html src ts') : ts = ts' :=
  h.unique h' rfl

/-- A text that can be read. -/
example : Laid .html c!"é" [.inlineHtml c!"é"] := .html c!"é" nofun (by decide) (.inl rfl) .htmlEnd

/-- **C43** for the sources of `C42_partial` that can be tokenized: the tokens are the only ones the source can be read as.
For the other direction see `C43_complete_partial`. -/
theorem C43_partial (src : Text) (n : Nat) (toks : List TokSpan) (ts : List Token) (h : spansOf n src = some toks)
    (hb : ¬ HasWild src) (hs : ¬ HasStray src) (ha : ∀ x ∈ toks, ∀ w, x.tok = .string w → ascii w = true) :
    Laid .html src ts ↔ toks.map TokSpan.tok = ts :=
  ⟨fun hl => C43_unique src _ _ (C42_partial src n toks h hb hs ha) hl, fun e => e ▸ C42_partial src n toks h hb hs ha⟩

end Pico
