import Verif.Lemmas.PanicStmt
import Verif.Lemmas.Front
import Verif.Props.Agree
import Verif.Props.Complete
/-!
# Why the syntax stage panics (C07)

`Cause` (see `Spec/Panics`) lists the reasons. The tokenizer has further ones, for which see `Props/LexPanics`; they are no
subject here because a source on which the tokenizer panics has no tokens.
-/
namespace Pico

theorem Fore.fine {ps : List TokSpan} (h : Fore ps) : ¬ BadStart ps := by
  rintro ⟨j, u, i, t, hu, hk, hji, ht, ⟨h1, h2⟩, hs⟩
  cases h with
  | plain h => exact absurd (h t (List.mem_of_getElem? ht) h1 h2) (by omega)
  | html s sp h =>
    by_cases hj : j < 3
    · match j, hj with
      | 0, _ => cases hu; rcases hk with h | h <;> cases h
      | 1, _ => cases hu; rcases hk with h | h <;> cases h
      | 2, _ => cases hu; rcases hk with h | h <;> cases h
    · obtain ⟨k, rfl⟩ : ∃ k, i = k + 3 := ⟨i - 3, by omega⟩
      simp only [List.getElem?_cons_succ] at ht
      exact absurd (h t (List.mem_of_getElem? ht) h1 h2) (by omega)

/-- **C07** for the parser alone, on tokens of any origin: it panics for one of the reasons of `Cause` only, or because of
positions no source has. -/
theorem C07_parser_causes (n : Nat) (toks : List TokSpan) (p : Panic) (h : parseTopStatementList (recN n) toks 0 = .panic p) :
    Cause (toks.map TokSpan.tok) p ∨ p = .subOverflow ∧ BadStart toks := parser_faults h

/-- **C07** (partial) for all sources that can be tokenized: if `parse_str` panics, then for one of the reasons of `Cause`.
(That these are reasons indeed is shown by `C07_cause_sources`.) So neither the lookup of the place of an error nor any of
the other `unwrap()`, `unreachable!()` and `unimplemented!()` of the parser can panic. Missing: the panics themselves, see
`C07_fails`. (For the reasons of the tokenizer see `C07_all_causes_partial`.) -/
theorem C07_causes_partial (src : Text) (n : Nat) (toks : List TokSpan) (p : Panic) (hs : spansOf n src = some toks)
    (h : Ends src (.panic p)) : Cause (visible toks) p := by
  obtain ⟨k, e, -⟩ := h
  obtain ⟨t, hm, e1⟩ := spans_scanned (spansOf_le (m := n + k) (by omega) hs)
  have er : parseStrN (n + k) src = .panic p := by
    rw [← e]; exact parseStrN_le (by omega) _ (by rw [e]; nofun)
  rw [er] at e1
  rw [visible_strip]
  have fine := (spans_fronted hs).fore.fine
  unfold parseTokensN at e1
  dsimp only at e1
  cases hr : parseTopStatementList (recN (n + k)) (stripTokens toks) 0 with
  | ok ss q => rw [hr] at e1; cases e1
  | oof => rw [hr] at e1; cases e1
  | panic q =>
    rw [hr] at e1
    cases e1
    rcases C07_parser_causes _ _ _ hr with h | ⟨-, h⟩
    · exact h
    · exact absurd h fine
  | err pe q =>
    rw [hr] at e1
    dsimp only at e1
    split at e1
    · split at e1
      · rename_i x _
        obtain ⟨y, hy, -⟩ := spanned_ok hm x.span.start x.span.stop pe none
        rw [hy] at e1; cases e1
      · rename_i h1 _ h2
        rw [List.getElem?_eq_getElem h1] at h2; cases h2
    · split at e1
      · rename_i x _
        obtain ⟨y, hy, -⟩ := spanned_ok hm x.span.stop (x.span.stop + 1) pe none
        rw [hy] at e1; cases e1
      · rename_i h2
        cases e1
        rw [List.getLast?_eq_none_iff] at h2
        rw [h2]
        exact .nothing rfl

/-- **C07** (partial), the other way around: a source that can be tokenized and whose tokens give no reason to panic is
accepted or rejected, if `parse_str` returns at all. -/
theorem C07_causeless_partial (src : Text) (n : Nat) (toks : List TokSpan) (hs : spansOf n src = some toks)
    (hc : ∀ p, ¬ Cause (visible toks) p) (r : Outcome SpannedErr (List Stmt)) (h : Ends src r) :
    (∃ ss, r = .ok ss) ∨ ∃ e, r = .err e := by
  cases r with
  | ok ss => exact .inl ⟨ss, rfl⟩
  | err e => exact .inr ⟨e, rfl⟩
  | panic p => exact absurd (C07_causes_partial src n toks p hs h) (hc p)
  | oof => exact h.elim fun _ h => absurd rfl h.2

/-- Tokens without some rare ones, without quotation marks and with balanced parentheses. -/
theorem causeless {ts : List Token} (hn : ts ≠ [])
    (hk : ∀ t ∈ ts, t ∉ ([.k .Dollar, .k .CastUnset, .k .Yield, .k .As, .k .Function, .k .InstanceOf, .k .Else, .k .DoubleQuote,
      .k .HereDocStart] : List Token))
    (hp : depthAt ts ts.length = 0) (hd : ∀ i, i < ts.length → 0 ≤ depthAt ts i) (p : Panic) : ¬ Cause ts p := by
  have no : ∀ {i : Nat} {t : Token}, ts[i]? = some t → t ∈ ([.k .Dollar, .k .CastUnset, .k .Yield, .k .As, .k .Function,
      .k .InstanceOf, .k .Else, .k .DoubleQuote, .k .HereDocStart] : List Token) → False :=
    fun h hm => hk _ (List.mem_of_getElem? h) hm
  intro h
  cases h with
  | nothing h => exact hn h
  | dollar i h => exact no h (by decide)
  | unset i h => exact no h (by decide)
  | yield i h => exact no h (by decide)
  | alias i h => exact no h (by decide)
  | param i o j p v h => exact no h (by decide)
  | instanceOf i j _ h => exact no h (by decide)
  | elses i j _ h => exact no h (by decide)
  | quoted q i j s h => exact h.elim (fun h => no h (by decide)) fun h => no h (by decide)
  | unclosed i h =>
    have hi : i < ts.length := (List.getElem?_eq_some_iff.1 h.1).1
    have h1 := h.2 _ hi (Nat.le_refl _)
    have h2 := hd i hi
    omega

/-- The hypotheses of `C07_causeless_partial` are met by this source, for example. -/
example : ∃ toks, spansOf 60 c!"<?php $a[1] = new B(f(), (2)); if ($a->c) { echo -$a . 'x'; } ?>" = some toks ∧
    20 < (visible toks).length ∧ ∀ p, ¬ Cause (visible toks) p := by
  have h : (spansOf 60 c!"<?php $a[1] = new B(f(), (2)); if ($a->c) { echo -$a . 'x'; } ?>").any (fun toks =>
      decide (20 < (visible toks).length ∧ (∀ t ∈ visible toks, t ∉ ([.k .Dollar, .k .CastUnset, .k .Yield, .k .As, .k .Function,
        .k .InstanceOf, .k .Else, .k .DoubleQuote, .k .HereDocStart] : List Token)) ∧
        depthAt (visible toks) (visible toks).length = 0 ∧ ∀ i, i < (visible toks).length → 0 ≤ depthAt (visible toks) i)) = true := by
    decide +kernel
  obtain ⟨toks, ht, h⟩ := (Option.any_eq_true _ _).1 h
  obtain ⟨h1, h2, h3, h4⟩ := of_decide_eq_true h
  exact ⟨toks, ht, h1, causeless (by intro h0; rw [h0] at h1; cases h1) h2 h3 h4⟩

/-- **C07** (partial) in terms of the text: for a source that is written as the tokens `ts` (`Laid`, under the conditions of
`C43_complete_partial`) the reasons are to be found in `ts`. -/
theorem C07_laid_causes_partial (src : Text) (ts : List Token) (p : Panic) (hl : Laid .html src ts) (hb : ¬ HasWild src)
    (hs : ¬ HasStray src) (hc : Closed 0 ts) (hd : ¬ DotEnd src ts) (h : Ends src (.panic p)) :
    Cause (ts.flatMap seenAs) p := by
  obtain ⟨n, toks, h1, h2⟩ := C43_complete_partial src ts hl hb hs hc hd
  have := C07_causes_partial src n toks p h1 h
  rwa [visible_eq, h2] at this

/-- A source for every reason in the list, in the same order. -/
def causeSources : List (Text × Panic) :=
  [(c!"<?php ", .subOverflow), (c!"<?php $$a;", .unimplemented), (c!"<?php (unset)$a;", .unimplemented),
   (c!"<?php A::yield;", .unimplemented), (c!"<?php class A { use B { c as protected d; } }", .unimplemented),
   (c!"<?php function f($a {", .unwrap), (c!"<?php function f($a = 1 {", .unwrap),
   (c!"<?php $a instanceof B instanceof C;", .unreachable), (c!"<?php if(a) b; else c; else d;", .unreachable),
   (c!"<?php { $a = 1+\"{$a ;}\" name(1 'x'", .unreachable), (c!"<?php $a = 1 + foo(", .index)]

/-- These sources can be tokenized, and `parse_str` panics, so that the hypotheses of `C07_causes_partial` are met. -/
theorem C07_cause_sources (x : Text × Panic) (hx : x ∈ causeSources) :
    Ends x.1 (.panic x.2) ∧ ∃ toks, spansOf 60 x.1 = some toks ∧ Cause (visible toks) x.2 := by
  have hall : ∀ x ∈ causeSources, (match parseStrN 60 x.1 with | .panic p => p == x.2 | _ => false) = true ∧
      (spansOf 60 x.1).isSome = true := by decide +kernel
  obtain ⟨h1, h2⟩ := hall x hx
  have he : Ends x.1 (.panic x.2) := by
    split at h1
    · rename_i p e
      rw [← eq_of_beq h1]
      exact Ends.of 60 e (by simp)
    · cases h1
  obtain ⟨toks, ht⟩ := Option.isSome_iff_exists.1 h2
  exact ⟨he, toks, ht, C07_causes_partial _ _ _ _ ht he⟩

end Pico
