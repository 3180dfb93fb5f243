import Verif.Lemmas.LexPanicNext
import Verif.Props.Errors
import Verif.Props.Panics
/-!
# Why the lexical stage panics (C07)

`LexCause` (see `Spec/LexPanics`) lists the reasons.
-/
namespace Pico

theorem next_panic {src : Text} {toks : List TokSpan} {t : Tz} {n : Nat} {p : Panic} (h : Scanned src toks t)
    (hp : nextToken n t = .panic p) : LexCause src p := by
  have hb := scanned_bd h
  have h1 := tp_next src n t hb
  unfold Tp at h1
  rw [hp] at h1
  rcases h1 with h1 | ⟨rfl, w, r, hw, hbl⟩
  · exact h1
  · have hi := scanned_inv h
    have h2 := next_wp n t hi.inv
    unfold Twp at h2
    rw [hp] at h2
    have hd := (h2 rfl).1
    have hat : dropBytes src t.st.srcPos = some (w ++ '}' :: r) := by
      rw [← hb.on.1]; exact hw
    rcases hi.dep with h3 | h3
    · refine .block h3 ?_
      have := (show At t (w ++ (['}'] ++ r)) from hw).infix'
      rw [hb.on.1] at this
      exact this.subset (by simp)
    · exact .brace h hat hbl (by omega)

theorem lexAll_panic {src : Text} {fuel : Nat} (n : Nat) {t : Tz} {acc : List TokSpan} (h : Scanned src acc t) {p : Panic}
    (hp : lexAll fuel n t acc = .panic p) : LexCause src p := by
  induction n generalizing t acc with
  | zero => cases hp
  | succ n ih =>
    unfold lexAll at hp
    cases hn : nextToken fuel t with
    | ok x t' =>
      rw [hn] at hp
      dsimp only at hp
      split at hp
      · cases hp
      · exact ih (.next fuel h hn) hp
    | err e t' => rw [hn] at hp; cases hp
    | panic q =>
      rw [hn] at hp
      cases hp
      exact next_panic h hn
    | oof => rw [hn] at hp; cases hp

/-- **C07** for the tokenizer: it panics for one of the reasons of `LexCause` only. (That these are reasons indeed is shown by
`C07_lexer_sources`.) -/
theorem C07_lexer_causes (src : Text) (n m : Nat) (p : Panic) (h : lexAll n m (Tz.new src) [] = .panic p) : LexCause src p :=
  lexAll_panic m .start h

/-- **C07** (partial) for all sources: if `parse_str` panics, then for one of the reasons in the text (`LexCause`), or the source
can be tokenized and the reason is one of those in the tokens (`Cause`). Missing: the panics themselves, see `C07_fails`. -/
theorem C07_all_causes_partial (src : Text) (p : Panic) (h : Ends src (.panic p)) :
    LexCause src p ∨ ∃ n toks, spansOf n src = some toks ∧ Cause (visible toks) p := by
  have h0 := h
  obtain ⟨n, h, -⟩ := h
  cases e : lexAll n n (Tz.new src) [] with
  | ok x =>
    obtain ⟨ts, t⟩ := x
    have hs : spansOf n src = some ts := by unfold spansOf; rw [e]
    exact .inr ⟨n, ts, hs, C07_causes_partial src n ts p hs h0⟩
  | err x =>
    obtain ⟨se, t⟩ := x
    unfold parseStrN at h
    rw [e] at h
    dsimp only at h
    have hsp := (C45_tokenizer_partial src n n se t e).2
    have hm := lexAll_scanned (fuel := n) (n := n) (Scanned.start (src := src))
    rw [e] at hm
    split at h
    · rename_i hnone; exact absurd hnone hsp
    · rename_i sp _
      obtain ⟨y, hy, -⟩ := spanned_ok hm sp.start sp.stop ⟨[], 0⟩ (some se)
      rw [hy] at h
      cases h
  | panic q =>
    unfold parseStrN at h
    rw [e] at h
    cases h
    exact .inl (C07_lexer_causes src n n _ e)
  | oof =>
    unfold parseStrN at h
    rw [e] at h
    cases h

/-- **C07** (partial), the other way around: with no reason in the text and none in the tokens, `parse_str` accepts or rejects the
source, if it returns at all. -/
theorem C07_all_causeless_partial (src : Text) (hl : ∀ p, ¬ LexCause src p)
    (hc : ∀ n toks, spansOf n src = some toks → ∀ p, ¬ Cause (visible toks) p)
    (r : Outcome SpannedErr (List Stmt)) (h : Ends src r) : (∃ ss, r = .ok ss) ∨ ∃ e, r = .err e := by
  cases r with
  | ok ss => exact .inl ⟨ss, rfl⟩
  | err e => exact .inr ⟨e, rfl⟩
  | panic p =>
    rcases C07_all_causes_partial src p h with h | ⟨n, toks, h1, h2⟩
    · exact absurd h (hl p)
    · exact absurd h2 (hc n toks h1 p)
  | oof => exact h.elim fun _ h => absurd rfl h.2

/-- A text in ASCII without digits, closing braces and the characters that open strings with interpolation, which does not end
with a point, gives the tokenizer no reason to panic. -/
theorem lexCauseless {src : Text} (hc : ∀ c ∈ src, c.toNat < 128 ∧ c.isDigit = false ∧ c ≠ '}') (hq : ¬ HasQuote src)
    (hd : ¬ c!"." <:+ src) (p : Panic) : ¬ LexCause src p := by
  intro h
  cases h with
  | brace h hr hw _ =>
    obtain ⟨q, hq, -⟩ := dropBytes_split hr
    exact (hc '}' (by rw [hq]; simp)).2.2 rfl
  | block _ hb => exact (hc _ hb).2.2 rfl
  | number h hw hv =>
    have : ∃ c ∈ src, c.isDigit = true := by
      rw [h]
      cases hw with
      | dec hne hd _ =>
        obtain ⟨c, l, rfl⟩ := List.exists_cons_of_ne_nil hne
        exact ⟨c, by simp, hd c (by simp)⟩
      | hex => exact ⟨'0', by simp, by decide⟩
      | bin => exact ⟨'0', by simp, by decide⟩
    obtain ⟨c, h1, h2⟩ := this
    have := (hc c h1).2.1
    rw [h2] at this
    cases this
  | dot h => exact hd h
  | hexEscape h => exact hq h
  | escape h => exact hq h
  | element h => exact hq h
  | dollarBrace h => exact hq h
  | double ho h _ =>
    obtain ⟨pre, h1, -⟩ := h
    refine hq (.inl ?_)
    rw [h1]
    rcases ho with rfl | rfl
    · exact ⟨pre, _, rfl⟩
    · exact ⟨pre ++ c!"b", _, by simp; rfl⟩
  | backquote h _ =>
    obtain ⟨pre, h1, -⟩ := h
    exact hq (.inr (.inl ⟨pre, _, by rw [h1]⟩))
  | wide h1 h2 _ =>
    have := (hc _ h1).1
    omega

/-- Sources on which the tokenizer panics: at least one for every reason in the list, in the same order. -/
def lexCauseSources : List (Text × Panic) :=
  [(c!"<?php }", .unreachable), (c!"<?php { $a; } }", .unreachable), (c!"<?php \"{$a}\"; }", .unreachable),
   (c!"<?php 08;", .unwrap), (c!"<?php 9223372036854775808;", .unwrap), (c!"<?php 0x8000000000000000;", .unwrap),
   (c!"<?php .", .unwrap), (c!"<?php \"\\xg0\";", .unwrap), (c!"<?php \"\\x4", .unwrap),
   (c!"<?php \"\\e\";", .unimplemented), (c!"<?php <<<A\n\\u\nA;\n", .unimplemented), (c!"<?php \"$a[0]\";", .unimplemented),
   (c!"<?php \"${a\";", .index), (c!"<?php b\"", .subOverflow), (c!"<?php \"a\n", .subOverflow), (c!"<?php \"{$a}", .subOverflow),
   (c!"<?php `a\n", .subOverflow), (c!"<?php `{", .subOverflow), (c!"<?php `$a", .subOverflow), (c!"<?php ä;", .charBoundary),
   (c!"<?php \"{$a{}中\";", .charBoundary)]

/-- On these sources the tokenizer panics indeed, so that the hypothesis of `C07_lexer_causes` is met. -/
theorem C07_lexer_sources (x : Text × Panic) (hx : x ∈ lexCauseSources) :
    Ends x.1 (.panic x.2) ∧ (∀ n, spansOf n x.1 = none) ∧ LexCause x.1 x.2 := by
  have hall : ∀ x ∈ lexCauseSources, (match lexAll 60 60 (Tz.new x.1) [] with | .panic p => p == x.2 | _ => false) = true := by
    decide +kernel
  have h1 := hall x hx
  split at h1
  · rename_i p e
    have := eq_of_beq h1
    subst this
    refine ⟨Ends.of 60 (by unfold parseStrN; rw [e]) (by simp), fun n => ?_, C07_lexer_causes _ _ _ _ e⟩
    unfold spansOf
    have h60 := (lexAll_mono (Nat.le_max_left 60 n) (Nat.le_max_left 60 n) (Tz.new x.1) []).resolve_left (by rw [e]; nofun)
    cases hl : lexAll n n (Tz.new x.1) [] with
    | ok r =>
      have hn := (lexAll_mono (Nat.le_max_right 60 n) (Nat.le_max_right 60 n) (Tz.new x.1) []).resolve_left (by rw [hl]; nofun)
      rw [hn, ← h60, e] at hl
      cases hl
    | err _ => rfl
    | panic _ => rfl
    | oof => rfl
  · cases h1

/-- The hypotheses of `C07_all_causeless_partial` are met by this source, for example. -/
example : (∀ p, ¬ LexCause c!"<?php $a = new B(f(), 'x'); echo -$a . 'x'; ?>" p) ∧
    ∃ toks, spansOf 60 c!"<?php $a = new B(f(), 'x'); echo -$a . 'x'; ?>" = some toks ∧ ∀ p, ¬ Cause (visible toks) p := by
  constructor
  · refine lexCauseless (by decide +kernel) ?_ (by decide +kernel)
    unfold HasQuote
    decide +kernel
  · have h : (spansOf 60 c!"<?php $a = new B(f(), 'x'); echo -$a . 'x'; ?>").any (fun toks =>
        decide (visible toks ≠ [] ∧ (∀ t ∈ visible toks, t ∉ ([.k .Dollar, .k .CastUnset, .k .Yield, .k .As, .k .Function,
          .k .InstanceOf, .k .Else, .k .DoubleQuote, .k .HereDocStart] : List Token)) ∧
          depthAt (visible toks) (visible toks).length = 0 ∧ ∀ i, i < (visible toks).length → 0 ≤ depthAt (visible toks) i)) = true := by
      decide +kernel
    obtain ⟨toks, ht, h⟩ := (Option.any_eq_true _ _).1 h
    obtain ⟨h1, h2, h3, h4⟩ := of_decide_eq_true h
    exact ⟨toks, ht, causeless h1 h2 h3 h4⟩

end Pico
