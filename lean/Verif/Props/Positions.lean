import Verif.Lemmas.SpanStmt
import Verif.Lemmas.DocTok
import Verif.Props.Errors
import Verif.Props.TreeRanges
/-!
# Positions and documentation comments (C53, C54)

The code keeps positions as `u32` and converts to it without a check (`as u32`). The model keeps them as natural
numbers. The first part shows that nothing is lost by that as long as the source is shorter than 4 GiB.
-/
namespace Pico
open P

/-- `x as u32` of a `usize`. -/
def asU32 (x : Nat) : Nat := x % 2 ^ 32

theorem numAt_le {code : Text} {x : TokSpan} (h : NumAt code x) : x.span.start ≤ byteLen code ∧ x.span.stop ≤ byteLen code := by
  cases h with
  | dec he hw hv hp hq =>
    subst he hp hq
    simp only [mkSpan, byteLen_append]
    omega
  | pref he ho hv hp hq =>
    rename_i pre o w post v radix p q
    have := length_le_byteLen w
    subst he hp hq
    simp only [mkSpan, byteLen_append]
    omega
  | dbl he ha hb hne hp hq =>
    rename_i pre a b post p q
    have := length_le_byteLen a
    subst he hp hq
    simp only [mkSpan, byteLen_append]
    omega

/-- **C53** for the tokenizer: both ends of the range of every token, of numbers too, are positions in the source or
its end. -/
theorem C53_tokens (src : Text) (toks : List TokSpan) (t : Tz) (h : Scanned src toks t) :
    ∀ x ∈ toks, x.span.start ≤ byteLen src ∧ x.span.stop ≤ byteLen src := by
  intro x hx
  have := (scanned_inv h).tp x hx
  cases e : isNumber x.tok with
  | false => have := this.inside e; omega
  | true => exact numAt_le (this.numbered e)

/-- Every token delivered has no mark of a documentation comment, or is a comment or a closing brace. -/
theorem scanned_docs {src : Text} {toks : List TokSpan} {t : Tz} (h : Scanned src toks t) :
    DocAll toks ∧ DocAll t.queue := by
  induction h with
  | start => exact ⟨.nil, .nil⟩
  | next n _ hn ih =>
    obtain ⟨h1, h2⟩ := (nextToken_dk n).ok _ _ _ ih.2 hn
    exact ⟨ih.1.append (.cons h1 .nil), h2⟩

theorem seen_bounded {src : Text} {toks : List TokSpan} {t : Tz} (h : Scanned src toks t) :
    Bounded (byteLen src) True (stripTokens toks) := by
  intro y hy
  obtain ⟨u, hu, hv, hm, he⟩ := mem_stripTokens hy
  obtain ⟨h1, h2⟩ := C53_tokens src toks t h u hu
  refine ⟨by rw [he]; exact h1, by rw [he]; exact h2, fun _ hk => ?_⟩
  rw [he]
  rcases (scanned_docs h).1.all u hu with hd | ⟨-, hd | ⟨c, hd⟩⟩
  · exact hd
  · refine absurd ?_ hk
    unfold stripToken at hm
    rw [hd] at hm
    simp only [List.mem_singleton] at hm
    rw [hm, hd]
  · rw [hd] at hv; cases hv

theorem tree_spans {src : Text} {ss : List Stmt} (h : Ends src (.ok ss)) : SpAll (byteLen src) True (treeSpans ss) := by
  obtain ⟨n, h, -⟩ := h
  unfold parseStrN at h
  split at h
  · rename_i toks t hl
    have hs : spansOf n src = some toks := by unfold spansOf; rw [hl]
    obtain ⟨t0, ht0⟩ := scanned_of_spans hs
    have hb := seen_bounded ht0
    unfold parseTokensN at h
    dsimp only at h
    split at h
    · rename_i ss' p hp
      cases h
      exact (parseTopStatementList_rg hb (recN_rg hb n) 0 (fun x _ => SpAll (byteLen src) True (stmtsSpans x))
        (fun _ _ h => h)).run _ _ hp
    · cases h
    · cases h
    · split at h <;> split at h <;> first | (cases h; done) | (unfold spannedErr at h; split at h <;> first | (cases h; done) | (split at h <;> cases h))
  · split at h
    · cases h
    · unfold spannedErr at h
      split at h
      · cases h
      · split at h <;> cases h
  · cases h
  · cases h

/-- **C53** for trees: whatever is accepted, both ends of the range of every node of the tree (`treeSpans` lists them
all) are positions in the source or its end. -/
theorem C53_tree (src : Text) (ss : List Stmt) (h : Ends src (.ok ss)) :
    ∀ sp ∈ treeSpans ss, sp.start ≤ byteLen src ∧ sp.stop ≤ byteLen src :=
  fun sp hsp => ⟨((tree_spans h).all sp hsp).1, ((tree_spans h).all sp hsp).2.1⟩

theorem OpensAt.le {src o post : Text} {a : Nat} (h : OpensAt src o post a) : a + byteLen o ≤ byteLen src := by
  obtain ⟨pre, rfl, rfl⟩ := h
  simp only [byteLen_append]
  omega

theorem Culprit.le {src : Text} {e : SyntaxErr} {sp : Span} (h : Culprit src e) (hs : e.span = some sp) :
    sp.start ≤ byteLen src ∧ sp.stop ≤ byteLen src + 1 := by
  cases h with
  | unknown h hc =>
    cases hs
    have := h.le
    simp only [mkSpan]
    omega
  | unfinished h =>
    cases hs
    cases h with
    | single ho h hp => have := h.le; simp only [mkSpan]; omega
    | double ho h hp hab hb => simp only [mkSpan]; omega
    | backquote h hab hb => simp only [mkSpan]; omega
    | doc ho h hab hb => simp only [mkSpan]; omega
    | docEnd ho h hab hb => simp only [mkSpan]; omega
    | escape h => have := h.le; simp only [mkSpan]; omega
    | comment ho h hp => have := h.le; simp only [mkSpan]; omega

/-- **C53** for errors: a reported range begins in the source or at its end, and ends at most one byte behind the end;
the reported line is a line of the source. -/
theorem C53_error (src : Text) (e : SpannedErr) (h : Ends src (.err e)) :
    e.start ≤ byteLen src ∧ e.stop ≤ byteLen src + 1 ∧ e.lineStart ≤ byteLen src ∧ e.lineEnd ≤ byteLen src := by
  have hlines : ∀ {t : Tz}, Moment src t → t.st.lineMap.lineFromPosition e.stop = some e.line →
      t.st.lineMap.line e.line = some (e.lineStart, e.lineEnd) → e.lineStart ≤ byteLen src ∧ e.lineEnd ≤ byteLen src := by
    intro t hm h1 h2
    obtain ⟨line, a, b, e1, e2, -, ha, hb, -⟩ := C05_lookup src t hm e.stop
    rw [e1] at h1
    cases h1
    rw [e2] at h2
    cases h2
    exact ⟨ha, hb⟩
  obtain ⟨n, h, -⟩ := h
  have hsc := lexAll_scanned (fuel := n) (n := n) (Scanned.start (src := src))
  unfold parseStrN at h
  split at h
  · rename_i toks t hl
    rw [hl] at hsc
    obtain ⟨x, -, hx, t0, ht0⟩ := hsc
    obtain ⟨h1, h2, h3⟩ := C27_range_partial n _ toks e h
    have h4 := hlines (.token hx) h2 h3
    rcases h1 with ⟨u, hu, -, h5, h6⟩ | ⟨u, hu, h5, h6⟩
    · have := C53_tokens src toks t0 ht0 u hu
      omega
    · have := C53_tokens src toks t0 ht0 u (List.mem_filter.1 (List.mem_of_getLast? hu)).1
      omega
  · rename_i e' t hl
    rw [hl] at hsc
    have hc := (C45_tokenizer_partial src n n e' t hl).1
    split at h
    · cases h
    · rename_i sp hsp
      obtain ⟨h1, h2, h3, h4, -, -⟩ := spannedErr_err h
      rw [← h2] at h3
      have h5 := hlines hsc h3 h4
      have := hc.le hsp
      omega
  · cases h
  · cases h

/-- **C53.** So nothing is lost by the unchecked conversions to `u32` if the source is shorter than 4 GiB: no position
in a token, a node of a tree or an error report is changed by it. -/
theorem C53_u32 (src : Text) (hl : byteLen src + 1 < 2 ^ 32) :
    (∀ toks t, Scanned src toks t → ∀ x ∈ toks, asU32 x.span.start = x.span.start ∧ asU32 x.span.stop = x.span.stop) ∧
    (∀ ss, Ends src (.ok ss) → ∀ sp ∈ treeSpans ss, asU32 sp.start = sp.start ∧ asU32 sp.stop = sp.stop) ∧
    (∀ e, Ends src (.err e) → asU32 e.start = e.start ∧ asU32 e.stop = e.stop ∧ asU32 e.lineStart = e.lineStart ∧
      asU32 e.lineEnd = e.lineEnd) := by
  have key : ∀ x, x ≤ byteLen src + 1 → asU32 x = x := fun x hx => Nat.mod_eq_of_lt (by omega)
  refine ⟨fun toks t h x hx => ?_, fun ss h sp hsp => ?_, fun e h => ?_⟩
  · have := C53_tokens src toks t h x hx
    exact ⟨key _ (by omega), key _ (by omega)⟩
  · have := C53_tree src ss h sp hsp
    exact ⟨key _ (by omega), key _ (by omega)⟩
  · have := C53_error src e h
    exact ⟨key _ (by omega), key _ (by omega), key _ (by omega), key _ (by omega)⟩

/-- **C54** for the tokenizer: the mark of a documentation comment never holds text, and only comments and closing
braces have it. -/
theorem C54_tokens (src : Text) (toks : List TokSpan) (t : Tz) (h : Scanned src toks t) :
    ∀ x ∈ toks, x.span.doc = none ∨
      x.span.doc = some [] ∧ (x.tok = .k .CurlyBracesClose ∨ ∃ c, x.tok = .comment c) :=
  fun x hx => (scanned_docs h).1.all x hx

/-- **C54.** No documentation comment reaches a tree: no node has one, not even its mark. -/
theorem C54_tree (src : Text) (ss : List Stmt) (h : Ends src (.ok ss)) : ∀ sp ∈ treeSpans ss, sp.doc = none :=
  fun sp hsp => ((tree_spans h).all sp hsp).2.2 trivial

/-! ## Examples -/

/-- A documented class with a number, `clone` and `${`, which earlier theorems about ranges leave out. -/
def documented : Text := c!"<?php /** doc */ class A { /** m */ function f($x = 0x1F) { return clone $x; } } echo \"${a} b\", 1.5;"

/-- A check of what `parse_str` returns. -/
def returns (p : List Stmt → Bool) (q : SpannedErr → Bool) : Outcome SpannedErr (List Stmt) → Bool
  | .ok ss => p ss
  | .err e => q e
  | _ => false

theorem returns_ok {p : List Stmt → Bool} {src : Text} {n : Nat} (h : returns p (fun _ => false) (parseStrN n src) = true) :
    ∃ ss, Ends src (.ok ss) ∧ p ss = true := by
  cases hr : parseStrN n src with
  | ok ss => rw [hr] at h; exact ⟨ss, ⟨n, hr, nofun⟩, h⟩
  | err e => rw [hr] at h; cases h
  | panic p => rw [hr] at h; cases h
  | oof => rw [hr] at h; cases h

theorem returns_err {q : SpannedErr → Bool} {src : Text} {n : Nat} (h : returns (fun _ => false) q (parseStrN n src) = true) :
    ∃ e, Ends src (.err e) ∧ q e = true := by
  cases hr : parseStrN n src with
  | ok ss => rw [hr] at h; cases h
  | err e => rw [hr] at h; exact ⟨e, ⟨n, hr, nofun⟩, h⟩
  | panic p => rw [hr] at h; cases h
  | oof => rw [hr] at h; cases h

example : ∃ ss, Ends documented (.ok ss) ∧ ((treeSpans ss).length == 10) = true :=
  returns_ok (n := 60) (p := fun ss => (treeSpans ss).length == 10) (by decide +kernel)

/-- Five tokens have the mark: two comments and three closing braces. -/
example : (spansOf 60 documented).any (fun toks => (toks.filter fun x => x.span.doc != none).length == 5) = true := by
  decide +kernel

/-- A range may end one byte behind the source. -/
example : ∃ e, Ends c!"<?php 'a" (.err e) ∧ (e.stop == 9) = true :=
  returns_err (n := 20) (q := fun e => e.stop == 9) (by decide +kernel)

end Pico
