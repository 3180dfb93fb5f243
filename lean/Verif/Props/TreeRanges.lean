import Verif.Lemmas.SpotStmt
import Verif.Spec.Ranges
import Verif.Props.Reading
import Verif.Props.Ranges
/-!
# Where the nodes of a tree stand (C44)
-/
namespace Pico
open P

theorem seen_strip (toks : List TokSpan) : seen toks = stripTokens toks := by
  induction toks with
  | nil => rfl
  | cons t ts ih =>
    rw [stripTokens, ← ih]
    unfold seen
    rw [List.flatMap_cons]
    congr 1
    obtain ⟨tok, sp⟩ := t
    cases tok with
    | k k => cases k <;> rfl
    | _ => rfl

theorem seen_straight {toks : List TokSpan} (h : ∀ t ∈ toks, t.tok ≠ .k .Clone ∧ t.tok ≠ .k .DollarCurlyBracesOpen) :
    Straight (seen toks) := by
  intro t ht
  obtain ⟨u, hu, ht⟩ := List.mem_flatMap.1 ht
  obtain ⟨k, hk, rfl⟩ := List.mem_map.1 ht
  have := h u hu
  obtain ⟨tok, sp⟩ := u
  dsimp only at hk this ⊢
  cases tok with
  | k k' =>
    cases k' <;> simp [seenAs] at hk this <;> subst hk <;> exact ⟨nofun, nofun⟩
  | inlineHtml s =>
    simp only [seenAs, List.mem_cons, List.not_mem_nil, or_false] at hk
    rcases hk with rfl | rfl | rfl <;> exact ⟨nofun, nofun⟩
  | comment s => cases hk
  | _ => simp [seenAs] at hk; subst hk; exact ⟨nofun, nofun⟩

/-- Nothing is found behind the last token. -/
theorem Located.within {toks : List TokSpan} {ss : List Spot} : ∀ {a b : Nat}, Located toks a ss b → a ≤ 2 * toks.length →
    Located toks a ss (2 * toks.length) := by
  induction ss with
  | nil => intro a b _ h; exact h
  | cons s ss ih =>
    intro a b ⟨c, d, hac, hr, hl⟩ ha
    have lt : ∀ {i : Nat} {t : TokSpan}, toks[i]? = some t → i < toks.length := fun h => (List.getElem?_eq_some_iff.1 h).1
    have st : ∀ {i x : Nat}, StartsAt toks i x → 2 * i + 1 ≤ 2 * toks.length := by
      intro i x ⟨t, ht, _⟩
      have := lt ht
      omega
    have en : ∀ {i x : Nat}, EndsAt toks i x → 2 * i ≤ 2 * toks.length := by
      intro i x ⟨j, t, hi, ht, _⟩
      have := lt ht
      omega
    cases hr with
    | item hm hn ht =>
      rename_i m us i
      refine ⟨_, _, hac, .item hm hn ht, ih hl ?_⟩
      have h1 : (((toks.drop i).take us.length).map TokSpan.tok).length = us.length := by rw [ht]
      have h2 := List.length_pos_iff.2 hn
      rw [List.length_map, List.length_take, List.length_drop] at h1
      omega
    | none hm => exact ⟨a, a, Nat.le_refl _, .none hm, ih (hl.mono hac (Nat.le_refl _)) ha⟩
    | start h => exact ⟨_, _, hac, .start h, ih hl (st h)⟩
    | stop h => exact ⟨_, _, hac, .stop h, ih hl (en h)⟩
    | edgeStart h => exact ⟨_, _, hac, .edgeStart h, ih hl (st h)⟩
    | edgeStop h => exact ⟨_, _, hac, .edgeStop h, ih hl (en h)⟩

/-- **C44** for all tokens but `clone` and `${` (for those see `C44_fails`, `C44_fails_dollar`), whether or not they are the
tokens of a source: the ranges of the nodes that are returned begin with the begin of a token and end with the end of
one, around the tokens the pieces of the node stand for, and in the order of the tokens. -/
theorem C44_tokens_partial (m : LineMap) (n : Nat) (toks : List TokSpan) (ss : List Stmt) (h : parseTokensN n m toks = .ok ss)
    (hc : ∀ t ∈ toks, t.tok ≠ .k .Clone ∧ t.tok ≠ .k .DollarCurlyBracesOpen) :
    Located (seen toks) 0 (treeSpots ss) (2 * (seen toks).length) := by
  have hp := seen_straight hc
  rw [seen_strip] at hp ⊢
  unfold parseTokensN at h
  dsimp only at h
  have hy := parseTopStatementList_spot (recN_spot n) (stripTokens toks) [] 0 hp (Nat.zero_le _) (Nat.le_refl _)
  unfold Wr at hy
  split at h
  · rename_i ss' q e
    rw [e] at hy
    cases h
    exact hy.2.within (Nat.zero_le _)
  · cases h
  · cases h
  · exfalso
    split at h
    · split at h
      · unfold spannedErr at h
        split at h
        · cases h
        · split at h <;> cases h
      · cases h
    · split at h
      · unfold spannedErr at h
        split at h
        · cases h
        · split at h <;> cases h
      · cases h

theorem ends_tokens {src : Text} {ss : List Stmt} {n : Nat} {toks : List TokSpan} (hs : spansOf n src = some toks)
    (h : Ends src (.ok ss)) : ∃ k m, parseTokensN k m toks = .ok ss := by
  obtain ⟨k, h, -⟩ := h
  unfold parseStrN at h
  cases e : lexAll k k (Tz.new src) [] with
  | ok x =>
    obtain ⟨ts, t⟩ := x
    rw [e] at h
    have h1 : spansOf k src = some ts := by simp [spansOf, e]
    have h2 := spansOf_le (Nat.le_max_left n k) hs
    rw [spansOf_le (Nat.le_max_right n k) h1] at h2
    cases h2
    exact ⟨k, _, h⟩
  | err x =>
    rw [e] at h
    exfalso
    dsimp only at h
    split at h
    · cases h
    · unfold spannedErr at h
      split at h
      · cases h
      · split at h <;> cases h
  | panic p => rw [e] at h; cases h
  | oof => rw [e] at h; cases h

/-- **C44** for all accepted sources without `clone` and `${`. -/
theorem C44_source_partial (src : Text) (ss : List Stmt) (n : Nat) (toks : List TokSpan) (hs : spansOf n src = some toks)
    (h : Ends src (.ok ss)) (hc : ∀ t ∈ toks, t.tok ≠ .k .Clone ∧ t.tok ≠ .k .DollarCurlyBracesOpen) :
    Located (seen toks) 0 (treeSpots ss) (2 * (seen toks).length) := by
  obtain ⟨k, m, h⟩ := ends_tokens hs h
  exact C44_tokens_partial m k toks ss h hc

/-! ## Ranges as numbers -/

/-- An end of a range is found at this time. -/
def Found (toks : List TokSpan) (x c : Nat) : Prop := (∃ i, c = 2 * i + 1 ∧ StartsAt toks i x) ∨ (∃ i, c = 2 * i ∧ EndsAt toks i x)

theorem Orderly.start {toks : List TokSpan} (ho : Orderly toks) {i x : Nat} (h : StartsAt toks i x) :
    ∃ t, toks[i]? = some t ∧ t.span.start = x := by
  obtain ⟨t, ht, h | ⟨h1, u, hu, h2⟩⟩ := h
  · exact ⟨t, ht, h.2⟩
  · have := ho.names i t u ht h1 hu
    exact ⟨t, ht, by omega⟩

theorem Orderly.lt {toks : List TokSpan} (ho : Orderly toks) {i j : Nat} {t u : TokSpan} (hi : toks[i]? = some t) (hj : toks[j]? = some u)
    (hij : i < j) : t.span.stop ≤ u.span.start := by
  obtain ⟨h1, h2⟩ := List.getElem?_eq_some_iff.1 hi
  obtain ⟨h3, h4⟩ := List.getElem?_eq_some_iff.1 hj
  have := List.pairwise_iff_getElem.1 ho.order i j h1 h3 hij
  rw [h2, h4] at this
  exact this

theorem Orderly.stop {toks : List TokSpan} (ho : Orderly toks) {i x : Nat} (h : EndsAt toks i x) :
    ∃ j t, i = j + 1 ∧ toks[j]? = some t ∧ t.span.stop = x := by
  obtain ⟨j, t, hi, ht, h | ⟨_, h1, k, u, hk, hu, h2⟩⟩ := h
  · exact ⟨j, t, hi, ht, h⟩
  · refine ⟨j, t, hi, ht, ?_⟩
    by_cases hkj : k = j
    · subst hkj
      rw [ht] at hu
      cases hu
      exact h2
    · have := ho.lt hu ht (by omega)
      have := ho.each t (List.mem_of_getElem? ht)
      omega

theorem Orderly.mono {toks : List TokSpan} (ho : Orderly toks) {x y c d : Nat} (hx : Found toks x c) (hy : Found toks y d) (h : c ≤ d) : x ≤ y := by
  have each : ∀ {i : Nat} {t : TokSpan}, toks[i]? = some t → t.span.start ≤ t.span.stop := fun h => ho.each _ (List.mem_of_getElem? h)
  rcases hx with ⟨i, hc, hx⟩ | ⟨i, hc, hx⟩ <;> rcases hy with ⟨j, hd, hy⟩ | ⟨j, hd, hy⟩
  · obtain ⟨t, ht, h1⟩ := ho.start hx
    obtain ⟨u, hu, h2⟩ := ho.start hy
    by_cases hij : i = j
    · subst hij; rw [ht] at hu; cases hu; omega
    · have := ho.lt ht hu (by omega); have := each ht; omega
  · obtain ⟨t, ht, h1⟩ := ho.start hx
    obtain ⟨k, u, hk, hu, h2⟩ := ho.stop hy
    by_cases hij : i = k
    · subst hij; rw [ht] at hu; cases hu; have := each ht; omega
    · have := ho.lt ht hu (by omega); have := each ht; have := each hu; omega
  · obtain ⟨k, t, hk, ht, h1⟩ := ho.stop hx
    obtain ⟨u, hu, h2⟩ := ho.start hy
    have := ho.lt ht hu (by omega)
    omega
  · obtain ⟨k, t, hk, ht, h1⟩ := ho.stop hx
    obtain ⟨l, u, hl, hu, h2⟩ := ho.stop hy
    by_cases hij : k = l
    · subst hij; rw [ht] at hu; cases hu; omega
    · have := ho.lt ht hu (by omega); have := each hu; omega

theorem ends_cons (s : Spot) (ss : List Spot) : ends (s :: ss) = (match s with | .item _ => [] | .start x | .stop x | .edge x => [x]) ++ ends ss := by
  unfold ends
  cases s <;> rfl

theorem ends_append (a b : List Spot) : ends (a ++ b) = ends a ++ ends b := List.filterMap_append

theorem Located.each {toks : List TokSpan} {ss : List Spot} : ∀ {a b : Nat}, Located toks a ss b → ∀ x ∈ ends ss, ∃ c, a ≤ c ∧ Found toks x c := by
  induction ss with
  | nil => intro a b _ x hx; cases hx
  | cons s ss ih =>
    intro a b ⟨c, d, hac, hr, hl⟩ x hx
    have hcd : c ≤ d := hr.le
    rw [ends_cons] at hx
    rcases List.mem_append.1 hx with hx | hx
    · cases hr with
      | item => cases hx
      | none => cases hx
      | start h => rw [List.mem_singleton.1 hx]; exact ⟨_, hac, .inl ⟨_, rfl, h⟩⟩
      | stop h => rw [List.mem_singleton.1 hx]; exact ⟨_, hac, .inr ⟨_, rfl, h⟩⟩
      | edgeStart h => rw [List.mem_singleton.1 hx]; exact ⟨_, hac, .inl ⟨_, rfl, h⟩⟩
      | edgeStop h => rw [List.mem_singleton.1 hx]; exact ⟨_, hac, .inr ⟨_, rfl, h⟩⟩
    · obtain ⟨e, he, h⟩ := ih hl x hx
      exact ⟨e, by omega, h⟩

theorem Located.sorted {toks : List TokSpan} (ho : Orderly toks) {ss : List Spot} : ∀ {a b : Nat}, Located toks a ss b →
    (ends ss).Pairwise (· ≤ ·) := by
  induction ss with
  | nil => intro a b _; exact .nil
  | cons s ss ih =>
    intro a b ⟨c, d, hac, hr, hl⟩
    have key : ∀ x, Found toks x d → (x :: ends ss).Pairwise (· ≤ ·) := by
      intro x hx
      refine List.pairwise_cons.2 ⟨?_, ih hl⟩
      intro y hy
      obtain ⟨e, he, h⟩ := hl.each y hy
      exact ho.mono hx h he
    rw [ends_cons]
    cases hr with
    | item => exact ih hl
    | none => exact ih hl
    | start h => exact key _ (.inl ⟨_, rfl, h⟩)
    | stop h => exact key _ (.inr ⟨_, rfl, h⟩)
    | edgeStart h => exact key _ (.inl ⟨_, rfl, h⟩)
    | edgeStop h => exact key _ (.inr ⟨_, rfl, h⟩)

/-- Going through a tree, from the begin of a node to its children and then to its end, the ends of the ranges never
decrease: the range of a node is around those of its children, and these are in order and do not overlap. Missing:
`clone`, `${`, and tokens whose own ranges are not in order (text outside of tags, interpolated strings, some numbers,
see `C30_fails`, `C30_overlap`). -/
theorem C44_nested_partial (src : Text) (ss : List Stmt) (n : Nat) (toks : List TokSpan) (hs : spansOf n src = some toks)
    (h : Ends src (.ok ss)) (hc : ∀ t ∈ toks, t.tok ≠ .k .Clone ∧ t.tok ≠ .k .DollarCurlyBracesOpen) (ho : Orderly (seen toks)) :
    (ends (treeSpots ss)).Pairwise (· ≤ ·) :=
  (C44_source_partial src ss n toks hs h hc).sorted ho

theorem top_ends (s : Stmt) : ∃ xs, ends s.topSpots = s.span.start :: (xs ++ [s.span.stop]) := by
  have other : ∀ (k : StmtK) (sp : Span), ∃ xs, ends (.start sp.start :: (k.spots ++ [.stop sp.stop])) = sp.start :: (xs ++ [sp.stop]) := by
    intro k sp
    refine ⟨ends k.spots, ?_⟩
    rw [ends_cons, ends_append]
    rfl
  obtain ⟨k, sp⟩ := s
  cases k with
  | decl d =>
    cases d with
    | «namespace» p => exact ⟨[], rfl⟩
    | _ => exact other _ _
  | _ => exact other _ _

theorem top_sorted (ss : List Stmt) (h : (ends (treeSpots ss)).Pairwise (· ≤ ·)) :
    (∀ s ∈ ss, s.span.start ≤ s.span.stop) ∧ ss.Pairwise fun s t => s.span.stop ≤ t.span.start := by
  induction ss with
  | nil => exact ⟨nofun, .nil⟩
  | cons s ss ih =>
    have he : ends (treeSpots (s :: ss)) = ends s.topSpots ++ ends (treeSpots ss) := ends_append _ _
    obtain ⟨xs, hx⟩ := top_ends s
    rw [he] at h
    obtain ⟨h1, h2, h3⟩ := List.pairwise_append.1 h
    obtain ⟨h4, h5⟩ := ih h2
    refine ⟨?_, List.pairwise_cons.2 ⟨?_, h5⟩⟩
    · intro t ht
      rcases List.mem_cons.1 ht with rfl | ht
      · rw [hx] at h1
        exact List.rel_of_pairwise_cons h1 (by simp)
      · exact h4 t ht
    · intro t ht
      refine h3 _ (by rw [hx]; simp) _ ?_
      obtain ⟨ys, hy⟩ := top_ends t
      unfold ends at hy ⊢
      unfold treeSpots
      rw [List.filterMap_flatMap]
      exact List.mem_flatMap.2 ⟨t, ht, by rw [hy]; simp⟩

/-- In particular, the statements of a file stand one behind the other. -/
theorem C44_statements_partial (src : Text) (ss : List Stmt) (n : Nat) (toks : List TokSpan) (hs : spansOf n src = some toks)
    (h : Ends src (.ok ss)) (hc : ∀ t ∈ toks, t.tok ≠ .k .Clone ∧ t.tok ≠ .k .DollarCurlyBracesOpen) (ho : Orderly (seen toks)) :
    (∀ s ∈ ss, s.span.start ≤ s.span.stop) ∧ ss.Pairwise fun s t => s.span.stop ≤ t.span.start :=
  top_sorted ss (C44_nested_partial src ss n toks hs h hc ho)

theorem seen_mem {toks : List TokSpan} {x : TokSpan} (h : x ∈ seen toks) : ∃ t ∈ toks, x.span = t.span := by
  obtain ⟨u, hu, ht⟩ := List.mem_flatMap.1 h
  obtain ⟨k, hk, rfl⟩ := List.mem_map.1 ht
  exact ⟨u, hu, rfl⟩

/-- All ranges are inside of the source. Missing: `clone`, `${` and numbers (which may have wrong ranges, see
`C30_fails`). -/
theorem C44_inside_partial (src : Text) (ss : List Stmt) (n : Nat) (toks : List TokSpan) (hs : spansOf n src = some toks)
    (h : Ends src (.ok ss)) (hc : ∀ t ∈ toks, t.tok ≠ .k .Clone ∧ t.tok ≠ .k .DollarCurlyBracesOpen)
    (hn : ∀ t ∈ toks, isNumber t.tok = false) : ∀ x ∈ ends (treeSpots ss), x ≤ byteLen src := by
  intro x hx
  obtain ⟨t, ht⟩ := scanned_of_spans hs
  have inside : ∀ {i : Nat} {u : TokSpan}, (seen toks)[i]? = some u → u.span.start ≤ byteLen src ∧ u.span.stop ≤ byteLen src := by
    intro i u hu
    obtain ⟨y, hy, he⟩ := seen_mem (List.mem_of_getElem? hu)
    have := C30_inside_partial src toks t ht y hy (hn y hy)
    rw [he]
    omega
  obtain ⟨c, -, ⟨i, -, u, hu, h | ⟨_, v, hv, h⟩⟩ | ⟨i, -, j, u, -, hu, h | ⟨-, -, k, v, -, hv, h⟩⟩⟩ :=
    (C44_source_partial src ss n toks hs h hc).each x hx
  · have := inside hu; omega
  · have := inside hv; omega
  · have := inside hu; omega
  · have := inside hv; omega

/-- When ranges of tokens are in order: in sources without text outside of tags, interpolated strings, numbers, and
blanks or comments behind `\`. -/
theorem orderly_source (src : Text) (n : Nat) (toks : List TokSpan) (hs : spansOf n src = some toks) (hq : ¬ HasQuote src)
    (hn : ∀ t ∈ toks, isNumber t.tok = false) (hh : ∀ t ∈ toks, ∀ s, t.tok ≠ .inlineHtml s)
    (hb : ∀ (i : Nat) (t u : TokSpan), (seen toks)[i]? = some t → t.tok = .k .NsSeparator → (seen toks)[i + 1]? = some u →
      u.span.start = t.span.start + 1) : Orderly (seen toks) := by
  obtain ⟨t, ht⟩ := scanned_of_spans hs
  refine ⟨?_, ?_, hb⟩
  · intro x hx
    obtain ⟨y, hy, he⟩ := seen_mem hx
    rw [he]
    exact (C30_inside_partial src toks t ht y hy (hn y hy)).1
  · have h1 := C30_ordered_partial src toks t ht hq
    rw [List.filter_eq_self.2 (by intro y hy; simp [hn y hy])] at h1
    have h2 : ∀ ts : List TokSpan, (∀ t ∈ ts, ∀ s, t.tok ≠ .inlineHtml s) → ((seen ts).map TokSpan.span).Sublist (ts.map TokSpan.span) := by
      intro ts
      induction ts with
      | nil => intro _; exact .slnil
      | cons y ys ih =>
        intro hy
        have h3 := ih fun t ht => hy t (List.mem_cons_of_mem _ ht)
        have h4 : ((seenAs y.tok).map fun k => (⟨k, y.span⟩ : TokSpan)).map TokSpan.span = [] ∨
            ((seenAs y.tok).map fun k => (⟨k, y.span⟩ : TokSpan)).map TokSpan.span = [y.span] := by
          have := hy y List.mem_cons_self
          obtain ⟨tok, sp⟩ := y
          cases tok with
          | k k => cases k <;> simp [seenAs]
          | inlineHtml s => exact absurd rfl (this s)
          | _ => simp [seenAs]
        unfold seen at h3 ⊢
        rw [List.flatMap_cons, List.map_append, List.map_cons]
        rcases h4 with h4 | h4
        · rw [h4]; exact h3.cons _
        · rw [h4]; exact h3.cons_cons _
    have h5 : (toks.map TokSpan.span).Pairwise fun a b => a.stop ≤ b.start := List.pairwise_map.2 h1
    exact List.pairwise_map.1 (h5.sublist (h2 toks hh))

/-! ## Examples -/

/-- Nodes of many kinds. -/
def rangesSample : Text := c!"<?php namespace A; class B extends \\C { function f(&$a) { return $a->b . f($c, 'd'); } } foreach ($x as $k => & $v) { if ($k) echo $v; else { } }"

/-- `Orderly`, for computation. -/
def orderly (toks : List TokSpan) : Bool :=
  toks.all (fun t => decide (t.span.start ≤ t.span.stop)) && decide (toks.Pairwise fun t u => t.span.stop ≤ u.span.start) &&
    (toks.zip (toks.drop 1)).all fun p => decide (p.1.tok = .k .NsSeparator → p.2.span.start = p.1.span.start + 1)

theorem Orderly.of {toks : List TokSpan} (h : orderly toks = true) : Orderly toks := by
  unfold orderly at h
  rw [Bool.and_eq_true, Bool.and_eq_true, List.all_eq_true, List.all_eq_true, decide_eq_true_eq] at h
  refine ⟨fun t ht => of_decide_eq_true (h.1.1 t ht), h.1.2, ?_⟩
  intro i t u ht hk hu
  have hm : (t, u) ∈ toks.zip (toks.drop 1) := by
    refine List.mem_of_getElem? (i := i) ?_
    rw [List.getElem?_zip_eq_some]
    exact ⟨ht, by rw [List.getElem?_drop, Nat.add_comm]; exact hu⟩
  exact of_decide_eq_true (h.2 _ hm) hk

/-- The hypotheses of `C44_nested_partial` are met by a source with 52 tokens whose tree has 38 ends of ranges. -/
example : ∃ toks ss, spansOf 200 rangesSample = some toks ∧ Ends rangesSample (.ok ss) ∧ toks.length = 52 ∧
    (∀ t ∈ toks, t.tok ≠ .k .Clone ∧ t.tok ≠ .k .DollarCurlyBracesOpen) ∧ Orderly (seen toks) ∧ (ends (treeSpots ss)).length = 38 := by
  have h : (spansOf 200 rangesSample).any (fun toks => decide (toks.length = 52) && decide (∀ t ∈ toks, t.tok ≠ .k .Clone ∧ t.tok ≠ .k .DollarCurlyBracesOpen) &&
      orderly (seen toks)) = true := by decide +kernel
  obtain ⟨h0, h2⟩ := (Option.any_eq_true_iff_get _ _).1 h
  have h1 := (Option.some_get h0).symm
  generalize (spansOf 200 rangesSample).get h0 = toks at h1 h2
  rw [Bool.and_eq_true, Bool.and_eq_true, decide_eq_true_eq, decide_eq_true_eq] at h2
  have h3 : (match parseStrN 200 rangesSample with
      | .ok ss => decide ((ends (treeSpots ss)).length = 38)
      | _ => false) = true := by decide +kernel
  split at h3
  · rename_i ss he
    exact ⟨toks, ss, h1, Ends.of 200 he (by simp), h2.1.1, h2.1.2, .of h2.2, of_decide_eq_true h3⟩
  · cases h3

/-! ## Where it fails -/

/-- **C44** fails for `clone`: its range is that of the keyword, and so is the end of the range of everything that ends
with it (src/parser.rs:871-873). In `$b + clone $a` the range of `$a` is not inside of the range of the sum. -/
theorem C44_fails : ∃ toks ss, spansOf 40 c!"<?php $b + clone $a;" = some toks ∧ Ends c!"<?php $b + clone $a;" (.ok ss) ∧
    Orderly (seen toks) ∧ ends (treeSpots ss) = [6, 6, 6, 8, 11, 17, 19, 16, 16, 20] ∧
    ∀ b, ¬ Located (seen toks) 0 (treeSpots ss) b := by
  have h : (spansOf 40 c!"<?php $b + clone $a;").any (fun toks => orderly (seen toks)) = true := by decide +kernel
  obtain ⟨h0, h2⟩ := (Option.any_eq_true_iff_get _ _).1 h
  have h1 := (Option.some_get h0).symm
  generalize (spansOf 40 c!"<?php $b + clone $a;").get h0 = toks at h1 h2
  have h3 : (match parseStrN 40 c!"<?php $b + clone $a;" with
      | .ok ss => decide (ends (treeSpots ss) = [6, 6, 6, 8, 11, 17, 19, 16, 16, 20])
      | _ => false) = true := by decide +kernel
  split at h3
  · rename_i ss he
    have h4 := of_decide_eq_true h3
    refine ⟨toks, ss, h1, Ends.of 40 he (by simp), .of h2, h4, ?_⟩
    intro b hb
    have := hb.sorted (.of h2)
    rw [h4] at this
    exact absurd this (by decide)
  · cases h3

/-- A piece of text. -/
def isText : Token → Bool
  | .encaps _ => true
  | _ => false

/-- The times at which an end of a range may be found (and perhaps more). -/
def times (toks : List TokSpan) (x : Nat) : List Nat :=
  toks.zipIdx.flatMap fun p =>
    (if p.1.span.start = x ∨ p.1.tok = .k .NsSeparator then [2 * p.2 + 1] else []) ++
      if p.1.span.stop = x ∨ p.1.span.stop ≤ x ∧ isText p.1.tok = true then [2 * (p.2 + 1)] else []

theorem Found.times {toks : List TokSpan} {x c : Nat} (h : Found toks x c) : c ∈ times toks x := by
  have key : ∀ {i : Nat} {t : TokSpan}, toks[i]? = some t → (t, i) ∈ toks.zipIdx := fun h => by
    rw [List.mem_zipIdx_iff_getElem?]
    exact h
  unfold Pico.times
  rcases h with ⟨i, rfl, t, ht, h⟩ | ⟨i, rfl, j, t, rfl, ht, h⟩
  · refine List.mem_flatMap.2 ⟨_, key ht, List.mem_append.2 (.inl ?_)⟩
    rw [if_pos (by exact h.imp And.right And.left)]
    exact List.mem_singleton.2 rfl
  · refine List.mem_flatMap.2 ⟨_, key ht, List.mem_append.2 (.inr ?_)⟩
    rw [if_pos]
    · exact List.mem_singleton.2 rfl
    · rcases h with h | ⟨⟨s, hs⟩, h, -⟩
      · exact .inl h
      · refine .inr ⟨h, ?_⟩
        rw [hs]
        rfl

theorem Located.pair {toks : List TokSpan} {ss : List Spot} {x y : Nat} : ∀ {a b : Nat}, Located toks a ss b → [x, y].Sublist (ends ss) →
    ∃ c d, c ≤ d ∧ Found toks x c ∧ Found toks y d := by
  induction ss with
  | nil => intro a b _ h; cases h
  | cons s ss ih =>
    intro a b ⟨c, d, hac, hr, hl⟩ hs
    have key : ∀ z, Found toks z d → [x, y].Sublist (z :: ends ss) → ∃ c d, c ≤ d ∧ Found toks x c ∧ Found toks y d := by
      intro z hz h
      cases h with
      | cons _ h => exact ih hl h
      | cons_cons _ h =>
        obtain ⟨e, he, hy⟩ := hl.each y (h.subset List.mem_cons_self)
        exact ⟨d, e, he, hz, hy⟩
    rw [ends_cons] at hs
    cases hr with
    | item => exact ih hl hs
    | none => exact ih hl hs
    | start h => exact key _ (.inl ⟨_, rfl, h⟩) hs
    | stop h => exact key _ (.inr ⟨_, rfl, h⟩) hs
    | edgeStart h => exact key _ (.inl ⟨_, rfl, h⟩) hs
    | edgeStop h => exact key _ (.inr ⟨_, rfl, h⟩) hs

/-- **C44** fails for `${`: the text behind it gets a range that begins with the text before it (src/parser.rs:1199-1219 do
not move the begin). In `"x${a}y"` the range of `y` begins with `x`. -/
theorem C44_fails_dollar : ∃ toks ss, spansOf 40 c!"<?php \"x${a}y\";" = some toks ∧ Ends c!"<?php \"x${a}y\";" (.ok ss) ∧
    ∀ b, ¬ Located (seen toks) 0 (treeSpots ss) b := by
  have h : (spansOf 40 c!"<?php \"x${a}y\";").any (fun toks => (times (seen toks) 12).all fun c => (times (seen toks) 7).all fun d => !decide (c ≤ d)) =
      true := by decide +kernel
  obtain ⟨h0, h2⟩ := (Option.any_eq_true_iff_get _ _).1 h
  have h1 := (Option.some_get h0).symm
  generalize (spansOf 40 c!"<?php \"x${a}y\";").get h0 = toks at h1 h2
  have h3 : (match parseStrN 40 c!"<?php \"x${a}y\";" with
      | .ok ss => [12, 7].isSublist (ends (treeSpots ss))
      | _ => false) = true := by decide +kernel
  split at h3
  · rename_i ss he
    refine ⟨toks, ss, h1, Ends.of 40 he (by simp), ?_⟩
    intro b hb
    obtain ⟨c, d, hcd, hx, hy⟩ := hb.pair (List.isSublist_iff_sublist.1 h3)
    have := List.all_eq_true.1 (List.all_eq_true.1 h2 c hx.times) d hy.times
    simp only [Bool.not_eq_true', decide_eq_false_iff_not] at this
    exact this hcd
  · cases h3

end Pico
