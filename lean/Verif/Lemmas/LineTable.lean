import Verif.Lemmas.LineNext
import Verif.Props.Scan
import Verif.Props.Tokens
/-!
# Counting lines: the table and the lines of the source
-/
namespace Pico
open T

variable {src : Text}

theorem breaksFrom_nil {n : Nat} {a : Text} (h : breaksFrom n a = []) : '\n' ∉ a := by
  induction a generalizing n with
  | nil => nofun
  | cons c a ih =>
    simp only [breaksFrom, List.append_eq_nil_iff] at h
    rw [List.mem_cons, not_or]
    refine ⟨?_, ih h.2⟩
    rintro rfl
    simp at h

theorem breaksFrom_cons {n v : Nat} {a : Text} {vs : List Nat} (h : breaksFrom n a = v :: vs) :
    ∃ m r, a = m ++ '\n' :: r ∧ '\n' ∉ m ∧ v = n + byteLen m + 1 ∧ vs = breaksFrom v r := by
  induction a generalizing n with
  | nil => cases h
  | cons c a ih =>
    simp only [breaksFrom] at h
    by_cases hc : c = '\n'
    · subst hc
      rw [if_pos rfl, List.singleton_append] at h
      injection h with h1 h2
      refine ⟨[], a, rfl, nofun, ?_, ?_⟩
      · rw [← h1]; rfl
      · rw [← h2, ← h1]
    · rw [if_neg hc, List.nil_append] at h
      obtain ⟨m, r, rfl, h1, h2, h3⟩ := ih h
      refine ⟨c :: m, r, rfl, ?_, ?_, h3⟩
      · rw [List.mem_cons, not_or]; exact ⟨fun h => hc h.symm, h1⟩
      · simp only [byteLen]; omega

theorem mem_breaksFrom {n b : Nat} {a : Text} : b ∈ breaksFrom n a ↔ ∃ x y, a = x ++ '\n' :: y ∧ b = n + byteLen x + 1 := by
  constructor
  · intro h
    induction a generalizing n with
    | nil => cases h
    | cons c a ih =>
      simp only [breaksFrom, List.mem_append] at h
      rcases h with h | h
      · split at h
        · rename_i hc
          subst hc
          rw [List.mem_singleton] at h
          exact ⟨[], a, rfl, h⟩
        · cases h
      · obtain ⟨x, y, rfl, h2⟩ := ih h
        exact ⟨c :: x, y, rfl, by simp only [byteLen]; omega⟩
  · rintro ⟨x, y, rfl, rfl⟩
    rw [breaksFrom_append, List.mem_append]
    right
    simp only [breaksFrom, List.mem_append]
    left
    simp
    rfl

/-- An entry of the full table. -/
theorem table_entry {n a : Nat} (h : (0 :: breaksFrom 0 src)[n]? = some a) :
    ∃ pre post, src = pre ++ post ∧ LineBegins pre ∧ pre.count '\n' = n ∧ byteLen pre = a ∧ (0 :: breaksFrom 0 src).drop (n + 1) = breaksFrom a post := by
  induction n generalizing a with
  | zero =>
    have : 0 = a := by simpa using h
    subst this
    exact ⟨[], src, rfl, .inl rfl, rfl, rfl, rfl⟩
  | succ n ih =>
    have hlt := (List.getElem?_eq_some_iff.1 h).1
    obtain ⟨pre, post, h1, h2, h3, h4, h5⟩ := ih (List.getElem?_eq_getElem (by omega : n < (0 :: breaksFrom 0 src).length))
    have hd : (0 :: breaksFrom 0 src).drop (n + 1) = a :: (0 :: breaksFrom 0 src).drop (n + 1 + 1) := by
      rw [List.drop_eq_getElem_cons hlt]
      congr 1
      exact Option.some.inj ((List.getElem?_eq_getElem hlt).symm.trans h)
    rw [h5] at hd
    obtain ⟨m, r, rfl, hm, hv, hvs⟩ := breaksFrom_cons hd
    refine ⟨pre ++ (m ++ c!"\n"), r, ?_, .inr ⟨pre ++ m, by simp⟩, ?_, ?_, hvs⟩
    · rw [h1]; simp
    · have : List.count '\n' m = 0 := List.count_eq_zero.2 hm
      rw [List.count_append, List.count_append, h3, this]
      simp
    · rw [byteLen_append, byteLen_append, h4, hv]
      rfl

/-- Looking a position up in the full table. -/
theorem table_line {m : LineMap} {pos n a b : Nat} (hd : m.data = 0 :: breaksFrom 0 src) (he : m.endPos = byteLen src)
    (h1 : m.lineFromPosition pos = some n) (h2 : m.line n = some (a, b)) : OnLine src pos n a b := by
  have hsort : m.data.Pairwise (· ≤ ·) := by
    rw [hd, List.pairwise_cons]
    exact ⟨fun _ _ => Nat.zero_le _, (breaksFrom_sorted 0 src).imp Nat.le_of_lt⟩
  obtain ⟨line, start, stop, e1, e2, e3, e4, e5, e6, e7, -⟩ := C04_line_lookup m pos hsort (by rw [hd]; rfl)
  rw [h1] at e1
  cases e1
  rw [h2] at e2
  cases e2
  rw [hd] at e3
  obtain ⟨pre, post, g1, g2, g3, g4, g5⟩ := table_entry e3
  cases hb : breaksFrom a post with
  | nil =>
    rw [hb, List.drop_eq_nil_iff] at g5
    have hbe := e7 (by rw [hd]; exact g5)
    exact ⟨pre, post, [], by rw [g1, List.append_nil], g2, g3, g4, by rw [hbe, he, g1], e4, .inr ⟨rfl, breaksFrom_nil hb⟩⟩
  | cons v vs =>
    rw [hb] at g5
    have hlt : n + 1 < m.data.length := by
      rw [hd]
      apply Classical.byContradiction
      intro hn
      rw [List.drop_eq_nil_of_le (by omega)] at g5
      cases g5
    have hv : m.data[n + 1]? = some v := by
      rw [hd, ← List.head?_drop, g5]
      rfl
    have hbv : b = v := by
      unfold LineMap.line at h2
      dsimp only at h2
      rw [if_pos hlt, hv] at h2
      rw [hd, e3] at h2
      cases h2
      rfl
    obtain ⟨mm, r, rfl, hm, hvv, -⟩ := breaksFrom_cons hb
    refine ⟨pre, mm ++ c!"\n", r, ?_, g2, g3, g4, ?_, e4, .inl ⟨e6 hlt, mm, rfl, hm⟩⟩
    · rw [g1]; simp
    · rw [byteLen_append, byteLen_append, g4, hbv, hvv]
      rfl

/-! ## Runs -/

/-- The table has the line starts up to the position. -/
def Tabled (src : Text) (t : Tz) : Prop := t.st.lineMap.data = 0 :: lineGap src 0 t.st.srcPos

theorem Tabled.after {t t' : Tz} (h : Tabled src t) (h' : Ru src t t') : Tabled src t' := by
  unfold Tabled at h ⊢
  rw [h'.lines, h, List.cons_append, lineGap_trans (Nat.zero_le _) h'.le]

theorem ld_new (src : Text) : Ld src (Tz.new src) :=
  ⟨rfl, nofun, fun _ => rfl, EndOk.nil, fun _ => ⟨[], src, rfl, rfl, .inl rfl⟩⟩

theorem tabled_new (src : Text) : Tabled src (Tz.new src) := by
  unfold Tabled
  show [0] = 0 :: lineGap src 0 0
  rw [lineGap_self]

theorem scanned_lines {toks : List TokSpan} {t : Tz} (hk : Counted src) (h : Scanned src toks t) : Ld src t ∧ Tabled src t := by
  induction h with
  | start => exact ⟨ld_new src, tabled_new src⟩
  | next n _ hn ih =>
    have := tl_next hk n _ ih.1
    unfold Tl Tp at this
    rw [hn] at this
    exact ⟨this.1, ih.2.after this.2.1⟩

theorem lexAll_lines {fuel : Nat} (hk : Counted src) (n : Nat) {t : Tz} {acc : List TokSpan} (h : Scanned src acc t) :
    (∀ ts t', lexAll fuel n t acc = .ok (ts, t') → t'.st.lineMap.data = 0 :: breaksFrom 0 src ∧ t'.st.lineMap.endPos = byteLen src) ∧
    (∀ e t', lexAll fuel n t acc = .err (e, t') → Tabled src t' ∧ t'.st.lineMap.endPos = byteLen src ∧
      ∀ sp, e.span = some sp → sp.start ≤ sp.stop ∧ sp.start ≤ t'.st.srcPos ∧ lineGap src sp.start t'.st.srcPos = []) := by
  induction n generalizing t acc with
  | zero => exact ⟨fun _ _ h => (by cases h), fun _ _ h => (by cases h)⟩
  | succ n ih =>
    obtain ⟨h1, h2⟩ := scanned_lines hk h
    have hx := tl_next hk fuel t h1
    unfold Tl Tp at hx
    unfold lexAll
    cases hn : nextToken fuel t with
    | ok x t' =>
      rw [hn] at hx
      dsimp only
      by_cases he : x.tok = .k .End
      · rw [if_pos he]
        refine ⟨?_, fun _ _ h => (by cases h)⟩
        rintro ts t2 hr
        cases hr
        have hd : t'.st.lineMap.data = 0 :: lineGap src 0 t'.st.srcPos := h2.after hx.2.1
        refine ⟨?_, (C05_line_table src t' (.token (.next fuel h hn))).2.1⟩
        rw [hd]
        congr 1
        unfold lineGap
        rw [List.filter_eq_self]
        intro b hb
        have h3 := breaksFrom_bounds hb
        have h4 := hx.2.2 he
        simp only [decide_eq_true_eq]
        omega
      · rw [if_neg he]
        exact ih (.next fuel h hn)
    | err e t' =>
      rw [hn] at hx
      refine ⟨fun _ _ h => (by cases h), ?_⟩
      intro e2 t2 hr
      cases hr
      exact ⟨h2.after hx.ru, (C05_line_table src t' (.error fuel h hn)).2.1, hx.span⟩
    | panic p => exact ⟨fun _ _ h => (by cases h), fun _ _ h => (by cases h)⟩
    | oof => exact ⟨fun _ _ h => (by cases h), fun _ _ h => (by cases h)⟩

/-- Looking up the end of an error of the tokenizer. -/
theorem table_begins {m : LineMap} {p start stop n a b : Nat} (hd : m.data = 0 :: lineGap src 0 p) (he : m.endPos = byteLen src)
    (g1 : start ≤ stop) (g2 : start ≤ p) (g3 : lineGap src start p = [])
    (h1 : m.lineFromPosition stop = some n) (h2 : m.line n = some (a, b)) : BeginsLine src start n a ∧ b = byteLen src := by
  have hgap : lineGap src 0 p = lineGap src 0 start := by rw [← lineGap_trans (Nat.zero_le _) g2, g3, List.append_nil]
  have hpre : breaksFrom 0 src = lineGap src 0 p ++ lineGap src p (p + byteLen src) := by
    rw [lineGap_trans (Nat.zero_le _) (Nat.le_add_right _ _)]
    symm
    unfold lineGap
    rw [List.filter_eq_self]
    intro b hb
    have := breaksFrom_bounds hb
    simp only [decide_eq_true_eq]
    omega
  have hsort : m.data.Pairwise (· ≤ ·) := by
    rw [hd, List.pairwise_cons]
    exact ⟨fun _ _ => Nat.zero_le _, ((breaksFrom_sorted 0 src).imp Nat.le_of_lt).sublist List.filter_sublist⟩
  obtain ⟨line, st, sp, e1, e2, e3, e4, e5, e6, e7, -⟩ := C04_line_lookup m stop hsort (by rw [hd]; rfl)
  rw [h1] at e1
  cases e1
  rw [h2] at e2
  cases e2
  have hall : ∀ v ∈ m.data, v ≤ start := by
    intro v hv
    rw [hd, hgap, List.mem_cons] at hv
    rcases hv with rfl | hv
    · exact Nat.zero_le _
    · unfold lineGap at hv
      rw [List.mem_filter] at hv
      have := hv.2
      simp only [decide_eq_true_eq] at this
      exact this.2
  have hlast : m.data.length ≤ n + 1 := by
    apply Classical.byContradiction
    intro hn
    have hlt : n + 1 < m.data.length := by omega
    have := e5 (n + 1) _ (Nat.lt_succ_self n) (List.getElem?_eq_getElem hlt)
    have := hall _ (List.getElem_mem hlt)
    omega
  refine ⟨?_, by rw [e7 hlast, he]⟩
  have hlt := (List.getElem?_eq_some_iff.1 e3).1
  have e3' : (0 :: breaksFrom 0 src)[n]? = some a := by
    rw [hpre, ← List.cons_append, List.getElem?_append_left (by rw [← hd]; exact hlt), ← hd]
    exact e3
  obtain ⟨pre, post, f1, f2, f3, f4, f5⟩ := table_entry e3'
  refine ⟨pre, post, f1, f2, f3, f4, hall a (List.mem_of_getElem? e3), ?_⟩
  intro x y hxy
  have hmem : a + byteLen x + 1 ∈ (0 :: breaksFrom 0 src).drop (n + 1) := by
    rw [f5]
    exact mem_breaksFrom.2 ⟨x, y, hxy, rfl⟩
  have hlen : (0 :: lineGap src 0 p).length = n + 1 := by rw [← hd]; omega
  have hdr : (0 :: breaksFrom 0 src).drop (n + 1) = lineGap src p (p + byteLen src) := by
    rw [hpre, ← List.cons_append, List.drop_append_of_le_length (by omega), List.drop_of_length_le (by omega), List.nil_append]
  rw [hdr] at hmem
  unfold lineGap at hmem
  rw [List.mem_filter] at hmem
  have := hmem.2
  simp only [decide_eq_true_eq] at this
  omega

end Pico
