import Verif.Spec.Lines
import Verif.Lemmas.LexPanicBase
import Verif.Lemmas.TokNext
/-!
# Counting lines: the table, and the tokens without interpolation
-/
namespace Pico
open T

/-! ## Line breaks of a text -/

/-- The offsets directly behind the line breaks of a text that stands at `n`. -/
def breaksFrom : Nat → Text → List Nat
  | _, [] => []
  | n, c :: r => (if c = '\n' then [n + c.utf8Size] else []) ++ breaksFrom (n + c.utf8Size) r

/-- The line starts in `(p, q]`. -/
def lineGap (src : Text) (p q : Nat) : List Nat := (breaksFrom 0 src).filter fun b => decide (p < b ∧ b ≤ q)

theorem breaksFrom_append (n : Nat) (a b : Text) : breaksFrom n (a ++ b) = breaksFrom n a ++ breaksFrom (n + byteLen a) b := by
  induction a generalizing n with
  | nil => rfl
  | cons c a ih =>
    simp only [List.cons_append, breaksFrom, ih, byteLen, List.append_assoc, Nat.add_assoc]

theorem breaksFrom_bounds {n x : Nat} {a : Text} (h : x ∈ breaksFrom n a) : n < x ∧ x ≤ n + byteLen a := by
  induction a generalizing n with
  | nil => cases h
  | cons c a ih =>
    have hc := Char.utf8Size_pos c
    simp only [breaksFrom, List.mem_append] at h
    simp only [byteLen]
    rcases h with h | h
    · split at h
      · rw [List.mem_singleton] at h; omega
      · cases h
    · have := ih h; omega

theorem breaksFrom_free {n : Nat} {a : Text} (h : '\n' ∉ a) : breaksFrom n a = [] := by
  induction a generalizing n with
  | nil => rfl
  | cons c a ih =>
    rw [List.mem_cons, not_or] at h
    simp only [breaksFrom]
    rw [if_neg (fun e => h.1 e.symm), ih h.2]
    rfl

theorem breaksFrom_sorted (n : Nat) (a : Text) : (breaksFrom n a).Pairwise (· < ·) := by
  induction a generalizing n with
  | nil => exact .nil
  | cons c a ih =>
    simp only [breaksFrom]
    rw [List.pairwise_append]
    refine ⟨by split <;> simp, ih _, ?_⟩
    intro x hx y hy
    have := (breaksFrom_bounds hy).1
    split at hx
    · rw [List.mem_singleton] at hx; omega
    · cases hx

theorem filter_between {l : List Nat} (h : l.Pairwise (· < ·)) {p q s : Nat} (h1 : p ≤ q) (h2 : q ≤ s) :
    l.filter (fun b => decide (p < b ∧ b ≤ q)) ++ l.filter (fun b => decide (q < b ∧ b ≤ s)) =
      l.filter (fun b => decide (p < b ∧ b ≤ s)) := by
  induction l with
  | nil => rfl
  | cons x l ih =>
    rw [List.pairwise_cons] at h
    by_cases hq : x ≤ q
    · simp only [List.filter_cons]
      have e1 : decide (q < x ∧ x ≤ s) = false := by simp; omega
      have e2 : decide (p < x ∧ x ≤ q) = decide (p < x ∧ x ≤ s) := by
        rw [decide_eq_decide]; omega
      rw [e1, e2]
      by_cases hx : p < x ∧ x ≤ s
      · simp only [hx, and_self, decide_true, if_true, Bool.false_eq_true, if_false, List.cons_append, ih h.2]
      · simp only [hx, decide_false, Bool.false_eq_true, if_false, ih h.2]
    · have e0 : (x :: l).filter (fun b => decide (p < b ∧ b ≤ q)) = [] := by
        rw [List.filter_eq_nil_iff]
        intro y hy
        rw [List.mem_cons] at hy
        have : q < y := by
          rcases hy with rfl | hy
          · omega
          · have := h.1 y hy; omega
        simp; omega
      rw [e0, List.nil_append]
      apply List.filter_congr
      intro y hy
      rw [List.mem_cons] at hy
      have : q < y := by
        rcases hy with rfl | hy
        · omega
        · have := h.1 y hy; omega
      rw [decide_eq_decide]; omega

theorem lineGap_trans {src : Text} {p q s : Nat} (h1 : p ≤ q) (h2 : q ≤ s) : lineGap src p q ++ lineGap src q s = lineGap src p s :=
  filter_between (breaksFrom_sorted 0 src) h1 h2

theorem lineGap_self (src : Text) (p : Nat) : lineGap src p p = [] := by
  unfold lineGap
  rw [List.filter_eq_nil_iff]
  intro y _
  simp

theorem lineGap_sub {src : Text} {p q p' q' : Nat} (h : lineGap src p q = []) (h1 : p ≤ p') (h2 : q' ≤ q) : lineGap src p' q' = [] := by
  unfold lineGap at h ⊢
  rw [List.filter_eq_nil_iff] at h ⊢
  intro y hy
  have := h y hy
  simp only [decide_eq_true_eq] at this ⊢
  omega

theorem lineGap_text (a w r : Text) : lineGap (a ++ (w ++ r)) (byteLen a) (byteLen a + byteLen w) = breaksFrom (byteLen a) w := by
  unfold lineGap
  rw [breaksFrom_append, breaksFrom_append, List.filter_append, List.filter_append, Nat.zero_add]
  have e1 : (breaksFrom 0 a).filter (fun b => decide (byteLen a < b ∧ b ≤ byteLen a + byteLen w)) = [] := by
    rw [List.filter_eq_nil_iff]
    intro y hy
    have := (breaksFrom_bounds hy).2
    simp; omega
  have e2 : (breaksFrom (byteLen a) w).filter (fun b => decide (byteLen a < b ∧ b ≤ byteLen a + byteLen w)) = breaksFrom (byteLen a) w := by
    rw [List.filter_eq_self]
    intro y hy
    have := breaksFrom_bounds hy
    simp; omega
  have e3 : (breaksFrom (byteLen a + byteLen w) r).filter (fun b => decide (byteLen a < b ∧ b ≤ byteLen a + byteLen w)) = [] := by
    rw [List.filter_eq_nil_iff]
    intro y hy
    have := (breaksFrom_bounds hy).1
    simp; omega
  rw [e1, e2, e3, List.append_nil, List.nil_append]

section
variable {src : Text} {t : Tz} {E : SyntaxErr → Tz → Prop}

theorem At.gap {w r : Text} (h : At t (w ++ r)) : lineGap t.code t.st.srcPos (t.st.srcPos + byteLen w) = breaksFrom t.st.srcPos w := by
  obtain ⟨a, ha, hl⟩ := dropBytes_split h
  rw [ha, ← hl]
  exact lineGap_text a w r

/-! ## Moving -/

/-- The judgement without a claim about panics. -/
abbrev Tl {α : Type} (m : T α) (t : Tz) (Q : α → Tz → Prop) (E : SyntaxErr → Tz → Prop) : Prop := Tp (fun _ => True) m t Q E

/-- Scanning on within a token: the lines met are entered into the table. -/
structure Mw (src : Text) (t t' : Tz) : Prop where
  code : t'.code = src
  queue : t'.queue = t.queue
  state : t'.st.state = t.st.state
  stack : t'.st.stack = t.st.stack
  le : t.st.srcPos ≤ t'.st.srcPos
  lines : t'.st.lineMap.data = t.st.lineMap.data ++ lineGap src t.st.srcPos t'.st.srcPos

theorem Mw.refl (h : t.code = src) : Mw src t t :=
  ⟨h, rfl, rfl, rfl, Nat.le_refl _, by rw [lineGap_self, List.append_nil]⟩

theorem Mw.trans {t t' t'' : Tz} (h : Mw src t t') (h' : Mw src t' t'') : Mw src t t'' :=
  ⟨h'.code, h'.queue.trans h.queue, h'.state.trans h.state, h'.stack.trans h.stack, Nat.le_trans h.le h'.le,
    by rw [h'.lines, h.lines, List.append_assoc, lineGap_trans h.le h'.le]⟩

theorem Mw.adv {w r : Text} (hc : t.code = src) (h : At t (w ++ r)) (hw : '\n' ∉ w) : Mw src t (t.adv (byteLen w)) := by
  refine ⟨hc, rfl, rfl, rfl, Nat.le_add_right _ _, ?_⟩
  rw [Tz.adv_pos, ← hc, h.gap, breaksFrom_free hw, List.append_nil]
  rfl

theorem Mw.nl {r : Text} (hc : t.code = src) (h : At t (c!"\n" ++ r)) :
    Mw src t { t.adv (byteLen c!"\n") with st := (t.adv (byteLen c!"\n")).st.nextLine } := by
  refine ⟨hc, rfl, rfl, rfl, Nat.le_add_right _ _, ?_⟩
  show t.st.lineMap.data ++ [t.st.srcPos + 1] = t.st.lineMap.data ++ lineGap src t.st.srcPos (t.st.srcPos + byteLen c!"\n")
  rw [← hc, h.gap]
  rfl

/-- A failed scanner, or an error. -/
structure Al (src : Text) (t : Tz) (e : SyntaxErr) (t' : Tz) : Prop where
  mw : Mw src t t'
  none : e = .none → t'.st.lineMap.data = t.st.lineMap.data
  span : ∀ sp, e.span = some sp → sp.start ≤ sp.stop ∧ sp.start ≤ t'.st.srcPos ∧ lineGap src sp.start t'.st.srcPos = []

theorem Al.no {t' : Tz} (h : Mw src t t') (hl : t'.st.lineMap.data = t.st.lineMap.data) : Al src t .none t' := ⟨h, fun _ => hl, nofun⟩

theorem Al.refl (h : t.code = src) : Al src t .none t := .no (.refl h) rfl

theorem Al.here {t' : Tz} {what : String} {b : Nat} (h : Mw src t t') (hb : t'.st.srcPos ≤ b) : Al src t (.unterminated what (mkSpan t'.st.srcPos b)) t' := by
  refine ⟨h, nofun, ?_⟩
  rintro sp he
  cases he
  exact ⟨hb, Nat.le_refl _, lineGap_self _ _⟩

theorem Al.after {t' t'' : Tz} {e : SyntaxErr} (h : Mw src t t') (hl : t'.st.lineMap.data = t.st.lineMap.data) (h' : Al src t' e t'') : Al src t e t'' :=
  ⟨h.trans h'.mw, fun he => (h'.none he).trans hl, h'.span⟩

theorem Al.after' {t' t'' : Tz} {e : SyntaxErr} (h : Mw src t t') (he : e ≠ .none) (h' : Al src t' e t'') : Al src t e t'' :=
  ⟨h.trans h'.mw, fun h => absurd h he, h'.span⟩

/-- A token of the scripting mode that is no string. -/
def Pw (src : Text) (t : Tz) (x : TokSpan) (t' : Tz) : Prop := Mw src t t' ∧ (x.tok = .k .End → byteLen src ≤ t'.st.srcPos)

theorem tl_input {Q : Text → Tz → Prop} (h : ∀ i, At t i → Q i t) : Tl input t Q E := by
  unfold Tl Tp input
  cases hd : dropBytes t.code t.st.srcPos with
  | some i => exact h i hd
  | none => trivial

theorem tl_subT {a b : Nat} {Q : Nat → Tz → Prop} (h : b ≤ a → Q (a - b) t) : Tl (subT a b) t Q E := by
  unfold subT
  exact Tp.ite (fun hb => h hb) (fun _ => trivial)

theorem label_free {w : Text} (h : IsLabel w) : '\n' ∉ w := by
  intro hm
  rcases h.2.2 _ hm with h | h
  · cases h
  · exact absurd h.1 (by decide)

theorem tl_label {Q : Option (Text × Span) → Tz → Prop} (hn : Q none t)
    (hs : ∀ w r, At t (w ++ r) → IsLabel w → At (t.adv (byteLen w)) r →
      Q (some (w, mkSpan t.st.srcPos (t.st.srcPos + w.length))) (t.adv (byteLen w))) : Tl label t Q E := by
  cases hd : dropBytes t.code t.st.srcPos with
  | some i =>
    refine .of_safe (sf_label hd (fun _ => hn) fun w r e hw _ _ => ?_)
    subst e
    exact hs w r hd hw (At.adv hd)
  | none =>
    refine Tp.of_panic (p := .charBoundary) ?_ trivial
    unfold label
    exact bind_panic (by unfold input; rw [hd])

theorem wsGo_breaks (w : Text) (hw : w.all isBlank = true) (s : TState) :
    (wsGo w s).lineMap.data = s.lineMap.data ++ breaksFrom s.srcPos w := by
  induction w generalizing s with
  | nil => simp [wsGo, breaksFrom]
  | cons c w ih =>
    rw [List.all_cons, Bool.and_eq_true] at hw
    have hc := hw.1
    simp only [isBlank, Bool.or_eq_true, beq_iff_eq] at hc
    unfold wsGo
    split
    · rename_i h
      rw [ih hw.2]
      simp only [Bool.or_eq_true, beq_iff_eq] at h
      show s.lineMap.data ++ breaksFrom (s.srcPos + 1) w = _
      rcases h with (rfl | rfl) | rfl <;> rfl
    · split
      · rename_i h
        rw [beq_iff_eq] at h
        subst h
        rw [ih hw.2]
        show (s.lineMap.data ++ [s.srcPos + 1]) ++ breaksFrom (s.srcPos + 1) w = _
        rw [List.append_assoc]
        rfl
      · rename_i h1 h2
        simp only [Bool.or_eq_true, beq_iff_eq] at h1 h2
        exfalso
        rcases hc with ((h | h) | h) | h
        · exact h1 (.inl (.inl h))
        · exact h1 (.inl (.inr h))
        · first | exact h1 (.inr h) | exact h2 h
        · first | exact h1 (.inr h) | exact h2 h

theorem tl_whitespace (hc : t.code = src) :
    Tl whitespace t (fun _ t' => Mw src t t' ∧ ∃ r, At t' r ∧ ∀ q, r ≠ '\n' :: q) E := by
  unfold whitespace
  refine Tp.bind (tl_input fun i hi => ?_)
  obtain ⟨w, r, rfl, hw, hr⟩ := blank_split i
  have hat := hi.ws hw
  obtain ⟨f1, f2, f3, f4⟩ := wsGo_fields w hw t.st
  have e : wsGo (w ++ r) t.st = wsGo w t.st := wsGo_append w r hw hr _
  refine Tp.of_ok rfl ?_
  rw [e]
  refine ⟨⟨hc, rfl, f2, f3, ?_, ?_⟩, r, hat, ?_⟩
  · show t.st.srcPos ≤ (wsGo w t.st).srcPos; rw [f1]; exact Nat.le_add_right _ _
  · show (wsGo w t.st).lineMap.data = _ ++ lineGap src _ (wsGo w t.st).srcPos
    rw [wsGo_breaks w hw, f1, ← hc, hi.gap]
  · rintro q rfl
    cases hr

theorem spaces_free {w : Text} (h : w.all (fun c => c == ' ' || c == '\t') = true) : '\n' ∉ w := by
  intro hm
  rw [List.all_eq_true] at h
  cases h _ hm

/-- Nothing but the position has changed. -/
def Keep (src : Text) (t t' : Tz) : Prop := Mw src t t' ∧ t'.st.lineMap.data = t.st.lineMap.data

theorem Keep.refl (h : t.code = src) : Keep src t t := ⟨.refl h, rfl⟩

theorem Keep.trans {t t' t'' : Tz} (h : Keep src t t') (h' : Keep src t' t'') : Keep src t t'' := ⟨h.1.trans h'.1, h'.2.trans h.2⟩

theorem Keep.adv {w r : Text} (hc : t.code = src) (h : At t (w ++ r)) (hw : '\n' ∉ w) : Keep src t (t.adv (byteLen w)) := ⟨.adv hc h hw, rfl⟩

theorem Keep.al {t' : Tz} (h : Keep src t t') : Al src t .none t' := .no h.1 h.2

/-- Going back to where one was. -/
theorem Keep.back {t' : Tz} (h : Keep src t t') : Keep src t { t' with st := { t'.st with srcPos := t.st.srcPos } } :=
  ⟨⟨h.1.code, h.1.queue, h.1.state, h.1.stack, Nat.le_refl _, by rw [lineGap_self, List.append_nil]; exact h.2⟩, h.2⟩

theorem tl_whitespaceOnly (hc : t.code = src) : Tl whitespaceOnly t (fun _ t' => Keep src t t') E := by
  rcases hd : dropBytes t.code t.st.srcPos with _ | i
  · exact Tp.of_panic (p := .charBoundary) (by unfold whitespaceOnly; exact bind_panic (by unfold input; rw [hd])) trivial
  · obtain ⟨w, r, rfl, hw, hr⟩ := gap_split i
    have hi : At t (w ++ r) := hd
    exact Tp.of_ok (whitespaceOnly_at hi hw hr) (.adv hc hi (spaces_free hw))

/-! ## Numbers -/

theorem At.parted {i : Text} (h : At t i) (n : Nat) : At t (i.take n ++ i.drop n) := by rw [List.take_append_drop]; exact h

theorem not_mem_take_position {p : Char → Bool} {i : Text} {d : Nat} (hd : i.length ≤ d) {c : Char} (hc : p c = true) :
    c ∉ i.take ((position p i).getD d) := by
  intro hm
  rw [position_le _ _ _ hd] at hm
  have := of_takeWhile (p := fun c => !p c) hm
  simp [hc] at this

theorem tl_end {x : TokSpan} {t0 : Tz} (hm : Mw src t0 t) (hi : At t []) : Pw src t0 x t := by
  refine ⟨hm, fun _ => ?_⟩
  have := hi.total
  simp only [byteLen, Nat.add_zero] at this
  rw [← hm.code, this]
  exact Nat.le_refl _

theorem tl_onum (hc : t.code = src) : Tl onumDnumLnum t (Pw src t) (Al src t) := by
  unfold onumDnumLnum
  refine Tp.bind (tl_input fun i hi => ?_)
  refine Tp.ite (fun he => ?_) (fun _ => ?_)
  · rw [List.isEmpty_iff] at he
    subst he
    exact Tp.of_ok rfl (tl_end (Mw.refl hc) hi)
  dsimp only
  refine Tp.bind (tp_inputPos ?_)
  have h0 : '\n' ∉ i.take ((position notDigit i).getD (byteLen i)) := not_mem_take_position (length_le_byteLen i) (by decide)
  generalize (position notDigit i).getD (byteLen i) = n at *
  have hi' := hi.parted n
  refine Tp.bind (tp_advChars hi fun hi1 => ?_)
  have m1 := Keep.adv hc hi' h0
  refine Tp.bind (Tp.of_ok (input_at hi1) ?_)
  have num : ∀ (o : Option Nat) (f : Nat → TokSpan), (∀ v, (f v).tok = .int v) →
      Tl (match o with | some v => ret (f v) | none => abort .unwrap) (t.adv (byteLen (i.take n))) (Pw src t) (Al src t) := by
    intro o f hf
    cases o with
    | none => trivial
    | some v => exact ⟨m1.1, fun h => by rw [hf v] at h; cases h⟩
  refine Tp.ite (fun _ => ?_) (fun hdot => ?_)
  · refine Tp.bind (tp_inputPos ?_)
    refine Tp.ite (fun _ => ?_) (fun _ => ?_)
    · exact Tp.ite (fun _ => num _ (fun v => ⟨.int v, _⟩) fun _ => rfl) (fun _ => num _ (fun v => ⟨.int v, _⟩) fun _ => rfl)
    · exact Tp.bind (m := setPos _) (Tp.of_ok rfl (Tp.of_err rfl m1.back.al))
  · have hd' : startsWith (i.drop n) c!"." = true := by simpa using hdot
    obtain ⟨q, hq⟩ := startsWith_split hd'
    rw [hq] at hi1
    refine Tp.bind (tp_advChars' (a := c!".") hi1 rfl fun hi2 => ?_)
    have m2 := m1.trans (Keep.adv hc hi1 (by decide))
    refine Tp.bind (Tp.of_ok (input_at hi2) ?_)
    refine Tp.ite (fun _ => ?_) (fun _ => ?_)
    · exact Tp.bind (m := setPos _) (Tp.of_ok rfl (Tp.of_err rfl m2.back.al))
    · refine Tp.bind (tp_inputPos ?_)
      have h3 : '\n' ∉ q.take ((position notDigit q).getD q.length) := not_mem_take_position (Nat.le_refl _) (by decide)
      generalize (position notDigit q).getD q.length = k at *
      refine Tp.bind (tp_advChars hi2 fun hi3 => ?_)
      refine Tp.ite (fun _ => trivial) (fun _ => ?_)
      have hi2' := hi2.parted k
      exact ⟨(m2.trans (Keep.adv hc hi2' h3)).1, nofun⟩

theorem tl_prefixed (pre : Text) (radix : Nat) (isDigit : Char → Bool) (hp : byteLen pre = 2) (hf : '\n' ∉ pre) (hd : isDigit '\n' = false)
    (hc : t.code = src) : Tl (prefixedNum pre radix isDigit) t (Pw src t) (Al src t) := by
  unfold prefixedNum
  refine Tp.bind (tl_input fun i hi => ?_)
  refine Tp.ite (fun _ => Al.refl hc) (fun hcc => ?_)
  have hs : startsWith i pre = true := by simp only [Bool.or_eq_true, not_or] at hcc; simpa using hcc.2
  obtain ⟨i, rfl⟩ := startsWith_split hs
  refine Tp.bind (tp_advBytes hi hp.symm fun hi1 => ?_)
  have m1 := Keep.adv hc hi hf
  refine Tp.bind (Tp.of_ok (input_at hi1) ?_)
  dsimp only
  refine Tp.ite (fun _ => m1.al) (fun _ => ?_)
  refine Tp.bind (tp_inputPos ?_)
  refine Tp.bind (tl_subT fun _ => ?_)
  have h3 : '\n' ∉ i.take ((position (fun c => !isDigit c) i).getD i.length) := not_mem_take_position (Nat.le_refl _) (by rw [hd]; rfl)
  generalize (position (fun c => !isDigit c) i).getD i.length = k at *
  refine Tp.bind (tp_advChars hi1 fun hi2 => ?_)
  have hi1' := hi1.parted k
  cases fromStrRadix i64Max radix (i.take k) with
  | some v => exact ⟨(m1.trans (Keep.adv hc hi1' h3)).1, nofun⟩
  | none => trivial

theorem tl_hnum (hc : t.code = src) : Tl hnum t (Pw src t) (Al src t) := tl_prefixed _ _ _ rfl (by decide) (by decide) hc

theorem tl_bnum (hc : t.code = src) : Tl bnum t (Pw src t) (Al src t) := tl_prefixed _ _ _ rfl (by decide) (by decide) hc

theorem tl_variable (hc : t.code = src) : Tl matchVariable t (Pw src t) (Al src t) := by
  unfold matchVariable
  refine Tp.bind (tl_input fun i hi => ?_)
  refine Tp.ite (fun _ => Al.refl hc) (fun hcc => ?_)
  have hs : startsWith i c!"$" = true := by simp only [Bool.or_eq_true, not_or] at hcc; simpa using hcc.2
  obtain ⟨r, rfl⟩ := startsWith_split hs
  refine Tp.bind (tp_inputPos ?_)
  refine Tp.bind (tp_advBytes hi rfl fun hi1 => ?_)
  have m1 := Keep.adv hc hi (by decide)
  refine Tp.bind (tl_label ?_ fun w r2 hw hl hat => ?_)
  · exact Tp.bind (m := setPos _) (Tp.of_ok rfl (Tp.of_err rfl m1.back.al))
  · exact ⟨(m1.trans (Keep.adv hc hw (label_free hl))).1, nofun⟩

/-! ## Comments -/

theorem linesCount_free {c : Text} (h : '\n' ∉ c) : linesCount c ≤ 1 := by
  induction c with
  | nil => exact Nat.zero_le _
  | cons x c ih =>
    rw [List.mem_cons, not_or] at h
    cases c with
    | nil => unfold linesCount; split <;> simp_all
    | cons y c =>
      have := ih h.2
      unfold linesCount
      split <;> simp_all

theorem tl_commentDone {t0 : Tz} (old : Nat) (doc : Bool) {c : Text} (hf : '\n' ∉ c) (h : Mw src t0 t) :
    Tl (commentDone old doc c) t (Pw src t0) E := by
  unfold commentDone
  have e : linesCount c - 1 = 0 := by have := linesCount_free hf; omega
  rw [e]
  refine Tp.bind (m := modSt _) (Tp.of_ok rfl ?_)
  exact Tp.bind (tp_inputPos (show Pw src t0 _ _ from ⟨h, nofun⟩))

theorem beforeSub_first {pat s body : Text} (h : beforeSub pat s = some body) : ∃ q, s = body ++ pat ++ q ∧ (pat ≠ [] → ¬ pat <:+: body) := by
  induction s generalizing body with
  | nil =>
    unfold beforeSub at h
    split at h
    · rename_i hp
      cases h
      cases pat with
      | nil => exact ⟨[], rfl, fun h => absurd rfl h⟩
      | cons a pat => cases hp
    · cases h
  | cons c s ih =>
    unfold beforeSub at h
    split at h
    · rename_i hs
      cases h
      obtain ⟨q, hq⟩ := startsWith_split hs
      refine ⟨q, by simpa using hq, fun hne hi => hne ?_⟩
      exact List.infix_nil.1 hi
    · rename_i hs
      cases hb : beforeSub pat s with
      | none => rw [hb] at h; cases h
      | some b =>
        rw [hb] at h
        cases h
        obtain ⟨q, hq, hn⟩ := ih hb
        refine ⟨q, by rw [hq]; rfl, fun hne hi => ?_⟩
        rw [List.infix_cons_iff] at hi
        rcases hi with hi | hi
        · apply hs
          obtain ⟨z, hz⟩ := hi
          have : c :: s = pat ++ (z ++ pat ++ q) := by
            rw [hq, ← List.cons_append, ← List.cons_append, ← hz]
            simp
          rw [this]
          exact startsWith_append _ _
        · exact hn hne hi

theorem tl_comments (hk : Counted src) (hc : t.code = src) : Tl matchComments t (Pw src t) (Al src t) := by
  have line : ∀ {a r : Text} {n : Nat}, At t (a ++ r) → n = byteLen a → '\n' ∉ a →
      Tl (lineComment t.st.srcPos n) t (Pw src t) (Al src t) := by
    intro a r n hi hn ha
    unfold lineComment
    refine Tp.bind (tp_advBytes hi hn fun h1 => ?_)
    refine Tp.bind (Tp.of_ok (input_at h1) ?_)
    have h3 : '\n' ∉ r.take ((position (· == '\n') r).getD (byteLen r)) := not_mem_take_position (length_le_byteLen r) (by decide)
    generalize (position (· == '\n') r).getD (byteLen r) = k at *
    refine Tp.bind (tp_advChars h1 fun h2 => ?_)
    have h1' := h1.parted k
    exact tl_commentDone _ _ h3 ((Mw.adv hc hi ha).trans (Mw.adv hc h1' h3))
  have block : ∀ {a r : Text} {n : Nat} {doc : Bool}, At t (a ++ r) → n = byteLen a → (a = c!"/*" ∨ a = c!"/**") →
      Tl (blockComment t.st.srcPos n doc) t (Pw src t) (Al src t) := by
    intro a r n doc hi hn ha
    have haf : '\n' ∉ a := by rcases ha with rfl | rfl <;> decide
    unfold blockComment
    refine Tp.bind (tp_advBytes hi hn fun h1 => ?_)
    refine Tp.bind (Tp.of_ok (input_at h1) ?_)
    cases hb : beforeSub c!"*/" r with
    | none => exact Tp.bind (tp_inputPos (Tp.of_err rfl (Al.here (Mw.adv hc hi haf) (Nat.le_refl _))))
    | some body =>
      obtain ⟨q, rfl, hno⟩ := beforeSub_first hb
      have hbody : '\n' ∉ body := by
        refine hk.comment a body ha ?_ (hno (by decide))
        have : At t ((a ++ body ++ c!"*/") ++ q) := by simpa using hi
        rw [← hc]
        exact this.infix
      rw [List.append_assoc] at h1
      refine Tp.bind (tp_advBytes h1 rfl fun h2 => ?_)
      refine Tp.bind (tp_advBytes h2 rfl fun h3 => ?_)
      exact tl_commentDone _ _ hbody (((Mw.adv hc hi haf).trans (Mw.adv hc h1 hbody)).trans (Mw.adv hc h2 (by decide)))
  unfold matchComments
  refine Tp.bind (tp_inputPos ?_)
  refine Tp.bind (tl_input fun i hi => ?_)
  refine Tp.ite (fun h => ?_) (fun _ => Tp.ite (fun h => ?_) (fun _ => Tp.ite (fun h => ?_) (fun _ => Tp.ite (fun h => ?_) (fun _ => Al.refl hc))))
  · obtain ⟨r, rfl⟩ := startsWith_split h; exact line hi rfl (by decide)
  · obtain ⟨r, rfl⟩ := startsWith_split h; exact line hi rfl (by decide)
  · obtain ⟨r, rfl⟩ := startsWith_split h; exact block hi rfl (.inr rfl)
  · obtain ⟨r, rfl⟩ := startsWith_split h; exact block hi rfl (.inl rfl)

end
end Pico
