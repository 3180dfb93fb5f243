import Verif.Lemmas.LayOther
/-! # The pieces of a script -/
namespace Pico
open T

section
variable {t : Tz}

/-! ### The last scanner reads what is left -/

theorem symTexts_one : ∀ s ∈ symTexts, (findEntry otherTable s).isSome = true ∨ (s.head?.any fun c => (charToken c).isSome) = true := by
  decide +kernel

theorem yield_ok {w j : Text} (h : At t (c!"yield" ++ j)) {n : Nat}
    (hlab : label t = .ok (some (w, mkSpan t.st.srcPos (t.st.srcPos + w.length))) (t.adv n))
    (hw : w.length ≤ 5 ∨ w.length ≤ 9 ∧ ∃ r, j = c!"from" ++ r) : ∃ x t', labelOrOther t.st.srcPos t = .ok x t' := by
  obtain ⟨b, r, rfl, hb, hr⟩ := blank_split j
  obtain ⟨u, hl, ho⟩ := yield_at h hb hr
  have hpos := hl.pos
  rw [byteLen_append, show byteLen c!"yield" = 5 from rfl] at hpos
  by_cases hf : startsWithCi r c!"from" = true
  · rw [if_pos hf] at ho
    have hle : t.st.srcPos + w.length ≤ u.st.srcPos + 4 := by
      rcases hw with h | h <;> omega
    exact ⟨_, _, lo_some_ok hlab ho hle⟩
  · rw [if_neg hf] at ho
    rcases hw with h1 | ⟨_, h2⟩
    · have hle : t.st.srcPos + w.length ≤ u.st.srcPos := by omega
      exact ⟨_, _, lo_some_ok hlab ho hle⟩
    · exfalso
      obtain ⟨r', h2⟩ := h2
      have h2 : c!"from" <+: b ++ r := ⟨r', h2.symm⟩
      apply hf
      cases b with
      | nil => exact startsWithCi_mono h2 (by decide)
      | cons c b =>
        obtain ⟨q, hq⟩ := h2
        have hc : 'f' = c := by simpa using (List.cons.inj hq).1
        subst hc
        exact absurd hb (by simp [isBlank])

theorem word_ok {w r : Text} (hi : At t (w ++ r)) (hw : IsLabel w) (hr : endsIdentifier r = true) :
    ∃ x t', labelOrOther t.st.srcPos t = .ok x t' := by
  have hlw := hw.toLab
  have hr' := endsIdentifier_head hr
  cases hy : startsWithCi w c!"yield" with
  | false =>
    obtain ⟨d, h⟩ := lab_at hi hlw hr' hy
    exact ⟨_, _, h⟩
  | true =>
    obtain ⟨v, rfl⟩ := startsWithCi_yield hy
    by_cases h1 : v = []
    · subst h1
      exact yield_ok hi (label_some hi hlw.ne hlw.lab hlw.dig hr') (.inl (Nat.le_refl _))
    · by_cases h2 : v = c!"from"
      · subst h2
        exact yield_ok (j := c!"from" ++ r) hi (label_some hi hlw.ne hlw.lab hlw.dig hr') (.inr ⟨Nat.le_refl _, r, rfl⟩)
      · exact ⟨_, _, lab_yield hi hlw hr' h1 h2⟩

theorem symbol_ok {i : Text} (hi : At t i) (hno : noIdentifier i) (hk : (∃ s ∈ symTexts, s <+: i) ∨ c!"$" <+: i)
    (hp : c!"}" <+: i → t.st.stack ≠ []) : ∃ x t', labelOrOther t.st.srcPos t = .ok x t' := by
  have hlab := noIdentifier_label hi hno
  have hy := noYield hno
  cases hc : castFree i with
  | false =>
    unfold castFree at hc
    rw [Bool.or_eq_false_iff] at hc
    obtain ⟨r, rfl⟩ := startsWith_split (p := c!"(") (by simpa using hc.1)
    have hn : noCast r = false := hc.2
    obtain ⟨b, r1, rfl, hb, hr1⟩ := gap_split r
    unfold noCast at hn
    rw [dropWhile_gap hb hr1] at hn
    cases hf : findEntry castTable r1 with
    | none => rw [hf] at hn; cases hn
    | some e =>
      rw [hf] at hn
      dsimp only at hn
      have hsp := find_entry_split hf
      generalize hr2 : r1.drop e.text.length = r2 at hn hsp
      obtain ⟨b', r3, rfl, hb', hr3⟩ := gap_split r2
      rw [dropWhile_gap hb' hr3] at hn
      obtain ⟨q, rfl⟩ := startsWith_split (p := c!")") (by simpa using hn)
      subst hsp
      have hi2 : At t ('(' :: (b ++ e.text.map lowerAscii ++ b' ++ ')' :: q)) := by simpa using hi
      have hcast := cast_some hi2 hb hb' (by simpa using hf) rfl
      have ho : inScriptingOtherToken t = .ok ⟨.k e.kw, mkSpan t.st.srcPos (t.st.srcPos +
          (byteLen b + byteLen (e.text.map lowerAscii) + byteLen b' + 2))⟩
          (t.adv (byteLen b + byteLen (e.text.map lowerAscii) + byteLen b' + 2)) := by
        unfold inScriptingOtherToken
        rw [orElse_none (matchFirst_none tableA hi2 (by rfl)), orElse_none (yield_none hi2 (by rfl)),
          orElse_none (matchFirst_none tableB hi2 (by rfl)), orElse_ok hcast]
      exact ⟨_, _, lo_none_ok hlab ho⟩
  | true =>
  cases hf : findEntry otherTable i with
  | none =>
    have ho := other_none hi hy hc hf
    have hch : ∃ c r, i = c :: r ∧ (charToken c).isSome = true := by
      rcases hk with ⟨s, hs, hpre⟩ | ⟨q, rfl⟩
      · rcases symTexts_one s hs with h | h
        · rw [find_none_prefix hpre hf] at h
          cases h
        · obtain ⟨q, rfl⟩ := hpre
          cases s with
          | nil => cases h
          | cons c s => exact ⟨c, s ++ q, rfl, by simpa using h⟩
      · exact ⟨'$', q, rfl, rfl⟩
    obtain ⟨c, r, rfl, hcc⟩ := hch
    cases hk : charToken c with
    | none => rw [hk] at hcc; cases hcc
    | some k =>
      rw [orElse_ok (oneChar_some hi hk)] at ho
      exact ⟨_, _, lo_none_ok hlab ho⟩
  | some e =>
    have hm := List.mem_of_find?_eq_some hf
    have hsp := find_entry_split hf
    generalize i.drop e.text.length = r at hsp
    have act : (∃ t', e.act.eff (t.adv (byteLen e.text)) = some t') → ∃ x t', labelOrOther t.st.srcPos t = .ok x t' := by
      rintro ⟨t', ha⟩
      obtain ⟨d, ho⟩ := other_some hi hy hc hf ha
      exact ⟨_, _, lo_none_ok hlab ho⟩
    apply act
    rcases otherTable_kinds e hm with ⟨h1, h⟩ | ⟨h1, h2, h3⟩ | h | h
    · rcases h with ⟨h2, h3⟩ | ⟨h2, h3⟩ | ⟨h2, h3⟩ | ⟨h2, h3, h4⟩
      · rw [h2]; exact ⟨_, rfl⟩
      · rw [h2]; exact ⟨_, rfl⟩
      · rw [h2]; exact ⟨_, rfl⟩
      · cases hst : t.st.stack with
        | nil => exact absurd hst (hp (by rw [hsp, h4]; exact List.prefix_append _ _))
        | cons y ys =>
          rw [h2]
          simp only [Act.eff, Tz.adv_stack, hst]
          exact ⟨_, rfl⟩
    · rw [h3]; exact ⟨_, rfl⟩
    · exfalso
      have h1 : c!"**=" <+: i := by rw [hsp, h]; exact List.prefix_append _ _
      have h2 := find_prefix h1 hf (by rw [← h]; unfold startsWithCi; rw [beq_iff_eq]; exact List.take_of_length_le (by rw [List.length_map]; exact Nat.le_refl _))
      have h3 := pow_found
      rw [h2] at h3
      simp [h] at h3
    · exfalso
      rw [hsp] at hno
      cases hx : e.text.map lowerAscii with
      | nil => rw [hx] at h; cases h
      | cons c cs =>
        rw [hx] at h hno
        have := noIdentifier_head hno
        simp only [List.head?_cons, Option.map_some, Option.some.injEq] at h
        rw [h] at this
        cases this

theorem labelOrOther_ok {i : Text} (hi : At t i) (hk : ¬ noIdentifier i ∨ (∃ s ∈ symTexts, s <+: i) ∨ c!"$" <+: i)
    (hp : c!"}" <+: i → t.st.stack ≠ []) : ∃ x t', labelOrOther t.st.srcPos t = .ok x t' := by
  obtain ⟨a, b, rfl, ha, hb⟩ := span_at (fun c => !isLabelChar c) i
  have hb' : ∀ c, b.head? = some c → isLabelChar c = false := fun c hc => by simpa using hb c hc
  have ha' : ∀ c ∈ a, isLabelChar c = true := fun c hc => by simpa using ha c hc
  have sym : noIdentifier (a ++ b) → ∃ x t', labelOrOther t.st.srcPos t = .ok x t' := fun hn =>
    symbol_ok hi hn (hk.resolve_left fun h => h hn) hp
  cases a with
  | nil => exact sym (.inl (endsIdentifier_of hb'))
  | cons c a =>
    cases hd : inRange '0' '9' c with
    | true => exact sym (.inr ⟨c, a ++ b, rfl, by rw [isDigit_iff]; exact hd⟩)
    | false =>
      have hd' : ∀ d, (c :: a).head? = some d → inRange '0' '9' d = false := fun d h => by cases h; exact hd
      exact word_ok hi (isLabel_of nofun hd' ha') (endsIdentifier_of hb')

/-! ### In a script -/

theorem chainL {m n : T TokSpan} {u : Tz} {F : Prop} {Q : TokSpan → Tz → Prop} (hm : MatchL F m u) (hQ : ∀ x t', StepM u x t' → Q x t')
    (hn : F → Twp True True n u Q (fun e _ => e ≠ .none)) : Twp True True (m <||> n) u Q (fun e _ => e ≠ .none) :=
  Twp.orElse (hm.cons hQ fun _ _ h => ⟨fun he => by obtain ⟨h1, h2⟩ := h he; rw [h1]; exact hn h2, id⟩)

theorem rest_lay {next : T TokSpan} (bfuel : Nat) {i : Text} (hs : Scr t) (hb : BlkOk next bfuel t) (hst : ¬ HasStray t.code)
    (hi : At t i) (hne : i ≠ []) :
    Twp True True (matchHereNowDoc next bfuel <||> bnum <||> hnum <||> onumDnumLnum <||> matchDqString next bfuel <||>
      matchVariable <||> matchSqString <||> matchComments <||> matchBackquote next bfuel <||> labelOrOther t.st.srcPos) t
      (StepL t) (fun e _ => e ≠ .none) := by
  have hQ : ∀ x t', StepM t x t' → StepL t x t' := fun _ _ h => h.toL
  refine chainL (hereNowDoc_lay bfuel hs hb) hQ fun hdoc => ?_
  refine chainL (bnum_lay hs hst) hQ fun hbin => ?_
  refine chainL (hnum_lay hs hst) hQ fun hhex => ?_
  refine chainL (onum_lay hs hi hne (fun c q e => hhex c q (e ▸ hi)) (fun c q e => hbin c q (e ▸ hi))) hQ fun hfr => ?_
  refine chainL (dqString_lay bfuel hs hb) hQ fun hdq => ?_
  refine chainL (variable_lay hs) hQ fun hv => ?_
  refine chainL (sqString_lay hs) hQ fun hsq => ?_
  refine chainL (comments_lay hs) hQ fun hcm => ?_
  refine chainL (backquote_lay bfuel hs hb) hQ fun _ => ?_
  refine labelOrOther_lay hs hi hne hv ?_ ?_
  · rintro (⟨c, r, rfl, hc⟩ | h | h | h | h)
    · rw [hfr c r hi] at hc; cases hc
    · exact absurd h (hcm.1 i hi)
    · exact absurd h (hcm.2 i hi)
    · exact h
    · exact absurd h (hdoc i hi).1
  · rintro r rfl (⟨q, rfl⟩ | ⟨q, rfl⟩ | h)
    · exact hsq _ hi ⟨q, rfl⟩
    · exact hdq _ hi ⟨q, rfl⟩
    · exact (hdoc _ hi).2 r rfl h

/-- A token of a script was read, or its end was reached. -/
def ScriptL (t : Tz) (x : TokSpan) (t' : Tz) : Prop :=
  (x.tok = .k .End ∧ t'.queue = [] ∧ ∃ b, Blank b ∧ At t b) ∨ ∃ b u s, Lay t b u s ∧ Blank b ∧ StepL u x t'

theorem whitespace_lay {E : SyntaxErr → Tz → Prop} : Twp True True whitespace t
    (fun _ t' => ∃ b r, Lay t b t' r ∧ Blank b ∧ (r.head?.map isBlank).getD false = false) E := by
  cases hd : dropBytes t.code t.st.srcPos with
  | some i =>
    have hi : At t i := hd
    obtain ⟨b, r, rfl, hbb, hr⟩ := blank_split i
    exact Twp.of_ok (whitespace_at hi hbb hr) ⟨b, r, .ws hi hbb, blank_of hbb, hr⟩
  | none =>
    refine Twp.of_panic (p := .charBoundary) ?_ fun _ => trivial
    show T.bnd input _ t = _
    unfold T.bnd input
    rw [hd]

theorem scripting_lay {next : T TokSpan} (bfuel : Nat) (hs : Scr t) (hb : BlkOk next bfuel t) (hst : ¬ HasStray t.code) :
    Twp True True (inScriptingToken next bfuel) t (ScriptL t) (fun e _ => e ≠ .none) := by
  unfold inScriptingToken
  refine Twp.bind (whitespace_lay.cons ?_ (fun _ _ h => h))
  rintro _ u ⟨b, r, hl, hbb, hr⟩
  refine Twp.bind (Twp.of_ok (input_at hl.mv.at') ?_)
  refine Twp.ite (fun he => ?_) (fun he => ?_)
  · rw [List.isEmpty_iff] at he
    subst he
    unfold endToken
    refine Twp.bind (m := codeLen) (Twp.of_ok rfl ?_)
    exact .inl ⟨rfl, hl.mv.queue.trans hs.queue, b, hbb, by simpa using hl.src⟩
  · refine Twp.bind (tw_inputPos ?_)
    have hne : r ≠ [] := by rintro rfl; exact he rfl
    exact (rest_lay bfuel (hs.moved hl.mv) (hb.moved hl.mv) (by rw [hl.mv.code]; exact hst) hl.mv.at' hne).cons
      (fun x t' h => .inr ⟨b, _, r, hl, hbb, h⟩) (fun _ _ h => h)

/-! ### Outside of the tags -/

/-- Inline HTML or an open tag was read, or the end was reached. -/
def HtmlL (t : Tz) (x : TokSpan) (t' : Tz) : Prop :=
  t'.queue = [] ∧ (x.tok ≠ .k .End → Busy t → Busy t') ∧
  ((x.tok = .k .End ∧ At t []) ∨
    (∃ s r, At t (s ++ r) ∧ At t' r ∧ x.tok = .inlineHtml s ∧ s ≠ [] ∧ ¬ c!"<?" <:+: s ∧ (r = [] ∨ c!"<?" <+: r) ∧ t'.st.state = .initial) ∨
    (∃ w k r, At t (w ++ r) ∧ At t' r ∧ x.tok = .k k ∧ (w, k) ∈ openTags ∧
      (∀ p ∈ openTags, p.1 <+: w ++ r → p.1.length ≤ w.length) ∧ t'.st.state = .inScripting))

/-- The entries of the open tags. -/
def tagTable : List Entry := [⟨Kw.repr .OpenTagWithEcho, .OpenTagWithEcho, .set .inScripting⟩,
  ⟨Kw.repr .OpenTag, .OpenTag, .set .inScripting⟩, ⟨c!"<?", .OpenTag, .set .inScripting⟩]

theorem tagTable_kinds : ∀ e ∈ tagTable, (e.text.map lowerAscii, e.kw) ∈ openTags ∧ e.act = .set .inScripting ∧
    byteLen e.text = byteLen (e.text.map lowerAscii) := by decide

theorem tagTable_found : ∀ p ∈ openTags, (findEntry tagTable p.1).all (fun e => e.text.length == p.1.length) = true := by decide

theorem tag_longest {i : Text} {e : Entry} (hf : findEntry tagTable i = some e) :
    ∀ p ∈ openTags, p.1 <+: i → p.1.length ≤ (e.text.map lowerAscii).length := by
  intro p hp hpi
  rw [List.length_map]
  rcases Nat.lt_or_ge e.text.length p.1.length with hlt | h
  · exfalso
    have hm : startsWithCi p.1 e.text = true := by
      obtain ⟨r, hr⟩ := hpi
      rw [← hr] at hf
      unfold startsWithCi
      rw [beq_iff_eq]
      have h2 := List.find?_some hf
      unfold startsWithCi at h2
      rw [beq_iff_eq, List.take_append_of_le_length (by omega)] at h2
      exact h2
    have h1 := tagTable_found p hp
    rw [find_prefix hpi hf hm] at h1
    simp only [Option.all_some, beq_iff_eq] at h1
    omega
  · exact h

theorem beforeSub_no {pat i : Text} (hne : pat ≠ []) (h : beforeSub pat i = none) : ¬ pat <:+: i := by
  induction i with
  | nil =>
    rintro ⟨a, b, h⟩
    simp at h
    exact hne h.2.1
  | cons c i ih =>
    rw [beforeSub] at h
    split at h
    · cases h
    · rename_i hst
      rw [List.infix_cons_iff]
      rintro (⟨r, hr⟩ | hh)
      · apply hst
        rw [← hr]
        exact startsWith_append _ _
      · refine ih ?_ hh
        cases hb : beforeSub pat i with
        | none => rfl
        | some b => rw [hb] at h; cases h

theorem initial_lay (hs : t.st.state = .initial) (hq : t.queue = []) :
    Twp True True initialToken t (HtmlL t) (fun e _ => e ≠ .none) := by
  unfold initialToken
  refine Twp.bind (tw_input fun i hi => ?_)
  refine Twp.ite (fun he => ?_) (fun he => ?_)
  · rw [List.isEmpty_iff] at he
    subst he
    refine Twp.bind (m := modSt _) (Twp.of_ok rfl ?_)
    exact ⟨hq, fun h => absurd rfl h, .inl ⟨rfl, hi⟩⟩
  · have hne : i ≠ [] := by rintro rfl; exact he rfl
    show Twp True True (matchFirst tagTable <||> _) t _ _
    cases hf : findEntry tagTable i with
    | some e =>
      obtain ⟨h1, h2, h3⟩ := tagTable_kinds e (List.mem_of_find?_eq_some hf)
      have hm := matchFirst_some tagTable (fun e he => (tagTable_kinds e he).2.2) hi hf (by rw [h2]; rfl)
      have hlong := tag_longest hf
      have hsp := find_entry_split hf
      generalize i.drop e.text.length = r at hsp
      refine Twp.of_ok (orElse_ok hm) ⟨hq, fun _ hz => busy_set (s := .inScripting) (by nofun) (by nofun) hz, .inr (.inr ⟨_, e.kw, r, by rw [← hsp]; exact hi, ?_, rfl, h1, by rw [← hsp]; exact hlong, rfl⟩)⟩
      rw [hsp] at hi
      have := At.adv hi
      rw [← h3] at this
      exact this
    | none =>
      refine Twp.orElse (Twp.of_err (matchFirst_none tagTable hi hf) ⟨fun _ => ?_, fun h => absurd rfl h⟩)
      refine Twp.bind (Twp.of_ok (input_at hi) ?_)
      have fin : ∀ s r, i = s ++ r → s ≠ [] → ¬ c!"<?" <:+: s → (r = [] ∨ c!"<?" <+: r) → Twp True True (do
          if byteLen s != 0 then
            let p ← inputPos
            let s' ← advanceBytes (byteLen s)
            return (⟨.inlineHtml s', mkSpan p (p + byteLen s)⟩ : TokSpan)
          else endToken) t (HtmlL t) (fun e _ => e ≠ .none) := by
        rintro s r rfl hsne hno hr
        refine Twp.ite (fun _ => ?_) (fun h => ?_)
        · refine Twp.bind (tw_inputPos ?_)
          refine Twp.bind (tw_advBytes hi rfl fun _ => ?_)
          exact ⟨hq, fun _ hz => hz, .inr (.inl ⟨s, r, hi, At.adv hi, rfl, hsne, hno, hr, hs⟩)⟩
        · exfalso
          have := length_le_byteLen s
          have : 0 < s.length := List.length_pos_iff.2 hsne
          simp at h
          omega
      cases hb : beforeSub c!"<?" i with
      | none => exact fin i [] (by simp) hne (beforeSub_no (by decide) hb) (.inl rfl)
      | some s =>
        obtain ⟨h1, r, hr⟩ := beforeSub_inv hb
        refine fin s _ hr ?_ h1 (.inr (List.prefix_append _ _))
        rintro rfl
        have h2 := find_none_prefix (s := c!"<?") (by rw [hr]; exact List.prefix_append _ _) hf
        have h3 : (findEntry tagTable c!"<?").isSome = true := by decide
        rw [h2] at h3
        cases h3

/-! ### Behind `->` -/

/-- A name or another `->` was read. -/
def PropL (t : Tz) (x : TokSpan) (t' : Tz) : Prop :=
  t'.queue = [] ∧ (Busy t → Busy t') ∧ t'.code = t.code ∧ ∃ b w r, At t (b ++ w ++ r) ∧ Blank b ∧ At t' r ∧
    ((w = c!"->" ∧ x.tok = .k .ObjectOp ∧ t'.st.state = .lookingForProperty ∧ t'.st.stack = t.st.stack) ∨
      (IsLabel w ∧ endsIdentifier r = true ∧ x.tok = .string w ∧ t'.st.state = .inScripting ∧ t.st.stack = .inScripting :: t'.st.stack))

/-- Neither stands there. -/
def PropN (t t' : Tz) (k : List LexState) : Prop :=
  t'.code = t.code ∧ t'.queue = [] ∧ t'.st.state = .inScripting ∧ t'.st.stack = k ∧ t'.st.restart = true ∧
    ∃ b r, At t (b ++ r) ∧ Blank b ∧ At t' r ∧ startsBlank r = false ∧ noIdentifier r ∧ ¬ c!"->" <+: r

theorem startsBlank_of {r : Text} (h : (r.head?.map isBlank).getD false = false) : startsBlank r = false := by
  cases r with
  | nil => rfl
  | cons c r =>
    simp [isBlank, startsBlank] at h ⊢
    exact ⟨⟨h.1.1, h.2⟩, h.1.2⟩

theorem property_lay {k : List LexState} (hs : t.st.state = .lookingForProperty) (hk : t.st.stack = .inScripting :: k) (hq : t.queue = []) :
    Twp True True lookingForPropertyToken t (PropL t) (fun e t' => e = .none ∧ PropN t t' k) := by
  unfold lookingForPropertyToken
  refine Twp.bind (whitespace_lay.cons ?_ (fun _ _ h => h))
  rintro _ u ⟨b, r, hl, hbb, hr⟩
  have hq' : u.queue = [] := hl.mv.queue.trans hq
  have hk' : u.st.stack = .inScripting :: k := hl.mv.stack.trans hk
  cases ha : startsWithCi r c!"->" with
  | true =>
    obtain ⟨q, hqq, _⟩ := startsWithCi_split ha
    have e : r = c!"->" ++ q := hqq
    subst e
    have hm : matchTok (ent .ObjectOp) u = .ok ⟨.k .ObjectOp, mkSpan u.st.srcPos (u.st.srcPos + 2)⟩ (u.adv 2) :=
      matchTok_some (ent .ObjectOp) hl.mv.at' (by rfl) (by decide) rfl
    refine Twp.of_ok (orElse_ok hm) ⟨hq', hl.mv.busy, hl.mv.code, b, c!"->", q, by simpa using hl.src, hbb, ?_, .inl ⟨rfl, rfl, hl.mv.state.trans hs, hl.mv.stack⟩⟩
    exact At.adv hl.mv.at'
  | false =>
    refine Twp.orElse (Twp.of_err (matchTok_none (ent .ObjectOp) hl.mv.at' ha) ⟨fun _ => ?_, fun h => absurd rfl h⟩)
    refine Twp.bind (label_lay hl.mv.at' (fun hno => ?_) ?_)
    · dsimp only
      refine Twp.bind (Twp.of_ok (popState_ok hk') ?_)
      refine Twp.bind (m := modSt _) (Twp.of_ok rfl ?_)
      refine ⟨rfl, hl.mv.code, hq', rfl, rfl, rfl, b, r, hl.src, hbb, hl.mv.at', startsBlank_of hr, hno, ?_⟩
      intro hp
      have := startsWithCi_mono (x := c!"->") hp (by decide)
      rw [this] at ha
      cases ha
    · rintro w r' rfl hw he hl'
      dsimp only
      refine Twp.bind (Twp.of_ok (popState_ok (t := u.adv (byteLen w)) hk') ?_)
      exact ⟨hq', fun hz s hs' => hz s (by rw [hk]; exact List.mem_cons_of_mem _ hs'), hl.mv.code, b, w, r', by simpa using hl.src, hbb, hl'.mv.at', .inr ⟨hw, he, rfl, rfl, hk⟩⟩

end
end Pico
