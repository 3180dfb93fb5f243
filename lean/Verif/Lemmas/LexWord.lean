import Verif.Lemmas.LexTable
/-!
# The choice between identifiers and keywords or operators
-/
namespace Pico
open T

/-- All entries tried by `in_scripting_other_token`, in order, without `yield` and the casts. -/
def otherTable : List Entry :=
  tableA ++ tableB ++ tableC ++ [⟨Kw.repr .CurlyBracesClose, .CurlyBracesClose, .pop⟩] ++ tableD

theorem otherTable_len : ∀ e ∈ otherTable, byteLen e.text = byteLen (e.text.map lowerAscii) :=
  byteLen_eq_length_of_ascii (by decide +kernel)

theorem otherTable_ascii {e : Entry} (h : e ∈ otherTable) : byteLen e.text = e.text.length := by
  have : ∀ e ∈ otherTable, ascii e.text = true := by decide +kernel
  exact byteLen_ascii (this e h)

theorem Act.eff_pos {a : Act} {t t' : Tz} (h : a.eff t = some t') : t'.st.srcPos = t.st.srcPos := by
  cases a with
  | keep => cases h; rfl
  | set s => cases h; rfl
  | push s => cases h; rfl
  | pop =>
    simp only [Act.eff] at h
    split at h
    · cases h; rfl
    · cases h

variable {t : Tz} {i : Text}

theorem findEntry_append (a b : List Entry) (i : Text) :
    findEntry (a ++ b) i = (findEntry a i).or (findEntry b i) := by
  simp [findEntry, List.find?_append]

theorem sub_len {a b : List Entry} (h : ∀ e ∈ a, e ∈ b)
    (hb : ∀ e ∈ b, byteLen e.text = byteLen (e.text.map lowerAscii)) :
    ∀ e ∈ a, byteLen e.text = byteLen (e.text.map lowerAscii) := fun e he => hb e (h e he)

/-- The type casts do not apply. -/
def castFree (i : Text) : Bool := !startsWith i c!"(" || noCast (i.drop 1)

theorem cast_free (h : At t i) (h1 : castFree i = true) : matchCast t = .err .none t := by
  cases hs : startsWith i c!"(" with
  | false => exact cast_none_paren h hs
  | true =>
    obtain ⟨r, rfl⟩ := startsWith_split hs
    simp only [castFree, hs] at h1
    exact cast_none h h1

theorem other_some (h : At t i) (hy : startsWithCi i c!"yield" = false) (hc : castFree i = true)
    {e : Entry} (hf : findEntry otherTable i = some e) {t' : Tz}
    (ha : e.act.eff (t.adv (byteLen e.text)) = some t') :
    ∃ d, inScriptingOtherToken t =
      .ok ⟨.k e.kw, { mkSpan t.st.srcPos (t.st.srcPos + byteLen e.text) with doc := d }⟩ t' := by
  have hl := otherTable_len
  unfold inScriptingOtherToken
  unfold otherTable at hf
  simp only [findEntry_append] at hf
  cases hA : findEntry tableA i with
  | some e' =>
    simp only [hA, Option.some_or] at hf
    cases hf
    exact ⟨_, orElse_ok (matchFirst_some tableA (sub_len (fun e he => by simp only [otherTable, List.mem_append]; simp [he]) hl) h hA ha)⟩
  | none =>
  rw [orElse_none (matchFirst_none tableA h hA), orElse_none (yield_none h hy)]
  cases hB : findEntry tableB i with
  | some e' =>
    simp only [hA, hB, Option.or_some, Option.some_or] at hf
    cases hf
    exact ⟨_, orElse_ok (matchFirst_some tableB (sub_len (fun e he => by simp only [otherTable, List.mem_append]; simp [he]) hl) h hB ha)⟩
  | none =>
  rw [orElse_none (matchFirst_none tableB h hB), orElse_none (cast_free h hc)]
  cases hC : findEntry tableC i with
  | some e' =>
    simp only [hA, hB, hC, Option.or_some, Option.some_or, Option.none_or] at hf
    cases hf
    exact ⟨_, orElse_ok (matchFirst_some tableC (sub_len (fun e he => by simp only [otherTable, List.mem_append]; simp [he]) hl) h hC ha)⟩
  | none =>
  rw [orElse_none (matchFirst_none tableC h hC)]
  cases hK : startsWithCi i (Kw.repr .CurlyBracesClose) with
  | true =>
    have hK' : findEntry [⟨Kw.repr .CurlyBracesClose, .CurlyBracesClose, .pop⟩] i =
        some ⟨Kw.repr .CurlyBracesClose, .CurlyBracesClose, .pop⟩ := by
      simp [findEntry, hK]
    simp only [hA, hB, hC, hK', Option.or_some, Option.some_or, Option.none_or] at hf
    cases hf
    have hm := matchTok_some ⟨Kw.repr .CurlyBracesClose, .CurlyBracesClose, .pop⟩ h hK (by decide) ha
    refine ⟨some [], orElse_ok ?_⟩
    unfold matchCurlyClose
    rw [bind_ok hm]
    rfl
  | false =>
  have hK' : findEntry [⟨Kw.repr .CurlyBracesClose, .CurlyBracesClose, .pop⟩] i = none := by
    simp [findEntry, hK]
  have hm : matchCurlyClose t = .err .none t := by
    unfold matchCurlyClose
    rw [bind_err (matchTok_none _ h hK)]
  rw [orElse_none hm]
  simp only [hA, hB, hC, hK', Option.none_or] at hf
  exact ⟨_, orElse_ok (matchFirst_some tableD (sub_len (fun e he => by simp only [otherTable, List.mem_append]; simp [he]) hl) h hf ha)⟩

/-- No entry of the tables applies. -/
theorem other_none (h : At t i) (hy : startsWithCi i c!"yield" = false) (hc : castFree i = true)
    (hf : findEntry otherTable i = none) :
    inScriptingOtherToken t = (oneCharToken <||> unknownChar) t := by
  unfold inScriptingOtherToken
  unfold otherTable at hf
  simp only [findEntry_append, Option.or_eq_none_iff] at hf
  obtain ⟨⟨⟨⟨hA, hB⟩, hC⟩, hK⟩, hD⟩ := hf
  have hm : matchCurlyClose t = .err .none t := by
    unfold matchCurlyClose
    refine bind_err (matchTok_none _ h ?_)
    simpa [findEntry] using hK
  rw [orElse_none (matchFirst_none tableA h hA), orElse_none (yield_none h hy),
    orElse_none (matchFirst_none tableB h hB), orElse_none (cast_free h hc),
    orElse_none (matchFirst_none tableC h hC), orElse_none hm, orElse_none (matchFirst_none tableD h hD)]

theorem oneChar_some {c : Char} {r : Text} {k : Kw} (h : At t (c :: r)) (hk : charToken c = some k) :
    oneCharToken t = .ok ⟨.k k, mkSpan t.st.srcPos (t.st.srcPos + 1)⟩ (t.adv 1) := by
  have hc : c.utf8Size = 1 := by
    unfold charToken at hk
    split at hk <;> first | rfl | cases hk
  unfold oneCharToken
  rw [bind_ok (input_at h)]
  simp only [hk]
  have h2 : At t ([c] ++ r) := h
  have h3 : byteLen [c] = 1 := by simp [byteLen, hc]
  refine (bind_ok (advanceChars_at h2 rfl)).trans ?_
  rw [h3]
  refine (bind_ok inputPos_at).trans ?_
  refine (bind_ok (subT_le (by show 1 ≤ t.st.srcPos + 1; omega))).trans ?_
  show TR.ok _ _ = _
  congr 3

theorem oneChar_none {c : Char} {r : Text} (h : At t (c :: r)) (hk : charToken c = none) :
    oneCharToken t = .err .none t := by
  unfold oneCharToken
  rw [bind_ok (input_at h)]
  simp only [hk]
  rfl

/-! ### Operators -/

/-- No entry of the tables continues with `c` after `w`. -/
def okNext (w : Text) (c : Char) : Bool :=
  otherTable.all fun e => (e.text.map lowerAscii).take (w.length + 1) != w ++ [c]

theorem startsWithCi_append {w r s : Text}
    (h : ∀ c, r.head? = some c → (s.map lowerAscii).take (w.length + 1) ≠ w ++ [c]) :
    startsWithCi (w ++ r) s = startsWithCi w s := by
  unfold startsWithCi
  by_cases hl : s.length ≤ w.length
  · rw [List.take_append_of_le_length hl]
  · have h1 : (w.take s.length == s.map lowerAscii) = false := by
      rw [beq_eq_false_iff_ne]
      intro heq
      have := congrArg List.length heq
      simp at this
      omega
    rw [h1, beq_eq_false_iff_ne]
    intro heq
    cases r with
    | nil =>
      have := congrArg List.length heq
      simp at this
      omega
    | cons c r =>
      apply h c rfl
      rw [← heq, List.take_take, Nat.min_eq_left (by omega)]
      rw [List.take_append, List.take_of_length_le (by omega)]
      simp

theorem findEntry_okNext {w r : Text} (h : ∀ c, r.head? = some c → okNext w c = true) :
    findEntry otherTable (w ++ r) = findEntry otherTable w := by
  have hgen : ∀ es : List Entry, (∀ e ∈ es, e ∈ otherTable) → findEntry es (w ++ r) = findEntry es w := by
    intro es
    induction es with
    | nil => intro _; rfl
    | cons e es ih =>
      intro hes
      have h1 : startsWithCi (w ++ r) e.text = startsWithCi w e.text := by
        apply startsWithCi_append
        intro c hc
        have h2 := h c hc
        simp only [okNext, List.all_eq_true, bne_iff_ne] at h2
        exact h2 e (hes e (by simp))
      simp only [findEntry, List.find?_cons, h1]
      have h3 := ih (fun x hx => hes x (by simp [hx]))
      simp only [findEntry] at h3
      rw [h3]
  exact hgen otherTable (fun _ h => h)

/-- An operator or bracket that is in the tables. -/
theorem op_table {w r : Text} {e : Entry} {t' : Tz} (h : At t (w ++ r)) (hw : w = e.text)
    (hl : ∀ c, w.head? = some c → isLabelChar c = false ∨ inRange '0' '9' c = true)
    (hne : w ≠ [])
    (hy : ∀ c, w.head? = some c → c ≠ 'y') (hc : castFree (w ++ r) = true)
    (hn : ∀ c, r.head? = some c → okNext w c = true)
    (hf : findEntry otherTable w = some e) (ha : e.act.eff (t.adv (byteLen w)) = some t') :
    ∃ d, labelOrOther t.st.srcPos t =
      .ok ⟨.k e.kw, { mkSpan t.st.srcPos (t.st.srcPos + byteLen w) with doc := d }⟩ t' := by
  have hf' : findEntry otherTable (w ++ r) = some e := by rw [findEntry_okNext hn, hf]
  subst hw
  have hy' : startsWithCi (e.text ++ r) c!"yield" = false := by
    cases hw : e.text with
    | nil => exact absurd hw hne
    | cons c cs =>
      rw [hw] at hy
      have := hy c rfl
      simp [startsWithCi, lowerAscii, inRange]
      intro h
      exact absurd h this
  have hlab : ∀ c, (e.text ++ r).head? = some c → isLabelChar c = false ∨ inRange '0' '9' c = true := by
    cases hw : e.text with
    | nil => exact absurd hw hne
    | cons c cs => rw [hw] at hl; exact hl
  obtain ⟨d, hd⟩ := other_some h hy' hc hf' ha
  refine ⟨d, ?_⟩
  unfold labelOrOther
  rw [bind_ok (setPos_here rfl), bind_ok (label_none h hlab), bind_ok (setPos_here rfl)]
  simp only [hd]
  have hp := Act.eff_pos ha
  have : t' = { t' with st := { t'.st with srcPos := t.st.srcPos + byteLen e.text } } := by
    have : t.st.srcPos + byteLen e.text = t'.st.srcPos := hp.symm
    rw [this]
  exact congrArg _ this.symm

/-- A one-character token. -/
theorem op_char {c : Char} {r : Text} {k : Kw} (h : At t (c :: r)) (hk : charToken c = some k)
    (hc : castFree (c :: r) = true) (hn : ∀ d, r.head? = some d → okNext [c] d = true)
    (hf : findEntry otherTable [c] = none) :
    labelOrOther t.st.srcPos t = .ok ⟨.k k, mkSpan t.st.srcPos (t.st.srcPos + 1)⟩ (t.adv 1) := by
  have hf' : findEntry otherTable ([c] ++ r) = none := by rw [findEntry_okNext hn, hf]
  have hy' : startsWithCi (c :: r) c!"yield" = false := by
    have : c ≠ 'y' := by rintro rfl; cases hk
    simp [startsWithCi, lowerAscii, inRange]
    intro h
    exact absurd h this
  have hlab : ∀ d, (c :: r).head? = some d → isLabelChar d = false ∨ inRange '0' '9' d = true := by
    intro d hd
    cases hd
    unfold charToken at hk
    split at hk <;> first | exact .inl rfl | cases hk
  have ho := (other_none h hy' hc hf').trans (orElse_ok (oneChar_some h hk))
  unfold labelOrOther
  rw [bind_ok (setPos_here rfl), bind_ok (label_none h hlab), bind_ok (setPos_here rfl)]
  simp only [ho]
  rfl

/-! ### Words -/

theorem label_some {w r : Text} (h : At t (w ++ r)) (hne : w ≠ []) (hw : ∀ c ∈ w, isLabelChar c = true)
    (hd : ∀ c, w.head? = some c → inRange '0' '9' c = false)
    (hr : ∀ c, r.head? = some c → isLabelChar c = false) :
    label t = .ok (some (w, mkSpan t.st.srcPos (t.st.srcPos + w.length))) (t.adv (byteLen w)) := by
  unfold label
  rw [bind_ok (input_at h)]
  have hpos : (position (fun x => !isLabelChar x) (w ++ r)).getD (w ++ r).length = w.length := by
    apply position_getD
    · intro c hc; simp [hw c hc]
    · intro c hc; simp [hr c hc]
    · rintro rfl; simp
  cases w with
  | nil => exact absurd rfl hne
  | cons c w =>
    simp only [List.cons_append] at h hpos ⊢
    rw [hd c rfl]
    simp only [Bool.false_eq_true, if_false, hpos]
    rw [if_neg (by simp)]
    refine (bind_ok inputPos_at).trans ?_
    have h2 : At t ((c :: w) ++ r) := h
    refine (bind_ok (advanceChars_at h2 rfl)).trans ?_
    rfl

/-- An identifier in ASCII. -/
structure Word (w : Text) : Prop where
  ne : w ≠ []
  lab : ∀ c ∈ w, isLabelChar c = true
  asc : ascii w = true
  dig : ∀ c, w.head? = some c → inRange '0' '9' c = false

/-- A name, perhaps with characters from U+0080 to U+00FF. -/
structure Lab (w : Text) : Prop where
  ne : w ≠ []
  lab : ∀ c ∈ w, isLabelChar c = true
  dig : ∀ c, w.head? = some c → inRange '0' '9' c = false

theorem Word.toLab {w : Text} (h : Word w) : Lab w := ⟨h.ne, h.lab, h.dig⟩

/-- The token of a word. -/
def wordTok (w : Text) : Token :=
  match findEntry otherTable w with
  | some e => if e.text.length = w.length then .k e.kw else .string w
  | none => .string w

/-- Every entry consists of label characters and keeps the state, or begins with another character. -/
theorem otherTable_shape : ∀ e ∈ otherTable,
    ((e.text.map lowerAscii).all isLabelChar = true ∧ e.act = .keep ∧ e.text ≠ []) ∨
    ((e.text.map lowerAscii).head?.map isLabelChar = some false) := by
  decide +kernel

theorem label_prefix_append {w r s : Text} (hne : w ≠ []) (hw : ∀ c ∈ w, isLabelChar c = true)
    (hr : ∀ c, r.head? = some c → isLabelChar c = false)
    (hs : (s.map lowerAscii).all isLabelChar = true ∨ (s.map lowerAscii).head?.map isLabelChar = some false) :
    startsWithCi (w ++ r) s = startsWithCi w s := by
  apply startsWithCi_append
  intro c hc heq
  have hcl := hr c hc
  rcases hs with hs | hs
  · rw [List.all_eq_true] at hs
    have hm : c ∈ s.map lowerAscii := by
      have : c ∈ (s.map lowerAscii).take (w.length + 1) := by rw [heq]; simp
      exact List.mem_of_mem_take this
    rw [hs c hm] at hcl
    cases hcl
  · cases hss : s.map lowerAscii with
    | nil => rw [hss] at hs; cases hs
    | cons d ds =>
      rw [hss] at hs heq
      cases w with
      | nil => exact absurd rfl hne
      | cons x w =>
        simp only [List.length_cons, List.take_succ_cons, List.cons_append, List.cons.injEq] at heq
        obtain ⟨rfl, _⟩ := heq
        simp only [List.head?_cons, Option.map_some, Option.some.injEq] at hs
        rw [hw d (by simp)] at hs
        cases hs

theorem findEntry_word {w r : Text} (hne : w ≠ []) (hw : ∀ c ∈ w, isLabelChar c = true)
    (hr : ∀ c, r.head? = some c → isLabelChar c = false) :
    findEntry otherTable (w ++ r) = findEntry otherTable w := by
  have hgen : ∀ es : List Entry, (∀ e ∈ es, e ∈ otherTable) → findEntry es (w ++ r) = findEntry es w := by
    intro es
    induction es with
    | nil => intro _; rfl
    | cons e es ih =>
      intro hes
      have h1 : startsWithCi (w ++ r) e.text = startsWithCi w e.text := by
        apply label_prefix_append hne hw hr
        rcases otherTable_shape e (hes e (by simp)) with h | h
        · exact .inl h.1
        · exact .inr h
      simp only [findEntry, List.find?_cons, h1]
      have h3 := ih (fun x hx => hes x (by simp [hx]))
      simp only [findEntry] at h3
      rw [h3]
  exact hgen otherTable (fun _ h => h)

/-- An entry found at a word keeps the state and is not longer than the word. -/
theorem findEntry_word_keep {w : Text} (hw : ∀ c ∈ w, isLabelChar c = true) {e : Entry}
    (hf : findEntry otherTable w = some e) : e.act = .keep ∧ e.text.length ≤ w.length := by
  have hm : e ∈ otherTable := List.mem_of_find?_eq_some hf
  have hs := List.find?_some hf
  obtain ⟨r, hr, ht⟩ := startsWithCi_split hs
  refine ⟨?_, ?_⟩
  · rcases otherTable_shape e hm with h | h
    · exact h.2.1
    · exfalso
      cases hss : e.text.map lowerAscii with
      | nil => rw [hss] at h; cases h
      | cons d ds =>
        rw [hss] at h hr
        have : isLabelChar d = true := hw d (by rw [hr]; simp)
        simp [this] at h
  · have := congrArg List.length ht
    simp at this
    omega

theorem castFree_word {w r : Text} (hne : w ≠ []) (hw : ∀ c ∈ w, isLabelChar c = true) :
    castFree (w ++ r) = true := by
  cases w with
  | nil => exact absurd rfl hne
  | cons c w =>
    have h1 := hw c (by simp)
    have h2 : c ≠ '(' := by rintro rfl; revert h1; decide
    simp [castFree, startsWith, h2]

theorem word_no_char {w r : Text} (hne : w ≠ []) (hw : ∀ c ∈ w, isLabelChar c = true) (h : At t (w ++ r)) :
    ∃ e, (oneCharToken <||> unknownChar) t = .err e t := by
  cases w with
  | nil => exact absurd rfl hne
  | cons c w =>
    have h1 := hw c (by simp)
    have h2 : charToken c = none := by
      cases hk : charToken c with
      | none => rfl
      | some k =>
        unfold charToken at hk
        split at hk <;> first | exact absurd h1 (by decide) | cases hk
    refine ⟨.unknownCharacter (mkSpan t.st.srcPos (t.st.srcPos + 1)), ?_⟩
    rw [orElse_none (oneChar_none h h2)]
    rfl

/-- A name other than those beginning with `yield`. -/
theorem lab_at {w r : Text} (h : At t (w ++ r)) (hw : Lab w) (hr : ∀ c, r.head? = some c → isLabelChar c = false)
    (hy : startsWithCi w c!"yield" = false) :
    ∃ d, labelOrOther t.st.srcPos t =
      .ok ⟨wordTok w, { mkSpan t.st.srcPos (t.st.srcPos + w.length) with doc := d }⟩ (t.adv w.length) := by
  have hy' : startsWithCi (w ++ r) c!"yield" = false := by
    rw [label_prefix_append hw.ne hw.lab hr (.inl (by decide)), hy]
  have hlab := label_some h hw.ne hw.lab hw.dig hr
  have hcf := castFree_word (r := r) hw.ne hw.lab
  have hfe := findEntry_word hw.ne hw.lab hr
  unfold labelOrOther wordTok
  cases hf : findEntry otherTable w with
  | none =>
    obtain ⟨e, he⟩ := word_no_char hw.ne hw.lab h
    refine ⟨none, ?_⟩
    rw [bind_ok (setPos_here rfl), bind_ok hlab, bind_ok (setPos_back rfl)]
    have ho := (other_none h hy' hcf (by rw [hfe, hf])).trans he
    simp only [ho]
    rfl
  | some e =>
    obtain ⟨hk, hle⟩ := findEntry_word_keep hw.lab hf
    have hm : e ∈ otherTable := List.mem_of_find?_eq_some hf
    have hbl := otherTable_ascii hm
    obtain ⟨d, hd⟩ := other_some h hy' hcf (by rw [hfe, hf]) (t' := t.adv (byteLen e.text)) (by rw [hk]; rfl)
    by_cases hlen : e.text.length = w.length
    · refine ⟨d, ?_⟩
      rw [bind_ok (setPos_here rfl), bind_ok hlab, bind_ok (setPos_back rfl)]
      simp only [hd, hlen, if_true]
      rw [if_pos (by simp [mkSpan]; omega)]
      rw [hbl, hlen]
      rfl
    · refine ⟨none, ?_⟩
      rw [bind_ok (setPos_here rfl), bind_ok hlab, bind_ok (setPos_back rfl)]
      simp only [hd, hlen, if_false]
      rw [if_neg (by simp [mkSpan]; omega)]
      rfl

/-- A word other than those beginning with `yield`. -/
theorem word_at {w r : Text} (h : At t (w ++ r)) (hw : Word w) (hr : ∀ c, r.head? = some c → isLabelChar c = false)
    (hy : startsWithCi w c!"yield" = false) :
    ∃ d, labelOrOther t.st.srcPos t =
      .ok ⟨wordTok w, { mkSpan t.st.srcPos (t.st.srcPos + w.length) with doc := d }⟩ (t.adv w.length) :=
  lab_at h hw.toLab hr hy

end Pico
