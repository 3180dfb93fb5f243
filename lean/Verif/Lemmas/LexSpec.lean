import Verif.Lemmas.LexStr
import Verif.Spec.Lexing
/-!
# From the vocabulary of the statements to the lemmas about the tokenizer
-/
namespace Pico
open T

/-! ### Bridges -/

theorem At.of_remaining {t : Tz} {r : Text} (h : Remaining t r) : At t r := by
  obtain ⟨b, h1, h2⟩ := h
  unfold At
  rw [h1, h2, dropBytes_append]

theorem At.remaining {t : Tz} {r : Text} (h : At t r) : Remaining t r := by
  obtain ⟨p, h1, h2⟩ := dropBytes_split h
  exact ⟨p, h1, h2.symm⟩

theorem InScript.at {t : Tz} {r : Text} (h : InScript t r) : At t r := At.of_remaining h.2

theorem InScript.moved {t t' : Tz} {r r' : Text} (h : InScript t r) (hm : Moved t t' r') : InScript t' r' :=
  ⟨hm.state.trans h.1, hm.at'.remaining⟩

theorem Blank.all {w : Text} (h : Blank w) : w.all isBlank = true := by
  rw [List.all_eq_true]
  intro c hc
  rcases h c hc with rfl | rfl | rfl | rfl <;> decide

theorem Blank.len {w : Text} (h : Blank w) : byteLen w = w.length := by
  apply byteLen_ascii
  simp only [ascii, List.all_eq_true, decide_eq_true_eq]
  intro c hc
  rcases h c hc with rfl | rfl | rfl | rfl <;> decide

theorem isAlphanum_iff (c : Char) : c.isAlphanum = (inRange 'a' 'z' c || inRange 'A' 'Z' c || inRange '0' '9' c) := by
  have ha : 'a'.toNat = 97 := rfl
  have hz : 'z'.toNat = 122 := rfl
  have hA : 'A'.toNat = 65 := rfl
  have hZ : 'Z'.toNat = 90 := rfl
  have h0 : '0'.toNat = 48 := rfl
  have h9 : '9'.toNat = 57 := rfl
  have hv : ∀ k : UInt32, (k ≤ c.val) = (k.toNat ≤ c.toNat) := by
    intro k; rw [UInt32.le_iff_toNat_le]; rfl
  have hv' : ∀ k : UInt32, (c.val ≤ k) = (c.toNat ≤ k.toNat) := by
    intro k; rw [UInt32.le_iff_toNat_le]; rfl
  rw [Bool.eq_iff_iff]
  simp only [Char.isAlphanum, Char.isAlpha, Char.isUpper, Char.isLower, Char.isDigit, inRange,
    ha, hz, hA, hZ, h0, h9, Bool.or_eq_true, Bool.and_eq_true, decide_eq_true_eq, ge_iff_le, hv, hv']
  simp
  omega

theorem isDigit_iff (c : Char) : c.isDigit = inRange '0' '9' c := by
  have h0 : '0'.toNat = 48 := rfl
  have h9 : '9'.toNat = 57 := rfl
  have hv : ∀ k : UInt32, (k ≤ c.val) = (k.toNat ≤ c.toNat) := by
    intro k; rw [UInt32.le_iff_toNat_le]; rfl
  have hv' : ∀ k : UInt32, (c.val ≤ k) = (c.toNat ≤ k.toNat) := by
    intro k; rw [UInt32.le_iff_toNat_le]; rfl
  rw [Bool.eq_iff_iff]
  simp only [Char.isDigit, inRange, h0, h9, Bool.and_eq_true, decide_eq_true_eq, ge_iff_le, hv, hv']
  simp

theorem isLabelChar_iff (c : Char) : isLabelChar c = (isIdChar c || (0x80 ≤ c.toNat && c.toNat ≤ 0xFF)) := by
  have h1 : inRange '\u0080' 'ÿ' c = (0x80 ≤ c.toNat && c.toNat ≤ 0xFF) := rfl
  unfold isLabelChar isIdChar
  rw [isAlphanum_iff, h1]
  rw [Bool.eq_iff_iff]
  simp only [Bool.or_eq_true]
  constructor
  · rintro ((((h | h) | h) | h) | h) <;> simp [h]
  · rintro ((((h | h) | h) | h) | h) <;> simp [h]

theorem isIdChar_label {c : Char} (h : isIdChar c = true) : isLabelChar c = true := by
  rw [isLabelChar_iff, h]; rfl

theorem inRange_lt {lo hi c : Char} (h : inRange lo hi c = true) : c.toNat ≤ hi.toNat := by
  simp only [inRange, Bool.and_eq_true, decide_eq_true_eq] at h
  exact h.2

theorem isIdChar_ascii {c : Char} (h : isIdChar c = true) : c.toNat < 128 := by
  unfold isIdChar at h
  rw [isAlphanum_iff] at h
  simp only [Bool.or_eq_true, beq_iff_eq] at h
  rcases h with ((h | h) | h) | rfl
  · have := inRange_lt h; have hz : 'z'.toNat = 122 := rfl; omega
  · have := inRange_lt h; have hz : 'Z'.toNat = 90 := rfl; omega
  · have := inRange_lt h; have hz : '9'.toNat = 57 := rfl; omega
  · decide

theorem endsIdentifier_head {r : Text} (h : endsIdentifier r = true) : ∀ c, r.head? = some c → isLabelChar c = false := by
  intro c hc
  cases r with
  | nil => cases hc
  | cons d r =>
    cases hc
    simp only [endsIdentifier, Bool.and_eq_true, Bool.not_eq_true', Bool.or_eq_true, decide_eq_true_eq] at h
    rw [isLabelChar_iff, h.1]
    simp
    omega

theorem Word.of_identifier {w : Text} (h : isIdentifier w = true) : Word w := by
  cases w with
  | nil => cases h
  | cons c cs =>
    simp only [isIdentifier, Bool.and_eq_true, Bool.not_eq_true', List.all_eq_true] at h
    have hall : ∀ d ∈ c :: cs, isIdChar d = true := by
      intro d hd
      rcases List.mem_cons.mp hd with rfl | hd
      · exact h.1.1
      · exact h.2 d hd
    refine ⟨by simp, fun d hd => isIdChar_label (hall d hd), ?_, ?_⟩
    · simp only [ascii, List.all_eq_true, decide_eq_true_eq]
      exact fun d hd => isIdChar_ascii (hall d hd)
    · intro d hd
      cases hd
      rw [← isDigit_iff]
      exact h.1.2

theorem label_not_blank {c : Char} (h : isLabelChar c = true) : isBlank c = false := by
  cases hb : isBlank c with
  | false => rfl
  | true =>
    simp only [isBlank, Bool.or_eq_true, beq_iff_eq] at hb
    rcases hb with ((rfl | rfl) | rfl) | rfl <;> exact absurd h (by decide)

/-- The table of the tokenizer is the table of reserved words. -/
theorem wordTok_reserved {p : Text × Kw} (h : p ∈ reservedWords) (hy : startsWithCi p.1 c!"yield" = false) :
    wordTok p.1 = .k p.2 := by
  have : ∀ p ∈ reservedWords, startsWithCi p.1 c!"yield" = false → wordTok p.1 = .k p.2 := by decide +kernel
  exact this p h hy

theorem otherTable_reserved : ∀ e ∈ otherTable,
    (e.text.map lowerAscii, e.kw) ∈ reservedWords ∨ (e.text.map lowerAscii).head?.map isLabelChar = some false := by
  decide +kernel

theorem lookup_mem {α β : Type} [BEq α] [LawfulBEq α] {l : List (α × β)} {a : α} {b : β}
    (h : l.lookup a = some b) : (a, b) ∈ l := by
  induction l with
  | nil => cases h
  | cons x l ih =>
    obtain ⟨x1, x2⟩ := x
    simp only [List.lookup_cons] at h
    split at h
    · rename_i heq
      cases h
      rw [beq_iff_eq] at heq
      subst heq
      simp
    · simp [ih h]

theorem lookup_isSome {α β : Type} [BEq α] [LawfulBEq α] {l : List (α × β)} {a : α} {b : β}
    (h : (a, b) ∈ l) : ∃ b', l.lookup a = some b' := by
  induction l with
  | nil => cases h
  | cons x l ih =>
    obtain ⟨x1, x2⟩ := x
    simp only [List.lookup_cons]
    split
    · exact ⟨_, rfl⟩
    · rcases List.mem_cons.mp h with heq | h
      · cases heq; simp_all
      · exact ih h

theorem wordTok_identifier {w : Text} (hw : Word w) (hy : startsWithCi w c!"yield" = false) : wordTok w = identifierToken w := by
  unfold identifierToken
  cases hl : reservedWords.lookup w with
  | some k => exact wordTok_reserved (lookup_mem hl) hy
  | none =>
    dsimp only
    unfold wordTok
    cases hf : findEntry otherTable w with
    | none => rfl
    | some e =>
      dsimp only
      split
      · rename_i hlen
        exfalso
        have hm : e ∈ otherTable := List.mem_of_find?_eq_some hf
        have hs := List.find?_some hf
        simp only [startsWithCi, beq_iff_eq, hlen, List.take_length] at hs
        rcases otherTable_reserved e hm with h | h
        · rw [← hs] at h
          obtain ⟨k, hk⟩ := lookup_isSome h
          rw [hl] at hk
          cases hk
        · rw [← hs] at h
          cases w with
          | nil => cases h
          | cons c cs =>
            simp only [List.head?_cons, Option.map_some, Option.some.injEq] at h
            rw [hw.lab c (by simp)] at h
            cases h
      · rfl

theorem plain_word {w r : Text} (hw : Word w)
    (hb : w = c!"b" → ¬ (startsWith r c!"'" = true ∨ startsWith r c!"\"" = true ∨ startsWith r c!"<<<" = true)) :
    plain (w ++ r) = true := by
  cases w with
  | nil => exact absurd rfl hw.ne
  | cons c cs =>
    have hl := hw.lab c (by simp)
    have hd : notDigit c = true := by rw [notDigit_inRange, hw.dig c rfl]; rfl
    have hne : ∀ x : Char, isLabelChar x = false → (c == x) = false := by
      intro x hx
      rw [beq_eq_false_iff_ne]
      rintro rfl
      rw [hl] at hx
      cases hx
    have hs : ∀ (x : Char) (p : Text), isLabelChar x = false → startsWith (c :: (cs ++ r)) (x :: p) = false := by
      intro x p hx
      simp [startsWith, hne x hx]
    have hbs : ∀ (x : Char) (p : Text), isLabelChar x = false →
        (startsWith r (x :: p) = true → c :: cs ≠ c!"b") → startsWith (c :: (cs ++ r)) ('b' :: x :: p) = false := by
      intro x p hx hnb
      cases h : startsWith (c :: (cs ++ r)) ('b' :: x :: p) with
      | false => rfl
      | true =>
        exfalso
        simp only [startsWith, Bool.and_eq_true, beq_iff_eq] at h
        obtain ⟨rfl, h⟩ := h
        cases cs with
        | nil => exact hnb h rfl
        | cons d ds =>
          simp only [List.cons_append, startsWith, Bool.and_eq_true, beq_iff_eq] at h
          have := hw.lab d (by simp)
          rw [h.1, hx] at this
          cases this
    have q1 := hbs '\'' [] (by decide) (fun h he => hb he (.inl h))
    have q2 := hbs '"' [] (by decide) (fun h he => hb he (.inr (.inl h)))
    have q3 := hbs '<' c!"<<" (by decide) (fun h he => hb he (.inr (.inr h)))
    simp only [List.cons_append, plain, hd, hne '"' (by decide), hne '\'' (by decide), hne '`' (by decide),
      hne '#' (by decide), hs '/' _ (by decide), hs '<' _ (by decide), q1, q2, q3,
      bne, hne '.' (by decide), hne '$' (by decide)]
    rfl

theorem startsWith_prefix {i p : Text} (h : startsWith i p = true) : p <+: i := by
  obtain ⟨r, rfl⟩ := startsWith_split h
  exact List.prefix_append p r

theorem startsWithCi_yield {w : Text} (h : startsWithCi w c!"yield" = true) : ∃ v, w = c!"yield" ++ v := by
  obtain ⟨r, hr, _⟩ := startsWithCi_split h
  exact ⟨r, hr⟩

/-- Names that begin with `yield`, other than `yield` and `yieldfrom`. -/
theorem lab_yield {t : Tz} {v r : Text} (h : At t (c!"yield" ++ v ++ r)) (hw : Lab (c!"yield" ++ v))
    (hr : ∀ c, r.head? = some c → isLabelChar c = false) (hv : v ≠ []) (hv' : v ≠ c!"from") :
    labelOrOther t.st.srcPos t =
      .ok ⟨.string (c!"yield" ++ v), mkSpan t.st.srcPos (t.st.srcPos + (c!"yield" ++ v).length)⟩
        (t.adv (c!"yield" ++ v).length) := by
  have hlab := label_some h hw.ne hw.lab hw.dig hr
  rw [List.append_assoc] at h
  have hA : matchFirst tableA t = .err .none t := matchFirst_none tableA h (by rfl)
  have hv1 : ((v ++ r).head?.map isBlank).getD false = false := by
    cases v with
    | nil => exact absurd rfl hv
    | cons c v => simp [label_not_blank (hw.lab c (by simp))]
  have h5 : At (t.adv 5) (v ++ r) := At.adv h
  have hws : whitespace (t.adv 5) = .ok () (t.adv 5) := whitespace_at (w := []) h5 rfl hv1
  have hy : ∃ k p, matchYield t = .ok ⟨.k k, mkSpan t.st.srcPos p⟩ (t.adv (p - t.st.srcPos)) ∧
      p < t.st.srcPos + (c!"yield" ++ v).length := by
    unfold matchYield
    rw [bind_ok (input_at h), if_pos (by rfl)]
    by_cases hf : startsWithCi (v ++ r) c!"from" = true
    · refine ⟨.YieldFrom, t.st.srcPos + 9, ?_, ?_⟩
      · refine (bind_ok inputPos_at).trans ?_
        refine (bind_ok (advanceBytes_at' h rfl)).trans ?_
        refine (bind_ok hws).trans ?_
        refine (bind_ok (input_at h5)).trans ?_
        rw [if_pos hf]
        obtain ⟨q, hq, _⟩ := startsWithCi_split hf
        rw [hq] at h5
        refine (bind_ok (advanceBytes_at' h5 rfl)).trans ?_
        refine (bind_ok inputPos_at).trans ?_
        rw [Nat.add_sub_cancel_left]
        rfl
      · rw [label_prefix_append hv (fun c hc => hw.lab c (by simp [hc])) hr (.inl (by decide))] at hf
        obtain ⟨q, hq, _⟩ := startsWithCi_split hf
        have : q ≠ [] := by
          rintro rfl
          exact hv' (by rw [hq]; rfl)
        rw [hq]
        cases q with
        | nil => exact absurd rfl this
        | cons d q => simp
    · refine ⟨.Yield, t.st.srcPos + 5, ?_, ?_⟩
      · refine (bind_ok inputPos_at).trans ?_
        refine (bind_ok (advanceBytes_at' h rfl)).trans ?_
        refine (bind_ok hws).trans ?_
        refine (bind_ok (input_at h5)).trans ?_
        rw [if_neg hf]
        refine (bind_ok inputPos_at).trans ?_
        rw [Nat.add_sub_cancel_left]
        rfl
      · cases v with
        | nil => exact absurd rfl hv
        | cons d q => simp
  obtain ⟨k, p, hy, hp⟩ := hy
  have ho : inScriptingOtherToken t = .ok ⟨.k k, mkSpan t.st.srcPos p⟩ (t.adv (p - t.st.srcPos)) := by
    unfold inScriptingOtherToken
    rw [orElse_none hA, orElse_ok hy]
  unfold labelOrOther
  rw [bind_ok (setPos_here rfl), bind_ok hlab, bind_ok (setPos_back rfl)]
  simp only [ho]
  rw [if_neg (by simp only [mkSpan]; omega)]
  rfl

/-- Words that begin with `yield`, other than `yield` and `yieldfrom`. -/
theorem word_yield {t : Tz} {v r : Text} (h : At t (c!"yield" ++ v ++ r)) (hw : Word (c!"yield" ++ v))
    (hr : ∀ c, r.head? = some c → isLabelChar c = false) (hv : v ≠ []) (hv' : v ≠ c!"from") :
    labelOrOther t.st.srcPos t =
      .ok ⟨.string (c!"yield" ++ v), mkSpan t.st.srcPos (t.st.srcPos + (c!"yield" ++ v).length)⟩
        (t.adv (c!"yield" ++ v).length) := lab_yield h hw.toLab hr hv hv'

theorem prefix_startsWith {p i : Text} (h : startsWith i p = true) : p <+: i := startsWith_prefix h

/-- `yield` with no blank behind it. -/
theorem yield_word {t : Tz} {r : Text} (h : At t (c!"yield" ++ r))
    (hr : ∀ c, r.head? = some c → isLabelChar c = false) (hb : startsBlank r = false) :
    labelOrOther t.st.srcPos t = .ok ⟨.k .Yield, mkSpan t.st.srcPos (t.st.srcPos + 5)⟩ (t.adv 5) := by
  have hlab := label_some h (by simp) (by decide) (by decide) hr
  have hA : matchFirst tableA t = .err .none t := matchFirst_none tableA h (by rfl)
  have h5 : At (t.adv 5) r := At.adv h
  have hb' : (r.head?.map isBlank).getD false = false := by
    cases r with
    | nil => rfl
    | cons c r =>
      simp only [startsBlank, Bool.or_eq_false_iff] at hb
      simp [isBlank, hb]
  have hws : whitespace (t.adv 5) = .ok () (t.adv 5) := whitespace_at (w := []) h5 rfl hb'
  have hf : startsWithCi r c!"from" = false := by
    cases r with
    | nil => rfl
    | cons c r =>
      cases hx : startsWithCi (c :: r) c!"from" with
      | false => rfl
      | true =>
        obtain ⟨q, hq, _⟩ := startsWithCi_split hx
        cases hq
        exact absurd (hr 'f' rfl) (by decide)
  have hy : matchYield t = .ok ⟨.k .Yield, mkSpan t.st.srcPos (t.st.srcPos + 5)⟩ (t.adv 5) := by
    unfold matchYield
    rw [bind_ok (input_at h), if_pos (by rfl)]
    refine (bind_ok inputPos_at).trans ?_
    refine (bind_ok (advanceBytes_at' h rfl)).trans ?_
    refine (bind_ok hws).trans ?_
    refine (bind_ok (input_at h5)).trans ?_
    rw [if_neg (by simp [hf])]
    refine (bind_ok inputPos_at).trans ?_
    rfl
  have ho : inScriptingOtherToken t = .ok ⟨.k .Yield, mkSpan t.st.srcPos (t.st.srcPos + 5)⟩ (t.adv 5) := by
    unfold inScriptingOtherToken
    rw [orElse_none hA, orElse_ok hy]
  unfold labelOrOther
  rw [bind_ok (setPos_here rfl), bind_ok hlab, bind_ok (setPos_back rfl)]
  simp only [ho]
  rw [if_pos (by simp [mkSpan])]
  rfl

/-- Identifiers. -/
theorem identifier_at {t : Tz} {w r : Text} (h : At t (w ++ r)) (hw : Word w)
    (hr : ∀ c, r.head? = some c → isLabelChar c = false) (h1 : w = c!"yield" → startsBlank r = false) (h2 : w ≠ c!"yieldfrom") :
    ∃ d, labelOrOther t.st.srcPos t =
      .ok ⟨identifierToken w, { mkSpan t.st.srcPos (t.st.srcPos + w.length) with doc := d }⟩ (t.adv w.length) := by
  cases hy : startsWithCi w c!"yield" with
  | false =>
    rw [← wordTok_identifier hw hy]
    exact word_at h hw hr hy
  | true =>
    obtain ⟨v, rfl⟩ := startsWithCi_yield hy
    refine ⟨none, ?_⟩
    by_cases hv : v = []
    · subst hv
      rw [List.append_nil] at h h1 ⊢
      have hi : identifierToken c!"yield" = .k .Yield := by decide
      rw [hi]
      exact yield_word h hr (h1 rfl)
    have hv' : v ≠ c!"from" := by rintro rfl; exact h2 rfl
    rw [word_yield h hw hr hv hv']
    have : identifierToken (c!"yield" ++ v) = .string (c!"yield" ++ v) := by
      cases v with
      | nil => exact absurd rfl hv
      | cons c v => rfl
    rw [this]
    rfl

/-! ### Numbers -/

theorem digitVal_value {radix : Nat} {c : Char} (hc : (c.isDigit || c.isLower || c.isUpper) = true)
    (hv : digitValue c < radix) : digitVal radix c = some (digitValue c) := by
  have ha : 'a'.toNat = 97 := rfl
  have hz : 'z'.toNat = 122 := rfl
  have hA : 'A'.toNat = 65 := rfl
  have hZ : 'Z'.toNat = 90 := rfl
  have hl : c.isLower = inRange 'a' 'z' c := by
    have hv : ∀ k : UInt32, (k ≤ c.val) = (k.toNat ≤ c.toNat) := by
      intro k; rw [UInt32.le_iff_toNat_le]; rfl
    have hv' : ∀ k : UInt32, (c.val ≤ k) = (c.toNat ≤ k.toNat) := by
      intro k; rw [UInt32.le_iff_toNat_le]; rfl
    rw [Bool.eq_iff_iff]
    simp only [Char.isLower, inRange, ha, hz, Bool.and_eq_true, decide_eq_true_eq, ge_iff_le, hv, hv']
    simp
  have hu : c.isUpper = inRange 'A' 'Z' c := by
    have hv : ∀ k : UInt32, (k ≤ c.val) = (k.toNat ≤ c.toNat) := by
      intro k; rw [UInt32.le_iff_toNat_le]; rfl
    have hv' : ∀ k : UInt32, (c.val ≤ k) = (c.toNat ≤ k.toNat) := by
      intro k; rw [UInt32.le_iff_toNat_le]; rfl
    rw [Bool.eq_iff_iff]
    simp only [Char.isUpper, inRange, hA, hZ, Bool.and_eq_true, decide_eq_true_eq, ge_iff_le, hv, hv']
    simp
  unfold digitValue at hv ⊢
  unfold digitVal
  rw [isDigit_iff] at hc hv ⊢
  rw [hl] at hc hv ⊢
  rw [hu] at hc
  cases h1 : inRange '0' '9' c with
  | true => simp only [h1, if_true] at hv ⊢; simp; exact hv
  | false =>
    cases h2 : inRange 'a' 'z' c with
    | true => simp only [h1, h2, if_true, Bool.false_eq_true, if_false] at hv ⊢; simp; exact hv
    | false =>
      have h3 : inRange 'A' 'Z' c = true := by simpa [h1, h2] using hc
      simp only [h1, h2, h3, if_true, Bool.false_eq_true, if_false] at hv ⊢
      simp
      exact hv

theorem digitsVal_value {radix : Nat} {ds : Text}
    (hd : ∀ c ∈ ds, (c.isDigit || c.isLower || c.isUpper) = true ∧ digitValue c < radix) (acc : Nat) :
    digitsVal radix acc ds = some (ds.foldl (fun v c => v * radix + digitValue c) acc) := by
  induction ds generalizing acc with
  | nil => rfl
  | cons c ds ih =>
    obtain ⟨h1, h2⟩ := hd c (by simp)
    simp only [digitsVal, digitVal_value h1 h2, List.foldl_cons]
    exact ih (fun d hd' => hd d (by simp [hd'])) _

theorem fromStrRadix_value {radix : Nat} {ds : Text} (hne : ds ≠ [])
    (hd : ∀ c ∈ ds, (c.isDigit || c.isLower || c.isUpper) = true ∧ digitValue c < radix)
    (hv : numberValue radix ds < 2 ^ 63) : fromStrRadix i64Max radix ds = some (numberValue radix ds) := by
  unfold fromStrRadix
  cases ds with
  | nil => exact absurd rfl hne
  | cons c ds =>
    simp only [digitsVal_value hd]
    unfold numberValue at hv ⊢
    rw [if_pos (by unfold i64Max; omega)]

theorem endsNumber_head {r : Text} (h : endsNumber r = true) :
    ∀ c, r.head? = some c → notDigit c = true ∧ c ≠ '.' ∧ isIdChar c = false := by
  intro c hc
  cases r with
  | nil => cases hc
  | cons d r =>
    cases hc
    simp only [endsNumber, Bool.and_eq_true, Bool.not_eq_true', bne_iff_ne] at h
    refine ⟨?_, h.2, h.1⟩
    rw [notDigit_inRange]
    cases hd : inRange '0' '9' c with
    | false => rfl
    | true =>
      have := h.1
      unfold isIdChar at this
      rw [isAlphanum_iff, hd] at this
      simp at this

theorem digit_start {ds r : Text} (hne : ds ≠ []) (hd : ∀ c ∈ ds, c.isDigit = true) :
    startsWith (ds ++ r) c!"<<<" = false ∧ startsWith (ds ++ r) c!"b<<<" = false ∧
      ((ds ++ r).head?.map isBlank).getD false = false := by
  cases ds with
  | nil => exact absurd rfl hne
  | cons c ds =>
    have h1 := hd c (by simp)
    have : ∀ x : Char, x.isDigit = false → c ≠ x := by rintro x hx rfl; rw [h1] at hx; cases hx
    have hb : isBlank c = false := by
      cases hb : isBlank c with
      | false => rfl
      | true =>
        simp only [isBlank, Bool.or_eq_true, beq_iff_eq] at hb
        rcases hb with ((rfl | rfl) | rfl) | rfl <;> exact absurd h1 (by decide)
    refine ⟨?_, ?_, ?_⟩
    · simp [startsWith, this '<' (by decide)]
    · simp [startsWith, this 'b' (by decide)]
    · simp [hb]

theorem isDigit_value {c : Char} (h : c.isDigit = true) : digitValue c < 10 := by
  unfold digitValue
  rw [if_pos h]
  rw [isDigit_iff] at h
  have := inRange_lt h
  have h9 : '9'.toNat = 57 := rfl
  have h0 : '0'.toNat = 48 := rfl
  omega

theorem notDigit_of_isDigit {c : Char} (h : c.isDigit = true) : notDigit c = false := by
  rw [notDigit_inRange, ← isDigit_iff, h]; rfl

/-! ### Strings -/

/-- The escaped text as building blocks. -/
def sqItems (s : Text) : List SqItem := s.map fun c => if c == '\\' || c == '\'' then .esc c else .plain c

theorem sqItems_src (s : Text) : (sqItems s).flatMap SqItem.src = sqEscape s := by
  induction s with
  | nil => rfl
  | cons c s ih =>
    have h : (sqItems (c :: s)).flatMap SqItem.src =
        (if c == '\\' || c == '\'' then SqItem.esc c else .plain c).src ++ (sqItems s).flatMap SqItem.src := by
      simp [sqItems]
    rw [h, ih]
    simp only [sqEscape]
    split <;> rfl

theorem sqItems_val (s : Text) : (sqItems s).flatMap SqItem.val = s := by
  induction s with
  | nil => rfl
  | cons c s ih =>
    have h : (sqItems (c :: s)).flatMap SqItem.val =
        (if c == '\\' || c == '\'' then SqItem.esc c else .plain c).val ++ (sqItems s).flatMap SqItem.val := by
      simp [sqItems]
    rw [h, ih]
    split <;> rfl

theorem sqItems_ok (s : Text) : ∀ x ∈ sqItems s, x.ok = true := by
  intro x hx
  simp only [sqItems, List.mem_map] at hx
  obtain ⟨c, _, rfl⟩ := hx
  split
  · rename_i h; simpa [SqItem.ok] using h
  · rename_i h; simpa [SqItem.ok] using h

/-- A single-quoted literal in a script. -/
theorem read_sq (t : Tz) (blanks : Text) (its : List SqItem) (hok : ∀ x ∈ its, x.ok = true) (rest : Text)
    (hb : Blank blanks) (ht : InScript t (blanks ++ c!"'" ++ its.flatMap SqItem.src ++ c!"'" ++ rest)) :
    Reads t (.encaps (its.flatMap SqItem.val)) (t.st.srcPos + blanks.length)
      (t.st.srcPos + blanks.length + 2 + byteLen (its.flatMap SqItem.src))
      fun t' => InScript t' rest ∧ t'.st.stack = t.st.stack := by
  intro n
  have hat : At t (blanks ++ ('\'' :: (its.flatMap SqItem.src ++ '\'' :: rest))) := by
    have := ht.at
    simpa using this
  have hm := Moved.ws hat hb.all
  obtain ⟨t', h1, hm2⟩ := sqString_some its hok hm.at'
  have hpos : (t.ws blanks).st.srcPos = t.st.srcPos + blanks.length := by
    rw [← hb.len]; exact (wsGo_fields blanks hb.all t.st).1
  refine ⟨mkSpan (t.ws blanks).st.srcPos t'.st.srcPos, t',
    next_scripting ht.1 ((scripting_start _ _ hat hb.all rfl (by simp)).trans ?_), hpos, ?_,
    ht.moved (hm.trans hm2), (hm.trans hm2).stack⟩
  · have h := hm.at'
    rw [orElse_none (hereNowDoc_none _ _ h rfl rfl), orElse_none (show bnum _ = _ from prefixedNum_none _ _ _ h rfl),
      orElse_none (show hnum _ = _ from prefixedNum_none _ _ _ h rfl),
      orElse_none (onum_none h (by simp) (by intro c hc; cases hc; decide) rfl),
      orElse_none (dqString_none _ _ h rfl rfl), orElse_none (variable_none h rfl), orElse_ok h1]
  · have e1 := hat.pos
    have e2 := hm2.at'.pos
    rw [hm2.code, hm.code] at e2
    have hq : ('\'' : Char).utf8Size = 1 := by decide
    simp only [byteLen_append, byteLen, hq] at e1
    have e3 := hb.len
    show t'.st.srcPos = _
    omega

/-! ### Comments -/

/-- A comment in a script. -/
theorem read_comment (t : Tz) (blanks body src rest : Text) (hb : Blank blanks) (ht : InScript t (blanks ++ src ++ rest))
    (hs : ∃ c, src.head? = some c ∧ (c = '/' ∨ c = '#'))
    (hc : ∀ t, At t (src ++ rest) → ∃ t' sp, matchComments t = .ok ⟨.comment body, sp⟩ t' ∧ Moved t t' rest ∧
      sp.start = t.st.srcPos ∧ sp.stop = t'.st.srcPos) :
    Reads t (.comment body) (t.st.srcPos + blanks.length) (t.st.srcPos + blanks.length + byteLen src)
      fun t' => InScript t' rest ∧ t'.st.stack = t.st.stack := by
  intro n
  have hat : At t (blanks ++ (src ++ rest)) := by rw [← List.append_assoc]; exact ht.at
  have hm := Moved.ws hat hb.all
  obtain ⟨t', sp, h1, hm2, hsp1, hsp2⟩ := hc _ hm.at'
  have hpos : (t.ws blanks).st.srcPos = t.st.srcPos + blanks.length := by
    rw [← hb.len]; exact (wsGo_fields blanks hb.all t.st).1
  have h := hm.at'
  obtain ⟨c, hc1, hc2⟩ := hs
  cases src with
  | nil => cases hc1
  | cons d src =>
    cases hc1
    have hne : ∀ (x : Char) (p : Text), x ≠ '/' → x ≠ '#' → startsWith (c :: src ++ rest) (x :: p) = false := by
      intro x p h1 h2
      have : c ≠ x := by
        rintro rfl
        rcases hc2 with h | h
        · exact h1 h
        · exact h2 h
      simp [startsWith, this]
    have hcb : isBlank c = false := by rcases hc2 with rfl | rfl <;> decide
    have hcd : notDigit c = true := by rcases hc2 with rfl | rfl <;> decide
    refine ⟨_, t', next_scripting ht.1 ((scripting_start _ _ hat hb.all (by simp [hcb]) (by simp)).trans ?_),
      hsp1.trans hpos, ?_, ht.moved (hm.trans hm2), (hm.trans hm2).stack⟩
    · rw [orElse_none (hereNowDoc_none _ _ h (hne _ _ (by decide) (by decide)) (hne _ _ (by decide) (by decide))),
        orElse_none (show bnum _ = _ from prefixedNum_none _ _ _ h (hne _ _ (by decide) (by decide))),
        orElse_none (show hnum _ = _ from prefixedNum_none _ _ _ h (hne _ _ (by decide) (by decide))),
        orElse_none (onum_none h (by simp) (by intro x hx; cases hx; exact hcd) (hne _ _ (by decide) (by decide))),
        orElse_none (dqString_none _ _ h (hne _ _ (by decide) (by decide)) (hne _ _ (by decide) (by decide))),
        orElse_none (variable_none h (hne _ _ (by decide) (by decide))),
        orElse_none (sqString_none h (hne _ _ (by decide) (by decide)) (hne _ _ (by decide) (by decide))),
        orElse_ok h1]
    · have e1 := hat.pos
      have e2 := hm2.at'.pos
      rw [hm2.code, hm.code] at e2
      rw [byteLen_append, byteLen_append] at e1
      have e3 := hb.len
      rw [hsp2]
      omega

end Pico
