import Verif.Lemmas.RtBase
/-!
# Names, and how the printed form of an expression begins
-/
namespace Pico

variable {a b c : Nat} {P Q : Text → Prop} {cs cs' : List Chunk} {is js : List Item} {ts us : List Token}

/-! ### How an expression begins -/

/-- The first lexeme agrees with the lead. -/
def leadLex : Lead → Lexeme → Prop
  | .word t, l => l = .word t
  | .sign, l => ∃ s k, l = .sym s k ∧ s ∈ [c!"+", c!"-", c!"!", c!"~", c!"@", c!"++", c!"--"] ∧ k ≠ .Static ∧ k ≠ .Function
  | .digit, l => (∃ x v, l = .int x v) ∨ ∃ x y, l = .double x y
  | .other, l => (∃ n, l = .var n) ∨ (∃ x y, l = .str x y) ∨ (∃ x y z k, l = .cast x y z k) ∨ l = .sym c!"(" .ParenthesesOpen ∨
      l = .sym c!"[" .SquareBracketOpen ∨ l = .sym c!"\\" .NsSeparator

def Starts (ld : Lead) (is : List Item) : Prop := ∃ l js, is = .lex l :: js ∧ leadLex ld l

theorem Starts.append {ld : Lead} (h : Starts ld is) : Starts ld (is ++ js) := by
  obtain ⟨l, is', rfl, hl⟩ := h
  exact ⟨l, is' ++ js, rfl, hl⟩

/-- Not the name of a type. -/
def leadFree : Lead → Bool
  | .word t => !isCastWord t
  | _ => true

/-- The first character of a printed expression. -/
def headCls : Lead → Char → Bool
  | .word _, c => isIdChar c && !c.isDigit
  | .sign, c => c == '+' || c == '-' || c == '!' || c == '~' || c == '@'
  | .digit, c => c.isDigit
  | .other, c => c == '$' || c == '\'' || c == '(' || c == '[' || c == '\\'

theorem intLit_digit {x : Text} {v : Nat} (h : IntLit x v) : ∃ c r, x = c :: r ∧ c.isDigit = true := by
  cases h with
  | dec ds hn hd _ =>
    cases x with
    | nil => exact absurd rfl hn
    | cons c r => exact ⟨c, r, rfl, hd c (by simp)⟩
  | oct ds _ _ => exact ⟨'0', _, rfl, rfl⟩
  | hex ds _ _ => exact ⟨'0', _, rfl, rfl⟩
  | bin ds _ _ => exact ⟨'0', _, rfl, rfl⟩

theorem Starts.head {ld : Lead} (h : Starts ld is) {rest : Text} (ha : Apart false is rest) :
    ∃ c r, render is ++ rest = c :: r ∧ headCls ld c = true := by
  obtain ⟨l, is', rfl, hl⟩ := h
  obtain ⟨ho, -, -⟩ := ha
  have key : ∃ c r, l.text = c :: r ∧ headCls ld c = true := by
    cases ld with
    | word t =>
      cases hl
      obtain ⟨hi, -⟩ := ho
      cases t with
      | nil => cases hi
      | cons c r =>
        simp only [isIdentifier, Bool.and_eq_true] at hi
        exact ⟨c, r, rfl, by simp [headCls, hi.1]⟩
    | sign =>
      obtain ⟨s, k, rfl, hs, -⟩ := hl
      simp only [List.mem_cons, List.not_mem_nil, or_false] at hs
      rcases hs with rfl | rfl | rfl | rfl | rfl | rfl | rfl <;> exact ⟨_, _, rfl, rfl⟩
    | digit =>
      rcases hl with ⟨x, v, rfl⟩ | ⟨x, y, rfl⟩
      · obtain ⟨c, r, hx, hc⟩ := intLit_digit ho.1
        exact ⟨c, r, hx, hc⟩
      · cases x with
        | nil => exact absurd rfl ho.1
        | cons c r => exact ⟨c, _, rfl, ho.2.1 c (by simp)⟩
    | other =>
      rcases hl with ⟨n, rfl⟩ | ⟨x, y, rfl⟩ | ⟨x, y, z, k, rfl⟩ | rfl | rfl | rfl <;> exact ⟨_, _, rfl, rfl⟩
  obtain ⟨c, r, hc, hh⟩ := key
  exact ⟨c, (r ++ render is') ++ rest, by simp only [render, Item.text, hc, List.cons_append], hh⟩

/-- A word ends where no further letter follows. -/
theorem word_unique {t t' r r' : Text} (h : t ++ r = t' ++ r') (ht : t.all isIdChar = true) (ht' : t'.all isIdChar = true)
    (hr : endsIdentifier r = true) (hr' : endsIdentifier r' = true) : t = t' := by
  induction t generalizing t' with
  | nil =>
    cases t' with
    | nil => rfl
    | cons c t' =>
      rw [List.nil_append] at h
      subst h
      simp only [List.cons_append, endsIdentifier, List.all_cons, Bool.and_eq_true, Bool.not_eq_true'] at hr ht'
      rw [ht'.1] at hr
      cases hr.1
  | cons x t ih =>
    rw [List.all_cons, Bool.and_eq_true] at ht
    cases t' with
    | nil =>
      rw [List.nil_append] at h
      subst h
      simp only [List.cons_append, endsIdentifier, Bool.and_eq_true, Bool.not_eq_true'] at hr'
      rw [ht.1] at hr'
      cases hr'.1
    | cons c t' =>
      rw [List.all_cons, Bool.and_eq_true] at ht'
      injection h with h1 h2
      rw [h1, ih h2 ht.2 ht'.2]

theorem isIdentifier_all {t : Text} (h : isIdentifier t = true) : t.all isIdChar = true := by
  cases t with
  | nil => cases h
  | cons c r =>
    simp only [isIdentifier, Bool.and_eq_true] at h
    rw [List.all_cons, h.1.1, h.2]
    rfl

theorem castWords_id : ∀ x ∈ castWords, isIdentifier x.1 = true := by decide

/-- A word in front of something that does not close a parenthesis (after blanks) is not a cast. -/
theorem not_cast_word {t R : Text} (hi : isIdentifier t = true) (hr : endsIdentifier R = true)
    (h : isCastWord t = true → ∀ b r, R = b ++ ')' :: r → ¬ Spaces b) : ¬ CastAhead (t ++ R) := by
  rintro ⟨g, v, g', r, he, hg, hg', k, hk⟩
  have hv := castWords_id _ hk
  have hg0 : g = [] := by
    cases g with
    | nil => rfl
    | cons x g =>
      cases t with
      | nil => cases hi
      | cons y t =>
        injection he with h1 h2
        subst h1
        simp only [isIdentifier, Bool.and_eq_true] at hi
        rcases hg y (by simp) with rfl | rfl
        · exact absurd hi.1.1 (by decide)
        · exact absurd hi.1.1 (by decide)
  subst hg0
  have he' : t ++ R = v ++ (g' ++ ')' :: r) := by rw [he]; simp
  have hend : endsIdentifier (g' ++ ')' :: r) = true := by
    cases g' with
    | nil => rfl
    | cons x g' =>
      rcases hg' x (by simp) with rfl | rfl <;> rfl
  have htv := word_unique he' (isIdentifier_all hi) (isIdentifier_all hv) hr hend
  subst htv
  refine h ?_ g' r (List.append_cancel_left he') hg'
  exact List.any_eq_true.2 ⟨_, hk, by simp⟩

theorem Starts.nocast {ld : Lead} (h : Starts ld is) (hf : leadFree ld = true) {rest : Text} (ha : Apart false is rest) :
    ¬ CastAhead (render is ++ rest) := by
  cases ld with
  | word t =>
    obtain ⟨l, is', rfl, hl⟩ := h
    cases hl
    obtain ⟨ho, hb, -⟩ := ha
    simp only [render, Item.text, Lexeme.text, List.append_assoc]
    refine not_cast_word ho.1 hb.1 fun hc => ?_
    simp only [leadFree, hc, Bool.not_true] at hf
    cases hf
  | sign =>
    obtain ⟨c, r, hr, hc⟩ := h.head ha
    rw [hr]
    simp only [headCls, Bool.or_eq_true, beq_iff_eq] at hc
    rcases hc with (((rfl | rfl) | rfl) | rfl) | rfl <;> exact not_cast_head rfl
  | digit =>
    obtain ⟨c, r, hr, hc⟩ := h.head ha
    rw [hr]
    refine not_cast_head ?_
    simp only [headCls] at hc
    have h1 : c.isAlpha = false := by
      cases hx : c.isAlpha with
      | false => rfl
      | true =>
        simp only [Char.isAlpha, Char.isUpper, Char.isLower, Char.isDigit, Bool.or_eq_true, Bool.and_eq_true, decide_eq_true_eq,
          UInt32.le_iff_toNat_le] at hx hc
        have e1 : 'A'.val.toNat = 65 := rfl
        have e2 : 'a'.val.toNat = 97 := rfl
        have e3 : '0'.val.toNat = 48 := rfl
        have e4 : '9'.val.toNat = 57 := rfl
        omega
    have h2 : c ≠ ' ' := by rintro rfl; exact absurd hc (by decide)
    have h3 : c ≠ '\t' := by rintro rfl; exact absurd hc (by decide)
    simp [h1, h2, h3]
  | other =>
    obtain ⟨c, r, hr, hc⟩ := h.head ha
    rw [hr]
    simp only [headCls, Bool.or_eq_true, beq_iff_eq] at hc
    rcases hc with (((rfl | rfl) | rfl) | rfl) | rfl <;> exact not_cast_head rfl

/-- Not `from`. -/
theorem Starts.noFrom {ld : Lead} (h : Starts ld is) (hf : noFromLead ld = true) {rest : Text} (ha : Apart false is rest) :
    ¬ c!"from" <+: render is ++ rest := by
  have hid : ∀ {c : Char} {r : Text}, c ≠ 'f' → ¬ c!"from" <+: c :: r := by
    rintro c r hc ⟨x, hx⟩
    cases hx
    exact hc rfl
  cases ld with
  | word t =>
    obtain ⟨l, is', rfl, hl⟩ := h
    cases hl
    obtain ⟨ho, hb, -⟩ := ha
    simp only [render, Item.text, Lexeme.text, List.append_assoc]
    rintro ⟨x, hx⟩
    have hall := isIdentifier_all ho.1
    simp only [noFromLead, Bool.not_eq_true', ← Bool.not_eq_true, List.isPrefixOf_iff_prefix] at hf
    have h1 : c!"from" <+: t ++ (render is' ++ rest) := ⟨x, hx⟩
    have h2 : t <+: t ++ (render is' ++ rest) := List.prefix_append _ _
    rcases List.prefix_or_prefix_of_prefix h1 h2 with h3 | h3
    · exact hf h3
    · obtain ⟨y, hy⟩ := h3
      cases y with
      | nil => rw [List.append_nil] at hy; exact hf ⟨[], by rw [hy]; rfl⟩
      | cons z y =>
        rw [← hy, List.append_assoc] at hx
        have hx' := List.append_cancel_left hx
        have hz : isIdChar z = true := by
          have hz : z ∈ c!"from" := by rw [← hy]; simp
          exact (by decide : ∀ z ∈ c!"from", isIdChar z = true) z hz
        have hb1 := hb.1
        rw [← hx'] at hb1
        simp only [List.cons_append, endsIdentifier, hz, Bool.not_true, Bool.false_and] at hb1
        cases hb1
  | sign =>
    obtain ⟨c, r, hr, hc⟩ := h.head ha
    rw [hr]
    refine hid ?_
    rintro rfl
    exact absurd hc (by decide)
  | digit =>
    obtain ⟨c, r, hr, hc⟩ := h.head ha
    rw [hr]
    refine hid ?_
    rintro rfl
    exact absurd hc (by decide)
  | other =>
    obtain ⟨c, r, hr, hc⟩ := h.head ha
    rw [hr]
    refine hid ?_
    rintro rfl
    exact absurd hc (by decide)

theorem identifierToken_k {t : Text} {k : Kw} (h : identifierToken t = .k k) : (t, k) ∈ reservedWords := by
  unfold identifierToken at h
  split at h
  · cases h; exact lookup_mem ‹_›
  · cases h

/-! ### Which operators can stand in front of which characters -/

theorem symbols_noId : ∀ x ∈ (c!"?>" :: c!"**=" :: c!"//" :: c!"/*" :: c!"<<<" :: symbols.map Prod.fst), ∀ c ∈ x, isIdChar c = false := by
  decide

theorem stops_id {s : Text} {c : Char} (hc : isIdChar c = true) (hd : s = c!"." → c.isDigit = false) : stops s c = true := by
  unfold stops
  rw [Bool.and_eq_true]
  refine ⟨List.all_eq_true.2 fun x hx => ?_, ?_⟩
  · rw [Bool.not_eq_true', ← Bool.not_eq_true, List.isPrefixOf_iff_prefix]
    intro hp
    have := symbols_noId x hx c (hp.subset (by simp))
    rw [hc] at this
    cases this
  · by_cases hs : s = c!"."
    · subst hs; simp [hd rfl]
    · simp [hs]

theorem isDigit_id {c : Char} (h : c.isDigit = true) : isIdChar c = true := by
  simp [isIdChar, Char.isAlphanum, h]

/-- The operators between operands. -/
def binTexts : List Text := [c!".", c!"+", c!"-", c!"*", c!"/", c!"**", c!"%", c!"||", c!"&&", c!"===", c!"!==", c!"==", c!"!=", c!"<",
  c!">", c!"<=", c!">=", c!"&", c!"|", c!"^", c!"<=>", c!"<<", c!">>", c!"!", c!"~", c!"@", c!"++", c!"--"]

theorem stops_bin {s : Text} (hs : s ∈ binTexts) {ld : Lead} {c : Char} (hc : headCls ld c = true) (hl : ld ≠ .sign) (hd : s = c!"." → ld ≠ .digit) :
    stops s c = true := by
  cases ld with
  | word t =>
    simp only [headCls, Bool.and_eq_true, Bool.not_eq_true'] at hc
    exact stops_id hc.1 fun _ => hc.2
  | sign => exact absurd rfl hl
  | digit => exact stops_id (isDigit_id hc) fun h => absurd rfl (hd h)
  | other =>
    have : ∀ s ∈ binTexts, ∀ c ∈ ['$', '\'', '(', '[', '\\'], stops s c = true := by decide
    refine this s hs c ?_
    simp only [headCls, Bool.or_eq_true, beq_iff_eq] at hc
    simp only [List.mem_cons, List.not_mem_nil, or_false]
    rcases hc with (((rfl | rfl) | rfl) | rfl) | rfl <;> simp

/-- The signs behind which any expression may stand. -/
def openTexts : List Text := [c!"=", c!"?", c!":", c!"+=", c!"-=", c!"*=", c!"/=", c!".=", c!"%=", c!"^=", c!"<<=", c!">>=", c!"...", c!"=>"]

theorem stops_open {s : Text} (hs : s ∈ openTexts) {ld : Lead} {c : Char} (hc : headCls ld c = true) : stops s c = true := by
  have hdot : s ≠ c!"." := by rintro rfl; exact absurd hs (by decide)
  cases ld with
  | word t =>
    simp only [headCls, Bool.and_eq_true, Bool.not_eq_true'] at hc
    exact stops_id hc.1 fun _ => hc.2
  | digit => exact stops_id (isDigit_id hc) fun h => absurd h hdot
  | sign =>
    have : ∀ s ∈ openTexts, ∀ c ∈ ['+', '-', '!', '~', '@'], stops s c = true := by decide
    refine this s hs c ?_
    simp only [headCls, Bool.or_eq_true, beq_iff_eq] at hc
    simp only [List.mem_cons, List.not_mem_nil, or_false]
    rcases hc with (((rfl | rfl) | rfl) | rfl) | rfl <;> simp
  | other =>
    have : ∀ s ∈ openTexts, ∀ c ∈ ['$', '\'', '(', '[', '\\'], stops s c = true := by decide
    refine this s hs c ?_
    simp only [headCls, Bool.or_eq_true, beq_iff_eq] at hc
    simp only [List.mem_cons, List.not_mem_nil, or_false]
    rcases hc with (((rfl | rfl) | rfl) | rfl) | rfl <;> simp

/-- `&` followed by an expression (`=&`): no second `&`, no `=`. -/
theorem stops_amp {ld : Lead} {c : Char} (hc : headCls ld c = true) : stops c!"&" c = true := by
  cases ld with
  | word t =>
    simp only [headCls, Bool.and_eq_true, Bool.not_eq_true'] at hc
    exact stops_id hc.1 fun _ => hc.2
  | digit => exact stops_id (isDigit_id hc) nofun
  | sign =>
    simp only [headCls, Bool.or_eq_true, beq_iff_eq] at hc
    rcases hc with (((rfl | rfl) | rfl) | rfl) | rfl <;> decide
  | other =>
    simp only [headCls, Bool.or_eq_true, beq_iff_eq] at hc
    rcases hc with (((rfl | rfl) | rfl) | rfl) | rfl <;> decide

/-! ### What may follow -/

/-- Characters that may follow every expression. -/
def folChar (c : Char) : Bool := !isIdChar c && (c.toNat < 0x80 || 0xFF < c.toNat) && c != '\'' && c != '"' && c != '<' && !isBlank c && c != '.'

theorem fo_cons {c : Char} {r : Text} {num : Bool} (h : folChar c = true) : Fo num (c :: r) := by
  simp only [folChar, Bool.and_eq_true, bne_iff_ne, Bool.not_eq_true'] at h
  obtain ⟨⟨⟨⟨⟨⟨h1, h2⟩, h3⟩, h4⟩, h5⟩, h6⟩, h7⟩ := h
  refine ⟨?_, fun _ hc => h7 (by simpa using hc)⟩
  have hf : c ≠ 'f' := by rintro rfl; exact absurd h1 (by decide)
  unfold fol
  rw [List.dropWhile_cons_of_neg (by simp [h6])]
  simp only [endsIdentifier, h1, Bool.not_false, Bool.true_and, h2, List.head?_cons]
  simp [h3, h4, List.isPrefixOf, Ne.symm h5, Ne.symm hf]

/-- A blank and a character that is neither blank nor `f`. -/
theorem fo_blank {c : Char} {r : Text} {num : Bool} (h : (!isBlank c && c != 'f') = true) : Fo num (' ' :: c :: r) := by
  simp only [Bool.and_eq_true, bne_iff_ne, Bool.not_eq_true'] at h
  refine ⟨?_, fun _ hc => by simp at hc⟩
  unfold fol
  rw [List.dropWhile_cons_of_pos (by rfl), List.dropWhile_cons_of_neg (by simp [h.1])]
  simp only [endsIdentifier, List.head?_cons]
  simp [List.isPrefixOf, isIdChar, Ne.symm h.2]

theorem head_text {x : Char} {t : Text} (h : Piece a b P (.text (x :: t) :: cs) js us) : ∃ r, render js = x :: r := by
  have := h.txt
  rw [chunkText] at this
  cases hc : chunkText cs with
  | none => rw [hc] at this; cases this
  | some y =>
    rw [hc] at this
    simp only [Option.map_some, Option.some.injEq] at this
    exact ⟨t ++ y, this.symm⟩

theorem head_text2 {x y : Char} {t : Text} (h : Piece a b P (.text (x :: y :: t) :: cs) js us) : ∃ r, render js = x :: y :: r := by
  have := h.txt
  rw [chunkText] at this
  cases hc : chunkText cs with
  | none => rw [hc] at this; cases this
  | some z =>
    rw [hc] at this
    simp only [Option.map_some, Option.some.injEq] at this
    exact ⟨t ++ z, this.symm⟩

/-- An expression followed by a sign. -/
theorem Piece.then {num : Bool} {x : Char} {t : Text} (h : Piece a b (Fo num) cs is ts) (h' : Piece b c Q (.text (x :: t) :: cs') js us)
    (hx : folChar x = true) : Piece a c Q (cs ⧺ .text (x :: t) :: cs') (is ++ js) (ts ++ us) := by
  obtain ⟨r, hr⟩ := head_text h'
  refine h.append h' fun rest _ _ => ?_
  rw [hr]
  exact fo_cons hx

/-- An expression followed by a blank and a sign or word. -/
theorem Piece.thenB {num : Bool} {x : Char} {t : Text} (h : Piece a b (Fo num) cs is ts) (h' : Piece b c Q (.text (' ' :: x :: t) :: cs') js us)
    (hx : (!isBlank x && x != 'f') = true) : Piece a c Q (cs ⧺ .text (' ' :: x :: t) :: cs') (is ++ js) (ts ++ us) := by
  obtain ⟨r, hr⟩ := head_text2 h'
  refine h.append h' fun rest _ _ => ?_
  rw [hr]
  exact fo_blank hx

theorem Piece.toksEq (h : Piece a b P cs is ts) (ht : ts = us) : Piece a b P cs is us := ht ▸ h

/-! ### Words and variables -/

theorem nameOk_token {t : Text} (h : nameOk t = true) : identifierToken t = .string t := by
  simp only [nameOk, Bool.and_eq_true] at h
  unfold identifierToken
  rw [Option.isNone_iff_eq_none.1 h.1.2]

theorem nameOk_ok {t : Text} (h : nameOk t = true) : (Lexeme.word t).Ok := by
  simp only [nameOk, Bool.and_eq_true, bne_iff_ne] at h
  exact ⟨h.1.1, h.2⟩

theorem piece_word {t : Text} (h : nameOk t = true) : Piece a a (Fo false) (w t) [.lex (.word t)] [.string t] :=
  ((piece_lex (.word t) rfl rfl (nameOk_ok h) fun _ => rfl).mono fun _ hr => hr.word t).toksEq (congrArg (fun x => [x]) (nameOk_token h))

theorem piece_ident {t : Text} (h : identOk t = true) : ∃ k, Piece a a (Fo false) (w t) [.lex (.word t)] [k] ∧ Ident k t := by
  unfold identOk at h
  rw [Bool.or_eq_true] at h
  rcases h with h | h
  · exact ⟨_, piece_word h, .word t⟩
  · rw [Bool.and_eq_true] at h
    obtain ⟨h1, h2⟩ := h
    simp only [propOk, Bool.and_eq_true, bne_iff_ne] at h1
    cases hk : reservedWords.lookup t with
    | none => rw [hk] at h2; cases h2
    | some k =>
      rw [hk] at h2
      refine ⟨.k k, ?_, .reserved k t (List.contains_iff_mem.1 h2)⟩
      refine ((piece_lex (.word t) rfl rfl ⟨h1.1, h1.2⟩ fun _ => rfl).mono fun _ hr => hr.word t).toksEq ?_
      show [identifierToken t] = _
      unfold identifierToken
      rw [hk]

theorem piece_var {n : Text} (h : isIdentifier n = true) : Piece a a (Fo false) (w c!"$" ⧺ w n) [.lex (.var n)] [.variable n] :=
  ((piece_lex (t := '$' :: n) (.var n) rfl rfl h fun _ => rfl).mono fun _ hr => hr.ident).text (by simp [w, chunkText])

/-! ### Qualified names -/

/-- The items of a name without leading separator. -/
def nameItems : List Text → Text → List Item
  | [], id => [.lex (.word id)]
  | x :: xs, id => .lex (.word x) :: .lex (.sym c!"\\" .NsSeparator) :: nameItems xs id

theorem intercalate_split (t : Text) : List.intercalate ['\\'] (splitNs t) = t := by
  induction t with
  | nil => rfl
  | cons c t ih =>
    unfold splitNs
    split
    · rename_i h
      subst h
      have hne : splitNs t ≠ [] := by
        cases t with
        | nil => exact nofun
        | cons c t => unfold splitNs; split; exact nofun; split <;> exact nofun
      cases hs : splitNs t with
      | nil => exact absurd hs hne
      | cons x xs =>
        rw [hs] at ih
        rw [List.intercalate_cons_cons, ih]
        rfl
    · cases hs : splitNs t with
      | nil =>
        rw [hs] at ih
        simp [List.intercalate] at ih ⊢
        exact ih
      | cons x xs =>
        rw [hs] at ih
        dsimp only
        cases xs with
        | nil => simp [List.intercalate] at ih ⊢; exact ih
        | cons y ys =>
          rw [List.intercalate_cons_cons] at ih ⊢
          rw [← ih]
          rfl

theorem splitNs_ne (t : Text) : splitNs t ≠ [] := by
  cases t with
  | nil => exact nofun
  | cons c t => unfold splitNs; split; exact nofun; split <;> exact nofun

theorem qualPath_self (p : Path) : qualPath p.isAbsolute (nsSegs p) p.ident = p := by
  obtain ⟨ab, ns, id⟩ := p
  cases ns with
  | none => rfl
  | some t =>
    unfold qualPath nsSegs
    rw [if_neg (splitNs_ne t), intercalate_split]

theorem render_name (xs : List Text) (id : Text) :
    render (nameItems xs id) = (if xs = [] then [] else List.intercalate ['\\'] xs ++ c!"\\") ++ id := by
  induction xs with
  | nil => simp [nameItems, render, Item.text, Lexeme.text]
  | cons x xs ih =>
    simp only [nameItems, render, Item.text, Lexeme.text, ih, reduceCtorEq, if_false]
    cases xs with
    | nil => simp [List.intercalate]
    | cons y ys =>
      rw [if_neg (List.cons_ne_nil y ys), List.intercalate_cons_cons]
      simp [List.append_assoc]

theorem name_piece (xs : List Text) (id : Text) (hx : xs.all nameOk = true) (hi : nameOk id = true) {t : Text}
    (ht : render (nameItems xs id) = t) : Piece a a (Fo false) (w t) (nameItems xs id) (nameToks xs id) := by
  have hb : ∀ d, braces d (nameItems xs id) = some d := by
    intro d
    clear ht hx
    induction xs with
    | nil => rfl
    | cons x xs ih => exact ih
  have hk : toks false (nameItems xs id) = nameToks xs id ∧ endsProp false (nameItems xs id) = false := by
    clear ht hb
    induction xs with
    | nil => exact ⟨congrArg (fun x => [x]) (nameOk_token hi), rfl⟩
    | cons x xs ih =>
      rw [List.all_cons, Bool.and_eq_true] at hx
      obtain ⟨h1, h2⟩ := ih hx.2
      refine ⟨?_, h2⟩
      show identifierToken x :: .k .NsSeparator :: toks false (nameItems xs id) = _
      rw [nameOk_token hx.1, h1]
      rfl
  have hc : (nameItems xs id).all Item.isCode = true := by
    clear ht hb hk hx
    induction xs with
    | nil => rfl
    | cons x xs ih => exact ih
  refine ⟨by simp [w, chunkText, ht], hk.1, hk.2, fun d => hb _, fun rest hr => ?_, hc⟩
  clear ht hb hk hc
  induction xs with
  | nil => exact ⟨nameOk_ok hi, hr.word id, trivial⟩
  | cons x xs ih =>
    rw [List.all_cons, Bool.and_eq_true] at hx
    refine ⟨nameOk_ok hx.1, ?_, (by decide : (c!"\\", Kw.NsSeparator) ∈ symbols), solid_before (by decide) _, ih hx.2⟩
    exact Fo.word (num := false) (fo_cons (by decide)) x

theorem nameItems_starts (xs : List Text) (id : Text) : Starts (.word ((xs ++ [id]).headD [])) (nameItems xs id) := by
  cases xs with
  | nil => exact ⟨_, _, rfl, rfl⟩
  | cons x xs => exact ⟨_, _, rfl, rfl⟩

theorem piece_path {p : Path} (h : pathOk p = true) : ∃ is, Piece a a (Fo false) (cPath p) is (qualToks p.isAbsolute (nsSegs p) p.ident) ∧
    Starts (if p.isAbsolute then .other else .word (firstSeg p)) is := by
  unfold pathOk at h
  rw [Bool.and_eq_true] at h
  have hn := name_piece (a := a) (nsSegs p) p.ident h.1 h.2 rfl
  have ht : chunkText ((match p.ns with | some ns => w ns ⧺ w c!"\\" | none => []) ⧺ w p.ident) =
      chunkText (w (render (nameItems (nsSegs p) p.ident))) := by
    rw [render_name]
    unfold nsSegs
    cases hns : p.ns with
    | none => simp [w, chunkText]
    | some t =>
      dsimp only
      rw [if_neg (splitNs_ne t), intercalate_split]
      simp [w, chunkText]
  cases hab : p.isAbsolute with
  | true =>
    refine ⟨_, ((litA c!"\\" [.k .NsSeparator] a a ?_ rfl).free (hn.text ht)).text ?_, ?_⟩
    · simp only [litCheck, Bool.and_eq_true]
      refine ⟨by decide, by decide, by decide, ?_, by decide⟩
      show (braces a [.lex (.sym c!"\\" .NsSeparator)] == some a) = true
      simp [braces]
    · unfold cPath
      rw [hab]
      rfl
    · exact ⟨_, _, rfl, .inr (.inr (.inr (.inr (.inr rfl))))⟩
  | false =>
    refine ⟨_, (hn.text ht).text ?_, ?_⟩
    · unfold cPath
      rw [hab]
      rfl
    · exact nameItems_starts _ _

end Pico
