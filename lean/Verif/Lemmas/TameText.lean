import Verif.Lemmas.LayUtf8
/-! # Simple expressions between braces are read piece by piece -/
namespace Pico

theorem Bit.scrap {w rest : Text} {k : Token} (h : Bit w k rest) : Scrap w [k] rest := by
  cases h with
  | word h he hy hf hb => exact .word h he hy hf hb
  | yieldFrom b h he => exact .yieldFrom b h he
  | «variable» n h he => exact .variable n h he
  | dollar h => exact .dollar h
  | int h hv hm hd => exact .int h hv hm hd
  | double ds fs hd hne hm => exact .double ds fs hd hne hm
  | symbol h hk hm hn => exact .symbol h hm hn
  | cast b w b' k hb h hb' => exact .cast b w b' k hb h hb'
  | single p s hp hs =>
    have src : ∀ s : Text, fragSrc (s.map Snip.plain) = s := by
      intro s
      induction s with
      | nil => rfl
      | cons c s ih => show [c] ++ fragSrc (s.map Snip.plain) = c :: s; rw [ih]; rfl
    have ok : ∀ (s r : Text), (∀ c ∈ s, c ≠ '\'' ∧ c ≠ '\\') → FragsOk .single (s.map Snip.plain) r := by
      intro s r
      induction s with
      | nil => exact fun _ => trivial
      | cons c s ih => exact fun h => ⟨⟨(h c (by simp)).2, (h c (by simp)).1⟩, ih fun d hd => h d (by simp [hd])⟩
    have by' : ∀ s : Text, fragBytes (s.map Snip.plain) = utf8 s := by
      intro s
      induction s with
      | nil => rfl
      | cons c s ih =>
        show utf8 [c] ++ fragBytes (s.map Snip.plain) = utf8 (c :: s)
        rw [ih]; simp [utf8]
    have := Scrap.single (rest := rest) p (s.map Snip.plain) (.encaps s) hp (ok s _ hs) (by rw [by']; exact .text s)
    rw [src] at this
    exact this

/-! ### Texts that begin with a simple expression and its closing brace -/

theorem code_not : codeChar '\'' = false ∧ codeChar '}' = false ∧ codeChar '{' = false ∧ codeChar '"' = false ∧ codeChar '`' = false ∧
    codeChar '<' = false ∧ codeChar '/' = false ∧ codeChar '?' = false ∧ codeChar '#' = false := by decide

theorem Tame.tail {c : Char} {w : Text} (h : Tame (c :: w)) (hc : c ≠ '\'') : codeChar c = true ∧ Tame w := by
  cases h with
  | code c h1 h2 => exact ⟨h1, h2⟩
  | text s _ _ => exact absurd rfl hc

theorem Tame.quote {w : Text} (h : Tame ('\'' :: w)) : ∃ s v, w = s ++ c!"'" ++ v ∧ (∀ c ∈ s, c ≠ '\'' ∧ c ≠ '\\') ∧ Tame v := by
  generalize he : '\'' :: w = x at h
  cases h with
  | nil => cases he
  | code c h1 h2 => cases he; rw [code_not.1] at h1; cases h1
  | text s hs h => injection he with _ he; exact ⟨s, _, by simpa using he, hs, h⟩

/-- The text begins with a simple expression and `}`. -/
def TameAt (i : Text) (r : Text) : Prop := ∃ w, i = w ++ '}' :: r ∧ Tame w

theorem TameAt.head {c : Char} {i r : Text} (h : TameAt (c :: i) r) :
    (c = '}' ∧ i = r) ∨ (codeChar c = true ∧ TameAt i r) ∨ c = '\'' := by
  obtain ⟨w, e, ht⟩ := h
  cases w with
  | nil => injection e with e1 e2; exact .inl ⟨e1, e2⟩
  | cons d w =>
    injection e with e1 e2
    subst e1
    by_cases hc : c = '\''
    · exact .inr (.inr hc)
    · exact .inr (.inl ⟨(ht.tail hc).1, w, e2, (ht.tail hc).2⟩)

theorem TameAt.ne {i r : Text} (h : TameAt i r) : i ≠ [] := by
  obtain ⟨w, rfl, _⟩ := h
  simp

theorem TameAt.not {c : Char} {i r : Text} (h : TameAt (c :: i) r) (h1 : c ≠ '}') (h2 : codeChar c = false) (h3 : c ≠ '\'') : False := by
  rcases h.head with h | h | h
  · exact h1 h.1
  · rw [h2] at h; cases h.1
  · exact h3 h

/-- Characters that are neither quotes nor braces are passed. -/
theorem TameAt.pass {w i r : Text} (hw : ∀ c ∈ w, c ≠ '\'' ∧ c ≠ '}') (h : TameAt (w ++ i) r) : TameAt i r := by
  induction w with
  | nil => exact h
  | cons c w ih =>
    rcases h.head with h1 | h1 | h1
    · exact absurd h1.1 (hw c (by simp)).2
    · exact ih (fun d hd => hw d (by simp [hd])) h1.2
    · exact absurd h1 (hw c (by simp)).1

theorem TameAt.quote {i r : Text} (h : TameAt ('\'' :: i) r) :
    ∃ s v, i = s ++ c!"'" ++ v ∧ (∀ c ∈ s, c ≠ '\'' ∧ c ≠ '\\') ∧ TameAt v r := by
  obtain ⟨w, e, ht⟩ := h
  cases w with
  | nil => injection e with e; cases e
  | cons d w =>
    injection e with e1 e2
    subst e1
    obtain ⟨s, v, rfl, hs, hv⟩ := ht.quote
    exact ⟨s, v ++ '}' :: r, by simpa using e2, hs, v, rfl, hv⟩

theorem idChar_pass {c : Char} (h : isIdChar c = true) : c ≠ '\'' ∧ c ≠ '}' := by
  constructor <;> (rintro rfl; revert h; decide)

theorem label_pass {w : Text} (h : IsLabel w) : ∀ c ∈ w, c ≠ '\'' ∧ c ≠ '}' := by
  intro c hc
  rcases h.2.2 c hc with h | h
  · exact idChar_pass h
  · constructor <;> (rintro rfl; revert h; decide)

theorem blank_pass {w : Text} (h : Blank w) : ∀ c ∈ w, c ≠ '\'' ∧ c ≠ '}' := by
  intro c hc
  rcases h c hc with rfl | rfl | rfl | rfl <;> decide

theorem spaces_pass {w : Text} (h : Spaces w) : ∀ c ∈ w, c ≠ '\'' ∧ c ≠ '}' := by
  intro c hc
  rcases h c hc with rfl | rfl <;> decide

theorem digit_pass {c : Char} (h : c.isDigit = true) : c ≠ '\'' ∧ c ≠ '}' := by
  constructor <;> (rintro rfl; revert h; decide)

theorem identifier_pass {w : Text} (h : isIdentifier w = true) : ∀ c ∈ w, c ≠ '\'' ∧ c ≠ '}' := by
  cases w with
  | nil => nofun
  | cons c w =>
    simp only [isIdentifier, Bool.and_eq_true, List.all_eq_true] at h
    intro d hd
    rcases List.mem_cons.1 hd with rfl | hd
    · exact idChar_pass h.1.1
    · exact idChar_pass (h.2 d hd)

theorem intLit_pass {l : Text} {v : Nat} (h : IntLit l v) : ∀ c ∈ l, c ≠ '\'' ∧ c ≠ '}' := by
  have two : ∀ {a b : Text}, (∀ c ∈ a, c ≠ '\'' ∧ c ≠ '}') → (∀ c ∈ b, c ≠ '\'' ∧ c ≠ '}') → ∀ c ∈ a ++ b, c ≠ '\'' ∧ c ≠ '}' :=
    fun ha hb c hc => (List.mem_append.1 hc).elim (ha c) (hb c)
  cases h with
  | dec ds _ hd _ => exact fun c hc => digit_pass (hd c hc)
  | oct ds _ hd =>
    refine two (by decide) fun c hc => ?_
    have := hd c hc
    constructor <;> (rintro rfl; revert this; decide)
  | hex ds _ hd =>
    refine two (by decide) fun c hc => ?_
    rcases hd c hc with h | h
    · exact digit_pass h
    · constructor <;> (rintro rfl; revert h; decide)
  | bin ds _ hd =>
    refine two (by decide) fun c hc => ?_
    rcases hd c hc with rfl | rfl <;> decide

theorem symbols_pass : ∀ p ∈ symbols, p.1 = c!"}" ∨ p.1.head? = some '{' ∨ (isBrace (.k p.2) = false ∧ ∀ c ∈ p.1, c ≠ '\'' ∧ c ≠ '}') := by
  decide +kernel

theorem castWords_pass : ∀ p ∈ castWords, ∀ c ∈ p.1, c ≠ '\'' ∧ c ≠ '}' := by decide +kernel

theorem close_key : ∀ p ∈ symbols, p.1 = c!"}" → p.2 = .CurlyBracesClose := by decide +kernel

theorem utf8_inj0 {a b : Text} (h : utf8 a = utf8 b) : a = b := by
  rw [utf8_eq, utf8_eq] at h
  have := congrArg decode h
  rw [decode_encode, decode_encode] at this
  injection this

/-- Between single quotes without `\` everything is taken as it is. -/
theorem single_plain {fs : List Snip} {s r r' : Text} (h : FragsOk .single fs (c!"'" ++ r)) (hs : ∀ c ∈ s, c ≠ '\'' ∧ c ≠ '\\')
    (e : fragSrc fs ++ (c!"'" ++ r) = s ++ (c!"'" ++ r')) : fragSrc fs = s ∧ fragBytes fs = utf8 s ∧ r = r' := by
  induction fs generalizing s with
  | nil =>
    cases s with
    | nil => injection e with _ e; exact ⟨rfl, rfl, e⟩
    | cons c s => injection e with e; exact absurd e.symm (hs c (by simp)).1
  | cons f fs ih =>
    cases f with
    | plain c =>
      cases s with
      | nil => injection e with e; exact absurd e h.1.2
      | cons d s =>
        injection e with e1 e2
        subst e1
        obtain ⟨h1, h2, h3⟩ := ih h.2 (fun d hd => hs d (by simp [hd])) e2
        refine ⟨?_, ?_, h3⟩
        · show [c] ++ fragSrc fs = c :: s
          rw [h1]; rfl
        · show utf8 [c] ++ fragBytes fs = utf8 (c :: s)
          rw [h2]; simp [utf8]
    | esc b v =>
      exfalso
      have hb : ∃ q, b = '\\' :: q := by
        have h1 : SqEscape b v := h.1
        cases h1 <;> exact ⟨_, rfl⟩
      obtain ⟨q, rfl⟩ := hb
      cases s with
      | nil => injection e with e; cases e
      | cons d s => injection e with e; exact (hs d (by simp)).2 e.symm
    | var n => exact h.1.elim
    | prop n p => exact h.1.elim
    | block s ts => exact h.1.elim
    | dollar s ts => exact h.1.elim

/-- In a simple expression a piece is a simple piece or the closing brace. -/
theorem Scrap.tame {w rest r : Text} {ks : List Token} (h : Scrap w ks rest) (ht : TameAt (w ++ rest) r) :
    (w = c!"}" ∧ ks = [.k .CurlyBracesClose] ∧ rest = r) ∨ ∃ k, ks = [k] ∧ Bit w k rest ∧ TameAt rest r ∧ isBrace k = false := by
  have two : ∀ {a b : Text}, (∀ c ∈ a, c ≠ '\'' ∧ c ≠ '}') → (∀ c ∈ b, c ≠ '\'' ∧ c ≠ '}') → ∀ c ∈ a ++ b, c ≠ '\'' ∧ c ≠ '}' :=
    fun ha hb c hc => (List.mem_append.1 hc).elim (ha c) (hb c)
  obtain ⟨n1, n2, n3, n4, n5, n6, n7, n8, n9⟩ := code_not
  have behind : ∀ {c : Char} {i : Text}, TameAt ('b' :: c :: i) r → TameAt (c :: i) r := fun h => h.pass (w := c!"b") (by decide)
  cases h with
  | word h he hy hf hb =>
    refine .inr ⟨_, rfl, .word h he hy hf hb, ht.pass (identifier_pass h), ?_⟩
    unfold identifierToken
    have key : ∀ p ∈ reservedWords, isBrace (.k p.2) = false := by decide +kernel
    split
    · rename_i k hk
      obtain ⟨l1, l2, e, _⟩ := List.lookup_eq_some_iff.1 hk
      exact key (w, k) (by rw [e]; simp)
    · rfl
  | yieldFrom b h he => exact .inr ⟨_, rfl, .yieldFrom b h he, ht.pass (two (two (by decide) (blank_pass h)) (by decide)), rfl⟩
  | «variable» n h he => exact .inr ⟨_, rfl, .variable n h he, ht.pass (two (by decide) (label_pass h)), rfl⟩
  | dollar h => exact .inr ⟨_, rfl, .dollar h, ht.pass (w := c!"$") (by decide), rfl⟩
  | int h hv hm hd => exact .inr ⟨_, rfl, .int h hv hm hd, ht.pass (intLit_pass h), rfl⟩
  | double ds fs hd hne hm =>
    refine .inr ⟨_, rfl, .double ds fs hd hne hm, ht.pass ?_, rfl⟩
    exact two (two (fun c hc => digit_pass (hd c (by simp [hc]))) (by decide)) (fun c hc => digit_pass (hd c (by simp [hc])))
  | symbol h hm hn =>
    rcases symbols_pass _ h with h1 | h1 | ⟨h1, h2⟩
    · left
      have hk := close_key _ h h1
      dsimp only at h1 hk
      subst h1; subst hk
      refine ⟨rfl, rfl, ?_⟩
      rcases ht.head with h | h | h
      · exact h.2
      · rw [n2] at h; cases h.1
      · cases h
    · exfalso
      obtain ⟨s, rfl⟩ : ∃ s, w = '{' :: s := by
        cases w with
        | nil => cases h1
        | cons c s => injection h1 with h1; exact ⟨s, by rw [h1]⟩
      exact ht.not (by decide) n3 (by decide)
    · exact .inr ⟨_, rfl, .symbol h h1 hm hn, ht.pass h2, h1⟩
  | cast b w b' k hb h hb' =>
    refine .inr ⟨_, rfl, .cast b w b' k hb h hb', ht.pass ?_, ?_⟩
    · exact two (two (two (two (by decide) (spaces_pass hb)) (castWords_pass _ h)) (spaces_pass hb')) (by decide)
    · have key : ∀ p ∈ castWords, isBrace (.k p.2) = false := by decide +kernel
      exact key _ h
  | line o s h hs he =>
    exfalso
    rcases h with rfl | rfl
    · exact ht.not (by decide) n9 (by decide)
    · exact ht.not (by decide) n7 (by decide)
  | block o s h hs =>
    exfalso
    rcases h with rfl | ⟨rfl, _⟩
    · exact ht.not (by decide) n7 (by decide)
    · exact ht.not (by decide) n7 (by decide)
  | single p fs k hp h hk =>
    have ht' : TameAt ('\'' :: (fragSrc fs ++ (c!"'" ++ rest))) r := by
      rcases hp with rfl | rfl
      · simpa using ht
      · exact behind (by simpa using ht)
    obtain ⟨s, v, e, hs, hv⟩ := ht'.quote
    obtain ⟨e1, e2, rfl⟩ := single_plain h hs (by simpa using e)
    rw [e2] at hk
    have hk' : k = .encaps s := by
      generalize he : utf8 s = bs at hk
      cases hk with
      | text s' => rw [utf8_inj0 he]
      | binary h => exact absurd he (h s)
    subst hk'
    refine .inr ⟨_, rfl, ?_, hv, rfl⟩
    rw [e1]
    exact .single p s hp hs
  | quoted p fs ts hp h hk =>
    exfalso
    rcases hp with rfl | rfl
    · exact ht.not (c := '"') (by decide) n4 (by decide)
    · exact (behind (c := '"') (by simpa using ht)).not (by decide) n4 (by decide)
  | back fs ts h hk => exact (ht.not (c := '`') (by decide) n5 (by decide)).elim
  | doc p w ks hp h =>
    exfalso
    have hw : ∃ s, w = '<' :: s := by cases h <;> exact ⟨_, rfl⟩
    obtain ⟨s, rfl⟩ := hw
    rcases hp with rfl | rfl
    · exact ht.not (c := '<') (by decide) n6 (by decide)
    · exact (behind (c := '<') (by simpa using ht)).not (by decide) n6 (by decide)

/-! ### Finding simple expressions -/

/-- The text begins with a simple expression and `}`; `q`: between single quotes. -/
def tameEnd : Bool → Text → Bool
  | _, [] => false
  | false, c :: i => c == '}' || (c == '\'' && tameEnd true i) || (codeChar c && tameEnd false i)
  | true, c :: i => (c == '\'' && tameEnd false i) || (c != '\'' && c != '\\' && tameEnd true i)

theorem tameEnd_sound (i : Text) : (tameEnd false i = true → ∃ r, TameAt i r) ∧
    (tameEnd true i = true → ∃ s v r, i = s ++ c!"'" ++ v ∧ (∀ c ∈ s, c ≠ '\'' ∧ c ≠ '\\') ∧ TameAt v r) := by
  induction i with
  | nil => exact ⟨nofun, nofun⟩
  | cons c i ih =>
    constructor
    · intro h
      simp only [tameEnd, Bool.or_eq_true, Bool.and_eq_true, beq_iff_eq] at h
      rcases h with (h | ⟨h1, h2⟩) | ⟨h1, h2⟩
      · subst h; exact ⟨i, [], rfl, .nil⟩
      · obtain ⟨s, v, r, rfl, hs, w, rfl, hw⟩ := ih.2 h2
        subst h1
        exact ⟨r, c!"'" ++ s ++ c!"'" ++ w, by simp, .text s hs hw⟩
      · obtain ⟨r, w, rfl, hw⟩ := ih.1 h2
        exact ⟨r, c :: w, rfl, .code c h1 hw⟩
    · intro h
      simp only [tameEnd, Bool.or_eq_true, Bool.and_eq_true, beq_iff_eq, bne_iff_ne, ne_eq] at h
      rcases h with ⟨h1, h2⟩ | ⟨⟨h1, h2⟩, h3⟩
      · obtain ⟨r, hr⟩ := ih.1 h2
        subst h1
        exact ⟨[], i, r, rfl, nofun, hr⟩
      · obtain ⟨s, v, r, rfl, hs, hv⟩ := ih.2 h3
        refine ⟨c :: s, v, r, rfl, ?_, hv⟩
        intro d hd
        rcases List.mem_cons.1 hd with rfl | hd
        · exact ⟨h1, h2⟩
        · exact hs d hd

/-- Every block of the text is a simple expression. -/
def tamed : Text → Bool
  | '{' :: '$' :: i => tameEnd false i && tamed ('$' :: i)
  | '$' :: '{' :: i => tameEnd false i && tamed ('{' :: i)
  | _ :: i => tamed i
  | [] => true

theorem tamed_tail {c : Char} {i : Text} (h : tamed (c :: i) = true) : tamed i = true := by
  unfold tamed at h
  split at h
  · rename_i j e
    injection e with _ e
    subst e
    exact (Bool.and_eq_true _ _ ▸ h).2
  · rename_i j e
    injection e with _ e
    subst e
    exact (Bool.and_eq_true _ _ ▸ h).2
  · rename_i e
    injection e with _ e
    subst e
    exact h
  · rename_i e; cases e

theorem tamed_drop {a i : Text} (h : tamed (a ++ i) = true) : tamed i = true := by
  induction a with
  | nil => exact h
  | cons c a ih => exact ih (tamed_tail h)

theorem tamed_sound {src : Text} (h : tamed src = true) : ¬ HasWild src := by
  rintro ⟨pre, rest, he, hn⟩
  apply hn
  have h2 : tameEnd false rest = true := by
    rcases he with rfl | rfl
    · rw [List.append_assoc] at h
      have := tamed_drop h
      unfold tamed at this
      exact (Bool.and_eq_true _ _ ▸ this).1
    · rw [List.append_assoc] at h
      have := tamed_drop h
      unfold tamed at this
      exact (Bool.and_eq_true _ _ ▸ this).1
  obtain ⟨r, w, rfl, hw⟩ := (tameEnd_sound rest).1 h2
  exact ⟨w, r, by simp, hw⟩

/-- What follows the opening of a block. -/
theorem wild_at {src pre rest : Text} (h : ¬ HasWild src) (he : src = pre ++ c!"{$" ++ rest ∨ src = pre ++ c!"${" ++ rest) :
    ∃ r, TameAt rest r := by
  by_cases hn : ∃ w r, rest = w ++ c!"}" ++ r ∧ Tame w
  · obtain ⟨w, r, rfl, hw⟩ := hn
    exact ⟨r, w, by simp, hw⟩
  · exact absurd ⟨pre, rest, he, hn⟩ h

theorem HasWild.block {src : Text} (h : HasWild src) : HasBlock src := by
  obtain ⟨pre, rest, he | he, _⟩ := h
  · exact .inl ⟨pre, rest, he.symm⟩
  · exact .inr ⟨pre, rest, he.symm⟩

end Pico
