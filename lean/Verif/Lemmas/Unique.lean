import Verif.Lemmas.UniqueStr
/-! # A text is laid out in one way only -/
namespace Pico

/-! ### Numbers -/

theorem IntLit.value {l : Text} {v v' : Nat} (h : IntLit l v) (h' : IntLit l v') : v = v' := by
  have zero : ∀ {ds es : Text}, (ds.head? = some '0' → ds = c!"0") → es ≠ [] → ds = '0' :: es → False := by
    intro ds es h he e
    subst e
    injection h rfl with _ h
    exact he h
  have oct : ∀ {es : Text} {c : Char} {s : Text}, (∀ c ∈ es, isOctDigit c = true) → isOctDigit c = false → c!"0" ++ es = '0' :: c :: s → False := by
    intro es c s h hc e
    injection e with _ e
    have e : es = c :: s := e
    subst e
    rw [h c (by simp)] at hc
    cases hc
  generalize e : l = l' at h'
  cases h with
  | dec _ hne hd hz =>
    cases h' with
    | dec _ hne' hd' hz' => rw [e]
    | oct es hne' hd' => exact (zero hz hne' e).elim
    | hex es hne' hd' => exact (zero (es := 'x' :: es) hz nofun e).elim
    | bin es hne' hd' => exact (zero (es := 'b' :: es) hz nofun e).elim
  | oct ds hne hd =>
    cases h' with
    | dec _ hne' hd' hz' => exact (zero hz' hne e.symm).elim
    | oct es hne' hd' => rw [List.append_cancel_left e]
    | hex es hne' hd' => exact (oct hd (by decide) e).elim
    | bin es hne' hd' => exact (oct hd (by decide) e).elim
  | hex ds hne hd =>
    cases h' with
    | dec _ hne' hd' hz' => exact (zero (es := 'x' :: ds) hz' nofun e.symm).elim
    | oct es hne' hd' => exact (oct hd' (by decide) e.symm).elim
    | hex es hne' hd' => rw [List.append_cancel_left e]
    | bin es hne' hd' => injection e with _ e; injection e with e; cases e
  | bin ds hne hd =>
    cases h' with
    | dec _ hne' hd' hz' => exact (zero (es := 'b' :: ds) hz' nofun e.symm).elim
    | oct es hne' hd' => exact (oct hd' (by decide) e.symm).elim
    | hex es hne' hd' => injection e with _ e; injection e with e; cases e
    | bin es hne' hd' => rw [List.append_cancel_left e]

theorem IntLit.first {l : Text} {v : Nat} (h : IntLit l v) : ∃ c s, l = c :: s ∧ c.isDigit = true := by
  cases h with
  | dec _ hne hd hz =>
    cases l with
    | nil => exact absurd rfl hne
    | cons c s => exact ⟨c, s, rfl, hd c (by simp)⟩
  | oct es hne hd => exact ⟨'0', es, rfl, rfl⟩
  | hex es hne hd => exact ⟨'0', _, rfl, rfl⟩
  | bin es hne hd => exact ⟨'0', _, rfl, rfl⟩

/-! ### What a piece begins with -/

/-- The kinds of pieces, by how they begin. -/
def lead : Text → Nat
  | [] => 0
  | c :: r =>
    if c = '$' then 1 else if c = '(' then 3 else if c = '#' then 4
    else if c = '/' then (if c!"/" <+: r then 4 else if c!"*" <+: r then 5 else 0)
    else if c = '\'' then 6 else if c = '"' then 7 else if c = '`' then 8
    else if c = '<' then (if c!"<<" <+: r then 9 else 0)
    else if c = '.' then (if (r.head?.map Char.isDigit).getD false = true then 2 else 0)
    else if c = 'b' then (if c!"'" <+: r then 6 else if c!"\"" <+: r then 7 else if c!"<<<" <+: r then 10 else 11)
    else if c.isDigit = true then 2 else if isIdChar c = true then 11 else 0

/-- A symbol. -/
def Sym (w : Text) (ks : List Token) (r : Text) : Prop := ∃ k, (w, k) ∈ symbols ∧ Longest w r ∧ ¬ NoSymbol (w ++ r) ∧ ks = [.k k]

/-- The pieces of a kind. -/
def Form (w : Text) (ks : List Token) (r : Text) : Nat → Prop
  | 0 => Sym w ks r
  | 1 => (∃ n, w = c!"$" ++ n ∧ IsLabel n ∧ endsIdentifier r = true ∧ ks = [.variable n]) ∨ (w = c!"$" ∧ noIdentifier r ∧ ks = [.k .Dollar])
  | 2 => (∃ v, IntLit w v ∧ (∀ l u, IntLit l u → l <+: w ++ r → l.length ≤ w.length) ∧
        ((∀ c ∈ w, c.isDigit = true) → ∀ c, r.head? = some c → c.isDigit = false ∧ c ≠ '.') ∧ ks = [.int v]) ∨
      (∃ ds fs, w = ds ++ c!"." ++ fs ∧ (∀ c ∈ ds ++ fs, c.isDigit = true) ∧ (∀ c, r.head? = some c → c.isDigit = false) ∧ ks = [.double w])
  | 3 => (∃ b v b' k, w = c!"(" ++ b ++ v ++ b' ++ c!")" ∧ Spaces b ∧ (v, k) ∈ castWords ∧ Spaces b' ∧ ks = [.k k]) ∨ Sym w ks r
  | 4 => ∃ o s, w = o ++ s ∧ (o = c!"#" ∨ o = c!"//") ∧ '\n' ∉ s ∧ (r = [] ∨ c!"\n" <+: r) ∧ ks = [.comment s]
  | 5 => ∃ o s, w = o ++ s ++ c!"*/" ∧ (o = c!"/**" ∨ o = c!"/*" ∧ ¬ c!"*" <+: s ++ c!"*/") ∧ ¬ c!"*/" <:+: s ∧ ks = [.comment s]
  | 6 => ∃ p fs k, w = p ++ c!"'" ++ fragSrc fs ++ c!"'" ∧ (p = [] ∨ p = c!"b") ∧ FragsOk .single fs (c!"'" ++ r) ∧
      BytesTok (fragBytes fs) k ∧ ks = [k]
  | 7 => ∃ p fs ts, w = p ++ c!"\"" ++ fragSrc fs ++ c!"\"" ∧ (p = [] ∨ p = c!"b") ∧ FragsOk .double fs (c!"\"" ++ r) ∧
      Parts [] fs ts ∧ ks = .k .DoubleQuote :: ts ++ [.k .DoubleQuote]
  | 8 => ∃ fs ts, w = c!"`" ++ fragSrc fs ++ c!"`" ∧ FragsOk .back fs c!"`" ∧ Parts [] fs ts ∧ r = [] ∧
      ks = .k .Backquote :: ts ++ [.k .Backquote]
  | 9 => Doc w ks r ∨ Sym w ks r
  | 10 => (∃ v, w = 'b' :: v ∧ Doc v ks r) ∨ (w = c!"b" ∧ ¬ DocAhead 7 r ∧ ks = [identifierToken c!"b"])
  | 11 => (isIdentifier w = true ∧ endsIdentifier r = true ∧ w ≠ c!"yieldfrom" ∧ (w = c!"yield" → ¬ FromAhead r) ∧ ks = [identifierToken w]) ∨
      (∃ b, w = c!"yield" ++ b ++ c!"from" ∧ Blank b ∧ (b = [] → endsIdentifier r = true) ∧ ks = [.k .YieldFrom])
  | _ => False

theorem lead_digit {c : Char} {r : Text} (h : c.isDigit = true) : lead (c :: r) = 2 := by
  have ne : ∀ d : Char, d.isDigit = false → c ≠ d := by
    rintro d hd rfl; rw [h] at hd; cases hd
  unfold lead
  dsimp only
  rw [if_neg (ne _ rfl), if_neg (ne _ rfl), if_neg (ne _ rfl), if_neg (ne _ rfl), if_neg (ne _ rfl), if_neg (ne _ rfl),
    if_neg (ne _ rfl), if_neg (ne _ rfl), if_neg (ne _ rfl), if_neg (ne _ rfl), if_pos h]

theorem lead_id {c : Char} {r : Text} (h : isIdChar c = true) (hd : c.isDigit = false) (hb : c ≠ 'b') : lead (c :: r) = 11 := by
  have ne : ∀ d : Char, isIdChar d = false → c ≠ d := by
    rintro d hd rfl; rw [h] at hd; cases hd
  unfold lead
  dsimp only
  rw [if_neg (ne _ rfl), if_neg (ne _ rfl), if_neg (ne _ rfl), if_neg (ne _ rfl), if_neg (ne _ rfl), if_neg (ne _ rfl),
    if_neg (ne _ rfl), if_neg (ne _ rfl), if_neg (ne _ rfl), if_neg hb, if_neg (by rw [hd]; nofun), if_pos h]

theorem Doc.first {w r : Text} {ks : List Token} (h : Doc w ks r) : ∃ s, w = c!"<<<" ++ s := by
  cases h with
  | here b q tag nl fs ts => exact ⟨b ++ q ++ tag ++ q ++ nl ++ fragSrc fs ++ c!"\n" ++ tag, by simp⟩
  | now b tag nl fs k => exact ⟨b ++ c!"'" ++ tag ++ c!"'" ++ nl ++ fragSrc fs ++ c!"\n" ++ tag, by simp⟩

theorem symbols_first : ∀ p ∈ symbols, p.1 ≠ [] ∧ (p.1.head?.all fun c => decide (c ≠ '$' ∧ c ≠ '#' ∧ c ≠ '\'' ∧ c ≠ '"' ∧ c ≠ '`' ∧ c ≠ 'b') &&
    !c.isDigit && !isIdChar c && !isBlank c) = true := by decide +kernel

theorem lead_sym {w r : Text} {k : Kw} (h : (w, k) ∈ symbols) (hn : ¬ NoSymbol (w ++ r)) :
    lead (w ++ r) = 0 ∨ lead (w ++ r) = 3 ∨ lead (w ++ r) = 9 := by
  have h1 := symbols_first _ h
  cases w with
  | nil => exact absurd rfl h1.1
  | cons c w =>
    have h1 := h1.2
    simp only [List.head?_cons, Option.all_some, Bool.and_eq_true, decide_eq_true_eq, Bool.not_eq_true'] at h1
    obtain ⟨⟨⟨⟨a1, a2, a3, a4, a5, a6⟩, a7⟩, a8⟩, _⟩ := h1
    rw [List.cons_append] at hn ⊢
    generalize w ++ r = s at hn
    unfold lead
    dsimp only
    rw [if_neg a1]
    split
    · exact .inr (.inl rfl)
    split
    · rename_i hc
      subst hc
      rw [if_neg, if_neg]
      · exact .inl rfl
      · rintro ⟨q, rfl⟩; exact hn (.inr (.inr (.inl ⟨q, rfl⟩)))
      · rintro ⟨q, rfl⟩; exact hn (.inr (.inl ⟨q, rfl⟩))
    split
    · split
      · exact .inr (.inr rfl)
      · exact .inl rfl
    split
    · rename_i hc
      subst hc
      rw [if_neg]
      · exact .inl rfl
      · intro hd
        cases s with
        | nil => cases hd
        | cons d s => exact hn (.inl ⟨d, s, rfl, by simpa using hd⟩)
    rw [if_neg (by rw [a7]; nofun), if_neg (by rw [a8]; nofun)]
    exact .inl rfl

theorem Scrap.form {w r : Text} {ks : List Token} (h : Scrap w ks r) : Form w ks r (lead (w ++ r)) := by
  cases h with
  | word h he hy hf hb =>
    have f11 : Form w [identifierToken w] r 11 := .inl ⟨h, he, hy, hf, rfl⟩
    cases w with
    | nil => cases h
    | cons c w =>
      have h0 := h
      simp only [isIdentifier, Bool.and_eq_true, Bool.not_eq_true', List.all_eq_true] at h0
      by_cases hcb : c = 'b'
      · subst hcb
        have no : ∀ {d : Char} {s : Text}, isIdChar d = false → w ≠ [] → ¬ d :: s <+: w ++ r := by
          rintro d s hd hw ⟨q, hq⟩
          cases w with
          | nil => exact hw rfl
          | cons a w =>
            injection hq with hq
            subst hq
            have := h0.2 d (by simp)
            rw [hd] at this
            cases this
        show Form _ _ _ (lead ('b' :: (w ++ r)))
        unfold lead
        simp only [show ('b' = '$') = False by simp, show ('b' = '(') = False by simp, show ('b' = '#') = False by simp,
          show ('b' = '/') = False by simp, show ('b' = '\'') = False by simp, show ('b' = '"') = False by simp,
          show ('b' = '`') = False by simp, show ('b' = '<') = False by simp, show ('b' = '.') = False by simp, if_false, if_true]
        by_cases hw : w = []
        · subst hw
          have hb := hb rfl
          rw [List.nil_append, if_neg fun h => hb (.inl h), if_neg fun h => hb (.inr (.inl h))]
          split
          · exact .inr ⟨rfl, fun h => hb (.inr (.inr h)), rfl⟩
          · exact f11
        · rw [if_neg (no (by rfl) hw), if_neg (no (by rfl) hw), if_neg (no (by rfl) hw)]
          exact f11
      · rw [List.cons_append, lead_id h0.1.1 h0.1.2 hcb]
        exact f11
  | yieldFrom b hb he => exact .inr ⟨b, rfl, hb, he, rfl⟩
  | «variable» n hn he => exact .inl ⟨n, rfl, hn, he, rfl⟩
  | dollar h => exact .inr ⟨rfl, h, rfl⟩
  | int h hv hm hd =>
    obtain ⟨c, s, e, hc⟩ := h.first
    have : lead (w ++ r) = 2 := by rw [e]; exact lead_digit hc
    rw [this]
    exact .inl ⟨_, h, hm, hd, rfl⟩
  | double ds fs hd hne hm =>
    have : lead (ds ++ c!"." ++ fs ++ r) = 2 := by
      cases ds with
      | cons d ds => exact lead_digit (hd d (by simp))
      | nil =>
        cases fs with
        | nil => exact absurd rfl hne
        | cons f fs =>
          show lead ('.' :: f :: (fs ++ r)) = 2
          unfold lead
          simp [hd f (by simp)]
    rw [this]
    exact .inr ⟨ds, fs, rfl, hd, hm, rfl⟩
  | symbol h hm hn =>
    have hs : Sym w _ r := ⟨_, h, hm, hn, rfl⟩
    rcases lead_sym h hn with e | e | e <;> rw [e]
    · exact hs
    · exact .inr hs
    · exact .inr hs
  | cast b v b' k hb h hb' => exact .inl ⟨b, v, b', k, rfl, hb, h, hb', rfl⟩
  | line o s ho hs he =>
    have : lead (o ++ s ++ r) = 4 := by
      rcases ho with rfl | rfl
      · rfl
      · show lead ('/' :: '/' :: (s ++ r)) = 4
        unfold lead
        simp
    rw [this]
    exact ⟨o, s, rfl, ho, hs, he, rfl⟩
  | block o s ho hs =>
    have : lead (o ++ s ++ c!"*/" ++ r) = 5 := by
      obtain ⟨q, rfl⟩ : ∃ q, o = c!"/*" ++ q := by
        rcases ho with rfl | ⟨rfl, _⟩
        · exact ⟨c!"*", rfl⟩
        · exact ⟨[], rfl⟩
      show lead ('/' :: '*' :: (q ++ s ++ c!"*/" ++ r)) = 5
      unfold lead
      simp
    rw [this]
    exact ⟨o, s, rfl, ho, hs, rfl⟩
  | single p fs k hp h hk =>
    have : lead (p ++ c!"'" ++ fragSrc fs ++ c!"'" ++ r) = 6 := by
      rcases hp with rfl | rfl
      · rfl
      · show lead ('b' :: '\'' :: (fragSrc fs ++ c!"'" ++ r)) = 6
        unfold lead
        simp
    rw [this]
    exact ⟨p, fs, k, rfl, hp, h, hk, rfl⟩
  | quoted p fs ts hp h hk =>
    have : lead (p ++ c!"\"" ++ fragSrc fs ++ c!"\"" ++ r) = 7 := by
      rcases hp with rfl | rfl
      · rfl
      · show lead ('b' :: '"' :: (fragSrc fs ++ c!"\"" ++ r)) = 7
        unfold lead
        simp
    rw [this]
    exact ⟨p, fs, ts, rfl, hp, h, hk, rfl⟩
  | back fs ts h hk => exact ⟨fs, ts, rfl, h, hk, rfl, rfl⟩
  | doc p w ks hp h =>
    obtain ⟨s, e⟩ := h.first
    rcases hp with rfl | rfl
    · have : lead ([] ++ w ++ r) = 9 := by
        subst e
        show lead ('<' :: '<' :: '<' :: (s ++ r)) = 9
        unfold lead
        simp
      rw [this]
      exact .inl h
    · have : lead (c!"b" ++ w ++ r) = 10 := by
        subst e
        show lead ('b' :: '<' :: '<' :: '<' :: (s ++ r)) = 10
        unfold lead
        simp
      rw [this]
      exact .inl ⟨w, rfl, h⟩

/-! ### Pieces -/

theorem prefix_both {a b s : Text} (ha : a <+: s) (hb : b <+: s) (h : a.length = b.length) : a = b := by
  obtain ⟨x, rfl⟩ := ha
  obtain ⟨y, hy⟩ := hb
  exact ((List.append_inj hy h.symm).1).symm

theorem symbols_keys : ∀ p ∈ symbols, ∀ q ∈ symbols, p.1 = q.1 → p = q := by decide +kernel

theorem Sym.unique {w w' r r' : Text} {ks ks' : List Token} (h : Sym w ks r) (h' : Sym w' ks' r') (e : w ++ r = w' ++ r') :
    w = w' ∧ ks = ks' := by
  obtain ⟨k, h1, h2, h3, rfl⟩ := h
  obtain ⟨k', h1', h2', h3', rfl⟩ := h'
  have mem : ∀ {w : Text} {k : Kw}, (w, k) ∈ symbols → w ∈ c!"?>" :: symbols.map Prod.fst := fun h =>
    List.mem_cons_of_mem _ (List.mem_map.2 ⟨_, h, rfl⟩)
  have p' : w' <+: w ++ r := by rw [e]; exact List.prefix_append _ _
  have p : w <+: w' ++ r' := by rw [← e]; exact List.prefix_append _ _
  have l1 := h2 w' (mem h1') p'
  have l2 := h2' w (mem h1) p
  have := prefix_both (List.prefix_append w r) p' (by omega)
  subst this
  have := symbols_keys _ h1 _ h1' rfl
  cases this
  exact ⟨rfl, rfl⟩

/-- The first occurrence of the end of a comment. -/
theorem sub_unique {a b : Char} (hab : a ≠ b) {s s' r r' : Text} (h : ¬ [a, b] <:+: s) (h' : ¬ [a, b] <:+: s')
    (e : s ++ ([a, b] ++ r) = s' ++ ([a, b] ++ r')) : s = s' ∧ r = r' := by
  have short : ∀ {s r r' : Text}, ¬ [a, b] <:+: s → s ≠ [] → s ++ ([a, b] ++ r) = [a, b] ++ r' → False := by
    intro s r r' h hs e
    rcases s with _ | ⟨c, _ | ⟨d, s⟩⟩
    · exact hs rfl
    · injection e with _ e; injection e with e; exact hab e
    · injection e with e1 e; injection e with e2 e
      subst e1 e2
      exact h ⟨[], s, rfl⟩
  induction s generalizing s' with
  | nil =>
    cases s' with
    | nil => simpa using e
    | cons c s' => exact (short h' nofun e.symm).elim
  | cons c s ih =>
    cases s' with
    | nil => exact (short h nofun e).elim
    | cons c' s' =>
      injection e with e1 e
      subst e1
      obtain ⟨rfl, rfl⟩ := ih (fun hh => h (List.infix_cons hh)) (fun hh => h' (List.infix_cons hh)) e
      exact ⟨rfl, rfl⟩

theorem castWords_keys : (∀ p ∈ castWords, ∀ q ∈ castWords, p.1 = q.1 → p = q) ∧
    ∀ p ∈ castWords, p.1 ≠ [] ∧ ∀ c ∈ p.1, isLabelChar c = true := by decide +kernel

theorem identifier_label {w : Text} (h : isIdentifier w = true) : IsLabel w := by
  cases w with
  | nil => cases h
  | cons c w =>
    simp only [isIdentifier, Bool.and_eq_true, Bool.not_eq_true', List.all_eq_true] at h
    refine ⟨nofun, fun d hd => by cases hd; exact h.1.2, fun d hd => ?_⟩
    rcases List.mem_cons.1 hd with rfl | hd
    · exact .inl h.1.1
    · exact .inl (h.2 d hd)

theorem Form.unique {w w' r r' : Text} {ks ks' : List Token} {n : Nat} (hu : 2 ≤ ks.length → InnerU) (h : Form w ks r n) (h' : Form w' ks' r' n)
    (e : w ++ r = w' ++ r') : w = w' ∧ ks = ks' := by
  match n with
  | 0 => exact Sym.unique h h' e
  | 1 =>
    have vd : ∀ {n r r' : Text}, IsLabel n → noIdentifier r' → c!"$" ++ n ++ r = c!"$" ++ r' → False := by
      intro n r r' hn hr e
      have e : n ++ r = r' := by simpa using e
      subst e
      exact label_some' hn hr
    rcases h with ⟨n, rfl, hn, hr, rfl⟩ | ⟨rfl, hr, rfl⟩ <;> rcases h' with ⟨n', rfl, hn', hr', rfl⟩ | ⟨rfl, hr', rfl⟩
    · have e : n ++ r = n' ++ r' := by simpa using e
      obtain ⟨rfl, _⟩ := label_unique hn hn' hr hr' e
      exact ⟨rfl, rfl⟩
    · exact (vd hn hr' e).elim
    · exact (vd hn' hr e.symm).elim
    · exact ⟨rfl, rfl⟩
  | 2 =>
    have dig : ∀ {ds fs r : Text}, (∀ c ∈ ds ++ fs, c.isDigit = true) → (∀ c ∈ ds, c.isDigit = true) ∧ ∀ c ∈ fs, c.isDigit = true :=
      fun h => ⟨fun c hc => h c (by simp [hc]), fun c hc => h c (by simp [hc])⟩
    have dot : ∀ {s : Text} c, ('.' :: s).head? = some c → ¬ c.isDigit = true := by
      intro s c hc h; cases hc; cases h
    have id : ∀ {w r r' ds fs : Text} {v : Nat}, IntLit w v →
        ((∀ c ∈ w, c.isDigit = true) → ∀ c, r.head? = some c → c.isDigit = false ∧ c ≠ '.') →
        (∀ c ∈ ds ++ fs, c.isDigit = true) → w ++ r = ds ++ c!"." ++ fs ++ r' → False := by
      intro w r r' ds fs v hw hd hds e
      have hds := (dig (r := r) hds).1
      have e : w ++ r = ds ++ ('.' :: (fs ++ r')) := by simpa using e
      rcases intLit_forms hw with h | ⟨es, rfl, _⟩ | ⟨es, rfl, _⟩
      · obtain ⟨_, e2⟩ := run_unique (p := fun c => c.isDigit = true) h hds (fun c hc hx => by
          rw [(hd h c hc).1] at hx; cases hx) dot e
        exact (hd h '.' (by rw [e2]; rfl)).2 rfl
      · rcases ds with _ | ⟨a, _ | ⟨b, ds⟩⟩
        · injection e with e; cases e
        · injection e with _ e; injection e with e; cases e
        · injection e with _ e; injection e with e
          have := hds b (by simp)
          rw [← e] at this; cases this
      · rcases ds with _ | ⟨a, _ | ⟨b, ds⟩⟩
        · injection e with e; cases e
        · injection e with _ e; injection e with e; cases e
        · injection e with _ e; injection e with e
          have := hds b (by simp)
          rw [← e] at this; cases this
    rcases h with ⟨v, h1, h2, h3, rfl⟩ | ⟨ds, fs, rfl, h1, h2, rfl⟩ <;>
      rcases h' with ⟨v', h1', h2', h3', rfl⟩ | ⟨ds', fs', rfl, h1', h2', rfl⟩
    · have p' : w' <+: w ++ r := by rw [e]; exact List.prefix_append _ _
      have p : w <+: w' ++ r' := by rw [← e]; exact List.prefix_append _ _
      have l1 := h2 w' _ h1' p'
      have l2 := h2' w _ h1 p
      have := prefix_both (List.prefix_append w r) p' (by omega)
      subst this
      rw [h1.value h1']
      exact ⟨rfl, rfl⟩
    · exact (id h1 h3 h1' e).elim
    · exact (id h1' h3' h1 e.symm).elim
    · have e1 : ds ++ ('.' :: (fs ++ r)) = ds' ++ ('.' :: (fs' ++ r')) := by simpa using e
      obtain ⟨rfl, e2⟩ := run_unique (p := fun c => c.isDigit = true) (dig (r := r) h1).1 (dig (r := r) h1').1 dot dot e1
      injection e2 with _ e2
      obtain ⟨rfl, _⟩ := run_unique (p := fun c => c.isDigit = true) (dig (r := r) h1).2 (dig (r := r) h1').2
        (fun c hc hx => by rw [h2 c hc] at hx; cases hx) (fun c hc hx => by rw [h2' c hc] at hx; cases hx) e2
      exact ⟨rfl, rfl⟩
  | 3 =>
    have cs : ∀ {w w' r r' : Text} {ks : List Token}, (∃ b v b' k, w = c!"(" ++ b ++ v ++ b' ++ c!")" ∧ Spaces b ∧ (v, k) ∈ castWords ∧ Spaces b' ∧ ks = [.k k]) →
        ∀ {ks'}, Sym w' ks' r' → w ++ r = w' ++ r' → False := by
      rintro w w' r r' ks ⟨b, v, b', k, rfl, h1, h2, h3, _⟩ ks' ⟨k', _, _, h, _⟩ e
      rw [← e] at h
      exact h (.inr (.inr (.inr (.inl ⟨b ++ v ++ b' ++ c!")" ++ r, by simp, b, v, b', r, rfl, h1, h3, k, h2⟩))))
    rcases h with h | h <;> rcases h' with h' | h'
    · obtain ⟨b, v, c, k, rfl, h1, h2, h3, rfl⟩ := h
      obtain ⟨b', v', c', k', rfl, h1', h2', h3', rfl⟩ := h'
      have gap : ∀ {b : Text}, Spaces b → ∀ c ∈ b, isGap c = true := fun {b} h c hc => by
        rcases h c hc with rfl | rfl <;> rfl
      have nogap : ∀ {v s : Text} {k : Kw}, (v, k) ∈ castWords → ∀ c, (v ++ s).head? = some c → ¬ isGap c = true := by
        intro v s k h c hc hg
        have := castWords_keys.2 _ h
        cases v with
        | nil => exact this.1 rfl
        | cons d v =>
          cases hc
          have h1 := this.2 c (by simp)
          have : c = ' ' ∨ c = '\t' := by simpa [isGap] using hg
          rcases this with rfl | rfl <;> cases h1
      have e1 : b ++ (v ++ (c ++ (')' :: r))) = b' ++ (v' ++ (c' ++ (')' :: r'))) := by simpa using e
      obtain ⟨rfl, e2⟩ := run_unique (p := fun c => isGap c = true) (gap h1) (gap h1') (nogap h2) (nogap h2') e1
      have nolab : ∀ {c s : Text}, Spaces c → ∀ d, (c ++ (')' :: s)).head? = some d → ¬ isLabelChar d = true := by
        intro c s hc d hd hl
        cases c with
        | nil => cases hd; cases hl
        | cons a c =>
          cases hd
          rcases hc d (by simp) with rfl | rfl <;> cases hl
      obtain ⟨rfl, e3⟩ := run_unique (p := fun c => isLabelChar c = true) (castWords_keys.2 _ h2).2 (castWords_keys.2 _ h2').2
        (nolab h3) (nolab h3') e2
      obtain ⟨rfl, _⟩ := run_unique (p := fun c => isGap c = true) (gap h3) (gap h3') (fun d hd h => by cases hd; cases h)
        (fun d hd h => by cases hd; cases h) e3
      have := castWords_keys.1 _ h2 _ h2' rfl
      cases this
      exact ⟨rfl, rfl⟩
    · exact (cs h h' e).elim
    · exact (cs h' h e.symm).elim
    · exact h.unique h' e
  | 4 =>
    obtain ⟨o, s, rfl, ho, hs, hr, rfl⟩ := h
    obtain ⟨o', s', rfl, ho', hs', hr', rfl⟩ := h'
    have hoo : o = o' := by
      rcases ho with rfl | rfl <;> rcases ho' with rfl | rfl
      · rfl
      · injection e with e; cases e
      · injection e with e; cases e
      · rfl
    subst hoo
    have e1 : s ++ r = s' ++ r' := by simpa using e
    have hd : ∀ {r : Text}, (r = [] ∨ c!"\n" <+: r) → ∀ c, r.head? = some c → ¬ c ≠ '\n' := by
      rintro r (rfl | ⟨q, rfl⟩) c hc
      · cases hc
      · cases hc; simp
    obtain ⟨rfl, _⟩ := run_unique (p := fun c => c ≠ '\n') (fun c hc h => hs (h ▸ hc)) (fun c hc h => hs' (h ▸ hc)) (hd hr) (hd hr') e1
    exact ⟨rfl, rfl⟩
  | 5 =>
    obtain ⟨o, s, rfl, ho, hs, rfl⟩ := h
    obtain ⟨o', s', rfl, ho', hs', rfl⟩ := h'
    have no : ∀ {s s' r r' : Text}, ¬ c!"*" <+: s' ++ c!"*/" → c!"/**" ++ s ++ c!"*/" ++ r = c!"/*" ++ s' ++ c!"*/" ++ r' → False := by
      intro s s' r r' h e
      have e : '*' :: (s ++ c!"*/" ++ r) = (s' ++ c!"*/") ++ r' := by simpa using e
      cases hq : s' ++ c!"*/" with
      | nil => simp at hq
      | cons c q =>
        rw [hq] at e h
        injection e with e _
        subst e
        exact h ⟨q, rfl⟩
    have hoo : o = o' := by
      rcases ho with rfl | ⟨rfl, ho⟩ <;> rcases ho' with rfl | ⟨rfl, ho'⟩
      · rfl
      · exact (no ho' e).elim
      · exact (no ho e.symm).elim
      · rfl
    subst hoo
    have e1 : s ++ (c!"*/" ++ r) = s' ++ (c!"*/" ++ r') := by simpa using e
    obtain ⟨rfl, _⟩ := sub_unique (by decide) hs hs' e1
    exact ⟨rfl, rfl⟩
  | 6 =>
    obtain ⟨p, fs, k, rfl, hp, h1, h2, rfl⟩ := h
    obtain ⟨p', fs', k', rfl, hp', h1', h2', rfl⟩ := h'
    have hpp : p = p' := by
      rcases hp with rfl | rfl <;> rcases hp' with rfl | rfl
      · rfl
      · injection e with e; cases e
      · injection e with e; cases e
      · rfl
    subst hpp
    have := single_unique h1 h1' (by simpa using e)
    subst this
    rw [h2.unique h2']
    exact ⟨rfl, rfl⟩
  | 7 =>
    obtain ⟨p, fs, k, rfl, hp, h1, h2, rfl⟩ := h
    obtain ⟨p', fs', k', rfl, hp', h1', h2', rfl⟩ := h'
    have hpp : p = p' := by
      rcases hp with rfl | rfl <;> rcases hp' with rfl | rfl
      · rfl
      · injection e with e; cases e
      · injection e with e; cases e
      · rfl
    subst hpp
    have := double_unique (hu (by simp)) h1 h1' (by simpa using e)
    subst this
    rw [h2.unique h2']
    exact ⟨rfl, rfl⟩
  | 8 =>
    obtain ⟨fs, k, rfl, h1, h2, rfl, rfl⟩ := h
    obtain ⟨fs', k', rfl, h1', h2', rfl, rfl⟩ := h'
    have := back_unique (hu (by simp)) h1 h1' (by simpa using e)
    subst this
    rw [h2.unique h2']
    exact ⟨rfl, rfl⟩
  | 9 =>
    have ds : ∀ {w w' r r' : Text} {ks ks' : List Token}, Doc w ks r → Sym w' ks' r' → w ++ r = w' ++ r' → False := by
      rintro w w' r r' ks ks' hd ⟨k', _, _, h, _⟩ e
      exact h (.inr (.inr (.inr (.inr (e ▸ hd.ahead (Nat.le_refl _))))))
    rcases h with h | h <;> rcases h' with h' | h'
    · exact h.unique hu h' e
    · exact (ds h h' e).elim
    · exact (ds h' h e.symm).elim
    · exact h.unique h' e
  | 10 =>
    rcases h with ⟨v, rfl, h⟩ | ⟨rfl, h, rfl⟩ <;> rcases h' with ⟨v', rfl, h'⟩ | ⟨rfl, h', rfl⟩
    · injection e with _ e
      obtain ⟨rfl, rfl⟩ := h.unique hu h' e
      exact ⟨rfl, rfl⟩
    · injection e with _ e
      have e : v ++ r = r' := e
      exact absurd (e ▸ h.ahead (by decide)) h'
    · injection e with _ e
      have e : r = v' ++ r' := e
      exact absurd (e ▸ h'.ahead (by decide)) h
    · exact ⟨rfl, rfl⟩
  | 11 =>
    have wy : ∀ {w b r r' : Text}, isIdentifier w = true → endsIdentifier r = true → w ≠ c!"yieldfrom" → (w = c!"yield" → ¬ FromAhead r) →
        Blank b → (b = [] → endsIdentifier r' = true) → w ++ r = c!"yield" ++ b ++ c!"from" ++ r' → False := by
      intro w b r r' h1 h2 h3 h4 h5 h6 e
      by_cases hb : b = []
      · subst hb
        obtain ⟨rfl, _⟩ := label_unique (w' := c!"yieldfrom") (identifier_label h1) (identifier_label rfl) h2 (h6 rfl) e
        exact h3 rfl
      · have he : endsIdentifier (b ++ c!"from" ++ r') = true := by
          cases b with
          | nil => exact absurd rfl hb
          | cons c b => rcases h5 c (by simp) with rfl | rfl | rfl | rfl <;> rfl
        obtain ⟨rfl, e2⟩ := label_unique (w' := c!"yield") (identifier_label h1) (identifier_label rfl) h2 he (by simpa using e)
        exact h4 rfl ⟨b, r', e2, h5⟩
    rcases h with ⟨h1, h2, h3, h4, rfl⟩ | ⟨b, rfl, h5, h6, rfl⟩ <;> rcases h' with ⟨h1', h2', h3', h4', rfl⟩ | ⟨b', rfl, h5', h6', rfl⟩
    · obtain ⟨rfl, _⟩ := label_unique (identifier_label h1) (identifier_label h1') h2 h2' e
      exact ⟨rfl, rfl⟩
    · exact (wy h1 h2 h3 h4 h5' h6' e).elim
    · exact (wy h1' h2' h3' h4' h5 h6 e.symm).elim
    · have e1 : b ++ (c!"from" ++ r) = b' ++ (c!"from" ++ r') := by simpa using e
      obtain ⟨rfl, _⟩ := run_unique (p := fun c => isBlank c = true) (blank_all h5) (blank_all h5') (fun d hd h => by cases hd; cases h)
        (fun d hd h => by cases hd; cases h) e1
      exact ⟨rfl, rfl⟩
  | n + 12 => exact h.elim

/-! ### Whole texts -/

theorem Scrap.first {w r : Text} {ks : List Token} (h : Scrap w ks r) :
    (∀ c, (w ++ r).head? = some c → ¬ isBlank c = true) ∧ (w ++ r ≠ []) ∧ ¬ c!"?>" <+: w ++ r := by
  have f := h.form
  have sym : lead (w ++ r) = 0 → Sym w ks r := fun e => by rw [e] at f; exact f
  refine ⟨fun c hc hb => ?_, fun he => ?_, fun hp => ?_⟩
  · obtain ⟨s, hs⟩ := head_split hc
    have hc4 : c = ' ' ∨ c = '\t' ∨ c = '\n' ∨ c = '\r' := by
      simp only [isBlank, Bool.or_eq_true, beq_iff_eq] at hb
      rcases hb with (((rfl | rfl) | rfl) | rfl) <;> simp
    have hl : lead (w ++ r) = 0 := by
      rw [hs]
      rcases hc4 with rfl | rfl | rfl | rfl <;> rfl
    obtain ⟨k, h1, _⟩ := sym hl
    have h2 := symbols_first _ h1
    cases w with
    | nil => exact h2.1 rfl
    | cons d w =>
      injection hs with hd _
      subst hd
      have := h2.2
      simp [hb] at this
  · obtain ⟨k, h1, _⟩ := sym (by rw [he]; rfl)
    exact (symbols_first _ h1).1 (List.append_eq_nil_iff.1 he).1
  · obtain ⟨s, hs⟩ := hp
    obtain ⟨k, h1, h2, _⟩ := sym (by rw [← hs]; rfl)
    have h3 := h2 c!"?>" (by simp) ⟨s, hs⟩
    have h4 : ∀ p ∈ symbols, 2 ≤ p.1.length → p.1.head? = some '?' → p.1[1]? = some '?' := by decide +kernel
    rcases w with _ | ⟨a, _ | ⟨b, w⟩⟩
    · simp at h3
    · simp at h3
    · injection hs with e1 e2
      injection e2 with e2 _
      subst e1 e2
      have := h4 _ h1 (by simp) rfl
      cases this

theorem blank_unique {b b' r r' : Text} (hb : Blank b) (hb' : Blank b') (hr : ∀ c, r.head? = some c → ¬ isBlank c = true)
    (hr' : ∀ c, r'.head? = some c → ¬ isBlank c = true) (e : b ++ r = b' ++ r') : b = b' ∧ r = r' :=
  run_unique (p := fun c => isBlank c = true) (blank_all hb) (blank_all hb') hr hr' e

theorem noBlank_of {c : Char} {s : Text} (h : isBlank c = false) : ∀ d, (c :: s).head? = some d → ¬ isBlank d = true := by
  intro d hd hb
  cases hd
  rw [h] at hb
  cases hb

theorem noBlank_label {w r : Text} (h : IsLabel w) : ∀ d, (w ++ r).head? = some d → ¬ isBlank d = true := by
  obtain ⟨c, s, e, h1, _⟩ := h.head (r := r)
  rw [e]
  refine noBlank_of ?_
  cases hb : isBlank c with
  | false => rfl
  | true =>
    simp only [isBlank, Bool.or_eq_true, beq_iff_eq] at hb
    rcases hb with (((rfl | rfl) | rfl) | rfl) <;> cases h1

theorem noBlank_starts {r : Text} (h : startsBlank r = false) : ∀ d, r.head? = some d → ¬ isBlank d = true := by
  intro d hd hb
  obtain ⟨s, rfl⟩ := head_split hd
  simp only [isBlank, Bool.or_eq_true, beq_iff_eq] at hb
  rcases hb with (((rfl | rfl) | rfl) | rfl) <;> cases h

/-! ### Expressions between braces -/

theorem Bit.unique {w w' r r' : Text} {k k' : Token} (h : Bit w k r) (h' : Bit w' k' r') (e : w ++ r = w' ++ r') :
    w = w' ∧ k = k' ∧ r = r' := by
  have f := h.scrap.form
  have f' := h'.scrap.form
  rw [← e] at f'
  obtain ⟨rfl, e'⟩ := f.unique (by intro h; simp at h) f' e
  cases e'
  exact ⟨rfl, rfl, List.append_cancel_left e⟩

/-- No piece is a closing brace. -/
theorem Bit.brace {w r s : Text} {k : Token} (h : Bit w k r) (e : w ++ r = '}' :: s) : False := by
  have f := h.scrap.form
  rw [e] at f
  have hk : k ≠ .k .CurlyBracesClose := by
    cases h with
    | word => exact (identifierToken_ne w).2
    | yieldFrom => nofun
    | «variable» => nofun
    | dollar => nofun
    | int => nofun
    | double => nofun
    | symbol _ hk => rintro h; rw [h] at hk; cases hk
    | cast b w b' k hb h =>
      have : ∀ p ∈ castWords, Token.k p.2 ≠ .k .CurlyBracesClose := by decide +kernel
      exact this _ h
    | single => nofun
  obtain ⟨k', h1, h2, h3, h4⟩ : Sym w [k] r := f
  have l1 := h2 c!"}" (by decide +kernel) ⟨s, e.symm⟩
  have l2 : ∀ p ∈ symbols, p.1.head? = some '}' → p = (c!"}", .CurlyBracesClose) := by decide +kernel
  cases w with
  | nil => simp at l1
  | cons a w =>
    injection e with e1 _
    subst e1
    have := l2 _ h1 rfl
    injection this with e2 e3
    subst e3
    injection h4 with h4
    exact hk h4

theorem Inner.unique {g : Region} {s s' r r' : Text} {ts ts' : List Token} (h : Inner g s ts r) (h' : Inner g s' ts' r')
    (e : s ++ r = s' ++ r') : s = s' ∧ ts = ts' := by
  induction h generalizing s' ts' with
  | @close rest b hb =>
    cases h' with
    | @close _ b' hb' =>
      have e1 : b ++ ('}' :: rest) = b' ++ ('}' :: r') := by simpa using e
      obtain ⟨rfl, _⟩ := blank_unique hb hb' (noBlank_of rfl) (noBlank_of rfl) e1
      exact ⟨rfl, rfl⟩
    | @piece s' _ _ b' w' k' hb' hw' h' =>
      have e1 : b ++ ('}' :: rest) = b' ++ (w' ++ (s' ++ r')) := by simpa using e
      obtain ⟨_, e2⟩ := blank_unique hb hb' (noBlank_of rfl) hw'.scrap.first.1 e1
      exact (hw'.brace e2.symm).elim
  | @piece s rest ts b w k hb hw _ ih =>
    cases h' with
    | @close _ b' hb' =>
      have e1 : b ++ (w ++ (s ++ rest)) = b' ++ ('}' :: r') := by simpa using e
      obtain ⟨_, e2⟩ := blank_unique hb hb' hw.scrap.first.1 (noBlank_of rfl) e1
      exact (hw.brace e2).elim
    | @piece s' _ _ b' w' k' hb' hw' h' =>
      have e1 : b ++ (w ++ (s ++ rest)) = b' ++ (w' ++ (s' ++ r')) := by simpa using e
      obtain ⟨rfl, e2⟩ := blank_unique hb hb' hw.scrap.first.1 hw'.scrap.first.1 e1
      obtain ⟨rfl, rfl, e3⟩ := hw.unique hw' e2
      obtain ⟨rfl, rfl⟩ := ih h' e3
      exact ⟨rfl, rfl⟩
  | @propName s rest ts b w hb hw he _ ih =>
    cases h' with
    | @propName s' _ _ b' w' hb' hw' he' h' =>
      have e1 : b ++ (w ++ (s ++ rest)) = b' ++ (w' ++ (s' ++ r')) := by simpa using e
      obtain ⟨rfl, e2⟩ := blank_unique hb hb' (noBlank_label hw) (noBlank_label hw') e1
      obtain ⟨rfl, e3⟩ := label_unique hw hw' he he' e2
      obtain ⟨rfl, rfl⟩ := ih h' e3
      exact ⟨rfl, rfl⟩
    | @propArrow s' _ _ b' hb' h' =>
      have e1 : b ++ (w ++ (s ++ rest)) = b' ++ ('-' :: '>' :: (s' ++ r')) := by simpa using e
      obtain ⟨rfl, e2⟩ := blank_unique hb hb' (noBlank_label hw) (noBlank_of rfl) e1
      obtain ⟨c, q, e3, h1, _⟩ := hw.head (r := s ++ rest)
      rw [e3] at e2
      injection e2 with e2
      subst e2
      cases h1
    | @propNone s' _ _ b' hb' hr' hn' ha' h' =>
      have e1 : b ++ (w ++ (s ++ rest)) = b' ++ (s' ++ r') := by simpa using e
      obtain ⟨rfl, e2⟩ := blank_unique hb hb' (noBlank_label hw) (noBlank_starts hr') e1
      rw [← e2] at hn'
      exact absurd hn' (label_some' hw)
  | @propArrow s rest ts b hb _ ih =>
    cases h' with
    | @propName s' _ _ b' w' hb' hw' he' h' =>
      have e1 : b ++ ('-' :: '>' :: (s ++ rest)) = b' ++ (w' ++ (s' ++ r')) := by simpa using e
      obtain ⟨rfl, e2⟩ := blank_unique hb hb' (noBlank_of rfl) (noBlank_label hw') e1
      obtain ⟨c, q, e3, h1, _⟩ := hw'.head (r := s' ++ r')
      rw [e3] at e2
      injection e2 with e2
      subst e2
      cases h1
    | @propArrow s' _ _ b' hb' h' =>
      have e1 : b ++ ('-' :: '>' :: (s ++ rest)) = b' ++ ('-' :: '>' :: (s' ++ r')) := by simpa using e
      obtain ⟨rfl, e2⟩ := blank_unique hb hb' (noBlank_of rfl) (noBlank_of rfl) e1
      injection e2 with _ e2
      injection e2 with _ e2
      obtain ⟨rfl, rfl⟩ := ih h' e2
      exact ⟨rfl, rfl⟩
    | @propNone s' _ _ b' hb' hr' hn' ha' h' =>
      have e1 : b ++ ('-' :: '>' :: (s ++ rest)) = b' ++ (s' ++ r') := by simpa using e
      obtain ⟨rfl, e2⟩ := blank_unique hb hb' (noBlank_of rfl) (noBlank_starts hr') e1
      exact absurd ⟨_, e2⟩ ha'
  | @propNone s rest ts b hb hr hn ha _ ih =>
    cases h' with
    | @propName s' _ _ b' w' hb' hw' he' h' =>
      have e1 : b ++ (s ++ rest) = b' ++ (w' ++ (s' ++ r')) := by simpa using e
      obtain ⟨rfl, e2⟩ := blank_unique hb hb' (noBlank_starts hr) (noBlank_label hw') e1
      rw [e2] at hn
      exact absurd hn (label_some' hw')
    | @propArrow s' _ _ b' hb' h' =>
      have e1 : b ++ (s ++ rest) = b' ++ ('-' :: '>' :: (s' ++ r')) := by simpa using e
      obtain ⟨rfl, e2⟩ := blank_unique hb hb' (noBlank_starts hr) (noBlank_of rfl) e1
      exact absurd ⟨_, e2.symm⟩ ha
    | @propNone s' _ _ b' hb' hr' hn' ha' h' =>
      have e1 : b ++ (s ++ rest) = b' ++ (s' ++ r') := by simpa using e
      obtain ⟨rfl, e2⟩ := blank_unique hb hb' (noBlank_starts hr) (noBlank_starts hr') e1
      obtain ⟨rfl, rfl⟩ := ih h' e2
      exact ⟨rfl, rfl⟩

theorem innerU : InnerU := fun _ _ _ _ _ _ h h' e => h.unique h' e

theorem Scrap.unique {w w' r r' : Text} {ks ks' : List Token} (h : Scrap w ks r) (h' : Scrap w' ks' r') (e : w ++ r = w' ++ r') :
    w = w' ∧ ks = ks' ∧ r = r' := by
  have f := h.form
  have f' := h'.form
  rw [← e] at f'
  obtain ⟨rfl, rfl⟩ := f.unique (fun _ => innerU) f' e
  exact ⟨rfl, rfl, List.append_cancel_left e⟩

theorem html_unique {s s' r r' : Text} (hs : ¬ c!"<?" <:+: s) (hs' : ¬ c!"<?" <:+: s') (hr : r = [] ∨ c!"<?" <+: r)
    (hr' : r' = [] ∨ c!"<?" <+: r') (e : s ++ r = s' ++ r') : s = s' ∧ r = r' := by
  have one : ∀ {s s' r' : Text}, ¬ c!"<?" <:+: s → s = s' ++ (c!"<?" ++ r') → False := by
    intro s s' r' h e
    exact h ⟨s', r', by rw [e]; simp⟩
  rcases hr with rfl | ⟨q, rfl⟩ <;> rcases hr' with rfl | ⟨q', rfl⟩
  · exact ⟨by simpa using e, rfl⟩
  · exact (one hs (by simpa using e)).elim
  · exact (one hs' (by simpa using e.symm)).elim
  · obtain ⟨rfl, rfl⟩ := sub_unique (by decide) hs hs' e
    exact ⟨rfl, rfl⟩

theorem openTags_keys : (∀ p ∈ openTags, ∀ q ∈ openTags, p.1 = q.1 → p = q) ∧ ∀ p ∈ openTags, ∃ s, p.1 = c!"<?" ++ s := by
  refine ⟨by decide, ?_⟩
  intro p hp
  simp only [openTags, List.mem_cons, List.not_mem_nil, or_false] at hp
  rcases hp with rfl | rfl | rfl
  · exact ⟨c!"=", rfl⟩
  · exact ⟨c!"php", rfl⟩
  · exact ⟨[], rfl⟩

theorem html_tag {s r w r' : Text} {k : Kw} (hne : s ≠ []) (hs : ¬ c!"<?" <:+: s) (hr : r = [] ∨ c!"<?" <+: r) (hw : (w, k) ∈ openTags)
    (e : s ++ r = w ++ r') : False := by
  obtain ⟨v, hv⟩ := openTags_keys.2 _ hw
  dsimp only at hv
  subst hv
  rcases s with _ | ⟨a, _ | ⟨b, s⟩⟩
  · exact hne rfl
  · injection e with _ e
    rcases hr with rfl | ⟨q, rfl⟩
    · cases e
    · injection e with e; cases e
  · injection e with e1 e
    injection e with e2 e
    subst e1 e2
    exact hs ⟨[], s, rfl⟩

theorem Laid.unique {g : Region} {s s' : Text} {ts ts' : List Token} (h : Laid g s ts) (h' : Laid g s' ts') (e : s = s') : ts = ts' := by
  induction h generalizing s' ts' with
  | htmlEnd =>
    cases h' with
    | htmlEnd => rfl
    | html s hne _ _ _ => exact absurd (List.append_eq_nil_iff.1 e.symm).1 hne
    | openTag w k hw _ _ =>
      obtain ⟨v, hv⟩ := openTags_keys.2 _ hw
      dsimp only at hv
      subst hv
      cases e
  | html s hne hs he _ ih =>
    cases h' with
    | htmlEnd => exact absurd (List.append_eq_nil_iff.1 e).1 hne
    | html s' hne' hs' he' h' =>
      obtain ⟨rfl, rfl⟩ := html_unique hs hs' he he' e
      rw [ih h' rfl]
    | openTag w k hw _ _ => exact (html_tag hne hs he hw e).elim
  | @openTag rest _ w k hw hm _ ih =>
    cases h' with
    | htmlEnd =>
      obtain ⟨v, hv⟩ := openTags_keys.2 _ hw
      dsimp only at hv
      subst hv
      cases e
    | html s hne hs he _ => exact (html_tag hne hs he hw e.symm).elim
    | @openTag rest' _ w' k' hw' hm' h' =>
      have p' : w' <+: w ++ rest := by rw [e]; exact List.prefix_append _ _
      have p : w <+: w' ++ rest' := by rw [← e]; exact List.prefix_append _ _
      have l1 := hm _ hw' p'
      have l2 := hm' _ hw p
      have := prefix_both (List.prefix_append w _) p' (by dsimp only at l1 l2; omega)
      subst this
      have := openTags_keys.1 _ hw _ hw' rfl
      cases this
      rw [ih h' (List.append_cancel_left e)]
  | scriptEnd hb =>
    have none : ∀ {b c s : Text} {a : Char}, Blank b → b = c ++ (a :: s) → isBlank a = false → False := by
      rintro b c s a hb rfl ha
      have := blank_all hb a (by simp)
      rw [ha] at this
      cases this
    cases h' with
    | scriptEnd _ => rfl
    | @closeTag rest' _ b' hb' h' => exact (none hb (by simpa using e) (by rfl)).elim
    | @piece rest' _ b' w' ks' hb' hw' h' =>
      have hf := hw'.first
      cases hq : w' ++ _ with
      | nil => exact absurd hq hf.2.1
      | cons a q =>
        rw [hq] at hf
        refine (none (a := a) (s := q) (c := b') hb (by rw [e, List.append_assoc, hq]) ?_).elim
        have := hf.1 a rfl
        simpa using this
  | @closeTag rest _ b hb _ ih =>
    cases h' with
    | scriptEnd hb' =>
      subst e
      have := blank_all hb' '?' (by simp)
      cases this
    | @closeTag rest' _ b' hb' h' =>
      have e1 : b ++ ('?' :: '>' :: rest) = b' ++ ('?' :: '>' :: rest') := by simpa using e
      obtain ⟨rfl, e2⟩ := blank_unique hb hb' (noBlank_of rfl) (noBlank_of rfl) e1
      injection e2 with _ e2
      injection e2 with _ e2
      rw [ih h' e2]
    | @piece rest' _ b' w' ks' hb' hw' h' =>
      have hf := hw'.first
      have e1 : b ++ ('?' :: '>' :: rest) = b' ++ (w' ++ rest') := by simpa using e
      obtain ⟨rfl, e2⟩ := blank_unique hb hb' (noBlank_of rfl) hf.1 e1
      exact absurd ⟨_, e2⟩ hf.2.2
  | @piece rest _ b w ks hb hw _ ih =>
    have hf := hw.first
    cases h' with
    | scriptEnd hb' =>
      subst e
      cases hq : w ++ _ with
      | nil => exact absurd hq hf.2.1
      | cons a q =>
        rw [List.append_assoc, hq] at hb'
        rw [hq] at hf
        exact absurd (blank_all hb' a (by simp)) (hf.1 a rfl)
    | @closeTag rest' _ b' hb' h' =>
      have e1 : b ++ (w ++ rest) = b' ++ ('?' :: '>' :: rest') := by simpa using e
      obtain ⟨rfl, e2⟩ := blank_unique hb hb' hf.1 (noBlank_of rfl) e1
      exact absurd ⟨_, e2.symm⟩ hf.2.2
    | @piece rest' _ b' w' ks' hb' hw' h' =>
      rw [List.append_assoc, List.append_assoc] at e
      obtain ⟨rfl, e2⟩ := blank_unique hb hb' hf.1 hw'.first.1 e
      obtain ⟨rfl, rfl, rfl⟩ := hw.unique hw' e2
      rw [ih h' rfl]
  | @propName rest _ b w hb hw he _ ih =>
    cases h' with
    | @propName rest' _ b' w' hb' hw' he' h' =>
      rw [List.append_assoc, List.append_assoc] at e
      obtain ⟨rfl, e2⟩ := blank_unique hb hb' (noBlank_label hw) (noBlank_label hw') e
      obtain ⟨rfl, e3⟩ := label_unique hw hw' he he' e2
      rw [ih h' e3]
    | @propArrow rest' _ b' hb' h' =>
      have e1 : b ++ (w ++ rest) = b' ++ ('-' :: '>' :: rest') := by simpa using e
      obtain ⟨rfl, e2⟩ := blank_unique hb hb' (noBlank_label hw) (noBlank_of rfl) e1
      obtain ⟨c, q, e3, h1, _⟩ := hw.head (r := rest)
      rw [e3] at e2
      injection e2 with e2
      subst e2
      cases h1
    | @propNone rest' _ b' hb' hr' hn' ha' h' =>
      rw [List.append_assoc] at e
      obtain ⟨rfl, e2⟩ := blank_unique hb hb' (noBlank_label hw) (noBlank_starts hr') e
      subst e2
      exact absurd hn' (label_some' hw)
  | @propArrow rest _ b hb _ ih =>
    cases h' with
    | @propName rest' _ b' w' hb' hw' he' h' =>
      have e1 : b ++ ('-' :: '>' :: rest) = b' ++ (w' ++ rest') := by simpa using e
      obtain ⟨rfl, e2⟩ := blank_unique hb hb' (noBlank_of rfl) (noBlank_label hw') e1
      obtain ⟨c, q, e3, h1, _⟩ := hw'.head (r := rest')
      rw [e3] at e2
      injection e2 with e2
      subst e2
      cases h1
    | @propArrow rest' _ b' hb' h' =>
      have e1 : b ++ ('-' :: '>' :: rest) = b' ++ ('-' :: '>' :: rest') := by simpa using e
      obtain ⟨rfl, e2⟩ := blank_unique hb hb' (noBlank_of rfl) (noBlank_of rfl) e1
      injection e2 with _ e2
      injection e2 with _ e2
      rw [ih h' e2]
    | @propNone rest' _ b' hb' hr' hn' ha' h' =>
      have e1 : b ++ ('-' :: '>' :: rest) = b' ++ rest' := by simpa using e
      obtain ⟨rfl, e2⟩ := blank_unique hb hb' (noBlank_of rfl) (noBlank_starts hr') e1
      subst e2
      exact absurd ⟨_, rfl⟩ ha'
  | @propNone rest _ b hb hr hn ha _ ih =>
    cases h' with
    | @propName rest' _ b' w' hb' hw' he' h' =>
      rw [List.append_assoc] at e
      obtain ⟨rfl, e2⟩ := blank_unique hb hb' (noBlank_starts hr) (noBlank_label hw') e
      subst e2
      exact absurd hn (label_some' hw')
    | @propArrow rest' _ b' hb' h' =>
      have e1 : b ++ rest = b' ++ ('-' :: '>' :: rest') := by simpa using e
      obtain ⟨rfl, e2⟩ := blank_unique hb hb' (noBlank_starts hr) (noBlank_of rfl) e1
      subst e2
      exact absurd ⟨_, rfl⟩ ha
    | @propNone rest' _ b' hb' hr' hn' ha' h' =>
      obtain ⟨rfl, e2⟩ := blank_unique hb hb' (noBlank_starts hr) (noBlank_starts hr') e
      rw [ih h' e2]

end Pico
