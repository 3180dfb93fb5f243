import Verif.Lemmas.LayBody
/-! # The scanners of literals, numbers, comments and variables -/
namespace Pico
open T

/-- Between two tokens of a script. -/
structure Scr (t : Tz) : Prop where
  state : t.st.state = .inScripting
  queue : t.queue = []
  stk : ∀ s ∈ t.st.stack, s = .inScripting ∨ s = .doNothing

theorem Scr.moved {t u : Tz} {r : Text} (h : Scr t) (m : Moved t u r) : Scr u :=
  ⟨m.state.trans h.state, m.queue.trans h.queue, by rw [m.stack]; exact h.stk⟩

/-- What follows belongs to the script. -/
def scriptState (s : LexState) : Prop := s = .inScripting ∨ s = .emitQueue ∨ s = .doNothing

/-- Neither at the end nor inside of a block of a string. -/
def Busy (t : Tz) : Prop := ∀ s ∈ t.st.state :: t.st.stack, s ≠ .doNothing ∧ s ≠ .done

theorem Moved.busy {t u : Tz} {r : Text} (m : Moved t u r) (h : Busy t) : Busy u := by
  unfold Busy
  rw [m.state, m.stack]
  exact h

/-- A piece of a script was read. -/
structure StepP (t : Tz) (x : TokSpan) (t' : Tz) (w b r : Text) : Prop where
  src : At t (w ++ (b ++ r))
  at' : At t' r
  piece : Scrap w (x.tok :: t'.queue.map TokSpan.tok) (b ++ r)
  blank : Blank b
  mode : (x.tok = .k .ObjectOp ∧ t'.queue = [] ∧ t'.st.state = .lookingForProperty ∧ b = []) ∨
    (x.tok ≠ .k .ObjectOp ∧ scriptState t'.st.state)
  stack : t'.queue ≠ [] ∨ x.tok = .k .CurlyBracesOpen ∨ (x.tok = .k .ObjectOp ∧ t'.st.stack = t.st.state :: t.st.stack) ∨
    (x.tok = .k .CurlyBracesClose ∧ t.st.stack = t'.st.state :: t'.st.stack ∧ b = []) ∨
    (x.tok ≠ .k .ObjectOp ∧ x.tok ≠ .k .CurlyBracesClose ∧ t'.st.state = t.st.state ∧ t'.st.stack = t.st.stack)

/-- A piece of a script was read. -/
structure StepM (t : Tz) (x : TokSpan) (t' : Tz) : Prop where
  code : t'.code = t.code
  keep : Busy t → Busy t'
  read : ∃ w b r, StepP t x t' w b r

/-- A token of a script was read. -/
structure StepL (t : Tz) (x : TokSpan) (t' : Tz) : Prop where
  code : t'.code = t.code
  keep : Busy t → Busy t'
  read : (∃ r, At t (c!"?>" ++ r) ∧ At t' r ∧ x.tok = .k .CloseTag ∧ t'.st.state = .initial ∧ t'.queue = []) ∨
    (∃ w b r, StepP t x t' w b r) ∨ (∃ v r, At t (v ++ r) ∧ IsLabel v ∧ endsIdentifier r = true ∧ x.tok = .string v ∧ ascii v = false)

theorem StepM.toL {t : Tz} {x : TokSpan} {t' : Tz} (h : StepM t x t') : StepL t x t' := ⟨h.code, h.keep, .inr (.inl h.read)⟩

/-- The scanner reads a piece, or fails in place for the reason `F`, or gives up. -/
def MatchL (F : Prop) (m : T TokSpan) (t : Tz) : Prop := Twp True True m t (StepM t) (fun e t' => e = .none → t' = t ∧ F)

/-- The text does not stand here. -/
def NotHere (w : Text) (t : Tz) : Prop := ∀ i, At t i → ¬ w <+: i

theorem NotHere.of {w i : Text} {t : Tz} (hi : At t i) (h : ¬ w <+: i) : NotHere w t := fun j hj => by
  rw [← hi.unique hj]; exact h

theorem NotHere.short {w i : Text} {t : Tz} (hi : At t i) (h : byteLen i < byteLen w) : NotHere w t := .of hi fun ⟨r, hr⟩ => by
  subst hr
  rw [byteLen_append] at h
  omega

section
variable {t : Tz}

theorem StepM.plain {x : TokSpan} {t' : Tz} {w r : Text} (hs : Scr t) (hl : Lay t w t' r) (hp : Scrap w [x.tok] r)
    (hx : x.tok ≠ .k .ObjectOp) (hc : x.tok ≠ .k .CurlyBracesClose) : StepM t x t' := by
  have hq : t'.queue = [] := hl.mv.queue.trans hs.queue
  refine ⟨hl.mv.code, hl.mv.busy, w, [], r, hl.src, hl.mv.at', ?_, nofun, .inr ⟨hx, .inl (hl.mv.state.trans hs.state)⟩,
    .inr (.inr (.inr (.inr ⟨hx, hc, hl.mv.state, hl.mv.stack⟩)))⟩
  rw [hq]
  exact hp

theorem bytesToken_ne (bs : List Byte) (k : Kw) : bytesToken bs ≠ .k k := by
  unfold bytesToken; split <;> nofun

/-! ### Single quotes -/

theorem sqString_lay (hs : Scr t) : MatchL (NotHere c!"b'" t) matchSqString t := by
  unfold MatchL matchSqString
  refine Twp.bind (tw_input fun i hi => ?_)
  refine Twp.ite (fun h => fun _ => ⟨rfl, .short hi h⟩) (fun _ => ?_)
  refine Twp.bind (m := getSt) (Twp.of_ok rfl ?_)
  dsimp only
  have body : ∀ p r u, (p = [] ∨ p = c!"b") → Lay t (p ++ c!"'") u r → Twp True True (do
      let bytes ← sqLoop t.st (i.length + 1) []
      let p ← inputPos
      return ⟨bytesToken bytes, mkSpan t.st.srcPos p⟩) u (StepM t) (fun e t' => e = .none → t' = t ∧ NotHere c!"b'" t) := by
    intro p r u hp hl
    refine Twp.bind ((sqLoop_lay t.st (i.length + 1) [] u).cons ?_ (fun _ _ h he => absurd he h))
    rintro bs t' ⟨fs, r', k1, k2, k3⟩
    refine Twp.bind (tw_inputPos ?_)
    have := Scrap.single p fs (bytesToken bs) hp k2 (by rw [k3]; exact bytesTok_of _)
    refine StepM.plain hs (w := p ++ c!"'" ++ fragSrc fs ++ c!"'") ?_ this (bytesToken_ne _ _) (bytesToken_ne _ _)
    have := hl.trans k1
    simpa using this
  refine Twp.ite (fun h => ?_) (fun hp => Twp.ite (fun h => ?_) (fun _ => fun _ => ⟨rfl, .of hi (noPrefix_of hp)⟩))
  · obtain ⟨r, rfl⟩ := startsWith_split h
    refine Twp.bind (tw_advBytes hi rfl fun _ => ?_)
    exact body c!"b" r _ (.inr rfl) (.adv hi)
  · obtain ⟨r, rfl⟩ := startsWith_split h
    refine Twp.bind (tw_advBytes hi rfl fun _ => ?_)
    exact body [] r _ (.inl rfl) (.adv hi)

/-! ### Literals with variables -/

theorem Eff.parts {fs : List Snip} {bs : List Byte} {ps : List TokSpan} (h : Eff [] [] fs bs ps) :
    Parts [] fs (ps.map TokSpan.tok ++ (if bs.isEmpty then [] else [bytesToken bs])) := by
  obtain ⟨mid, h1, h2⟩ := h
  have := h2 [] _ (.nil (textPart_of bs))
  rw [List.append_nil] at this
  rw [h1]
  exact this

theorem strEnd_lay {u : Tz} {r w : Text} {bs : List Byte} {ps : List TokSpan} {fs : List Snip} {st en : TokSpan} (hs : Scr t) (hl : Lay t w u r)
    (he : Eff [] [] fs bs ps) (hp : ∀ ts, Parts [] fs ts → Scrap w (st.tok :: (ts ++ [en.tok])) r) (hx : st.tok ≠ .k .ObjectOp)
    {E : SyntaxErr → Tz → Prop} : Twp True True (returnTokensFromParts st en bs ps) u (StepM t) E := by
  unfold returnTokensFromParts
  show StepM t st _
  have hq : u.queue = [] := hl.mv.queue.trans hs.queue
  refine ⟨hl.mv.code, fun hbz s hs' => ?_, w, [], r, hl.src, hl.mv.at', ?_, nofun, .inr ⟨hx, .inr (.inl rfl)⟩, .inl ?_⟩
  · have hbz := hl.mv.busy hbz
    rcases List.mem_cons.1 hs' with rfl | hs'
    · exact ⟨nofun, nofun⟩
    · exact hbz s hs'
  · have := hp _ he.parts
    rw [hq]
    dsimp only
    cases bs with
    | nil => simpa using this
    | cons b bs => simpa using this
  · dsimp only
    cases bs with
    | nil => simp
    | cons b bs => simp

theorem dqString_lay {next : T TokSpan} (bfuel : Nat) (hs : Scr t) (hb : BlkOk next bfuel t) : MatchL (NotHere c!"b\"" t) (matchDqString next bfuel) t := by
  unfold MatchL matchDqString
  refine Twp.bind (tw_input fun i hi => ?_)
  refine Twp.ite (fun h => fun _ => ⟨rfl, .short hi h⟩) (fun _ => ?_)
  refine Twp.bind (m := getSt) (Twp.of_ok rfl ?_)
  dsimp only
  have body : ∀ p r u, (p = [] ∨ p = c!"b") → Lay t (p ++ c!"\"") u r → Twp True True (do
      let (bytes, parts) ← dqLoop next bfuel t.st (i.length + 1) [] []
      let cur ← inputPos
      let c1 ← subT cur 1
      returnTokensFromParts ⟨.k .DoubleQuote, mkSpan t.st.srcPos (t.st.srcPos + 1)⟩
        ⟨.k .DoubleQuote, mkSpan c1 cur⟩ bytes parts) u (StepM t) (fun e t' => e = .none → t' = t ∧ NotHere c!"b\"" t) := by
    intro p r u hp hl
    refine Twp.bind ((dqLoop_lay bfuel t.st (i.length + 1) [] [] u (hb.moved hl.mv)).cons ?_ (fun _ _ h he => absurd he h))
    rintro ⟨bs, ps⟩ t' ⟨fs, r', k1, k2, k3⟩
    refine Twp.bind (tw_inputPos ?_)
    refine Twp.bind (tw_subT fun _ => ?_)
    refine strEnd_lay hs (w := p ++ c!"\"" ++ fragSrc fs ++ c!"\"") (by have := hl.trans k1; simpa using this) k3 (fun ts hts => ?_) (by intro h; cases h)
    exact Scrap.quoted p fs ts hp k2 hts
  refine Twp.ite (fun h => ?_) (fun hp => Twp.ite (fun h => ?_) (fun _ => fun _ => ⟨rfl, .of hi (noPrefix_of hp)⟩))
  · obtain ⟨r, rfl⟩ := startsWith_split h
    refine Twp.bind (tw_advBytes hi rfl fun _ => ?_)
    exact body c!"b" r _ (.inr rfl) (.adv hi)
  · obtain ⟨r, rfl⟩ := startsWith_split h
    refine Twp.bind (tw_advBytes hi rfl fun _ => ?_)
    exact body [] r _ (.inl rfl) (.adv hi)

theorem backquote_lay {next : T TokSpan} (bfuel : Nat) (hs : Scr t) (hb : BlkOk next bfuel t) : MatchL True (matchBackquote next bfuel) t := by
  unfold MatchL matchBackquote
  refine Twp.bind (tw_input fun i hi => ?_)
  refine Twp.ite (fun _ => fun _ => ⟨rfl, trivial⟩) (fun _ => ?_)
  refine Twp.ite (fun h => ?_) (fun _ => fun _ => ⟨rfl, trivial⟩)
  obtain ⟨r, rfl⟩ := startsWith_split h
  refine Twp.bind (m := getSt) (Twp.of_ok rfl ?_)
  refine Twp.bind (tw_advBytes hi rfl fun _ => ?_)
  have hl := Lay.adv hi
  refine Twp.bind ((bqLoop_lay bfuel t.st _ [] [] (t.adv (byteLen c!"`")) (hb.moved hl.mv)).cons ?_ (fun _ _ h he => absurd he h))
  rintro ⟨bs, ps⟩ t' ⟨⟨fs, r', k1, k2, k3⟩, k4⟩
  obtain rfl := k1.left k4
  refine Twp.bind (tw_inputPos ?_)
  refine Twp.bind (tw_subT fun _ => ?_)
  refine strEnd_lay hs (w := c!"`" ++ fragSrc fs ++ c!"`") (by have := hl.trans k1; simpa using this) k3 (fun ts hts => ?_) (by intro h; cases h)
  exact Scrap.back fs ts k2 hts

/-! ### Documents -/

theorem noIdentifier_head {c : Char} {r : Text} (h : noIdentifier (c :: r)) : (isLabelChar c && !inRange '0' '9' c) = false := by
  rcases h with h | ⟨d, q, h, hd⟩
  · rw [endsIdentifier_head h c rfl]; rfl
  · cases h
    rw [isDigit_iff] at hd
    rw [hd]; simp

/-- A text is read up to the first character without the property in one way only. -/
theorem run_unique {p : Char → Prop} {a a' b b' : Text} (ha : ∀ c ∈ a, p c) (ha' : ∀ c ∈ a', p c)
    (hb : ∀ c, b.head? = some c → ¬ p c) (hb' : ∀ c, b'.head? = some c → ¬ p c) (h : a ++ b = a' ++ b') : a = a' ∧ b = b' := by
  induction a generalizing a' with
  | nil =>
    cases a' with
    | nil => exact ⟨rfl, h⟩
    | cons c a' =>
      refine absurd (ha' c (by simp)) (hb c ?_)
      have : b = c :: (a' ++ b') := h
      rw [this]; rfl
  | cons c a ih =>
    cases a' with
    | nil =>
      refine absurd (ha c (by simp)) (hb' c ?_)
      have : b' = c :: (a ++ b) := h.symm
      rw [this]; rfl
    | cons c' a' =>
      simp only [List.cons_append, List.cons.injEq] at h
      obtain ⟨rfl, h⟩ := h
      obtain ⟨rfl, rfl⟩ := ih (fun c hc => ha c (by simp [hc])) (fun c hc => ha' c (by simp [hc])) h
      exact ⟨rfl, rfl⟩

/-- The rest of the first line of a document, behind the quote `q`. -/
def DocTail (q r : Text) : Prop :=
  ∃ tag nl r', r = tag ++ (q ++ (nl ++ r')) ∧ IsLabel tag ∧ (nl.head? = some '\n' ∨ nl.head? = some '\r')

/-- The first line of a document, behind `<<<`. -/
def DocHead (r : Text) : Prop :=
  ∃ b q s, r = b ++ (q ++ s) ∧ Spaces b ∧ (q = [] ∨ q = c!"'" ∨ q = c!"\"") ∧ DocTail q s

theorem Newline.head {nl r : Text} (h : Newline nl r) : nl.head? = some '\n' ∨ nl.head? = some '\r' := by
  rcases h with rfl | rfl | ⟨rfl, _⟩
  · exact .inl rfl
  · exact .inr rfl
  · exact .inr rfl

theorem docAhead_head {n : Nat} {s : Text} (h : DocAhead n s) : ∃ r, s = c!"<<<" ++ r ∧ DocHead r := by
  obtain ⟨_, b, q, tag, nl, r, rfl, hb, hq, ht, hn⟩ := h
  refine ⟨b ++ (q ++ (tag ++ (q ++ (nl ++ r)))), by simp, b, q, _, rfl, hb, hq, tag, nl, r, rfl, ht, ?_⟩
  rcases hn with rfl | rfl
  · exact .inl rfl
  · exact .inr rfl

theorem docAhead_len {n : Nat} {s : Text} (h : DocAhead n s) : n ≤ byteLen s := by
  have := h.1
  rwa [utf8_eq, encode_length] at this

theorem Doc.len {w r : Text} {ks : List Token} (h : Doc w ks r) : 8 ≤ (w ++ r).length := by
  have lab : ∀ {tag}, IsLabel tag → 1 ≤ tag.length := fun {tag} h => by
    have := List.length_pos_iff.2 h.1
    omega
  have nl : ∀ {nl r}, Newline nl r → 1 ≤ nl.length := fun {nl r} h => by
    cases nl with
    | nil => rcases h.head with h | h <;> cases h
    | cons c nl => simp
  cases h with
  | here b q tag nl' fs ts hb hq ht hn _ _ he =>
    obtain ⟨s, n2, r2, rfl, _, hn2⟩ := he
    have := nl hn2
    have := lab ht
    have := nl hn
    simp only [List.length_append, List.length_cons, List.length_nil]
    omega
  | now b tag nl' fs k hb ht hn _ _ he =>
    obtain ⟨s, n2, r2, rfl, _, hn2⟩ := he
    have := nl hn2
    have := lab ht
    have := nl hn
    simp only [List.length_append, List.length_cons, List.length_nil]
    omega

theorem Newline.split {nl r : Text} (h : Newline nl r) : ∃ n s, nl = n ++ s ∧ (n = c!"\n" ∨ n = c!"\r") := by
  rcases h with rfl | rfl | ⟨rfl, _⟩
  · exact ⟨_, [], rfl, .inl rfl⟩
  · exact ⟨c!"\r", c!"\n", rfl, .inr rfl⟩
  · exact ⟨_, [], rfl, .inr rfl⟩

theorem Doc.ahead {w r : Text} {ks : List Token} (h : Doc w ks r) {n : Nat} (hn : n ≤ 8) : DocAhead n (w ++ r) := by
  refine ⟨?_, ?_⟩
  · rw [utf8_eq, encode_length]
    have := length_le_byteLen (w ++ r)
    have := h.len
    omega
  · cases h with
    | here b q tag nl fs ts hb hq ht hn _ _ _ =>
      obtain ⟨n, s, rfl, h⟩ := hn.split
      exact ⟨b, q, tag, n, s ++ fragSrc fs ++ c!"\n" ++ tag ++ r, by simp, hb, hq.imp id .inr, ht, h⟩
    | now b tag nl fs k hb ht hn _ _ _ =>
      obtain ⟨n, s, rfl, h⟩ := hn.split
      exact ⟨b, c!"'", tag, n, s ++ fragSrc fs ++ c!"\n" ++ tag ++ r, by simp, hb, .inr (.inl rfl), ht, h⟩

theorem IsLabel.head {w r : Text} (h : IsLabel w) : ∃ c s, w ++ r = c :: s ∧ isLabelChar c = true ∧ inRange '0' '9' c = false := by
  cases hw : w with
  | nil => exact absurd hw h.1
  | cons c w' =>
    subst hw
    exact ⟨c, w' ++ r, rfl, h.lab c (by simp), by rw [← isDigit_iff]; exact h.2.1 c rfl⟩

theorem DocTail.label {q r : Text} (h : DocTail q r) : ¬ noIdentifier r := by
  obtain ⟨tag, nl, r', rfl, ht, _⟩ := h
  obtain ⟨c, s, e, h1, h2⟩ := ht.head (r := q ++ (nl ++ r'))
  rw [e]
  intro h
  have := noIdentifier_head h
  rw [h1, h2] at this
  cases this

theorem DocTail.rest {q tag r : Text} (h : DocTail q (tag ++ r)) (ht : IsLabel tag) (hr : endsIdentifier r = true)
    (hq : q = [] ∨ q = c!"'" ∨ q = c!"\"") :
    ∃ nl r', r = q ++ (nl ++ r') ∧ (nl.head? = some '\n' ∨ nl.head? = some '\r') := by
  obtain ⟨tag', nl, r', e, ht', hn⟩ := h
  have := run_unique (p := fun c => isLabelChar c = true) ht.lab ht'.lab (fun c hc => by rw [endsIdentifier_head hr c hc]; nofun) ?_ e
  · exact ⟨nl, r', this.2, hn⟩
  · intro c hc
    rcases hq with rfl | rfl | rfl
    · cases nl with
      | nil => rcases hn with h | h <;> cases h
      | cons d nl =>
        simp only [List.nil_append, List.cons_append, List.head?_cons, Option.some.injEq] at hc hn
        subst hc
        rcases hn with rfl | rfl <;> decide
    · cases hc; decide
    · cases hc; decide

/-- The quote the scanner takes. -/
def QuoteOf (q r s : Text) : Prop :=
  r = q ++ s ∧ (q = c!"'" ∨ q = c!"\"" ∨ q = [] ∧ ¬ c!"'" <+: r ∧ ¬ c!"\"" <+: r)

theorem DocHead.tail {b q r s : Text} (h : DocHead (b ++ r)) (hb : Spaces b) (hr : (r.head?.map isGap).getD false = false) (hq : QuoteOf q r s) :
    DocTail q s := by
  obtain ⟨b', q', s', e, hb', hq', ht⟩ := h
  have gap : ∀ {b : Text}, Spaces b → ∀ c ∈ b, isGap c = true := fun {b} h c hc => by
    rcases h c hc with rfl | rfl <;> rfl
  have hlab : ∀ c, s'.head? = some c → isLabelChar c = true := by
    intro c hc
    obtain ⟨tag, nl, r', rfl, ht, _⟩ := ht
    obtain ⟨d, s, e, h1, h2⟩ := ht.head (r := q' ++ (nl ++ r'))
    rw [e] at hc
    cases hc
    exact h1
  have := run_unique (p := fun c => isGap c = true) (gap hb) (gap hb') ?_ ?_ e
  · obtain ⟨rfl, rfl⟩ := this
    obtain ⟨e1, h1⟩ := hq
    have e2 : q = q' := by
      rcases h1 with rfl | rfl | ⟨rfl, h1, h2⟩
      · rcases hq' with rfl | rfl | rfl
        · have := hlab '\'' (by simpa using congrArg List.head? e1)
          cases this
        · rfl
        · cases e1
      · rcases hq' with rfl | rfl | rfl
        · have := hlab '"' (by simpa using congrArg List.head? e1)
          cases this
        · cases e1
        · rfl
      · rcases hq' with rfl | rfl | rfl
        · rfl
        · exact absurd (List.prefix_append _ _) h1
        · exact absurd (List.prefix_append _ _) h2
    subst e2
    have := List.append_cancel_left e1
    subst this
    exact ht
  · intro c hc h
    rw [hc] at hr
    simp only [Option.map_some, Option.getD_some] at hr
    rw [hr] at h
    cases h
  · intro c hc h
    rcases hq' with rfl | rfl | rfl
    · have := hlab c hc
      have : c = ' ' ∨ c = '\t' := by simpa [isGap] using h
      rcases this with rfl | rfl <;> cases hlab _ hc
    · cases hc; cases h
    · cases hc; cases h

theorem whitespaceOnly_lay {E : SyntaxErr → Tz → Prop} :
    Twp True True whitespaceOnly t (fun _ t' => ∃ w r, Spaces w ∧ (r.head?.map isGap).getD false = false ∧ Lay t w t' r) E := by
  unfold Twp
  cases hd : dropBytes t.code t.st.srcPos with
  | none =>
    have : whitespaceOnly t = .panic .charBoundary := by
      unfold whitespaceOnly
      exact bind_panic (by unfold input; rw [hd])
    rw [this]
    exact fun _ => trivial
  | some i =>
    obtain ⟨w, r, rfl, hw, hr⟩ := gap_split i
    have hi : At t (w ++ r) := hd
    rw [whitespaceOnly_at hi hw hr]
    refine ⟨w, r, fun c hc => ?_, hr, .adv hi⟩
    rw [List.all_eq_true] at hw
    have := hw c hc
    simpa [isGap] using this

theorem Lay.restore {t u : Tz} {w r : Text} (h : Lay t w u r) : ({ u with st := t.st } : Tz) = t := by
  have h1 := h.mv.code
  have h2 := h.mv.queue
  cases u; cases t
  simp_all

theorem docBody_lay {next : T TokSpan} (bfuel : Nat) (now : Bool) (tag : Text) {u : Tz} {w r : Text} (hs : Scr t) (hb : BlkOk next bfuel t)
    (hl : Lay t w u r)
    (hnow : now = true → ∀ fs k r', r = fragSrc fs ++ (c!"\n" ++ tag) ++ r' → FragsOk (.now tag) fs (c!"\n" ++ tag ++ r') →
      BytesTok (fragBytes fs) k → EndsDoc r' →
      Scrap (w ++ (fragSrc fs ++ (c!"\n" ++ tag))) [k] r')
    (hhere : now = false → ∀ fs ts r', r = fragSrc fs ++ (c!"\n" ++ tag) ++ r' → FragsOk (.here tag) fs (c!"\n" ++ tag ++ r') →
      Parts [] fs ts → EndsDoc r' →
      Scrap (w ++ (fragSrc fs ++ (c!"\n" ++ tag))) (.k .HereDocStart :: (ts ++ [.k .HereDocEnd])) r') :
    Twp True True (docBody next bfuel t.st now tag) u (StepM t) (fun e _ => e ≠ .none) := by
  unfold docBody
  refine Twp.bind (tw_input fun i hi => ?_)
  refine Twp.bind ((docLoop_lay bfuel t.st now tag _ [] [] u (hb.moved hl.mv)).cons ?_ (fun _ _ h => h))
  rintro ⟨bs, ps⟩ t' ⟨fs, r', k1, k2, k3, k4, k5⟩
  have hr := hl.left k1.src
  refine Twp.bind (tw_inputPos ?_)
  cases now with
  | true =>
    refine Twp.ite (fun _ => ?_) (fun h => absurd rfl h)
    refine Twp.ite (fun _ => ?_) (fun _ => Twp.abort fun _ => trivial)
    have := k4 rfl
    simp only [Prod.mk.injEq] at this
    exact StepM.plain hs (hl.trans k1) (hnow rfl fs _ r' hr k2 (by rw [this.1]; exact bytesTok_of _) k5) (bytesToken_ne _ _) (bytesToken_ne _ _)
  | false =>
    refine Twp.ite (fun h => by cases h) (fun _ => ?_)
    refine Twp.bind (tw_subT fun _ => ?_)
    exact strEnd_lay hs (hl.trans k1) k3 (fun ts hts => hhere rfl fs ts r' hr k2 hts k5) (by intro h; cases h)

theorem newline_more {nl r s x : Text} (h : r = s ++ (c!"\n" ++ x) ++ y) (hn : Newline nl r) : Newline nl (s ++ c!"\n") := by
  refine hn.imp id (Or.imp id fun ⟨h1, h2⟩ => ⟨h1, fun ⟨q, hq⟩ => h2 ?_⟩)
  refine ⟨q ++ x ++ y, ?_⟩
  rw [h, ← List.append_assoc s, ← hq]
  simp

theorem docHeader_lay {next : T TokSpan} (bfuel : Nat) {u : Tz} {p r : Text} (hs : Scr t) (hb : BlkOk next bfuel t)
    (hp : p = [] ∨ p = c!"b") (hl : Lay t (p ++ c!"<<<") u r) :
    Twp True True (docHeader next bfuel t.st) u (StepM t) (fun e t' => e = .none → t' = t ∧ ¬ DocHead r) := by
  unfold docHeader
  refine Twp.bind (whitespaceOnly_lay.cons ?_ (fun _ _ h => h))
  rintro _ u1 ⟨b, r1, hbl, hg1, hl1⟩
  obtain rfl := hl.left hl1.src
  have hl1 := hl.trans hl1
  have h1 := hl1.mv.at'
  refine Twp.bind (Twp.of_ok (input_at h1) ?_)
  have quit : ∀ {v : Tz} {w r : Text}, Lay t w v r → ¬ DocHead (b ++ r1) → Twp True True (do
      setSt t.st
      fail .none : T TokSpan) v (StepM t) (fun e t' => e = .none → t' = t ∧ ¬ DocHead (b ++ r1)) := by
    intro v w r h hn
    refine Twp.bind (m := setSt _) (Twp.of_ok rfl ?_)
    exact fun _ => ⟨h.restore, hn⟩
  refine Twp.bind (Twp.cons (E' := fun _ _ => False)
    (Q' := fun ty u2 => ∃ q r2, (ty = DocType.nowDoc ∧ q = c!"'" ∨ ty = .hereDocEncapsed ∧ q = c!"\"" ∨ ty = .hereDoc ∧ q = []) ∧ QuoteOf q r1 r2 ∧ Lay u1 q u2 r2) ?_ ?_ (fun _ _ h => h.elim))
  · refine Twp.ite (fun h => ?_) (fun n1 => Twp.ite (fun h => ?_) (fun n2 => ?_))
    · obtain ⟨r, rfl⟩ := startsWith_split h
      exact Twp.bind (tw_advBytes h1 rfl fun _ => ⟨_, r, .inl ⟨rfl, rfl⟩, ⟨rfl, .inl rfl⟩, .adv h1⟩)
    · obtain ⟨r, rfl⟩ := startsWith_split h
      exact Twp.bind (tw_advBytes h1 rfl fun _ => ⟨_, r, .inr (.inl ⟨rfl, rfl⟩), ⟨rfl, .inr (.inl rfl)⟩, .adv h1⟩)
    · exact ⟨_, r1, .inr (.inr ⟨rfl, rfl⟩), ⟨rfl, .inr (.inr ⟨rfl, noPrefix_of n1, noPrefix_of n2⟩)⟩, .refl h1⟩
  · rintro ty u2 ⟨q, r2, hty, hqo, hl2⟩
    have hl2 := hl1.trans hl2
    refine Twp.bind (label_lay hl2.mv.at' (fun hno => quit hl2 fun h => (h.tail hbl hg1 hqo).label hno) ?_)
    rintro tag r3 rfl hlab hends hl3
    have hrest : DocHead (b ++ r1) → ∃ nl r', r3 = q ++ (nl ++ r') ∧ (nl.head? = some '\n' ∨ nl.head? = some '\r') :=
      fun h => (h.tail hbl hg1 hqo).rest hlab hends (by
        rcases hqo.2 with h | h | h
        · exact .inr (.inl h)
        · exact .inr (.inr h)
        · exact .inl h.1)
    have hl3 := hl2.trans hl3
    dsimp only
    refine Twp.bind (Twp.of_ok (input_at hl3.mv.at') ?_)
    have key : Twp True True (do
        if startsWith r3 q then
          let _ ← advanceBytes (byteLen q)
          if ← newline then docBody next bfuel t.st (ty == .nowDoc) tag
          else
            setSt t.st
            fail .none
        else
          setSt t.st
          fail .none) (u2.adv (byteLen tag)) (StepM t) (fun e t' => e = .none → t' = t ∧ ¬ DocHead (b ++ r1)) := ?_
    · rcases hty with ⟨rfl, rfl⟩ | ⟨rfl, rfl⟩ | ⟨rfl, rfl⟩ <;> exact key
    refine Twp.ite (fun h => ?_) (fun hq => quit hl3 fun h => ?_)
    rotate_left
    · obtain ⟨nl, r', rfl, _⟩ := hrest h
      exact hq (startsWith_append _ _)
    obtain ⟨r4, rfl⟩ := startsWith_split h
    refine Twp.bind (tw_advBytes hl3.mv.at' rfl fun _ => ?_)
    have hl4 := hl3.trans (.adv hl3.mv.at')
    refine Twp.bind ((newline_lay hl4.mv.at').cons ?_ (fun _ _ h => h))
    rintro bb u5 ⟨hbb, hnn, hc5, hq5⟩
    cases bb with
    | false =>
      refine Twp.ite (fun h => by cases h) (fun _ => ?_)
      refine Twp.bind (m := setSt _) (Twp.of_ok rfl ?_)
      intro _
      have e1 : u5.code = t.code := hc5.trans hl4.mv.code
      have e2 : u5.queue = t.queue := hq5.trans hl4.mv.queue
      refine ⟨?_, fun h => ?_⟩
      · clear hrest quit
        cases u5; cases t
        simp_all
      · obtain ⟨nl, r', e, hnl⟩ := hrest h
        have := List.append_cancel_left e
        subst this
        have := hnn rfl
        cases nl with
        | nil => rcases hnl with h | h <;> cases h
        | cons c nl =>
          rcases hnl with h | h <;> cases h
          · exact this.1 ⟨nl ++ r', rfl⟩
          · exact this.2 ⟨nl ++ r', rfl⟩
    | true =>
      refine Twp.ite (fun _ => ?_) (fun h => absurd rfl h)
      obtain ⟨nl, r5, hnl, hl5⟩ := hbb rfl
      refine (docBody_lay bfuel _ tag hs hb (hl4.trans hl5) ?_ ?_).cons (fun _ _ h => h) (fun _ _ h he => absurd he h)
      · intro hn fs k r' hr h1 h2 h3
        rcases hty with ⟨rfl, rfl⟩ | ⟨rfl, rfl⟩ | ⟨rfl, rfl⟩
        · simpa using Scrap.doc p _ _ hp (.now b tag nl fs k hbl hlab (newline_more hr hnl) h1 h2 h3)
        · cases hn
        · cases hn
      · intro hn fs ts r' hr h1 h2 h3
        rcases hty with ⟨rfl, rfl⟩ | ⟨rfl, rfl⟩ | ⟨rfl, rfl⟩
        · cases hn
        · simpa using Scrap.doc p _ _ hp (.here b _ tag nl fs ts hbl (.inr rfl) hlab (newline_more hr hnl) h1 h2 h3)
        · simpa using Scrap.doc p _ _ hp (.here b _ tag nl fs ts hbl (.inl rfl) hlab (newline_more hr hnl) h1 h2 h3)

/-- No document begins here, with or without `b` in front. -/
def NoDocAt (t : Tz) : Prop := ∀ i, At t i → ¬ DocAhead 8 i ∧ ∀ r, i = 'b' :: r → ¬ DocAhead 7 r

theorem hereNowDoc_lay {next : T TokSpan} (bfuel : Nat) (hs : Scr t) (hb : BlkOk next bfuel t) :
    MatchL (NoDocAt t) (matchHereNowDoc next bfuel) t := by
  unfold MatchL matchHereNowDoc
  refine Twp.bind (tw_input fun i hi => ?_)
  have no : (¬ DocAhead 8 i ∧ ∀ r, i = 'b' :: r → ¬ DocAhead 7 r) → NoDocAt t := fun h j hj => by
    rw [← hi.unique hj]; exact h
  refine Twp.ite (fun h8 => fun _ => ⟨rfl, no ⟨fun h => ?_, fun r e h => ?_⟩⟩) (fun _ => ?_)
  · have := docAhead_len h
    omega
  · subst e
    have := docAhead_len h
    have : byteLen ('b' :: r) = 1 + byteLen r := byteLen_append c!"b" r
    omega
  refine Twp.bind (m := getSt) (Twp.of_ok rfl ?_)
  refine Twp.ite (fun h => ?_) (fun n1 => Twp.ite (fun h => ?_) (fun n2 => fun _ => ⟨rfl, no ⟨fun h => ?_, fun r e h => ?_⟩⟩))
  · obtain ⟨r, rfl⟩ := startsWith_split h
    refine Twp.bind (tw_advBytes hi rfl fun _ => ?_)
    refine (docHeader_lay bfuel (p := c!"b") hs hb (.inr rfl) (.adv hi)).cons (fun _ _ h => h) (fun e t' h he => ⟨(h he).1, no ⟨fun h' => ?_, fun r' e' h' => ?_⟩⟩)
    · obtain ⟨r, e, _⟩ := docAhead_head h'
      cases e
    · cases e'
      obtain ⟨q, e, hd⟩ := docAhead_head h'
      have := List.append_cancel_left (as := c!"<<<") e
      subst this
      exact (h he).2 hd
  · obtain ⟨r, rfl⟩ := startsWith_split h
    refine Twp.bind (tw_advBytes hi rfl fun _ => ?_)
    refine (docHeader_lay bfuel (p := []) hs hb (.inl rfl) (.adv hi)).cons (fun _ _ h => h) (fun e t' h he => ⟨(h he).1, no ⟨fun h' => ?_, fun r' e' h' => ?_⟩⟩)
    · obtain ⟨q, e, hd⟩ := docAhead_head h'
      have := List.append_cancel_left (as := c!"<<<") e
      subst this
      exact (h he).2 hd
    · cases e'
  · obtain ⟨q, rfl, _⟩ := docAhead_head h
    exact n2 (startsWith_append _ _)
  · subst e
    obtain ⟨q, rfl, _⟩ := docAhead_head h
    exact n1 (startsWith_append c!"b<<<" q)

end
end Pico
