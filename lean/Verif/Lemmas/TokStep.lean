import Verif.Lemmas.TokInv
/-!
# Keywords, operators and identifiers: what one step in the scripting state does
-/
namespace Pico
open T

/-- A token read at or behind the byte `p` does not start at the very beginning of the source. -/
structure Late (p : Nat) (x : TokSpan) : Prop where
  two : 2 ≤ p → isNumber x.tok = false → 2 ≤ x.span.start
  three : 3 ≤ p → x.tok = .k .CurlyBracesOpen → 3 ≤ x.span.start

theorem Late.of {p : Nat} {x : TokSpan} (h : isNumber x.tok = false → p ≤ x.span.start) : Late p x :=
  ⟨fun hp hn => Nat.le_trans hp (h hn), fun hp hk => Nat.le_trans hp (h (by rw [hk]; rfl))⟩

theorem Late.mono {p q : Nat} {x : TokSpan} (h : Late q x) (hpq : p ≤ q) : Late p x :=
  ⟨fun hp => h.two (Nat.le_trans hp hpq), fun hp => h.three (Nat.le_trans hp hpq)⟩

theorem Late.any {p : Nat} {x : TokSpan} (h : Late 3 x) : Late p x :=
  ⟨fun _ => h.two (by decide), fun _ => h.three (by decide)⟩

/-- A token other than `{` that starts behind the first two bytes. -/
theorem Late.at2 {a b : Nat} {k : Token} (ha : 2 ≤ a) (hk : k ≠ .k .CurlyBracesOpen) : Late 3 ⟨k, mkSpan a b⟩ :=
  ⟨fun _ _ => ha, fun _ h => absurd h hk⟩

/-- A token queued inside a string. -/
structure QOk (code : Text) (y : TokSpan) : Prop where
  tp : TokP code y
  nb : HasBlock code ∨ isBrace y.tok = false
  late : Late 3 y

/-- How a token read in the scripting state changes lexical state, stack and queue. -/
inductive SMove (t : Tz) (x : TokSpan) (t' : Tz) : Prop
  | keep (hb : isBrace x.tok = false) (hs : t'.st.state = t.st.state) (hk : t'.st.stack = t.st.stack)
      (hq : t'.queue = t.queue)
  | tag (hb : isBrace x.tok = false) (hs : t'.st.state = .initial) (hk : t'.st.stack = t.st.stack)
      (hq : t'.queue = t.queue)
  | arrow (hb : isBrace x.tok = false) (hs : t'.st.state = .lookingForProperty)
      (hk : t'.st.stack = t.st.state :: t.st.stack) (hq : t'.queue = t.queue)
  | curly (hb : x.tok = .k .CurlyBracesOpen) (hs : t'.st.state = .inScripting)
      (hk : t'.st.stack = t.st.state :: t.st.stack) (hq : t'.queue = t.queue)
  | close (hb : x.tok = .k .CurlyBracesClose) (hk : t.st.stack = t'.st.state :: t'.st.stack)
      (hq : t'.queue = t.queue)
  | str (hb : isBrace x.tok = false) (hs : t'.st.state = .emitQueue)
      (hk : t'.st.stack = t.st.state :: t.st.stack) (q : List TokSpan) (hq : t'.queue = q ++ t.queue)
      (hQ : ∀ y ∈ q, QOk t.code y) (hasq : HasQuote t.code)

/-- A keyword or operator was read. -/
structure Other (t : Tz) (x : TokSpan) (t' : Tz) : Prop where
  code : t'.code = t.code
  le : t.st.srcPos ≤ t'.st.srcPos
  lg : LG t'
  prog : x.tok = .k .End ∨ t.st.srcPos < t'.st.srcPos
  start : t.st.srcPos ≤ x.span.start ∧ x.span.start ≤ x.span.stop
  stop : x.span.stop = t'.st.srcPos
  spelled : ranged x.tok = true → StandsIn t.code x
  word : isWord x.tok = false ∧ isNumber x.tok = false
  mv : SMove t x t'
  lab : ∀ c r, At t (c :: r) → isLabelChar c = true →
    t'.st.state = t.st.state ∧ t'.st.stack = t.st.stack ∧ t'.queue = t.queue

/-- Nothing matched. -/
def NoMatch (t : Tz) (e : SyntaxErr) (t' : Tz) : Prop := e = .none ∧ t' = t

section
variable {U B : Prop} {t : Tz}

theorem act_wp (a : Act) (hU : a = .pop → t.st.stack = [] → U) {E : SyntaxErr → Tz → Prop} :
    Twp U B a.run t (fun _ t' => a.eff t = some t') E := by
  cases ha : a.eff t with
  | some t' => exact Twp.of_ok (Act.run_eff ha) rfl
  | none =>
    cases a with
    | keep => cases ha
    | set s => cases ha
    | push s => cases ha
    | pop =>
      simp only [Act.eff] at ha
      cases hs : t.st.stack with
      | cons x xs => rw [hs] at ha; cases ha
      | nil =>
        refine Twp.of_panic (p := .unreachable) ?_ (fun _ => hU rfl hs)
        show popState t = _
        unfold popState
        tstep (t.st) t
        rw [hs]
        rfl

/-- The entries of the tables. -/
def goodEntry (e : Entry) : Bool :=
  !e.text.isEmpty && (e.act == .keep || match e.text with
    | [] => false
    | c :: _ => !isLabelChar (lowerAscii c)) &&
  ((e.act == .keep && !isBrace (.k e.kw)) || (e.act == .set .initial && !isBrace (.k e.kw)) ||
    (e.act == .push .lookingForProperty && !isBrace (.k e.kw)) ||
    (e.act == .push .inScripting && e.kw == .CurlyBracesOpen) || (e.act == .pop && e.kw == .CurlyBracesClose)) &&
  (reservedWords.contains (e.text.map lowerAscii, e.kw) || symbols.contains (e.text.map lowerAscii, e.kw) ||
    tagTexts.contains (e.text.map lowerAscii, e.kw) || rareSymbols.contains (e.text.map lowerAscii, e.kw)) && byteLen e.text == byteLen (e.text.map lowerAscii)

theorem goodEntry.written {e : Entry} (h : goodEntry e = true) : WrittenAs (.k e.kw) (e.text.map lowerAscii) := by
  simp only [goodEntry, Bool.and_eq_true, Bool.or_eq_true, List.contains_iff_mem] at h
  rcases h.1.2 with ((h | h) | h) | h
  · exact .word h
  · exact .symbol h
  · exact .tag h
  · exact .rare h

theorem other_of_act {e : Entry} (hg : goodEntry e = true) (h : LG t) (hs : Same t (t.adv (byteLen e.text))) {t' : Tz} {i : Text}
    (hi : At t i) (hm : startsWithCi i e.text = true)
    (ha : e.act.eff (t.adv (byteLen e.text)) = some t') (d : Option Text) :
    Other t ⟨.k e.kw, { mkSpan t.st.srcPos (t.adv (byteLen e.text)).st.srcPos with doc := d }⟩ t' := by
  have hc := hs.calm h
  have hwr := goodEntry.written hg
  simp only [goodEntry, Bool.and_eq_true, Bool.or_eq_true, beq_iff_eq, Bool.not_eq_true'] at hg
  obtain ⟨⟨⟨⟨hne, hlab⟩, hg⟩, _⟩, hll⟩ := hg
  have hlen : 0 < byteLen e.text := by
    apply byteLen_pos
    intro h0
    rw [h0] at hne
    cases hne
  have hpos := Act.eff_pos ha
  have hmain : t'.code = t.code ∧ LG t' ∧ SMove t ⟨.k e.kw, { mkSpan t.st.srcPos (t.adv (byteLen e.text)).st.srcPos with doc := d }⟩ t' := by
    rcases hg with (((⟨h1, h2⟩ | ⟨h1, h2⟩) | ⟨h1, h2⟩) | ⟨h1, h2⟩) | ⟨h1, h2⟩ <;> rw [h1] at ha
    · cases ha
      exact ⟨rfl, hc.lg, .keep h2 rfl rfl rfl⟩
    · cases ha
      exact ⟨rfl, ⟨hc.lg.pos, hc.lg.lines, hc.lg.fin⟩, .tag h2 rfl rfl rfl⟩
    · cases ha
      exact ⟨rfl, ⟨hc.lg.pos, hc.lg.lines, hc.lg.fin⟩, .arrow h2 rfl rfl rfl⟩
    · cases ha
      exact ⟨rfl, ⟨hc.lg.pos, hc.lg.lines, hc.lg.fin⟩, .curly (by rw [h2]) rfl rfl rfl⟩
    · simp only [Act.eff] at ha
      cases hk : (t.adv (byteLen e.text)).st.stack with
      | nil => rw [hk] at ha; cases ha
      | cons y ys =>
        rw [hk] at ha
        cases ha
        exact ⟨rfl, ⟨hc.lg.pos, hc.lg.lines, hc.lg.fin⟩, .close (by rw [h2]) hk rfl⟩
  obtain ⟨m1, m2, m3⟩ := hmain
  simp only [Tz.adv_pos] at hpos
  refine ⟨m1, by omega, m2, .inr (by omega), ⟨Nat.le_refl _, ?_⟩, ?_, fun _ => ?_, ⟨rfl, rfl⟩, m3, ?_⟩
  · show t.st.srcPos ≤ t.st.srcPos + byteLen e.text; omega
  · exact hpos.symm
  · obtain ⟨r', hr', _⟩ := startsWithCi_split hm
    rw [hr'] at hi
    exact hi.stands0 hwr rfl (by simp only [Tz.adv_pos, mkSpan]; omega)
  · intro c r hc hl
    rcases hlab with hk | hlab
    · rw [hk] at ha; cases ha; exact ⟨rfl, rfl, rfl⟩
    · have := hi.unique hc
      subst this
      obtain ⟨r', hr', _⟩ := startsWithCi_split hm
      cases ht : e.text with
      | nil => rw [ht] at hlab; cases hlab
      | cons d ds =>
        rw [ht] at hlab hr'
        injection hr' with h1 _
        simp only at hlab
        rw [← h1, hl] at hlab
        cases hlab

theorem matchTok_wp (e : Entry) (hg : goodEntry e = true) (h : LG t) (hU : e.act = .pop → t.st.stack = [] → U) :
    Twp U B (matchTok e) t (Other t) (NoMatch t) := by
  unfold matchTok
  refine Twp.bind (tw_input fun i hi => ?_)
  refine Twp.ite (fun hm => ?_) (fun _ => ⟨rfl, rfl⟩)
  refine Twp.bind (tw_inputPos ?_)
  refine Twp.bind (tw_advBytes' hi fun a b hab hl _ => ?_)
  refine Twp.bind (tw_inputPos ?_)
  refine Twp.bind ((act_wp (t := t.adv (byteLen e.text)) e.act hU).cons (fun _ t' ha => ?_) (fun _ _ h => h))
  have hs : Same t (t.adv (byteLen e.text)) := by
    have hi := hi
    rw [hab] at hi
    rw [← hl]
    exact hi.same
  exact other_of_act hg h hs hi hm ha none

theorem matchFirst_wp (es : List Entry) (hg : es.all goodEntry = true) (hn : es.all (fun e => e.act != .pop) = true)
    (h : LG t) : Twp U B (matchFirst es) t (Other t) (NoMatch t) := by
  induction es with
  | nil => exact ⟨rfl, rfl⟩
  | cons e es ih =>
    simp only [List.all_cons, Bool.and_eq_true] at hg hn
    refine Twp.orElse ((matchTok_wp e hg.1 h (fun hp => by rw [hp] at hn; cases hn.1)).cons (fun _ _ h => h) ?_)
    rintro e' t' ⟨rfl, rfl⟩
    exact ⟨fun _ => ih hg.2 hn.2, fun h => absurd rfl h⟩

theorem wsGo_lg (i : Text) (hi : At t i) (h : LinesOk t.st.lineMap t.st.srcPos) (hf : t.st.lineMap.endPos = byteLen t.code) :
    Calm t { t with st := wsGo i t.st } ∧ ∃ w r, i = w ++ r ∧ w.all isBlank = true ∧ (r.head?.map isBlank).getD false = false ∧
      ({ t with st := wsGo i t.st } : Tz) = t.ws w ∧ At (t.ws w) r := by
  obtain ⟨w, r, rfl, hw, hr⟩ := blank_split i
  have hat := hi.ws hw
  obtain ⟨f1, f2, f3, f4⟩ := wsGo_fields w hw t.st
  have e : wsGo (w ++ r) t.st = wsGo w t.st := wsGo_append w r hw hr _
  obtain ⟨g1, g2, g3⟩ := wsGo_lines w t.st h
  rw [e]
  refine ⟨⟨rfl, rfl, f2, f3, g2, ⟨?_, g1, g3.trans hf⟩⟩, w, r, rfl, hw, hr, rfl, hat⟩
  have := hat.total
  show (wsGo w t.st).srcPos ≤ byteLen t.code
  have h2 : (t.ws w).st.srcPos = (wsGo w t.st).srcPos := rfl
  have h3 : (t.ws w).code = t.code := rfl
  rw [h2, h3] at this
  omega

theorem blank_of {w : Text} (h : w.all isBlank = true) : Blank w := by
  intro c hc
  have := List.all_eq_true.1 h c hc
  simp only [isBlank, Bool.or_eq_true, beq_iff_eq] at this
  rcases this with ((h | h) | h) | h
  · exact .inl h
  · exact .inr (.inl h)
  · exact .inr (.inr (.inl h))
  · exact .inr (.inr (.inr h))

theorem spaces_of {w : Text} (h : w.all isGap = true) : Spaces w := by
  intro c hc
  have := List.all_eq_true.1 h c hc
  simpa only [isGap, Bool.or_eq_true, beq_iff_eq] using this

/-- The text passed over is blank. -/
def Over (P : Text → Prop) (t t' : Tz) : Prop :=
  ∃ w r, At t (w ++ r) ∧ P w ∧ t'.st.srcPos = t.st.srcPos + byteLen w

theorem whitespace_wp (h : LG t) {E : SyntaxErr → Tz → Prop} :
    Twp U B whitespace t (fun _ t' => Calm t t' ∧ Over Blank t t') E := by
  unfold whitespace
  refine Twp.bind (tw_input fun i hi => ?_)
  obtain ⟨h1, w, r, rfl, hw, hr, he, hat⟩ := wsGo_lg i hi h.lines h.fin
  refine ⟨h1, w, r, hi, blank_of hw, ?_⟩
  show (wsGo (w ++ r) t.st).srcPos = _
  have : (wsGo (w ++ r) t.st) = (t.ws w).st := congrArg Tz.st he
  rw [this]
  exact (wsGo_fields w hw t.st).1

theorem whitespaceOnly_wp (h : LG t) {E : SyntaxErr → Tz → Prop} : Twp U B whitespaceOnly t (fun _ t' => Same t t' ∧ Over Spaces t t') E := by
  unfold whitespaceOnly
  refine Twp.bind (tw_input fun i hi => ?_)
  obtain ⟨w, r, rfl, hw, hr⟩ := gap_split i
  show Same t { t with st := wsOnlyGo (w ++ r) t.st } ∧ Over Spaces t { t with st := wsOnlyGo (w ++ r) t.st }
  have := whitespaceOnly_at hi hw hr
  unfold whitespaceOnly at this
  rw [bind_ok (input_at hi)] at this
  injection this with _ h2
  rw [h2]
  exact ⟨hi.same, w, r, hi, spaces_of hw, rfl⟩

theorem yield_wp (h : LG t) : Twp U B matchYield t (Other t) (NoMatch t) := by
  unfold matchYield
  refine Twp.bind (tw_input fun i hi => ?_)
  refine Twp.ite (fun hy => ?_) (fun _ => ⟨rfl, rfl⟩)
  obtain ⟨ry, rfl, _⟩ := startsWithCi_split hy
  refine Twp.bind (tw_inputPos ?_)
  have hi0 := hi
  refine Twp.bind (tw_advBytes' hi fun a b hab hl _ => ?_)
  have hs : Same t (t.adv 5) := by rw [hab] at hi; rw [← hl]; exact hi.same
  have c1 := hs.calm h
  refine Twp.bind ((whitespace_wp c1.lg).cons (fun _ t2 c2' => ?_) (fun _ _ h => h))
  obtain ⟨c2, bl, rb, hbl, hbb, hbp⟩ := c2'
  have hy5 : c!"yield".map lowerAscii = c!"yield" := by decide
  rw [hy5] at hi0
  have hat5 : At (t.adv 5) ry := hi0.adv
  have e5 := hat5.unique hbl
  subst e5
  have hi1 : At t ((c!"yield" ++ bl) ++ rb) := by rw [List.append_assoc]; exact hi0
  refine Twp.bind (tw_input fun i2 hi2 => ?_)
  have c3 := c1.trans c2
  have hlt : t.st.srcPos < t2.st.srcPos := by have := c2.le; simp only [Tz.adv_pos] at this; omega
  have done : ∀ t', Calm t t' → t.st.srcPos < t'.st.srcPos → ∀ k : Kw, isBrace (.k k) = false →
      StandsIn t.code ⟨.k k, mkSpan t.st.srcPos t'.st.srcPos⟩ →
      Other t ⟨.k k, mkSpan t.st.srcPos t'.st.srcPos⟩ t' := fun t' hc hl k hk hst =>
    ⟨hc.code, hc.le, hc.lg, .inr hl, ⟨Nat.le_refl _, hc.le⟩, rfl, fun _ => hst, ⟨rfl, rfl⟩, .keep hk hc.state hc.stack hc.queue, fun _ _ _ _ => ⟨hc.state, hc.stack, hc.queue⟩⟩
  have hp5 : t2.st.srcPos = t.st.srcPos + byteLen (c!"yield" ++ bl) := by
    rw [hbp, byteLen_append, ← Nat.add_assoc]; rfl
  have hi2' : i2 = rb := by
    have h0 : At (t.adv (byteLen (c!"yield" ++ bl))) rb := hi1.adv
    unfold At at h0 hi2
    rw [hp5, c3.code] at hi2
    exact Option.some.inj (hi2.symm.trans h0)
  subst hi2'
  refine Twp.ite (fun hf => ?_) (fun _ => ?_)
  · obtain ⟨rf, rfl, _⟩ := startsWithCi_split hf
    have hf4 : c!"from".map lowerAscii = c!"from" := by decide
    rw [hf4] at hi1
    refine Twp.bind (tw_advBytes' hi2 fun a b hab hl _ => ?_)
    have hs2 : Same t2 (t2.adv 4) := by rw [hab] at hi2; rw [← hl]; exact hi2.same
    refine Twp.bind (tw_inputPos ?_)
    have c4 := c3.trans (hs2.calm c3.lg)
    refine done _ c4 (by have := c4.le; simp only [Tz.adv_pos]; omega) _ rfl ?_
    have hi4 : At t ((c!"yield" ++ bl ++ c!"from") ++ rf) := by rw [List.append_assoc]; exact hi1
    refine hi4.stands0 (.yieldFrom bl hbb) rfl ?_
    rw [byteLen_append]
    show t2.st.srcPos + 4 = _
    rw [hp5]
    rfl
  · exact Twp.bind (tw_inputPos (done _ c3 hlt _ rfl (hi1.stands0 (.yields bl hbb) rfl hp5)))

theorem At.over {t t' : Tz} {w r : Text} (h : At t (w ++ r)) (hs : Same t t') (hp : t'.st.srcPos = t.st.srcPos + byteLen w) : At t' r := by
  obtain ⟨p, _, _, rfl⟩ := hs
  have e : t.to p = t.adv (byteLen w) := by rw [Tz.adv_to, ← hp]; rfl
  rw [e]
  exact h.adv

theorem castTable_act : ∀ e ∈ castTable, (e.act = .keep ∧ isBrace (.k e.kw) = false) ∧
    (e.text.map lowerAscii, e.kw) ∈ castWords ∧ byteLen e.text = byteLen (e.text.map lowerAscii) := by decide +kernel

/-- A cast word stands ahead. -/
def CastWord (t : Tz) (x : TokSpan) (t' : Tz) : Prop :=
  ∃ k, x.tok = .k k ∧ Over (fun w => (w, k) ∈ castWords) t t'

/-- Casts: the inner keyword keeps the state. -/
theorem castFirst_wp (es : List Entry) (hk : ∀ e ∈ es, (e.act = .keep ∧ isBrace (.k e.kw) = false) ∧
      (e.text.map lowerAscii, e.kw) ∈ castWords ∧ byteLen e.text = byteLen (e.text.map lowerAscii)) :
    Twp U B (matchFirst es) t (fun x t' => Same t t' ∧ isBrace x.tok = false ∧ isWord x.tok = false ∧ CastWord t x t') (NoMatch t) := by
  induction es with
  | nil => exact ⟨rfl, rfl⟩
  | cons e es ih =>
    have hh := hk e (by simp)
    refine Twp.orElse (Twp.cons (Q' := fun x t' => Same t t' ∧ isBrace x.tok = false ∧ isWord x.tok = false ∧ CastWord t x t')
      (E' := NoMatch t) ?_ (fun _ _ h => h) ?_)
    · unfold matchTok
      refine Twp.bind (tw_input fun i hi => ?_)
      refine Twp.ite (fun hm => ?_) (fun _ => ⟨rfl, rfl⟩)
      refine Twp.bind (tw_inputPos ?_)
      refine Twp.bind (tw_advBytes' hi fun a b hab hl _ => ?_)
      refine Twp.bind (tw_inputPos ?_)
      rw [hh.1.1]
      refine Twp.bind (m := Act.run .keep) (Twp.of_ok rfl ?_)
      refine ⟨?_, hh.1.2, rfl, e.kw, rfl, ?_⟩
      · rw [hab] at hi; rw [← hl]; exact hi.same
      · obtain ⟨r', rfl, _⟩ := startsWithCi_split hm
        exact ⟨_, r', hi, hh.2.1, by simp only [Tz.adv_pos]; rw [hh.2.2]⟩
    · rintro e' t' ⟨rfl, rfl⟩
      exact ⟨fun _ => ih (fun e he => hk e (by simp [he])), fun h => absurd rfl h⟩

theorem matchCast_wp (h : LG t) : Twp U B matchCast t (Other t) (NoMatch t) := by
  unfold matchCast
  refine Twp.bind (tw_input fun i hi => ?_)
  refine Twp.ite (fun hp => ?_) (fun _ => ⟨rfl, rfl⟩)
  refine Twp.bind (tw_inputPos ?_)
  obtain ⟨r, rfl⟩ := startsWith_split hp
  refine Twp.bind (tw_advBytes hi rfl fun _ => ?_)
  have s1 := hi.same
  have hi1 := hi.adv
  have hlt1 : t.st.srcPos < (t.adv (byteLen c!"(")).st.srcPos := Nat.lt_succ_self _
  have hp1 : (t.adv (byteLen c!"(")).st.srcPos = t.st.srcPos + byteLen c!"(" := rfl
  generalize t.adv (byteLen c!"(") = t1 at *
  refine Twp.bind ((whitespaceOnly_wp (s1.calm h).lg).cons (fun _ t2 s2' => ?_) (fun _ _ h => h))
  obtain ⟨s2, b1, r1, hb1, hs1, hp2⟩ := s2'
  have e1 := hi1.unique hb1
  subst e1
  have s12 := s1.trans s2
  have back : ∀ t', Same t t' → Twp U B (do setPos t.st.srcPos; fail .none) t' (Other t) (NoMatch t) := by
    rintro t' ⟨p, _, _, rfl⟩
    exact ⟨rfl, rfl⟩
  have hlt2 : t.st.srcPos < t2.st.srcPos := Nat.lt_of_lt_of_le hlt1 (s2.calm (s1.calm h).lg).le
  refine Twp.bind ?_
  have hc := castFirst_wp (U := U) (B := B) (t := t2) castTable castTable_act
  unfold Twp at hc
  cases hm : matchFirst castTable t2 with
  | ok a t3 =>
    refine Twp.of_ok (a := some a) (t' := t3) (by simp only [hm]) ?_
    rw [hm] at hc
    obtain ⟨s3, k1, k2, k, hk, w, r2, hw, hcw, hp3⟩ := hc
    have s13 := s12.trans s3
    have e2 : r1 = w ++ r2 := (hb1.over s2 hp2).unique hw
    subst e2
    show Twp U B _ t3 _ _
    refine Twp.bind ((whitespaceOnly_wp (s13.calm h).lg).cons (fun _ t4 s4' => ?_) (fun _ _ h => h))
    obtain ⟨s4, b2, r3, hb2, hs2, hp4⟩ := s4'
    have e3 : r2 = b2 ++ r3 := (hw.over s3 hp3).unique hb2
    subst e3
    have s14 := s13.trans s4
    have hlt4 : t.st.srcPos < t4.st.srcPos := Nat.lt_of_lt_of_le hlt2
      (Nat.le_trans (s3.calm (s12.calm h).lg).le (s4.calm (s13.calm h).lg).le)
    refine Twp.bind (tw_input fun i4 hi4 => ?_)
    refine Twp.ite (fun hp => ?_) (fun _ => back _ s14)
    obtain ⟨r, rfl⟩ := startsWith_split hp
    have e4 : r3 = c!")" ++ r := (hb2.over s4 hp4).unique hi4
    subst e4
    refine Twp.bind (tw_advBytes hi4 rfl fun _ => ?_)
    have hcalm := (s14.trans hi4.same).calm h
    refine Twp.bind (tw_inputPos ?_)
    have hst : StandsIn t.code ⟨a.tok, mkSpan t.st.srcPos (t4.st.srcPos + byteLen c!")")⟩ := by
      rw [hk]
      have hi' : At t ((c!"(" ++ b1 ++ w ++ b2 ++ c!")") ++ r) := by simp only [List.append_assoc]; exact hi
      refine hi'.stands0 (.cast b1 w b2 k hs1 hcw hs2) rfl ?_
      simp only [byteLen_append]
      omega
    exact ⟨hcalm.code, hcalm.le, hcalm.lg, .inr (by simp only [Tz.adv_pos]; omega), ⟨Nat.le_refl _, hcalm.le⟩, rfl, fun _ => hst, ⟨k2, by rw [hk]; rfl⟩,
      .keep k1 hcalm.state hcalm.stack hcalm.queue,
      fun _ _ _ _ => ⟨hcalm.state, hcalm.stack, hcalm.queue⟩⟩
  | err e t3 =>
    refine Twp.of_ok (a := none) (t' := t3) (by simp only [hm]) ?_
    rw [hm] at hc
    obtain ⟨_, rfl⟩ := hc
    exact back _ s12
  | panic p => rw [hm] at hc; exact Twp.of_panic (p := p) (by simp only [hm]) hc
  | oof => rw [hm] at hc; unfold Twp; simp only [hm]; exact hc

theorem curlyClose_wp (h : LG t) (hU : t.st.stack = [] → U) : Twp U B matchCurlyClose t (Other t) (NoMatch t) := by
  unfold matchCurlyClose
  refine Twp.bind ((matchTok_wp _ rfl h (fun _ => hU)).cons (fun x t' ho => ?_) (fun _ _ h => h))
  refine ⟨ho.code, ho.le, ho.lg, ho.prog, ho.start, ho.stop, ho.spelled, ho.word, ?_, ho.lab⟩
  cases ho.mv with
  | keep a b c d => exact .keep a b c d
  | tag a b c d => exact .tag a b c d
  | arrow a b c d => exact .arrow a b c d
  | curly a b c d => exact .curly a b c d
  | close a b c => exact .close a b c
  | str a b c q d e f => exact .str a b c q d e f

theorem charToken_written {c : Char} {k : Kw} (h : charToken c = some k) : WrittenAs (.k k) [c] := by
  unfold charToken at h
  split at h
  all_goals first
    | (cases h; exact .symbol (by decide))
    | (cases h; exact .rare (by decide))
    | cases h

theorem oneChar_wp (h : LG t) : Twp U B oneCharToken t (Other t) (NoMatch t) := by
  unfold oneCharToken
  refine Twp.bind (tw_input fun i hi => ?_)
  cases i with
  | nil =>
    have he := hi.total
    simp only [byteLen, Nat.add_zero] at he
    exact ⟨rfl, Nat.le_refl _, h, .inl rfl, ⟨h.pos, Nat.le_refl _⟩, he.symm, nofun, ⟨rfl, rfl⟩, .keep rfl rfl rfl rfl, fun _ _ _ _ => ⟨rfl, rfl, rfl⟩⟩
  | cons c r =>
    dsimp only
    cases hk : charToken c with
    | none => exact ⟨rfl, rfl⟩
    | some k =>
      dsimp only
      have h1 : byteLen ((c :: r).take 1) = 1 := by
        have : c.utf8Size = 1 := by
          unfold charToken at hk
          split at hk <;> first | rfl | cases hk
        simp [byteLen, this]
      refine Twp.bind (tw_advChars hi fun _ => ?_)
      have s1 := hi.sameTake 1
      rw [h1] at s1 ⊢
      have c1 := s1.calm h
      refine Twp.bind (tw_inputPos ?_)
      refine Twp.bind (tw_subT fun _ => ?_)
      refine ⟨c1.code, c1.le, c1.lg, .inr (Nat.lt_succ_self _), ⟨?_, ?_⟩, rfl, fun _ => ?_, ⟨rfl, rfl⟩, .keep ?_ rfl rfl rfl,
        fun _ _ _ _ => ⟨rfl, rfl, rfl⟩⟩
      · show t.st.srcPos ≤ t.st.srcPos + 1 - 1; omega
      · show t.st.srcPos + 1 - 1 ≤ t.st.srcPos + 1; omega
      · have hi' : At t ([c] ++ r) := hi
        exact hi'.stands0 (charToken_written hk) (Nat.add_sub_cancel ..) (by show t.st.srcPos + 1 = _; rw [← h1]; rfl)
      · unfold charToken at hk
        split at hk <;> first | (cases hk; rfl) | cases hk

/-- A character that begins neither a name nor a sign. -/
theorem odd_of {c : Char} (h1 : isLabelChar c = false ∨ inRange '0' '9' c = true) (h2 : charToken c = none) : Odd c := by
  have key : ∀ a b : Char, inRange a b c = false → ¬ (a ≤ c ∧ c ≤ b) := by
    rintro a b h ⟨ha, hb⟩
    unfold inRange at h
    have ha' : a.toNat ≤ c.toNat := ha
    have hb' : c.toNat ≤ b.toNat := hb
    simp only [ha', hb', decide_true, Bool.and_self] at h
    cases h
  have hs : c ∉ signs := by
    have : ∀ d ∈ signs, charToken d ≠ none := by decide
    exact fun hc => this c hc h2
  rcases h1 with h1 | h1
  · unfold isLabelChar at h1
    simp only [Bool.or_eq_false_iff] at h1
    obtain ⟨⟨⟨⟨h1, h2⟩, h3⟩, h4⟩, _⟩ := h1
    exact ⟨key _ _ h1, key _ _ h2, key _ _ h3, by simpa using h4, hs⟩
  · unfold inRange at h1
    simp only [Bool.and_eq_true, decide_eq_true_eq] at h1
    have e1 : '9'.toNat = 57 := rfl
    have lo : ∀ a : Char, 57 < a.toNat → ¬ a ≤ c := by
      intro a ha h
      have : a.toNat ≤ c.toNat := h
      omega
    refine ⟨fun h => lo 'a' (by decide) h.1, fun h => lo 'A' (by decide) h.1, fun h => lo _ (by decide) h.1, ?_, hs⟩
    rintro rfl
    have : '_'.toNat = 95 := rfl
    omega

/-- `in_scripting_other_token` in front of some input. -/
theorem other_wp (h : LG t) (hU : t.st.stack = [] → U) {i : Text} (hi : At t i) :
    Twp U B inScriptingOtherToken t (Other t)
      (fun e t' => t' = t ∧ e = .unknownCharacter (mkSpan t.st.srcPos (t.st.srcPos + 1)) ∧
        ∃ c r, i = c :: r ∧ charToken c = none) := by
  unfold inScriptingOtherToken
  have next : ∀ {m n : T TokSpan} {E}, Twp U B m t (Other t) (NoMatch t) → Twp U B n t (Other t) E →
      Twp U B (m <||> n) t (Other t) E := by
    intro m n E h1 h2
    refine Twp.orElse (h1.cons (fun _ _ h => h) ?_)
    rintro e' t' ⟨rfl, rfl⟩
    exact ⟨fun _ => h2, fun h => absurd rfl h⟩
  refine next (matchFirst_wp _ (by decide) (by decide) h) ?_
  refine next (yield_wp h) ?_
  refine next (matchFirst_wp _ (by decide +kernel) (by decide +kernel) h) ?_
  refine next (matchCast_wp h) ?_
  refine next (matchFirst_wp _ (by decide +kernel) (by decide +kernel) h) ?_
  refine next (curlyClose_wp h hU) ?_
  refine next (matchFirst_wp _ (by decide) (by decide) h) ?_
  by_cases hne : i = []
  · subst hne
    have e : oneCharToken t = .ok ⟨.k .End, mkSpan (byteLen t.code) (byteLen t.code)⟩ t := by
      unfold oneCharToken
      rw [bind_ok (input_at hi)]
      rfl
    have := oneChar_wp (U := U) (B := B) h
    unfold Twp at this
    rw [e] at this
    exact Twp.of_ok (orElse_ok e) this
  · obtain ⟨c, r, rfl⟩ : ∃ c r, i = c :: r := by
      cases i with
      | nil => exact absurd rfl hne
      | cons c r => exact ⟨c, r, rfl⟩
    cases hc : charToken c with
    | none =>
      refine next (oneChar_wp h) ?_
      unfold unknownChar
      exact Twp.bind (tw_inputPos ⟨rfl, rfl, c, r, rfl, hc⟩)
    | some k =>
      have ho := oneChar_some hi hc
      have := oneChar_wp (U := U) (B := B) h
      unfold Twp at this
      rw [ho] at this
      exact Twp.of_ok (orElse_ok ho) this

/-- Directly behind a document: the line table already knows the line break ahead. -/
def Gap (t : Tz) : Prop := ∃ s w r : Text, At t (s ++ (w ++ r)) ∧ (s = [] ∨ s = c!";") ∧
  (w = c!"\n" ∨ w = c!"\r" ∨ w = c!"\r\n") ∧ LinesOk t.st.lineMap (t.st.srcPos + byteLen (s ++ w)) ∧
  t.st.lineMap.endPos = byteLen t.code

/-- A token was read in the scripting state. -/
structure TStep (t : Tz) (x : TokSpan) (t' : Tz) : Prop where
  code : t'.code = t.code
  le : t.st.srcPos ≤ t'.st.srcPos
  lines : LG t' ∨ (Gap t' ∧ (t'.st.state = t.st.state ∨ t'.st.state = .emitQueue))
  prog : x.tok = .k .End ∨ t.st.srcPos < t'.st.srcPos
  tp : TokP t.code x
  ord : isNumber x.tok = false → t.st.srcPos ≤ x.span.start ∧ x.span.stop ≤ t'.st.srcPos
  mv : SMove t x t'

theorem Plain.step {x : TokSpan} {t' : Tz} (h : Plain t x t') : TStep t x t' :=
  ⟨h.calm.code, h.calm.le, .inl h.calm.lg, h.prog, h.tp, h.ord, .keep h.nb h.calm.state h.calm.stack h.calm.queue⟩

theorem Other.step {x : TokSpan} {t' : Tz} (h : Other t x t') : TStep t x t' := by
  refine ⟨h.code, h.le, .inl h.lg, h.prog, ⟨?_, ?_, h.spelled, fun hn => by rw [h.word.2] at hn; cases hn⟩, fun _ => ⟨h.start.1, Nat.le_of_eq h.stop⟩, h.mv⟩
  · intro hw; rw [h.word.1] at hw; cases hw
  · intro _
    refine ⟨h.start.2, ?_⟩
    rw [h.stop, ← h.code]
    exact h.lg.pos

/-- A word was read instead. -/
theorem word_step {w : Text} {sp : Span} {t' : Tz} (h1 : 2 ≤ t.st.srcPos) (hc : t'.code = t.code) (hg : LG t')
    (hk : t'.st.state = t.st.state ∧ t'.st.stack = t.st.stack ∧ t'.queue = t.queue)
    (q1 : sp.start = t.st.srcPos) (q2 : t.st.srcPos < sp.stop) (q3 : sp.stop ≤ byteLen t.code) (hle : t'.st.srcPos ≤ sp.stop)
    (hst : ranged (.string w) = true → StandsIn t.code ⟨.string w, sp⟩) :
    TStep t ⟨.string w, sp⟩ (t'.to sp.stop) := by
  refine ⟨hc, Nat.le_of_lt q2, .inl <| hg.to hle (by rw [hc]; exact q3), .inr q2, ⟨fun _ => ?_, fun _ => ⟨?_, q3⟩, hst, nofun⟩,
    fun _ => ⟨?_, Nat.le_refl _⟩, .keep rfl hk.1 hk.2.1 hk.2.2⟩
  · show 1 ≤ sp.start; omega
  · show sp.start ≤ sp.stop; omega
  · show t.st.srcPos ≤ sp.start; omega

theorem labelOrOther_wp {t0 : Tz} (h : LG t) (h1 : 2 ≤ t.st.srcPos) (hs : Same t t0) (hU : t.st.stack = [] → U) :
    Twp U B (labelOrOther t.st.srcPos) t0 (TStep t) (fun e t' => Culprit t.code e ∧ Calm t t') := by
  obtain ⟨p, _, _, rfl⟩ := hs
  unfold labelOrOther
  have e0 : setPos t.st.srcPos (t.to p) = .ok () t := rfl
  refine Twp.bind (Twp.of_ok e0 ?_)
  have key : ∀ (lbl : Option (Text × Span)) i, At t i →
      (∀ w sp, lbl = some (w, sp) → sp.start = t.st.srcPos ∧ t.st.srcPos < sp.stop ∧ sp.stop ≤ byteLen t.code ∧
        (∃ c r, i = c :: r ∧ isLabelChar c = true) ∧ (ranged (.string w) = true → StandsIn t.code ⟨.string w, sp⟩)) →
      (lbl = none → ∀ c r, At t (c :: r) → isLabelChar c = false ∨ inRange '0' '9' c = true) →
      Twp U B (fun t =>
        match inScriptingOtherToken t with
        | .ok tok t' =>
          match lbl with
          | some (name, span) =>
            if span.stop ≤ tok.span.stop then
              .ok tok { t' with st := { t'.st with srcPos := tok.span.stop } }
            else .ok ⟨.string name, span⟩ { t' with st := { t'.st with srcPos := span.stop } }
          | none => .ok tok { t' with st := { t'.st with srcPos := tok.span.stop } }
        | .err e t' =>
          match lbl with
          | some (name, span) => .ok ⟨.string name, span⟩ { t' with st := { t'.st with srcPos := span.stop } }
          | none =>
            match e with
            | .none => .err (.unknownCharacter (mkSpan t'.st.srcPos (t'.st.srcPos + 1))) t'
            | .unterminated _ sp => .err e { t' with st := { t'.st with srcPos := sp.stop } }
            | .unknownCharacter sp => .err e { t' with st := { t'.st with srcPos := sp.stop } }
        | .panic p => .panic p
        | .oof => .oof : T TokSpan) t (TStep t) (fun e t' => Culprit t.code e ∧ Calm t t') := by
    intro lbl i hi hlbl hnl
    have ho := other_wp (U := U) (B := B) h hU hi
    unfold Twp at ho
    cases hm : inScriptingOtherToken t with
    | ok tok t' =>
      rw [hm] at ho
      dsimp only at ho
      have same : t'.to tok.span.stop = t' := by rw [ho.stop]; rfl
      cases lbl with
      | none => exact Twp.of_ok (a := tok) (t' := t'.to tok.span.stop) (by simp only [hm]; rfl) (by rw [same]; exact ho.step)
      | some l =>
        obtain ⟨w, sp⟩ := l
        obtain ⟨q1, q2, q3, ⟨c, r, rfl, q4⟩, q5⟩ := hlbl w sp rfl
        by_cases hlt : sp.stop ≤ tok.span.stop
        · exact Twp.of_ok (a := tok) (t' := t'.to tok.span.stop) (by simp only [hm, if_pos hlt]; rfl) (by rw [same]; exact ho.step)
        · refine Twp.of_ok (a := ⟨.string w, sp⟩) (t' := t'.to sp.stop) (by simp only [hm, if_neg hlt]; rfl) ?_
          exact word_step h1 ho.code ho.lg (ho.lab _ _ hi q4) q1 q2 q3 (by rw [← ho.stop]; omega) q5
    | err e t' =>
      rw [hm] at ho
      dsimp only at ho
      obtain ⟨rfl, rfl, c, r, rfl, hct⟩ := ho
      have hne : c :: r ≠ [] := nofun
      cases lbl with
      | none =>
        refine Twp.of_err (e := .unknownCharacter (mkSpan t'.st.srcPos (t'.st.srcPos + 1))) (t' := t'.to (t'.st.srcPos + 1)) (by simp only [hm]; rfl)
          ⟨.unknown (At.opens (a := [c]) hi) (odd_of (hnl rfl c r hi) hct), ?_⟩
        have ht := hi.total
        have := byteLen_pos hne
        exact Same.calm h ⟨_, Nat.le_succ _, by omega, rfl⟩
      | some l =>
        obtain ⟨w, sp⟩ := l
        obtain ⟨q1, q2, q3, _, q5⟩ := hlbl w sp rfl
        refine Twp.of_ok (a := ⟨.string w, sp⟩) (t' := t'.to sp.stop) (by simp only [hm]; rfl) ?_
        exact word_step h1 rfl h ⟨rfl, rfl, rfl⟩ q1 q2 q3 (Nat.le_of_lt q2) q5
    | panic p => rw [hm] at ho; exact Twp.of_panic (p := p) (by simp only [hm]) ho
    | oof => rw [hm] at ho; unfold Twp; simp only [hm]; exact ho
  refine Twp.bind (Twp.cons (Q' := fun lbl t' => t' = t.to t'.st.srcPos ∧ ∃ i, At t i ∧
      (∀ w sp, lbl = some (w, sp) → sp.start = t.st.srcPos ∧ t.st.srcPos < sp.stop ∧ sp.stop ≤ byteLen t.code ∧
        (∃ c r, i = c :: r ∧ isLabelChar c = true) ∧ (ranged (.string w) = true → StandsIn t.code ⟨.string w, sp⟩)) ∧
      (lbl = none → ∀ c r, At t (c :: r) → isLabelChar c = false ∨ inRange '0' '9' c = true)) (E' := fun _ _ => False) ?_ ?_ (fun _ _ h => h.elim))
  · cases hd : dropBytes t.code t.st.srcPos with
    | none =>
      refine Twp.of_panic (p := .charBoundary) ?_ nofun
      unfold label
      exact bind_panic (by unfold input; rw [hd])
    | some i =>
      refine label_full (fun hnl => ⟨rfl, i, hd, nofun, fun _ => hnl⟩) fun w r hw hne hl => ?_
      refine ⟨rfl, w ++ r, hw, ?_, nofun⟩
      intro w' sp he
      injection he with he
      injection he with e1 e2
      subst e1 e2
      have := List.length_pos_iff.2 hne
      have h2 := length_le_byteLen w
      have h3 := hw.total
      rw [byteLen_append] at h3
      refine ⟨rfl, ?_, ?_, ?_, fun ha => ?_⟩
      · show _ < t.st.srcPos + w.length; omega
      · show t.st.srcPos + w.length ≤ _; omega
      · cases w with
        | nil => exact absurd rfl hne
        | cons c w => exact ⟨c, w ++ r, rfl, hl c rfl⟩
      · exact hw.stands0 (.name w) rfl (by rw [byteLen_ascii (w := w) ha])
  · rintro lbl t' ⟨e, i, hi, hl⟩
    have e1 : setPos t.st.srcPos t' = .ok () t := by rw [e]; rfl
    exact Twp.bind (Twp.of_ok e1 (key lbl i hi hl.1 hl.2))

end

end Pico
