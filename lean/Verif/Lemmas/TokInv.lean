import Verif.Lemmas.TokWp
import Verif.Lemmas.LexDq
import Verif.Spec.Spelling
import Verif.Spec.Errors
/-!
# What every matcher of the tokenizer does to the state
-/
namespace Pico
open T

/-- A number as the tokenizer reads it, with the range it gets. -/
inductive NumAt (code : Text) : TokSpan → Prop
  | dec {pre w post : Text} {v p q : Nat} (he : code = pre ++ w ++ post) (hw : ∀ c ∈ w, notDigit c = false)
      (hv : (startsWith w c!"0" && byteLen w > 1) = false ∧ fromStrRadix i64Max 10 w = some v ∨
        (startsWith w c!"0" && byteLen w > 1) = true ∧ fromStrRadix i64Max 8 (w.drop 1) = some v)
      (hp : p = byteLen pre) (hq : q = byteLen (pre ++ w)) :
      NumAt code ⟨.int v, mkSpan p q⟩
  | pref {pre o w post : Text} {v radix p q : Nat} (he : code = pre ++ (o ++ w) ++ post)
      (ho : o = c!"0x" ∧ radix = 16 ∨ o = c!"0b" ∧ radix = 2)
      (hv : fromStrRadix i64Max radix w = some v) (hp : p = byteLen pre) (hq : q = w.length) : NumAt code ⟨.int v, mkSpan p q⟩
  | dbl {pre a b post : Text} {p q : Nat} (he : code = pre ++ (a ++ c!"." ++ b) ++ post) (ha : ∀ c ∈ a, notDigit c = false)
      (hb : ∀ c ∈ b, notDigit c = false) (hne : a ++ c!"." ++ b ≠ c!".") (hp : p = byteLen (pre ++ a ++ c!".")) (hq : q = a.length) :
      NumAt code ⟨.double (a ++ c!"." ++ b), mkSpan p q⟩

/-- Positions of a token: inside the source, not at its first byte for words, and where its text stands. -/
structure TokP (code : Text) (x : TokSpan) : Prop where
  placed : isWord x.tok = true → 1 ≤ x.span.start
  inside : isNumber x.tok = false → x.span.start ≤ x.span.stop ∧ x.span.stop ≤ byteLen code
  spelled : ranged x.tok = true → StandsIn code x
  numbered : isNumber x.tok = true → NumAt code x

/-- The text in front of the scan position is where it stands. -/
theorem At.stands {t : Tz} {a w r : Text} (h : At t (a ++ (w ++ r))) {k : Token} (hw : WrittenAs k w) {p q : Nat} {d : Option Text}
    (hp : p = t.st.srcPos + byteLen a) (hq : q = t.st.srcPos + byteLen a + byteLen w) : StandsIn t.code ⟨k, ⟨p, q, d⟩⟩ := by
  obtain ⟨pre, h1, h2⟩ := dropBytes_split h
  refine ⟨pre ++ a, w, r, by rw [h1]; simp only [List.append_assoc], ?_, ?_, hw⟩
  · show byteLen (pre ++ a) = p
    rw [byteLen_append]; omega
  · show byteLen (pre ++ a ++ w) = q
    rw [byteLen_append, byteLen_append]; omega

theorem At.stands0 {t : Tz} {w r : Text} (h : At t (w ++ r)) {k : Token} (hw : WrittenAs k w) {p q : Nat} {d : Option Text}
    (hp : p = t.st.srcPos) (hq : q = t.st.srcPos + byteLen w) : StandsIn t.code ⟨k, ⟨p, q, d⟩⟩ :=
  At.stands (a := []) h hw hp hq

/-- The scan position is inside the source and the line table is usable. -/
structure LG (t : Tz) : Prop where
  pos : t.st.srcPos ≤ byteLen t.code
  lines : LinesOk t.st.lineMap t.st.srcPos
  fin : t.st.lineMap.endPos = byteLen t.code

/-- Only the position has moved, forward. -/
def Same (t t' : Tz) : Prop := ∃ p, t.st.srcPos ≤ p ∧ p ≤ byteLen t.code ∧ t' = t.to p

/-- Scanned forward within one lexical state. -/
structure Calm (t t' : Tz) : Prop where
  code : t'.code = t.code
  queue : t'.queue = t.queue
  state : t'.st.state = t.st.state
  stack : t'.st.stack = t.st.stack
  le : t.st.srcPos ≤ t'.st.srcPos
  lg : LG t'

theorem LG.to {t : Tz} (h : LG t) {p : Nat} (h1 : t.st.srcPos ≤ p) (h2 : p ≤ byteLen t.code) : LG (t.to p) :=
  ⟨h2, h.lines.mono h1, h.fin⟩

theorem Same.refl {t : Tz} (h : LG t) : Same t t := ⟨_, Nat.le_refl _, h.pos, rfl⟩

theorem Same.calm {t t' : Tz} (h : LG t) (hs : Same t t') : Calm t t' := by
  obtain ⟨p, h1, h2, rfl⟩ := hs
  exact ⟨rfl, rfl, rfl, rfl, h1, h.to h1 h2⟩

theorem Same.trans {t t' t'' : Tz} (h1 : Same t t') (h2 : Same t' t'') : Same t t'' := by
  obtain ⟨p, a1, a2, rfl⟩ := h1
  obtain ⟨q, b1, b2, rfl⟩ := h2
  exact ⟨q, Nat.le_trans a1 b1, b2, rfl⟩

theorem Calm.refl {t : Tz} (h : LG t) : Calm t t := ⟨rfl, rfl, rfl, rfl, Nat.le_refl _, h⟩

theorem Calm.trans {t t' t'' : Tz} (h1 : Calm t t') (h2 : Calm t' t'') : Calm t t'' :=
  ⟨h2.code.trans h1.code, h2.queue.trans h1.queue, h2.state.trans h1.state, h2.stack.trans h1.stack,
    Nat.le_trans h1.le h2.le, h2.lg⟩

theorem At.same {t : Tz} {a b : Text} (h : At t (a ++ b)) : Same t (t.adv (byteLen a)) := by
  have := h.total
  rw [byteLen_append] at this
  exact ⟨t.st.srcPos + byteLen a, Nat.le_add_right _ _, by omega, rfl⟩

theorem At.sameTake {t : Tz} {i : Text} (h : At t i) (n : Nat) : Same t (t.adv (byteLen (i.take n))) := by
  have h' : At t (i.take n ++ i.drop n) := by rw [List.take_append_drop]; exact h
  exact h'.same

/-- A token read without a change of the lexical state. -/
structure Plain (t : Tz) (x : TokSpan) (t' : Tz) : Prop where
  calm : Calm t t'
  prog : x.tok = .k .End ∨ t.st.srcPos < t'.st.srcPos
  tp : TokP t.code x
  ord : isNumber x.tok = false → t.st.srcPos ≤ x.span.start ∧ x.span.stop ≤ t'.st.srcPos
  nb : isBrace x.tok = false

/-- After a failed matcher. -/
structure Failed (t : Tz) (e : SyntaxErr) (t' : Tz) : Prop where
  none : e = .none → Same t t'
  other : e ≠ .none → Calm t t'
  blame : e ≠ .none → Culprit t.code e

theorem Culprit.ne {c : Text} {e : SyntaxErr} (h : Culprit c e) : e ≠ .none := by rintro rfl; cases h

theorem Failed.no {t t' : Tz} (h : Same t t') : Failed t .none t' :=
  ⟨fun _ => h, fun h => absurd rfl h, fun h => absurd rfl h⟩

theorem Failed.err {t t' : Tz} {e : SyntaxErr} (h : Culprit t.code e) (hc : Calm t t') : Failed t e t' :=
  ⟨fun h' => absurd h' h.ne, fun _ => hc, fun _ => h⟩

/-- What stands in front of the scan position. -/
theorem At.opens {t : Tz} {a b : Text} (h : At t (a ++ b)) : OpensAt t.code a b t.st.srcPos := by
  obtain ⟨pre, h1, h2⟩ := dropBytes_split h
  exact ⟨pre, by rw [h1, List.append_assoc], h2⟩

theorem Failed.after {t0 t t' : Tz} {e : SyntaxErr} (hs : Same t0 t) (hg : LG t0) (h : Failed t e t') : Failed t0 e t' :=
  ⟨fun he => hs.trans (h.none he), fun he => (hs.calm hg).trans (h.other he),
    fun he => by have := h.blame he; rw [(hs.calm hg).code] at this; exact this⟩

theorem Plain.after {t0 t t' : Tz} {x : TokSpan} (hs : Same t0 t) (hg : LG t0) (h : Plain t x t') : Plain t0 x t' := by
  have hc := hs.calm hg
  refine ⟨hc.trans h.calm, ?_, ?_, ?_, h.nb⟩
  · rcases h.prog with h1 | h1
    · exact .inl h1
    · exact .inr (Nat.lt_of_le_of_lt hc.le h1)
  · have := h.tp; rw [hc.code] at this; exact this
  · intro hn
    have := h.ord hn
    exact ⟨Nat.le_trans hc.le this.1, this.2⟩

/-- The span of a token that is neither a word nor a number. -/
theorem TokP.plain {c : Text} {a b : Nat} {k : Token} {d : Option Text} (h1 : isWord k = false) (hab : a ≤ b) (hb : b ≤ byteLen c)
    (hs : ranged k = true → StandsIn c ⟨k, ⟨a, b, d⟩⟩) (h9 : isNumber k = false := by first | rfl | assumption) :
    TokP c ⟨k, ⟨a, b, d⟩⟩ := ⟨fun h => (by rw [h1] at h; cases h), fun _ => ⟨hab, hb⟩, hs, fun h => by rw [h9] at h; cases h⟩

theorem TokP.word {c : Text} {a b : Nat} {k : Token} {d : Option Text} (ha : 1 ≤ a) (hab : a ≤ b) (hb : b ≤ byteLen c)
    (hs : ranged k = true → StandsIn c ⟨k, ⟨a, b, d⟩⟩) (h9 : isNumber k = false := by first | rfl | assumption) :
    TokP c ⟨k, ⟨a, b, d⟩⟩ := ⟨fun _ => ha, fun _ => ⟨hab, hb⟩, hs, fun h => by rw [h9] at h; cases h⟩

theorem TokP.num {c : Text} {k : Token} {s : Span} (h1 : isNumber k = true) (h2 : isWord k = false) (hn : NumAt c ⟨k, s⟩) : TokP c ⟨k, s⟩ :=
  ⟨fun h => (by rw [h2] at h; cases h), fun h => (by rw [h1] at h; cases h), fun h => by
    revert h
    cases k <;> first | (cases h1; done) | exact nofun, fun _ => hn⟩

theorem tail_of_startsWith {i : Text} {c : Char} (h : startsWith i [c] = true) : ∃ r, i = [c] ++ r := startsWith_split h

section
variable {U B : Prop} {t : Tz}

theorem end_wp (h : LG t) (hi : At t []) {E : SyntaxErr → Tz → Prop} : Twp U B endToken t (Plain t) E := by
  refine Twp.of_ok (a := ⟨.k .End, mkSpan (byteLen t.code) (byteLen t.code)⟩) (t' := t) rfl ?_
  refine ⟨Calm.refl h, .inl rfl, TokP.plain rfl (Nat.le_refl _) (Nat.le_refl _) nofun, ?_, rfl⟩
  intro _
  have := hi.total
  simp only [byteLen, Nat.add_zero] at this
  exact ⟨h.pos, Nat.le_of_eq this.symm⟩

/-- A label: nothing, or a nonempty word. -/
theorem label_full {Q : Option (Text × Span) → Tz → Prop} {E : SyntaxErr → Tz → Prop}
    (hn : (∀ c r, At t (c :: r) → isLabelChar c = false ∨ inRange '0' '9' c = true) → Q none t)
    (hs : ∀ w r, At t (w ++ r) → w ≠ [] → (∀ c, w.head? = some c → isLabelChar c = true) →
      Q (some (w, mkSpan t.st.srcPos (t.st.srcPos + w.length))) (t.adv (byteLen w))) :
    Twp U B label t Q E := by
  unfold label
  refine Twp.bind (tw_input fun i hi => ?_)
  cases i with
  | nil => exact hn fun c r h => by have := hi.unique h; cases this
  | cons c r =>
    dsimp only
    refine Twp.ite (fun hd => hn fun c' r' h => ?_) (fun _ => ?_)
    · have := hi.unique h; cases this; exact .inr hd
    generalize he : (position (fun x => !isLabelChar x) (c :: r)).getD (c :: r).length = e
    have hle : e ≤ (c :: r).length := by
      rw [← he]
      cases hp : position (fun x => !isLabelChar x) (c :: r) with
      | none => exact Nat.le_refl _
      | some n =>
        show n ≤ _
        clear he hi hs
        generalize c :: r = l at *
        induction l generalizing n with
        | nil => cases hp
        | cons d l ih =>
          simp only [position] at hp
          split at hp
          · cases hp; exact Nat.zero_le _
          · cases hq : position (fun x => !isLabelChar x) l with
            | none => rw [hq] at hp; cases hp
            | some m =>
              rw [hq] at hp
              cases hp
              have := ih m hq
              simp only [List.length_cons]; omega
    refine Twp.ite (fun h0 => hn fun c' r' h => ?_) (fun h0 => ?_)
    · have := hi.unique h
      cases this
      refine .inl ?_
      cases hl : isLabelChar c with
      | false => rfl
      | true =>
        rw [beq_iff_eq] at h0
        rw [h0] at he
        cases hp : position (fun x => !isLabelChar x) r <;> simp [position, hl, hp] at he
    refine Twp.bind (tw_inputPos ?_)
    refine Twp.bind (tw_advChars hi fun _ => ?_)
    have hlen : ((c :: r).take e).length = e := by rw [List.length_take]; omega
    have := hs ((c :: r).take e) ((c :: r).drop e) (by rw [List.take_append_drop]; exact hi)
      (by intro h; rw [h] at hlen; simp at hlen; simp [← hlen] at h0)
      (by
        intro d hd
        cases e with
        | zero => simp at hd
        | succ e =>
          simp only [List.take_succ_cons, List.head?_cons, Option.some.injEq] at hd
          subst hd
          cases hl : isLabelChar c with
          | true => rfl
          | false => simp [position, hl] at he)
    rw [hlen] at this
    exact this

theorem label_wp {Q : Option (Text × Span) → Tz → Prop} {E : SyntaxErr → Tz → Prop} (hn : Q none t)
    (hs : ∀ w r, At t (w ++ r) → w ≠ [] → (∀ c, w.head? = some c → isLabelChar c = true) →
      Q (some (w, mkSpan t.st.srcPos (t.st.srcPos + w.length))) (t.adv (byteLen w))) :
    Twp U B label t Q E := label_full (fun _ => hn) hs

theorem take_ne {i : Text} {n : Nat} (hi : i ≠ []) (hn : n ≠ 0) : 0 < byteLen (i.take n) := by
  apply byteLen_pos
  cases i with
  | nil => exact absurd rfl hi
  | cons c i =>
    cases n with
    | zero => exact absurd rfl hn
    | succ n => simp

theorem take_digits {i : Text} (d : Nat) (hd : i.length ≤ d) : ∀ c ∈ i.take ((position notDigit i).getD d), notDigit c = false := by
  intro c hc
  rw [position_le _ _ _ hd] at hc
  clear hd
  induction i with
  | nil => cases hc
  | cons x i ih =>
    rw [List.takeWhile_cons] at hc
    split at hc
    · rename_i hx
      rcases List.mem_cons.1 hc with rfl | hc
      · simpa using hx
      · exact ih hc
    · cases hc

theorem take_found (p : Char → Bool) (i : Text) :
    (i.take ((position p i).getD i.length)).length = (position p i).getD i.length := by
  have : (position p i).getD i.length ≤ i.length := by
    induction i with
    | nil => simp [position]
    | cons x i ih =>
      simp only [position]
      split
      · simp
      · revert ih
        cases position p i <;> simp
  rw [List.length_take]
  omega

theorem onum_wp (h : LG t) : Twp U B onumDnumLnum t (Plain t) (Failed t) := by
  unfold onumDnumLnum
  refine Twp.bind (tw_input fun i hi => ?_)
  refine Twp.ite (fun he => ?_) (fun he => ?_)
  · rw [List.isEmpty_iff] at he; subst he; exact end_wp h hi
  have hne : i ≠ [] := by intro h; subst h; exact he rfl
  dsimp only
  have hdig : ∀ c ∈ i.take ((position notDigit i).getD (byteLen i)), notDigit c = false :=
    take_digits _ (length_le_byteLen i)
  generalize (position notDigit i).getD (byteLen i) = e at *
  obtain ⟨pre, hcode, hpre⟩ := dropBytes_split hi
  refine Twp.bind (tw_inputPos ?_)
  refine Twp.bind (tw_advChars hi fun hi1 => ?_)
  have s1 := hi.sameTake e
  refine Twp.bind (tw_input fun i2 hi2 => ?_)
  have hback : ∀ n, Failed t .none ((t.adv n).to t.st.srcPos) := fun n => .no (Same.refl h)
  refine Twp.ite (fun _ => ?_) (fun hd => ?_)
  · refine Twp.bind (tw_inputPos ?_)
    refine Twp.ite (fun he0 => ?_) (fun _ => hback _)
    have hint : ∀ v, ((startsWith (i.take e) c!"0" && byteLen (i.take e) > 1) = false ∧ fromStrRadix i64Max 10 (i.take e) = some v ∨
        (startsWith (i.take e) c!"0" && byteLen (i.take e) > 1) = true ∧ fromStrRadix i64Max 8 ((i.take e).drop 1) = some v) → Plain t ⟨.int v, mkSpan t.st.srcPos (t.adv (byteLen (i.take e))).st.srcPos⟩
        (t.adv (byteLen (i.take e))) := fun v hv =>
      ⟨s1.calm h, .inr (by have := take_ne hne (n := e) (by simpa using he0); simp only [Tz.adv_pos]; omega),
        TokP.num rfl rfl (.dec (pre := pre) (post := i.drop e) (by rw [List.append_assoc, List.take_append_drop]; exact hcode) hdig hv
          hpre.symm (by rw [byteLen_append, hpre]; rfl)), nofun, rfl⟩
    refine Twp.ite (fun h8 => ?_) (fun h8 => ?_)
    · cases hv : fromStrRadix i64Max 8 ((i.take e).drop 1) with
      | none => exact nofun
      | some v => exact hint v (.inr ⟨h8, hv⟩)
    · cases hv : fromStrRadix i64Max 10 (i.take e) with
      | none => exact nofun
      | some v => exact hint v (.inl ⟨by simpa using h8, hv⟩)
  · have hd' : startsWith i2 c!"." = true := by simpa using hd
    obtain ⟨r2, rfl⟩ := startsWith_split hd'
    have hi2' : At (t.adv (byteLen (i.take e))) (['.'] ++ r2) := hi2
    refine Twp.bind (tw_advChars hi2 fun hi3 => ?_)
    have s2 := s1.trans (hi2.sameTake 1)
    refine Twp.bind (tw_input fun i3 hi3' => ?_)
    try dsimp only
    refine Twp.ite (fun _ => ?_) (fun _ => ?_)
    · exact .no (Same.refl h)
    · refine Twp.bind (tw_inputPos ?_)
      refine Twp.bind (tw_advChars hi3' fun _ => ?_)
      have s3 := s2.trans (hi3'.sameTake ((position notDigit i3).getD i3.length))
      refine Twp.ite (fun _ => nofun) (fun hdot => ?_)
      have e2 : i.drop e = c!"." ++ r2 := Option.some.inj (hi1.symm.trans hi2)
      have e3 : r2 = i3 := Option.some.inj (hi3.symm.trans hi3')
      have hle : e < i.length := by
        have := congrArg List.length e2
        rw [List.length_drop] at this
        have h3 : (c!"." ++ r2).length = r2.length + 1 := rfl
        omega
      refine ⟨s3.calm h, .inr ?_, TokP.num rfl rfl ?_, nofun, rfl⟩
      rotate_left
      · refine .dbl (pre := pre) (post := i3.drop ((position notDigit i3).getD i3.length)) ?_ hdig (take_digits _ (Nat.le_refl _)) ?_ ?_ ?_
        · rw [hcode]
          conv => lhs; rw [← List.take_append_drop e i, e2, e3, ← List.take_append_drop ((position notDigit i3).getD i3.length) i3]
          simp only [List.append_assoc, List.take_append_drop]
        · intro h0; exact hdot (by rw [beq_iff_eq]; exact h0)
        · rw [byteLen_append, byteLen_append, hpre]; rfl
        · rw [List.length_take]; omega
      have : byteLen ((c!"." ++ r2).take 1) = 1 := rfl
      simp only [Tz.adv_pos, this]
      omega

theorem prefixedNum_wp (pre : Text) (radix : Nat) (isDigit : Char → Bool) (hp : byteLen pre = 2)
    (ho : pre = c!"0x" ∧ radix = 16 ∨ pre = c!"0b" ∧ radix = 2) (h : LG t) :
    Twp U B (prefixedNum pre radix isDigit) t (Plain t) (Failed t) := by
  unfold prefixedNum
  refine Twp.bind (tw_input fun i hi => ?_)
  refine Twp.ite (fun _ => .no (Same.refl h)) (fun hc => ?_)
  have hs : startsWith i pre = true := by simp only [Bool.or_eq_true, not_or] at hc; simpa using hc.2
  obtain ⟨r, rfl⟩ := startsWith_split hs
  refine Twp.bind (tw_advBytes hi hp.symm fun hi1 => ?_)
  have s1 := hi.same
  refine Twp.bind (tw_input fun i2 hi2 => ?_)
  dsimp only
  refine Twp.ite (fun _ => .no s1) (fun _ => ?_)
  refine Twp.bind (tw_inputPos ?_)
  refine Twp.bind (tw_subT fun _ => ?_)
  refine Twp.bind (tw_advChars hi2 fun _ => ?_)
  have s2 := s1.trans (hi2.sameTake ((position (fun c => !isDigit c) i2).getD i2.length))
  split
  · rename_i v hv
    obtain ⟨pr, hcode, hpre⟩ := dropBytes_split hi
    have e2 : r = i2 := Option.some.inj (hi1.symm.trans hi2)
    subst e2
    refine ⟨s2.calm h, .inr ?_, TokP.num rfl rfl (.pref (pre := pr) (o := pre) (post := r.drop ((position (fun c => !isDigit c) r).getD r.length))
      ?_ ho hv ?_ (take_found _ _).symm), nofun, rfl⟩
    rotate_left
    · rw [List.append_assoc, List.append_assoc, List.take_append_drop]; exact hcode
    · rw [hpre]; simp only [Tz.adv_pos, hp]; omega
    simp only [Tz.adv_pos, hp]
    omega
  · exact nofun

theorem variable_wp (h : LG t) (h1 : 2 ≤ t.st.srcPos) : Twp U B matchVariable t (Plain t) (Failed t) := by
  unfold matchVariable
  refine Twp.bind (tw_input fun i hi => ?_)
  refine Twp.ite (fun _ => .no (Same.refl h)) (fun hc => ?_)
  have hs : startsWith i c!"$" = true := by simp only [Bool.or_eq_true, not_or] at hc; simpa using hc.2
  obtain ⟨r, rfl⟩ := startsWith_split hs
  refine Twp.bind (tw_inputPos ?_)
  refine Twp.bind (tw_advBytes hi rfl fun hi1 => ?_)
  have s1 := hi.same
  refine Twp.bind (label_wp ?_ fun w r2 hw hne _ => ?_)
  · exact .no (Same.refl h)
  · have s2 := s1.trans hw.same
    have hb := byteLen_pos hne
    have hl := length_le_byteLen w
    have ht := hw.total
    rw [byteLen_append] at ht
    have hd : byteLen c!"$" = 1 := rfl
    simp only [Tz.adv_pos, Tz.adv_code, hd] at ht
    refine ⟨s2.calm h, .inr ?_, TokP.word (Nat.le_trans (by decide) h1) ?_ ?_ ?_, fun _ => ⟨Nat.le_refl _, ?_⟩, rfl⟩
    · simp only [Tz.adv_pos, hd]; omega
    · simp only [Tz.adv_pos, mkSpan, hd]; omega
    · simp only [Tz.adv_pos, mkSpan, hd]; omega
    · intro ha
      have hr := hi1.unique hw
      subst hr
      have hi' : At t ((c!"$" ++ w) ++ r2) := hi
      refine hi'.stands0 (.variable w) rfl ?_
      have hwl := byteLen_ascii (w := w) ha
      simp only [Tz.adv_pos, byteLen_append, hd, mkSpan]
      omega
    · simp only [Tz.adv_pos, mkSpan, hd]; omega


/-! ## Strings in single quotes -/

theorem Unclosed.pair {q : Char} {i : Text} {x : Char} (hh : i.head? = some '\\') (hx : i[1]? = some x)
    (h : Unclosed q (i.drop 2)) : Unclosed q i := by
  cases i with
  | nil => cases hh
  | cons a r =>
    cases hh
    cases r with
    | nil => cases hx
    | cons b r => exact .escaped h

theorem Unclosed.append {q : Char} {a r : Text} (ha : ∀ c ∈ a, c ≠ q ∧ c ≠ '\\') (h : Unclosed q r) : Unclosed q (a ++ r) := by
  induction a with
  | nil => exact h
  | cons c a ih =>
    exact .other (ha c (by simp)).1 (ha c (by simp)).2 (ih fun d hd => ha d (by simp [hd]))

/-- Hexadecimal escapes take no quote with them. -/
theorem Unclosed.hex {q : Char} (hq : isAlnum q = false) {i : Text} {x : Char} (hh : i.head? = some '\\') (hx : i[1]? = some x)
    (he : hexEnd i ≠ 0) (h : Unclosed q (i.drop (1 + hexEnd i))) : Unclosed q i := by
  refine .pair hh hx ?_
  have key : ∀ c, isAlnum c = true → c ≠ q ∧ c ≠ '\\' := by
    intro c hc
    refine ⟨?_, ?_⟩ <;> rintro rfl
    · rw [hq] at hc; cases hc
    · exact absurd hc (by decide)
  match i with
  | [] => cases hh
  | [_] => cases hx
  | [_, _] => exact .nil
  | [_, _, c] =>
    have hc : isAlnum c = true := by
      by_cases hc : isAlnum c = true
      · exact hc
      · exact absurd (show hexEnd _ = 0 by simp [hexEnd, hc]) he
    have e2 : ∀ a b, hexEnd [a, b, c] = 2 := by intros; simp [hexEnd, hc]
    exact .other (key c hc).1 (key c hc).2 .nil
  | a :: b :: c :: d :: r =>
    have hc : isAlnum c = true := by
      by_cases hc : isAlnum c = true
      · exact hc
      · exact absurd (show hexEnd _ = 0 by simp [hexEnd, hc]) he
    by_cases hd : isAlnum d = true
    · have e2 : hexEnd (a :: b :: c :: d :: r) = 3 := by simp [hexEnd, hc, hd]
      rw [e2] at h
      exact .other (key c hc).1 (key c hc).2 (.other (key d hd).1 (key d hd).2 h)
    · have e2 : hexEnd (a :: b :: c :: d :: r) = 2 := by simp [hexEnd, hc, hd]
      rw [e2] at h
      exact .other (key c hc).1 (key c hc).2 h

theorem escape_wp {i : Text} (bytes : List Byte) (sq : Bool) (hi : At t i) (hh : i.head? = some '\\') :
    Twp U B (strEscape bytes sq) t (fun bs t' => Same t t' ∧ t.st.srcPos < t'.st.srcPos ∧
        bs.length + t.st.srcPos ≤ bytes.length + t'.st.srcPos ∧
        ∃ w r, i = w ++ r ∧ At t' r ∧ ∀ q, isAlnum q = false → Unclosed q r → Unclosed q i)
      (fun e t' => Culprit t.code e ∧ t' = t) := by
  unfold strEscape
  refine Twp.bind (Twp.of_ok (input_at hi) ?_)
  cases hx : i[1]? with
  | none =>
    refine Twp.bind (tw_inputPos ⟨.unfinished (.escape ?_), rfl⟩)
    obtain ⟨r, rfl⟩ : ∃ r, i = '\\' :: r := by
      cases i with
      | nil => cases hh
      | cons a r => cases hh; exact ⟨r, rfl⟩
    cases r with
    | nil => exact At.opens (b := []) hi
    | cons b r => cases hx
  | some x =>
    dsimp only
    have hne : i ≠ [] := by rintro rfl; cases hx
    have h2 : 1 + x.utf8Size ≤ byteLen (i.take 2) := by
      cases i with
      | nil => cases hx
      | cons a r =>
        cases r with
        | nil => cases hx
        | cons b r =>
          simp only [List.getElem?_cons_succ, List.getElem?_cons_zero, Option.some.injEq] at hx
          subst hx
          have := a.utf8Size_pos
          simp only [List.take_succ_cons, List.take_zero, byteLen]
          omega
    have hx1 := x.utf8Size_pos
    have hdone : ∀ bs : List Byte, bs.length ≤ bytes.length + (1 + x.utf8Size) →
        Twp U B (escDone bs) t (fun bs t' => Same t t' ∧ t.st.srcPos < t'.st.srcPos ∧
          bs.length + t.st.srcPos ≤ bytes.length + t'.st.srcPos ∧
          ∃ w r, i = w ++ r ∧ At t' r ∧ ∀ q, isAlnum q = false → Unclosed q r → Unclosed q i)
        (fun e t' => Culprit t.code e ∧ t' = t) := by
      intro bs hl
      unfold escDone
      refine Twp.bind (tw_advChars hi fun hi2 => ?_)
      refine ⟨hi.sameTake 2, ?_, ?_, i.take 2, i.drop 2, (List.take_append_drop 2 i).symm, hi2, fun q _ h => h.pair hh hx⟩ <;> simp only [Tz.adv_pos] <;> omega
    have h1 : ∀ b : Byte, (bytes ++ [b]).length ≤ bytes.length + (1 + x.utf8Size) := by
      intro b; simp only [List.length_append, List.length_cons, List.length_nil]; omega
    repeat' (first | exact hdone _ (h1 _) | refine Twp.ite (fun _ => ?_) (fun _ => ?_))
    · exact nofun
    · exact hdone _ (by simp only [List.length_append, List.length_cons, List.length_nil]; omega)
    · exact nofun
    · split
      · rename_i hz _ _ _ _
        refine Twp.bind (tw_advChars hi fun hi2 => ?_)
        have := take_ne hne (n := 1 + hexEnd i) (by omega)
        refine ⟨hi.sameTake _, ?_, ?_, i.take (1 + hexEnd i), i.drop (1 + hexEnd i), (List.take_append_drop _ i).symm, hi2,
          fun q hq h => h.hex hq hh hx (by simpa using hz)⟩ <;> simp only [Tz.adv_pos, List.length_append, List.length_cons, List.length_nil] <;> omega
      · exact nofun
    · exact nofun
    · exact hdone _ (by simp only [List.length_append, List.length_cons, List.length_nil, encodeChar_length]; omega)

theorem nextLine_calm {t0 t : Tz} (h : Calm t0 t) : Calm t0 { t with st := t.st.nextLine } :=
  ⟨h.code, h.queue, h.state, h.stack, h.le, ⟨h.lg.pos, h.lg.lines.push (Nat.le_refl _), h.lg.fin⟩⟩

theorem Calm.restore {t0 t : Tz} (h : Calm t0 t) : { t with st := t0.st } = t0 := by
  have h1 := h.code
  have h2 := h.queue
  cases t; cases t0
  simp only at h1 h2
  subst h1 h2
  rfl

theorem head_split {i : Text} {c : Char} (h : i.head? = some c) : ∃ r, i = [c] ++ r := by
  cases i with
  | nil => cases h
  | cons d r => cases h; exact ⟨r, rfl⟩

theorem head_ne {i : Text} {c : Char} (h : i.head? = some c) : i ≠ [] := by rintro rfl; cases h

theorem drop_position {p : Char → Bool} {i : Text} {d : Char} (h : (i.drop ((position p i).getD i.length)).head? = some d) :
    p d = true := by
  induction i with
  | nil => cases h
  | cons c i ih =>
    unfold position at h
    by_cases hc : p c = true
    · rw [if_pos hc] at h; cases h; exact hc
    · rw [if_neg hc] at h
      cases hp : position p i with
      | none => rw [hp] at h ih; exact ih h
      | some n => rw [hp] at h ih; exact ih h

theorem of_takeWhile {p : Char → Bool} {i : Text} {c : Char} (h : c ∈ i.takeWhile p) : p c = true := by
  induction i with
  | nil => cases h
  | cons x i ih =>
    rw [List.takeWhile_cons] at h
    split at h
    · rename_i hx
      rcases List.mem_cons.1 h with rfl | h
      · exact hx
      · exact ih h
    · cases h

theorem sqLoop_wp {t0 : Tz} (hg0 : LG t0) (fuel : Nat) (bytes : List Byte) (t : Tz) (hc : Calm t0 t)
    (hf : Fuel t fuel)
    (hbl : ∀ i, At t i → Unclosed '\'' i → Culprit t0.code (.unterminated "single-quoted string literal" (mkSpan t0.st.srcPos (byteLen t0.code + 1)))) :
    Twp U B (sqLoop t0.st fuel bytes) t (fun _ t' => Calm t t') (fun e t' => Culprit t0.code e ∧ Calm t0 t') := by
  induction fuel generalizing bytes t with
  | zero => exact absurd hf.1 (Nat.lt_irrefl _)
  | succ fuel ih =>
    unfold sqLoop
    refine Twp.bind (tw_input fun i hi => ?_)
    dsimp only
    refine Twp.bind (tw_advChars hi fun hadv => ?_)
    have hback : ∀ r, Unclosed '\'' r → Unclosed '\'' (i.take ((position (fun x => x == '\\' || x == '\'' || x == '\n') i).getD i.length) ++ r) := by
      intro r hr
      refine hr.append fun c hc => ?_
      rw [position_le _ _ _ (Nat.le_refl _)] at hc
      have := of_takeWhile hc
      simp only [Bool.not_eq_true', Bool.or_eq_false_iff, beq_eq_false_iff_ne] at this
      exact ⟨this.1.2, this.1.1⟩
    have hsum := List.take_append_drop ((position (fun x => x == '\\' || x == '\'' || x == '\n') i).getD i.length) i
    have s1 := hi.sameTake ((position (fun x => x == '\\' || x == '\'' || x == '\n') i).getD i.length)
    generalize byteLen (i.take ((position (fun x => x == '\\' || x == '\'' || x == '\n') i).getD i.length)) = n at *
    have hback' : ∀ r, Unclosed '\'' r → r = i.drop ((position (fun x => x == '\\' || x == '\'' || x == '\n') i).getD i.length) → Unclosed '\'' i := by
      rintro r hr rfl
      have := hback _ hr
      rw [hsum] at this
      exact this
    have c1 := s1.calm hc.lg
    refine Twp.bind (tw_input fun i2 hi2 => ?_)
    have e2 := hadv.unique hi2
    split
    · rename_i hh
      obtain ⟨r, rfl⟩ := head_split hh
      refine Twp.bind (tw_advBytes hi2 rfl fun hi3 => ?_)
      have c2 := nextLine_calm (c1.trans (hi2.same.calm c1.lg))
      refine Twp.bind ?_
      show Twp U B (sqLoop t0.st fuel _) _ _ _
      refine (ih _ _ (hc.trans c2) ?_ ?_).cons (fun _ _ h => c2.trans h) (fun _ _ h => h)
      · exact hf.next hi hi2 (head_ne hh) c1.code c1.le c2.code (Nat.lt_succ_of_le c1.le)
      · intro j hj hu
        have : r = j := hi3.unique hj
        subst this
        exact hbl i hi (hback' _ (.other (r := r) (c := '\n') (by decide) (by decide) hu) e2.symm)
    · rename_i hh
      refine Twp.bind ((escape_wp _ true hi2 hh).cons ?_ ?_)
      · rintro bs t' ⟨hs, hlt, _, w, r, _, hr, hq⟩
        have c2 := c1.trans (hs.calm c1.lg)
        refine (ih _ _ (hc.trans c2) ?_ ?_).cons (fun _ _ h => c2.trans h) (fun _ _ h => h)
        · exact hf.next hi hi2 (head_ne hh) c1.code c1.le c2.code (Nat.lt_of_le_of_lt c1.le hlt)
        · intro j hj hu
          have : r = j := hr.unique hj
          subst this
          exact hbl i hi (hback' _ (hq _ (by decide) hu) e2.symm)
      · rintro e t' ⟨he, rfl⟩
        exact ⟨by rw [(hc.trans c1).code] at he; exact he, hc.trans c1⟩
    · rename_i hh
      obtain ⟨r, rfl⟩ := head_split hh
      refine Twp.bind (tw_advBytes hi2 rfl fun hi3 => ?_)
      exact c1.trans (hi2.same.calm c1.lg)
    · rename_i h1 h2 h3
      have hnil : i2 = [] := by
        cases i2 with
        | nil => rfl
        | cons d r =>
          have := drop_position (p := fun x => x == '\\' || x == '\'' || x == '\n') (i := i) (d := d) (by rw [e2]; rfl)
          simp only [Bool.or_eq_true, beq_iff_eq] at this
          rcases this with (rfl | rfl) | rfl
          · exact absurd rfl h2
          · exact absurd rfl h3
          · exact absurd rfl h1
      subst hnil
      have htot := hi2.total
      rw [(hc.trans c1).code] at htot
      refine Twp.bind (tw_inputPos ?_)
      refine Twp.bind ?_
      refine ⟨?_, ?_⟩
      · have : (t.adv n).st.srcPos = byteLen t0.code := by simpa [byteLen] using htot
        rw [this]
        exact hbl i hi (hback' _ .nil e2.symm)
      rw [(hc.trans c1).restore]
      exact Calm.refl hg0

theorem bytesToken_kind (bs : List Byte) : isWord (bytesToken bs) = false ∧ isNumber (bytesToken bs) = false ∧
    bytesToken bs ≠ .k .End ∧ isBrace (bytesToken bs) = false := by
  unfold bytesToken
  cases decode bs <;> exact ⟨rfl, rfl, nofun, rfl⟩

theorem bytesToken_ranged (bs : List Byte) : ranged (bytesToken bs) = false := by
  unfold bytesToken
  cases decode bs <;> rfl

theorem unranged {P : Prop} {k : Token} (h : ranged k = false) : ranged k = true → P := fun h' => by rw [h] at h'; cases h'

/-- Fuel one more than the input is enough further on. -/
theorem Fuel.start {t t' : Tz} {i : Text} (hi : At t i) (hc : t'.code = t.code) (hle : t.st.srcPos ≤ t'.st.srcPos) :
    Fuel t' (i.length + 1) :=
  ⟨Nat.succ_pos _, fun _ hj => Nat.lt_succ_of_le (hi.notLonger hj hc hle)⟩

theorem sqString_wp (h : LG t) : Twp U B matchSqString t (Plain t) (Failed t) := by
  unfold matchSqString
  refine Twp.bind (tw_input fun i hi => ?_)
  refine Twp.ite (fun _ => .no (Same.refl h)) (fun _ => ?_)
  refine Twp.bind (m := getSt) (Twp.of_ok rfl ?_)
  dsimp only
  have body : ∀ n, 0 < n → Same t (t.adv n) → (∃ o r, At t (o ++ r) ∧ (o = c!"'" ∨ o = c!"b'") ∧ At (t.adv n) r) → Twp U B (do
      let bytes ← sqLoop t.st (i.length + 1) []
      let p ← inputPos
      pure ⟨bytesToken bytes, mkSpan t.st.srcPos p⟩) (t.adv n) (Plain t) (Failed t) := by
    rintro n hn hs ⟨o, r, ho, ho', hr⟩
    have c1 := hs.calm h
    refine Twp.bind ((sqLoop_wp h _ _ _ c1 (Fuel.start hi c1.code c1.le)
      (fun j hj hu => .unfinished (.single ho' ho.opens (by rw [hr.unique hj]; exact hu)))).cons ?_ ?_)
    · intro bs t' c2
      have c3 := c1.trans c2
      obtain ⟨k1, k2, k3, k4⟩ := bytesToken_kind bs
      refine Twp.bind (tw_inputPos ?_)
      have hp := c3.lg.pos
      rw [c3.code] at hp
      exact ⟨c3, .inr (by have := c2.le; simp only [Tz.adv_pos] at this; omega),
        TokP.plain k1 c3.le hp (unranged (bytesToken_ranged bs)), fun _ => ⟨Nat.le_refl _, Nat.le_refl _⟩, k4⟩
    · rintro e t' ⟨he, hc⟩
      exact .err he hc
  refine Twp.ite (fun hs => ?_) (fun _ => Twp.ite (fun hs => ?_) (fun _ => .no (Same.refl h)))
  · obtain ⟨r, rfl⟩ := startsWith_split hs
    exact Twp.bind (tw_advBytes hi rfl fun hr => body _ (by decide) hi.same ⟨_, _, hi, by decide, hr⟩)
  · obtain ⟨r, rfl⟩ := startsWith_split hs
    exact Twp.bind (tw_advBytes hi rfl fun hr => body _ (by decide) hi.same ⟨_, _, hi, by decide, hr⟩)

/-! ## Comments -/

theorem repeat_lines (n : Nat) (s : TState) (h : LinesOk s.lineMap s.srcPos) :
    LinesOk (repeatN TState.nextLine n s).lineMap s.srcPos ∧ (repeatN TState.nextLine n s).srcPos = s.srcPos ∧
      (repeatN TState.nextLine n s).lineMap.endPos = s.lineMap.endPos ∧
      (repeatN TState.nextLine n s).state = s.state ∧ (repeatN TState.nextLine n s).stack = s.stack := by
  induction n generalizing s with
  | zero => exact ⟨h, rfl, rfl, rfl, rfl⟩
  | succ n ih => exact ih s.nextLine (h.push (Nat.le_refl _))

theorem commentDone_wp {t0 : Tz} (doc : Bool) (c : Text) (hc : Calm t0 t) (hlt : t0.st.srcPos < t.st.srcPos)
    (hw : ∀ d, StandsIn t0.code ⟨.comment c, ⟨t0.st.srcPos, t.st.srcPos, d⟩⟩) :
    Twp U B (commentDone t0.st.srcPos doc c) t (Plain t0) (Failed t0) := by
  unfold commentDone
  refine Twp.bind (m := modSt _) (Twp.of_ok rfl ?_)
  obtain ⟨h1, h2, h3, h4, h5⟩ := repeat_lines (linesCount c - 1) t.st hc.lg.lines
  have hp := hc.lg.pos
  refine Twp.bind (tw_inputPos ?_)
  dsimp only
  generalize repeatN TState.nextLine (linesCount c - 1) t.st = s at *
  refine ⟨⟨hc.code, hc.queue, h4.trans hc.state, h5.trans hc.stack, ?_, ⟨?_, ?_, ?_⟩⟩, .inr ?_, TokP.plain rfl ?_ ?_ ?_, fun _ => ⟨Nat.le_refl _, ?_⟩, rfl⟩
  · dsimp only; omega
  · dsimp only; rw [h2]; exact hp
  · dsimp only; rw [h2]; exact h1
  · dsimp only; rw [h3]; exact hc.lg.fin
  · dsimp only; omega
  · show t0.st.srcPos ≤ s.srcPos; omega
  · show s.srcPos ≤ _; rw [h2, ← hc.code]; exact hp
  · intro _; rw [h2]; exact hw _
  · show s.srcPos ≤ s.srcPos; exact Nat.le_refl _

theorem lineComment_wp {a r : Text} {n : Nat} (h : LG t) (hi : At t (a ++ r)) (hn : n = byteLen a) (ha : 0 < n)
    (ho : a = c!"#" ∨ a = c!"//") :
    Twp U B (lineComment t.st.srcPos n) t (Plain t) (Failed t) := by
  unfold lineComment
  refine Twp.bind (tw_advBytes hi hn fun hi1 => ?_)
  refine Twp.bind (tw_input fun i2 hi2 => ?_)
  refine Twp.bind (tw_advChars hi2 fun _ => ?_)
  refine commentDone_wp _ _ ((hi.same.trans (hi2.sameTake _)).calm h) (by simp only [Tz.adv_pos]; omega) fun d => ?_
  have e := hi1.unique hi2
  subst e
  generalize (position (fun x => x == '\n') r).getD (byteLen r) = m
  have hi' : At t ((a ++ r.take m) ++ r.drop m) := by rw [List.append_assoc, List.take_append_drop]; exact hi
  refine hi'.stands0 (.line a _ ho) rfl ?_
  simp only [Tz.adv_pos, byteLen_append]
  omega

theorem beforeSub_split {pat i body : Text} (h : beforeSub pat i = some body) : ∃ r, i = body ++ (pat ++ r) := by
  induction i generalizing body with
  | nil =>
    simp only [beforeSub] at h
    split at h
    · cases h
      rename_i hs
      obtain ⟨r, hr⟩ := startsWith_split hs
      exact ⟨r, hr⟩
    · cases h
  | cons c i ih =>
    simp only [beforeSub] at h
    split at h
    · cases h
      rename_i hs
      obtain ⟨r, hr⟩ := startsWith_split hs
      exact ⟨r, hr⟩
    · cases hb : beforeSub pat i with
      | none => rw [hb] at h; cases h
      | some b =>
        rw [hb] at h
        cases h
        obtain ⟨r, rfl⟩ := ih hb
        exact ⟨r, rfl⟩

theorem beforeSub_nowhere {pat i : Text} (h : beforeSub pat i = none) : ¬ pat <:+: i := by
  induction i with
  | nil =>
    rintro hp
    rw [List.infix_nil] at hp
    subst hp
    cases h
  | cons c i ih =>
    simp only [beforeSub] at h
    split at h
    · cases h
    · rename_i hs
      cases hb : beforeSub pat i with
      | some b => rw [hb] at h; cases h
      | none =>
        intro hp
        rcases List.infix_cons_iff.1 hp with hp | hp
        · obtain ⟨r, hr⟩ := hp; rw [← hr] at hs; exact hs (startsWith_append _ _)
        · exact ih hb hp

theorem blockComment_wp {a r : Text} {n : Nat} {doc : Bool} (h : LG t) (hi : At t (a ++ r)) (hn : n = byteLen a) (ha : 0 < n)
    (ho : a = c!"/*" ∨ a = c!"/**") :
    Twp U B (blockComment t.st.srcPos n doc) t (Plain t) (Failed t) := by
  unfold blockComment
  refine Twp.bind (tw_advBytes hi hn fun hi1 => ?_)
  refine Twp.bind (tw_input fun i2 hi2 => ?_)
  cases hb : beforeSub c!"*/" i2 with
  | none =>
    have e := hi1.unique hi2
    subst e
    refine Twp.bind (tw_inputPos (.err (.unfinished ?_) (hi.same.calm h)))
    exact .comment ho hi.opens (beforeSub_nowhere hb)
  | some body =>
    obtain ⟨r, rfl⟩ := beforeSub_split hb
    refine Twp.bind (tw_advBytes hi2 rfl fun hi3 => ?_)
    refine Twp.bind (tw_advBytes hi3 rfl fun hi4 => ?_)
    refine commentDone_wp _ _ (((hi.same.trans hi2.same).trans hi3.same).calm h) (by simp only [Tz.adv_pos]; omega) fun d => ?_
    have e := hi1.unique hi2
    subst e
    have hi' : At t ((a ++ body ++ c!"*/") ++ r) := by simp only [List.append_assoc]; exact hi
    refine hi'.stands0 (.block a body ho) rfl ?_
    simp only [Tz.adv_pos, byteLen_append]
    omega

theorem comments_wp (h : LG t) : Twp U B matchComments t (Plain t) (Failed t) := by
  unfold matchComments
  refine Twp.bind (tw_inputPos ?_)
  refine Twp.bind (tw_input fun i hi => ?_)
  refine Twp.ite (fun hs => ?_) (fun _ => Twp.ite (fun hs => ?_) (fun _ => Twp.ite (fun hs => ?_)
    (fun _ => Twp.ite (fun hs => ?_) (fun _ => .no (Same.refl h)))))
  · obtain ⟨r, rfl⟩ := startsWith_split hs; exact lineComment_wp h hi rfl (by decide) (by decide)
  · obtain ⟨r, rfl⟩ := startsWith_split hs; exact lineComment_wp h hi rfl (by decide) (by decide)
  · obtain ⟨r, rfl⟩ := startsWith_split hs; exact blockComment_wp h hi rfl (by decide) (by decide)
  · obtain ⟨r, rfl⟩ := startsWith_split hs; exact blockComment_wp h hi rfl (by decide) (by decide)

end

end Pico
