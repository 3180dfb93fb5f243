import Verif.Lemmas.TokStep
/-!
# Interpolated strings, documents and the whole step
-/
namespace Pico
open T

/-- Nesting of braces as recorded in the state. -/
def depth (s : TState) : Nat :=
  match s.state with
  | .emitQueue => s.stack.length - 1
  | .lookingForProperty => s.stack.length - 1
  | _ => s.stack.length

/-- The invariant between two tokens. -/
structure Inv (t : Tz) : Prop where
  lines : LG t ∨ (Gap t ∧ (t.st.state = .inScripting ∨ t.st.state = .emitQueue))
  stk : ∀ s ∈ t.st.stack, s = .inScripting ∨ s = .doNothing
  head : (t.st.state = .emitQueue ∨ t.st.state = .lookingForProperty) → ∃ r, t.st.stack = .inScripting :: r
  queue : t.st.state ≠ .emitQueue → t.queue = []
  qok : ∀ y ∈ t.queue, QOk t.code y
  one : t.st.state = .initial ∨ t.st.state = .done ∨ 2 ≤ t.st.srcPos
  one' : t.st.stack ≠ [] → 2 ≤ t.st.srcPos

/-- The lowest state on the stack. -/
def bottom (s : TState) : Option LexState := (s.state :: s.stack).getLast?

/-- The tokenizer has not come to an end. -/
def Awake (s : TState) : Prop := ∀ x ∈ s.state :: s.stack, x ≠ .done ∧ x ≠ .doNothing

/-- A token was delivered. -/
structure NextPost (t : Tz) (x : TokSpan) (t' : Tz) : Prop where
  inv : Inv t'
  code : t'.code = t.code
  le : t.st.srcPos ≤ t'.st.srcPos
  tp : TokP t.code x
  ord : t.st.state ≠ .emitQueue → isNumber x.tok = false → t.st.srcPos ≤ x.span.start ∧ x.span.stop ≤ t'.st.srcPos
  dep : (HasBlock t.code ∧ t.queue ≠ []) ∨ depth t'.st + (if closesBrace x.tok then 1 else 0) = depth t.st + (if opensBrace x.tok then 1 else 0)
  bot : bottom t.st = some .doNothing → bottom t'.st = some .doNothing
  prog : x.tok = .k .End ∨ t.st.srcPos < t'.st.srcPos ∨ (t'.st.srcPos = t.st.srcPos ∧ t'.queue.length < t.queue.length)
  quote : t'.st.state = .emitQueue → t.st.state = .emitQueue ∨ HasQuote t.code
  late : Late t.st.srcPos x
  wake : Awake t.st → x.tok = .k .End ∨ Awake t'.st

/-- An error was delivered. -/
structure NextErr (t : Tz) (e : SyntaxErr) (t' : Tz) : Prop where
  lg : LG t'
  queue : t'.queue = []
  code : t'.code = t.code
  le : t.st.srcPos ≤ t'.st.srcPos
  blame : e ≠ .none → Culprit t.code e
  idle : e = .none → ¬ Awake t.st

/-- What the string scanners need to know about the tokenizer they call. -/
def NextOk (next : T TokSpan) : Prop := ∀ t, Inv t →
  Twp (depth t.st = 0 ∧ t.st.state ≠ .doNothing) True next t (NextPost t) (NextErr t)

section
variable {U B : Prop} {t : Tz}

theorem no_underflow (h : Inv t) (hb : bottom t.st = some .doNothing) : ¬ (depth t.st = 0 ∧ t.st.state ≠ .doNothing) := by
  rintro ⟨h1, h2⟩
  unfold depth at h1
  unfold bottom at hb
  have hh := h.head
  have hk := h.stk
  generalize t.st.stack = k at *
  generalize t.st.state = s at *
  cases k with
  | nil =>
    cases s <;> simp_all
  | cons a k =>
    cases s <;> simp at h1
    · obtain ⟨r, hr⟩ := hh (.inr rfl)
      injection hr with e1 e2
      subst e1 h1
      simp at hb
    · obtain ⟨r, hr⟩ := hh (.inl rfl)
      injection hr with e1 e2
      subst e1 h1
      simp at hb

theorem blockLoop_wp {next : T TokSpan} (hn : NextOk next) {L : Text} (fuel : Nat) (acc : List TokSpan) (t : Tz) (h : Inv t)
    (hb : bottom t.st = some .doNothing) (hL : L = t.code) (h3 : 3 ≤ t.st.srcPos)
    (ha : ∀ x ∈ acc, TokP L x ∧ Late 3 x) :
    Twp False True (blockLoop next fuel acc) t
      (fun toks t' => (acc <+: toks ∧ ∀ x ∈ toks, TokP L x ∧ Late 3 x) ∧ LG t' ∧ t'.queue = [] ∧ t'.code = t.code ∧ t.st.srcPos ≤ t'.st.srcPos)
      (fun _ _ => False) := by
  induction fuel generalizing acc t with
  | zero => exact trivial
  | succ fuel ih =>
    have hnx := (hn t h).mono (U := False) (B := True) (no_underflow h hb) id (fun _ _ h => h) (fun _ _ h => h)
    unfold Twp at hnx
    cases hm : next t with
    | ok tok t' =>
      rw [hm] at hnx
      dsimp only at hnx
      have := ih (acc ++ [tok]) t' hnx.inv (hnx.bot hb) (by rw [hnx.code]; exact hL) (Nat.le_trans h3 hnx.le) (by
        intro x hx
        rw [List.mem_append, List.mem_singleton] at hx
        rcases hx with hx | rfl
        · exact ha x hx
        · rw [hL]; exact ⟨hnx.tp, hnx.late.mono h3⟩)
      have e : blockLoop next (fuel + 1) acc t = blockLoop next fuel (acc ++ [tok]) t' := by
        conv => lhs; unfold blockLoop
        simp only [hm]
      unfold Twp at this ⊢
      rw [e]
      split
      · rename_i e2
        rw [e2] at this
        obtain ⟨r1, r2, r3, r4, r5⟩ := this
        exact ⟨⟨(List.prefix_append acc [tok]).trans r1.1, r1.2⟩, r2, r3, r4.trans hnx.code, Nat.le_trans hnx.le r5⟩
      · rename_i e2; rw [e2] at this; exact this
      · rename_i e2; rw [e2] at this; exact this
      · exact trivial
    | err e t' =>
      rw [hm] at hnx
      refine Twp.of_ok (a := acc) (t' := t') (by unfold blockLoop; simp only [hm]) ?_
      exact ⟨⟨List.prefix_refl _, ha⟩, hnx.lg, hnx.queue, hnx.code, hnx.le⟩
    | panic p =>
      rw [hm] at hnx
      exact Twp.of_panic (p := p) (by unfold blockLoop; simp only [hm]) hnx
    | oof =>
      unfold Twp blockLoop
      simp only [hm]

/-- The text before a variable or block is queued. -/
theorem flush_wp {L : Nat} {P : TokSpan → Prop} {E : SyntaxErr → Tz → Prop} (bytes : List Byte) (parts : List TokSpan) (stop : Nat)
    (hP : P ⟨bytesToken bytes, mkSpan (stop - bytes.length) stop⟩) (hp : ∀ y ∈ parts, P y) :
    Twp U B (flushBytes bytes parts stop) t (fun ps t' => (t' = t ∧ (∀ y ∈ ps, P y)) ∧ (bytes = [] → ps = parts)) E := by
  unfold flushBytes
  refine Twp.ite (fun _ => ⟨⟨rfl, hp⟩, fun _ => rfl⟩) (fun hne => ?_)
  refine Twp.bind (tw_subT fun _ => ⟨⟨rfl, ?_⟩, fun h => absurd (by rw [h]; rfl) hne⟩)
  intro y hy
  rw [List.mem_append, List.mem_singleton] at hy
  rcases hy with hy | rfl
  · exact hp y hy
  · exact hP

theorem flushed {code : Text} (bytes : List Byte) {s e : Nat} (h0 : 2 ≤ s) (h1 : s ≤ e) (h2 : e ≤ byteLen code) :
    QOk code ⟨bytesToken bytes, mkSpan s e⟩ := by
  obtain ⟨k1, k2, k3, k4⟩ := bytesToken_kind bytes
  exact ⟨TokP.plain k1 h1 h2 (unranged (bytesToken_ranged bytes)), .inr k4, Late.at2 h0 (by unfold bytesToken; split <;> nofun)⟩

theorem At.infix {a b : Text} (h : At t (a ++ b)) : a <:+: t.code := by
  obtain ⟨p, hp, _⟩ := dropBytes_split h
  exact ⟨p, b, by rw [hp, List.append_assoc]⟩

/-- Scanning on inside a string. -/
def InStr (t : Tz) (r : List Byte × List TokSpan) (t' : Tz) : Prop :=
  Calm t t' ∧ t.st.srcPos < t'.st.srcPos ∧ (∀ y ∈ r.2, QOk t.code y) ∧ r.1.length + 3 ≤ t'.st.srcPos

/-- With nothing collected before, the first new part of a block is its brace. -/
def FirstBrace (t : Tz) (bytes : List Byte) (parts : List TokSpan) (r : List Byte × List TokSpan) : Prop :=
  bytes = [] → ∀ ts, r.2[parts.length]? = some ts → ts = ⟨.k .CurlyBracesOpen, mkSpan t.st.srcPos (t.st.srcPos + 1)⟩

/-- The tokenizer stands behind the opening of an expression between braces. -/
def AtBlock (code : Text) (u : Tz) : Prop :=
  Inv u ∧ u.code = code ∧ u.st.state = .inScripting ∧ u.st.stack = [.doNothing] ∧
    ∃ s pre, At u s ∧ ((code = pre ++ c!"{" ++ s ∧ c!"$" <+: s) ∨ code = pre ++ c!"${" ++ s)

/-- The fuel does not suffice for an expression between braces further on. -/
def Stopped (next : T TokSpan) (fuel : Nat) (t : Tz) : Prop :=
  ∃ u acc, AtBlock t.code u ∧ t.st.srcPos < u.st.srcPos ∧ blockLoop next fuel acc u = .oof

theorem Stopped.back {next : T TokSpan} {fuel : Nat} {t u : Tz} (h : Stopped next fuel u) (hc : u.code = t.code) (hle : t.st.srcPos ≤ u.st.srcPos) :
    Stopped next fuel t := by
  obtain ⟨v, acc, h1, h2, h3⟩ := h
  exact ⟨v, acc, hc ▸ h1, Nat.lt_of_le_of_lt hle h2, h3⟩

theorem AtBlock.block {code : Text} {u : Tz} (h : AtBlock code u) : HasBlock code := by
  obtain ⟨_, _, _, _, s, pre, _, h | h⟩ := h
  · obtain ⟨rfl, r, rfl⟩ := h
    exact .inl ⟨pre, r, by simp⟩
  · exact .inr ⟨pre, s, h.symm⟩

theorem Twp.oof {α : Type} {m : T α} {Q : α → Tz → Prop} {E : SyntaxErr → Tz → Prop} (h : Twp U True m t Q E) (hB : m t = .oof → B) : Twp U B m t Q E := by
  unfold Twp at *
  cases hm : m t with
  | oof => exact hB hm
  | _ => rw [hm] at h; exact h

theorem strBlock_wp' {next : T TokSpan} (hn : NextOk next) (fuel : Nat) (hB : Stopped next fuel t → B) (bytes : List Byte) (parts : List TokSpan)
    (rd : Bool) {r : Text} (h : LG t) (hq : t.queue = []) (h1 : bytes.length + 3 ≤ t.st.srcPos) (hi : At t ([ '{' ] ++ r))
    (hb : rd = false → ∃ pre, t.code = pre ++ c!"${" ++ r) (hp : ∀ y ∈ parts, QOk t.code y) :
    Twp U B (strBlock next fuel bytes parts rd) t (fun r t' => InStr t r t' ∧ FirstBrace t bytes parts r)
      (fun _ _ => False) := by
  have same : ∀ bs, FirstBrace t bytes parts (bs, parts) := by
    intro bs _ ts hts
    simp at hts
  unfold strBlock
  refine Twp.bind (tw_advBytes hi rfl fun hi1 => ?_)
  have c1 := hi.same.calm h
  have hlt : t.st.srcPos < (t.adv (byteLen ['{'])).st.srcPos := Nat.lt_succ_self _
  have hc1 : (t.adv (byteLen ['{'])).code = t.code := rfl
  generalize hu : t.adv (byteLen ['{']) = u at *
  have hq1 : u.queue = [] := by rw [c1.queue, hq]
  refine Twp.bind (Twp.of_ok (input_at hi1) ?_)
  refine Twp.ite (fun hd => ?_) (fun _ => ⟨⟨c1, hlt, hp, by simp only [List.length_append, List.length_cons, List.length_nil]; omega⟩, same _⟩)
  have hblock : HasBlock t.code := by
    cases rd with
    | false =>
      obtain ⟨pre, hb⟩ := hb rfl
      exact .inr ⟨pre, r, hb.symm⟩
    | true =>
      simp only [Bool.not_true, Bool.or_false] at hd
      obtain ⟨r', rfl⟩ := startsWith_split hd
      left
      have : At t (c!"{$" ++ r') := hi
      exact this.infix
  refine Twp.bind (m := getSt) (Twp.of_ok rfl ?_)
  refine Twp.bind (m := modSt _) (Twp.of_ok rfl ?_)
  refine Twp.bind (tw_inputPos ?_)
  refine Twp.bind (tw_subT fun hq0 => ?_)
  have hp1 := c1.lg.pos
  have hbrace : StandsIn t.code ⟨.k .CurlyBracesOpen, mkSpan (u.st.srcPos - 1) u.st.srcPos⟩ := by
    refine hi.stands0 (.symbol (by decide)) ?_ ?_
    · rw [← hu]; exact Nat.add_sub_cancel ..
    · rw [← hu]; rfl
  have hinv : Inv { u with st := { u.st with state := .inScripting, stack := [.doNothing] } } := by
    refine ⟨.inl ⟨c1.lg.pos, c1.lg.lines, c1.lg.fin⟩, ?_, ?_, fun _ => hq1, ?_, .inr (.inr ?_), fun _ => ?_⟩
    · intro s hs; rw [List.mem_singleton] at hs; exact .inr hs
    · rintro (h | h) <;> cases h
    · intro y hy; rw [hq1] at hy; cases hy
    · show 2 ≤ u.st.srcPos; omega
    · show 2 ≤ u.st.srcPos; omega
  have hopen : AtBlock t.code { u with st := { u.st with state := .inScripting, stack := [.doNothing] } } := by
    refine ⟨hinv, hc1, rfl, rfl, r, ?_⟩
    cases rd with
    | false =>
      obtain ⟨pre, hb⟩ := hb rfl
      exact ⟨pre, hi1, .inr hb⟩
    | true =>
      simp only [Bool.not_true, Bool.or_false] at hd
      obtain ⟨r', rfl⟩ := startsWith_split hd
      obtain ⟨pre, h2, _⟩ := dropBytes_split hi
      exact ⟨pre, hi1, .inl ⟨by rw [h2]; simp, ⟨r', rfl⟩⟩⟩
  refine Twp.bind (((blockLoop_wp hn (L := t.code) fuel _ _ hinv rfl (by rw [← hc1]) (show 3 ≤ u.st.srcPos by omega) ?_).mono False.elim id ?_ (fun _ _ h => h)).oof
    fun ho => hB ⟨_, _, hopen, hlt, ho⟩)
  · intro x hx
    rw [List.mem_singleton] at hx
    subst hx
    exact ⟨TokP.plain rfl (Nat.sub_le _ _) (by rw [← hc1]; exact hp1) (fun _ => hbrace), Late.of fun _ => (show 3 ≤ u.st.srcPos - 1 by omega)⟩
  rintro toks t' ⟨⟨w0, w1⟩, w2, w3, w4, w5⟩
  dsimp only at w4 w5
  refine Twp.ite (fun _ => ?_) (fun _ => ?_)
  · refine Twp.bind (tw_subT fun _ => ?_)
    refine Twp.bind ((flush_wp (L := byteLen t.code) (P := QOk t.code) bytes parts _ ?_ hp).cons ?_ (fun _ _ h => h))
    · refine flushed bytes ?_ (Nat.sub_le _ _) ?_
      · show 2 ≤ u.st.srcPos - 1 - bytes.length
        omega
      · rw [← hc1]
        omega
    · rintro ps t'' ⟨⟨rfl, hps⟩, hpb⟩
      refine Twp.bind (m := modSt _) (Twp.of_ok rfl ?_)
      refine ⟨⟨⟨w4.trans hc1, by rw [hq]; exact w3, c1.state, c1.stack, ?_, ⟨w2.pos, w2.lines, w2.fin⟩⟩, ?_, ?_, ?_⟩, ?_⟩
      · show t.st.srcPos ≤ t''.st.srcPos; omega
      · show t.st.srcPos < t''.st.srcPos; omega
      · intro y hy
        rw [List.mem_append] at hy
        rcases hy with hy | hy
        · exact hps y hy
        · exact ⟨(w1 y hy).1, .inl hblock, (w1 y hy).2⟩
      · show 0 + 3 ≤ t''.st.srcPos; omega
      · intro hb0 ts hts
        rw [hpb hb0] at hts
        obtain ⟨more, rfl⟩ := w0
        simp only [List.getElem?_append_right (Nat.le_refl _), Nat.sub_self, List.cons_append, List.getElem?_cons_zero,
          Option.some.injEq] at hts
        rw [← hts, ← hu]
        simp only [Tz.adv_pos]
        exact congrArg (fun p => (⟨.k .CurlyBracesOpen, mkSpan p (t.st.srcPos + 1)⟩ : TokSpan)) (Nat.add_sub_cancel ..)
  · refine Twp.bind (m := setSt _) (Twp.of_ok rfl ?_)
    have : ({ t' with st := u.st } : Tz) = u := by
      rw [w4, w3, ← hq1]
    rw [this]
    exact ⟨⟨c1, hlt, hp, by show bytes.length + 3 ≤ _; omega⟩, same _⟩

theorem strBlock_wp {next : T TokSpan} (hn : NextOk next) (fuel : Nat) (hB : Stopped next fuel t → B) (bytes : List Byte) (parts : List TokSpan)
    (rd : Bool) {r : Text} (h : LG t) (hq : t.queue = []) (h1 : bytes.length + 3 ≤ t.st.srcPos) (hi : At t ([ '{' ] ++ r))
    (hb : rd = false → ∃ pre, t.code = pre ++ c!"${" ++ r) (hp : ∀ y ∈ parts, QOk t.code y) :
    Twp U B (strBlock next fuel bytes parts rd) t (InStr t) (fun _ _ => False) :=
  (strBlock_wp' hn fuel hB bytes parts rd h hq h1 hi hb hp).cons (fun _ _ h => h.1) (fun _ _ h => h)

theorem strVariable_wp {next : T TokSpan} (hn : NextOk next) (fuel : Nat) (hB : Stopped next fuel t → B) (bytes : List Byte) (parts : List TokSpan)
    {r : Text} (h : LG t) (hq : t.queue = []) (h1 : bytes.length + 3 ≤ t.st.srcPos) (hi : At t ([ '$' ] ++ r))
    (hp : ∀ y ∈ parts, QOk t.code y) :
    Twp U B (strVariable next fuel bytes parts) t (InStr t) (fun _ _ => False) := by
  unfold strVariable
  refine Twp.bind (tw_advBytes hi rfl fun hi1 => ?_)
  have c1 := hi.same.calm h
  have hlt : t.st.srcPos < (t.adv (byteLen ['$'])).st.srcPos := Nat.lt_succ_self _
  have hc1 : (t.adv (byteLen ['$'])).code = t.code := rfl
  generalize hu : t.adv (byteLen ['$']) = u at *
  have hq1 : u.queue = [] := by rw [c1.queue, hq]
  have hp1 := c1.lg.pos
  rw [hc1] at hp1
  refine Twp.bind (Twp.of_ok (input_at hi1) ?_)
  refine Twp.ite (fun hd => ?_) (fun _ => ?_)
  · obtain ⟨r', rfl⟩ := startsWith_split hd
    have hblock : HasBlock t.code := by
      right
      have : At t (c!"${" ++ r') := hi
      exact this.infix
    refine Twp.bind (tw_inputPos ?_)
    refine Twp.bind (tw_subT fun _ => ?_)
    refine Twp.bind ((flush_wp (L := byteLen t.code) (P := QOk t.code) bytes parts _ ?_ hp).cons ?_ (fun _ _ h => h))
    · exact flushed bytes (show 2 ≤ u.st.srcPos - 1 - bytes.length by omega) (Nat.sub_le _ _) (by omega)
    · rintro ps t'' ⟨⟨rfl, hps⟩, _⟩
      rw [← hc1] at hps hblock
      have hpre : ∃ pre, t''.code = pre ++ c!"${" ++ r' := by
        obtain ⟨pre, h2, _⟩ := dropBytes_split hi
        exact ⟨pre, by rw [hc1, h2]; simp⟩
      refine Twp.bind ((strBlock_wp' hn fuel (fun h => hB (h.back hc1 c1.le)) [] ps false c1.lg hq1 (show 0 + 3 ≤ _ by omega) hi1 (fun _ => hpre) hps).cons ?_ (fun _ _ h => h))
      rintro ⟨bs, ps'⟩ t2 ⟨⟨c2, l2, hps', hr2⟩, hfb⟩
      dsimp only at hps' hr2 ⊢
      cases hget : ps'[ps.length]? with
      | none => exact nofun
      | some ts =>
        dsimp only
        refine Twp.ite (fun htok => ?_) (fun _ => nofun)
        refine Twp.bind (tw_subT fun _ => ?_)
        refine ⟨c1.trans c2, by omega, ?_, hr2⟩
        intro y hy
        rw [hc1] at hps'
        have hts := hps' ts (List.mem_of_getElem? hget)
        rcases List.mem_or_eq_of_mem_set hy with hy | rfl
        · exact hps' y hy
        · refine ⟨⟨?_, ?_, fun _ => ?_, nofun⟩, .inl (by rw [← hc1]; exact hblock), ⟨fun _ _ => ?_, fun _ h => by cases h⟩⟩
          rotate_right
          · have := hts.late.three (by decide) (eq_of_beq htok)
            show 2 ≤ ts.span.start - 1
            omega
          · exact nofun
          · intro _
            have hnum : isNumber ts.tok = false := by rw [eq_of_beq htok]; rfl
            have := hts.tp.inside hnum
            refine ⟨?_, this.2⟩
            show ts.span.start - 1 ≤ ts.span.stop
            omega
          · have hi' : At t (c!"${" ++ r') := hi
            rw [hfb rfl ts hget]
            refine hi'.stands0 (.rare (by decide)) ?_ ?_
            · rw [← hu]; exact Nat.add_sub_cancel ..
            · rw [← hu]; rfl
  · refine Twp.bind (label_wp ?_ fun w r2 hw hne _ => ?_)
    · exact ⟨c1, hlt, hp, by simp only [List.length_append, List.length_cons, List.length_nil]; omega⟩
    · dsimp only
      have s2 := hw.same
      have hbl := byteLen_pos hne
      have hll := length_le_byteLen w
      have ht2 := hw.total
      rw [byteLen_append, hc1] at ht2
      refine Twp.bind (tw_input fun i3 hi3 => ?_)
      refine Twp.bind (Twp.cons (Q' := fun (tmp : List TokSpan) t' => Same (u.adv (byteLen w)) t' ∧ ∀ y ∈ tmp, QOk t.code y)
        (E' := fun _ _ => False) ?_ ?_ (fun _ _ h => h))
      · refine Twp.ite (fun _ => nofun) (fun _ => Twp.ite (fun hd => ?_) (fun _ => ?_))
        · obtain ⟨r3, rfl⟩ := startsWith_split hd
          refine Twp.bind (tw_inputPos ?_)
          refine Twp.bind (tw_advBytes hi3 rfl fun hi4 => ?_)
          have s4 := hi3.same
          have ht3 := hi3.total
          have hl2 : byteLen (c!"->" ++ r3) = 2 + byteLen r3 := byteLen_append _ _
          simp only [Tz.adv_pos, Tz.adv_code, hc1, hl2] at ht3
          refine Twp.bind (label_wp ?_ fun w2 r4 hw2 hne2 _ => ?_)
          · have c2 := s2.calm c1.lg
            exact ⟨Same.refl c2.lg, nofun⟩
          · refine ⟨s4.trans hw2.same, ?_⟩
            have hll2 := length_le_byteLen w2
            have ht4 := hw2.total
            have hl3 : byteLen c!"->" = 2 := rfl
            simp only [Tz.adv_pos, Tz.adv_code, hc1, byteLen_append, hl3] at ht4
            intro y hy
            simp only [List.mem_cons, List.not_mem_nil, or_false] at hy
            rcases hy with rfl | rfl
            · refine ⟨TokP.plain rfl (Nat.le_succ _) ?_ (fun _ => ?_), .inr rfl, Late.at2 ?_ nofun⟩
              · simp only [Tz.adv_pos]; omega
              · have hi' : At (u.adv (byteLen w)) (c!"-" ++ (c!">" ++ r3)) := hi3
                have := hi'.stands0 (k := .k .ObjectOp) (d := none) .innerArrow rfl rfl
                rw [Tz.adv_code, hc1] at this
                exact this
              · simp only [Tz.adv_pos]; omega
            · refine ⟨TokP.word ?_ ?_ ?_ (fun ha => ?_), .inr rfl, Late.at2 (show 2 ≤ (u.st.srcPos + byteLen w) + byteLen c!"->" by omega) nofun⟩
              · show 1 ≤ (u.st.srcPos + byteLen w) + byteLen c!"->"; omega
              · show (u.st.srcPos + byteLen w) + byteLen c!"->" ≤ (u.st.srcPos + byteLen w) + byteLen c!"->" + w2.length
                omega
              · show (u.st.srcPos + byteLen w) + byteLen c!"->" + w2.length ≤ byteLen t.code
                omega
              · have := hw2.stands0 (k := .string w2) (d := none) (.name w2) rfl rfl
                rw [byteLen_ascii (w := w2) ha, Tz.adv_code, Tz.adv_code, hc1] at this
                exact this
        · exact ⟨Same.refl (s2.calm c1.lg).lg, nofun⟩
      · rintro tmp t' ⟨s3, htmp⟩
        refine Twp.bind (tw_subT fun hs0 => ?_)
        have c3 := c1.trans ((s2.trans s3).calm c1.lg)
        refine Twp.bind ((flush_wp (L := byteLen t.code) (P := QOk t.code) bytes parts _ ?_ hp).cons ?_ (fun _ _ h => h))
        · refine flushed bytes (show 2 ≤ u.st.srcPos - 1 - bytes.length by omega) (Nat.sub_le _ _) ?_
          show u.st.srcPos - 1 ≤ _
          omega
        · rintro ps t'' ⟨⟨rfl, hps⟩, _⟩
          have hle3 := ((s2.trans s3).calm c1.lg).le
          refine ⟨c3, ?_, ?_, show 0 + 3 ≤ _ by omega⟩
          · have := ((s2.trans s3).calm c1.lg).le
            omega
          · intro y hy
            simp only [List.mem_append, List.mem_singleton] at hy
            rcases hy with (hy | rfl) | hy
            · exact hps y hy
            · refine ⟨TokP.word ?_ ?_ ?_ (fun ha => ?_), .inr rfl, Late.at2 (show 2 ≤ u.st.srcPos - 1 by omega) nofun⟩
              · show 1 ≤ u.st.srcPos - 1; omega
              · show u.st.srcPos - 1 ≤ u.st.srcPos + w.length; omega
              · show u.st.srcPos + w.length ≤ _; omega
              · have e := hi1.unique hw
                subst e
                have hi' : At t ((c!"$" ++ w) ++ r2) := hi
                refine hi'.stands0 (.variable w) ?_ ?_
                · rw [← hu]; exact Nat.add_sub_cancel ..
                · rw [← hu, byteLen_append, byteLen_ascii (w := w) ha, ← Nat.add_assoc]; rfl
            · exact htmp y hy

/-- Skipping to the next character that matters. -/
theorem dqAdvance_wp {i : Text} (h : LG t) (hi : At t i) {E : SyntaxErr → Tz → Prop} :
    Twp U B dqAdvance t (fun rr t' => (Same t t' ∧ t'.st.srcPos = t.st.srcPos + (encode rr).length) ∧
      ∃ rest, At t' rest ∧ i = rr ++ rest ∧ (∀ c ∈ rr, isDqStop c = false) ∧ ∀ c r, rest = c :: r → isDqStop c = true ∨ r = []) E := by
  have key := position_le isDqStop i i.length (Nat.le_refl _)
  unfold dqAdvance
  refine Twp.bind (Twp.of_ok (input_at hi) ?_)
  split
  · rename_i n hn
    rw [hn] at key
    refine tw_advChars hi fun hi2 => ⟨⟨hi.sameTake _, by rw [encode_length]; rfl⟩, _, hi2, (List.take_append_drop _ _).symm, ?_, ?_⟩
    · intro c hc
      have := of_takeWhile (p := fun c => !isDqStop c) (by rw [← key]; exact hc)
      simpa using this
    · intro c r hr
      exact .inl (drop_position (p := isDqStop) (i := i) (by rw [hn]; show (i.drop n).head? = _; rw [hr]; rfl))
  · rename_i hn
    rw [hn] at key
    refine Twp.bind (tw_subT fun _ => tw_advChars hi fun hi2 => ⟨⟨hi.sameTake _, by rw [encode_length]; rfl⟩, _, hi2, (List.take_append_drop _ _).symm, ?_, ?_⟩)
    · intro c hc
      have := of_takeWhile (p := fun c => !isDqStop c) (by rw [← key]; simpa using List.mem_of_mem_take hc)
      simpa using this
    · intro c r hr
      have := congrArg List.length hr
      rw [List.length_drop] at this
      simp only [List.length_cons] at this
      exact .inr (List.eq_nil_of_length_eq_zero (by omega))

/-- The scanners of string bodies: the state at the opening was `t0`. -/
structure Body (t0 t : Tz) : Prop where
  calm : Calm t0 t
  queue : t0.queue = []
  one : 3 ≤ t.st.srcPos
  lg0 : LG t0

theorem Body.step {t0 t t' : Tz} (h : Body t0 t) (hc : Calm t t') : Body t0 t' :=
  ⟨h.calm.trans hc, h.queue, Nat.le_trans h.one hc.le, h.lg0⟩

/-- What a string body delivers. -/
def BodyPost (t : Tz) (r : List Byte × List TokSpan) (t' : Tz) : Prop := Calm t t' ∧ ∀ y ∈ r.2, QOk t.code y

theorem BodyPost.after {t t1 t' : Tz} {r : List Byte × List TokSpan} (hc : Calm t t1) (h : BodyPost t1 r t') : BodyPost t r t' :=
  ⟨hc.trans h.1, by have := h.2; rw [hc.code] at this; exact this⟩

theorem dqLoop_wp {next : T TokSpan} (hn : NextOk next) {t0 : Tz} (bfuel fuel : Nat) (bytes : List Byte) (parts : List TokSpan)
    (t : Tz) (hB : Stopped next bfuel t → B) (hb : Body t0 t) (hf : Fuel t fuel) (hp : ∀ y ∈ parts, QOk t.code y) (hr : bytes.length + 3 ≤ t.st.srcPos)
    (hbl : ∀ i, At t i → ('$' ∈ i ∨ Unclosed '"' i) → ∀ p, t0.st.srcPos ≤ p → p ≤ byteLen t0.code →
      Culprit t0.code (.unterminated "double-quoted string literal" (mkSpan t0.st.srcPos p))) :
    Twp U B (dqLoop next bfuel t0.st fuel bytes parts) t (BodyPost t) (fun e t' => Culprit t0.code e ∧ Calm t0 t') := by
  induction fuel generalizing bytes parts t with
  | zero => exact absurd hf.1 (Nat.lt_irrefl _)
  | succ fuel ih =>
    unfold dqLoop
    cases hd : dropBytes t.code t.st.srcPos with
    | none =>
      refine Twp.bind (Twp.of_panic (p := .charBoundary) ?_ nofun)
      unfold dqAdvance
      exact bind_panic (by unfold input; rw [hd])
    | some i =>
    have hi : At t i := hd
    refine Twp.bind ((dqAdvance_wp hb.calm.lg hi).cons (fun rr u h => ?_) (fun _ _ h => h))
    obtain ⟨⟨s1, hpu⟩, rest, hrest, hsum, hrr, hlast⟩ := h
    have c1 := s1.calm hb.calm.lg
    have hb1 := hb.step c1
    have hr1 : (bytes ++ encode rr).length + 3 ≤ u.st.srcPos := by rw [List.length_append]; omega
    dsimp only
    refine Twp.bind (tw_input fun i2 hi2 => ?_)
    have e2 : rest = i2 := hrest.unique hi2
    subst e2
    have hback : ('$' ∈ rest ∨ Unclosed '"' rest) → ('$' ∈ i ∨ Unclosed '"' i) := by
      rw [hsum]
      rintro (h | h)
      · exact .inl (by simp [h])
      · refine .inr (h.append fun c hc => ?_)
        have := hrr c hc
        simp only [isDqStop, Bool.or_eq_false_iff, beq_eq_false_iff_ne] at this
        exact ⟨this.1.1.1.2, this.1.1.1.1⟩
    have hq1 : u.queue = [] := by rw [hb1.calm.queue, hb.queue]
    have hp1 : ∀ y ∈ parts, QOk u.code y := by rw [c1.code]; exact hp
    have go : ∀ bs ps u', Calm u u' → u.st.srcPos < u'.st.srcPos → (∀ y ∈ ps, QOk u.code y) → bs.length + 3 ≤ u'.st.srcPos → rest ≠ [] →
        (∀ j, At u' j → ('$' ∈ j ∨ Unclosed '"' j) → ('$' ∈ rest ∨ Unclosed '"' rest)) →
        Twp U B (dqLoop next bfuel t0.st fuel bs ps) u' (BodyPost t) (fun e t' => Culprit t0.code e ∧ Calm t0 t') := by
      intro bs ps u' c2 hlt hps hr2 hne hu
      have c12 := c1.trans c2
      have := ih bs ps u' (fun h => hB (h.back c12.code c12.le)) (hb1.step c2)
        (hf.next hi hi2 hne c1.code c1.le c12.code (Nat.lt_of_le_of_lt c1.le hlt)) (by rw [c2.code]; exact hps) hr2
        (fun j hj h => hbl i hi (hback (hu j hj h)))
      exact this.cons (fun _ _ h => h.after c12) (fun _ _ h => h)
    split
    · rename_i hh
      obtain ⟨r, rfl⟩ := head_split hh
      refine Twp.bind (tw_advBytes hi2 rfl fun hi3 => ?_)
      refine Twp.bind (m := modSt _) (Twp.of_ok rfl ?_)
      exact go _ _ _ (nextLine_calm (hi2.same.calm c1.lg)) (Nat.lt_succ_self _) hp1 (by rw [List.length_append]; exact Nat.add_le_add_right hr1 1) (head_ne hh)
        (fun j hj h => by
          have : r = j := hi3.unique hj
          subst this
          exact h.imp (fun h => by simp [h]) fun h => .other (c := '\n') (by decide) (by decide) h)
    · rename_i hh
      refine Twp.bind ((escape_wp _ false hi2 hh).cons ?_ ?_)
      · rintro bs t' ⟨hs, hlt, hbl, w, r, hw, hr, hq⟩
        exact go _ _ _ (hs.calm c1.lg) hlt hp1 (by omega) (head_ne hh) fun j hj h => by
          have : r = j := hr.unique hj
          subst this
          exact h.imp (fun h => by rw [hw]; simp [h]) (hq _ (by decide))
      · rintro e t' ⟨he, rfl⟩
        exact ⟨by rw [hb1.calm.code] at he; exact he, hb1.calm⟩
    · rename_i hh
      obtain ⟨r, rfl⟩ := head_split hh
      refine Twp.bind (tw_advBytes hi2 rfl fun hi3 => ?_)
      exact ⟨c1.trans (hi2.same.calm c1.lg), hp⟩
    · rename_i hh
      obtain ⟨r, rfl⟩ := head_split hh
      have hs := strVariable_wp (U := U) hn bfuel (fun h => hB (h.back c1.code c1.le)) (bytes ++ encode rr) parts c1.lg hq1 hr1 hi2 hp1
      refine Twp.bind (hs.cons ?_ (fun _ _ h => h.elim))
      rintro ⟨bs, ps⟩ t' ⟨c2, hlt, hps, hr2⟩
      exact go _ _ _ c2 hlt hps hr2 (head_ne hh) (fun _ _ _ => .inl (by simp))
    · rename_i hh
      obtain ⟨r, rfl⟩ := head_split hh
      by_cases hm : '$' ∈ r
      · have hs := strBlock_wp (U := U) hn bfuel (fun h => hB (h.back c1.code c1.le)) (bytes ++ encode rr) parts true c1.lg hq1 hr1 hi2 nofun hp1
        refine Twp.bind (hs.cons ?_ (fun _ _ h => h.elim))
        rintro ⟨bs, ps⟩ t' ⟨c2, hlt, hps, hr2⟩
        exact go _ _ _ c2 hlt hps hr2 (head_ne hh) (fun _ _ _ => .inl (by simp [hm]))
      · have hno : startsWith r c!"$" = false := by
          cases hst : startsWith r c!"$" with
          | false => rfl
          | true =>
            obtain ⟨r', rfl⟩ := startsWith_split hst
            exact absurd (by simp) hm
        refine Twp.bind ?_
        unfold strBlock
        refine Twp.bind (tw_advBytes hi2 rfl fun hi3 => ?_)
        refine Twp.bind (Twp.of_ok (input_at hi3) ?_)
        refine Twp.ite (fun h => absurd h (by rw [hno]; decide)) (fun _ => ?_)
        refine go _ _ _ (hi2.same.calm c1.lg) (Nat.lt_succ_self _) hp1 ?_ (head_ne hh) (fun j hj h => ?_)
        · rw [List.length_append]; exact Nat.add_le_add_right hr1 1
        · have : r = j := hi3.unique hj
          subst this
          exact h.imp (fun h => absurd h hm) fun h => .other (c := '{') (by decide) (by decide) h
    · rename_i h1 h2 h3 h4 h5
      have hend : Unclosed '"' rest := by
        cases rest with
        | nil => exact .nil
        | cons c r =>
          have hc : isDqStop c = false := by
            cases hc : isDqStop c with
            | false => rfl
            | true =>
              simp only [isDqStop, Bool.or_eq_true, beq_iff_eq] at hc
              rcases hc with (((rfl | rfl) | rfl) | rfl) | rfl
              · exact absurd rfl h2
              · exact absurd rfl h3
              · exact absurd rfl h4
              · exact absurd rfl h1
              · exact absurd rfl h5
          rcases hlast c r rfl with h | rfl
          · rw [hc] at h; cases h
          · simp only [isDqStop, Bool.or_eq_false_iff, beq_eq_false_iff_ne] at hc
            exact .other hc.1.1.1.2 hc.1.1.1.1 .nil
      refine Twp.bind (tw_inputPos ?_)
      refine Twp.bind (m := setSt _) (Twp.of_ok rfl ?_)
      refine ⟨hbl i hi (hback (.inr hend)) _ hb1.calm.le (by have := hb1.calm.lg.pos; rw [hb1.calm.code] at this; exact this), ?_⟩
      rw [hb1.calm.restore]
      exact Calm.refl hb.lg0

theorem bqLoop_wp {next : T TokSpan} (hn : NextOk next) {t0 : Tz} (bfuel fuel : Nat) (bytes : List Byte) (parts : List TokSpan)
    (t : Tz) (hB : Stopped next bfuel t → B) (hb : Body t0 t) (hf : Fuel t fuel) (hp : ∀ y ∈ parts, QOk t.code y) (hr : bytes.length + 3 ≤ t.st.srcPos)
    (hbl : ∀ p, t0.st.srcPos ≤ p → p ≤ byteLen t0.code →
      Culprit t0.code (.unterminated "Backquote" (mkSpan t0.st.srcPos p))) :
    Twp U B (bqLoop next bfuel t0.st fuel bytes parts) t (BodyPost t) (fun e t' => Culprit t0.code e ∧ Calm t0 t') := by
  induction fuel generalizing bytes parts t with
  | zero => exact absurd hf.1 (Nat.lt_irrefl _)
  | succ fuel ih =>
    unfold bqLoop
    cases hd : dropBytes t.code t.st.srcPos with
    | none =>
      refine Twp.bind (Twp.of_panic (p := .charBoundary) ?_ nofun)
      unfold dqAdvance
      exact bind_panic (by unfold input; rw [hd])
    | some i =>
    have hi : At t i := hd
    refine Twp.bind ((dqAdvance_wp hb.calm.lg hi).cons (fun rr u h => ?_) (fun _ _ h => h))
    obtain ⟨⟨s1, hpu⟩, -⟩ := h
    have c1 := s1.calm hb.calm.lg
    have hb1 := hb.step c1
    have hr1 : (bytes ++ encode rr).length + 3 ≤ u.st.srcPos := by rw [List.length_append]; omega
    dsimp only
    refine Twp.bind (tw_input fun i2 hi2 => ?_)
    have hq1 : u.queue = [] := by rw [hb1.calm.queue, hb.queue]
    have hp1 : ∀ y ∈ parts, QOk u.code y := by rw [c1.code]; exact hp
    have go : ∀ bs ps u', Calm u u' → u.st.srcPos < u'.st.srcPos → (∀ y ∈ ps, QOk u.code y) → bs.length + 3 ≤ u'.st.srcPos → i2 ≠ [] →
        Twp U B (bqLoop next bfuel t0.st fuel bs ps) u' (BodyPost t) (fun e t' => Culprit t0.code e ∧ Calm t0 t') := by
      intro bs ps u' c2 hlt hps hr2 hne
      have c12 := c1.trans c2
      have := ih bs ps u' (fun h => hB (h.back c12.code c12.le)) (hb1.step c2)
        (hf.next hi hi2 hne c1.code c1.le c12.code (Nat.lt_of_le_of_lt c1.le hlt)) (by rw [c2.code]; exact hps) hr2
      exact this.cons (fun _ _ h => h.after c12) (fun _ _ h => h)
    split
    · rename_i hh
      obtain ⟨r, rfl⟩ := head_split hh
      refine Twp.bind (tw_advBytes hi2 rfl fun hi3 => ?_)
      refine Twp.bind (m := modSt _) (Twp.of_ok rfl ?_)
      exact go _ _ _ (nextLine_calm (hi2.same.calm c1.lg)) (Nat.lt_succ_self _) hp1 (by rw [List.length_append]; exact Nat.add_le_add_right hr1 1) (head_ne hh)
    · rename_i hh
      obtain ⟨r, rfl⟩ := head_split hh
      refine Twp.bind (tw_advBytes hi2 rfl fun hi3 => ?_)
      exact ⟨c1.trans (hi2.same.calm c1.lg), hp⟩
    · rename_i hh
      obtain ⟨r, rfl⟩ := head_split hh
      have hs := strVariable_wp (U := U) hn bfuel (fun h => hB (h.back c1.code c1.le)) (bytes ++ encode rr) parts c1.lg hq1 hr1 hi2 hp1
      refine Twp.bind (hs.cons ?_ (fun _ _ h => h.elim))
      rintro ⟨bs, ps⟩ t' ⟨c2, hlt, hps, hr2⟩
      exact go _ _ _ c2 hlt hps hr2 (head_ne hh)
    · rename_i hh
      obtain ⟨r, rfl⟩ := head_split hh
      have hs := strBlock_wp (U := U) hn bfuel (fun h => hB (h.back c1.code c1.le)) (bytes ++ encode rr) parts true c1.lg hq1 hr1 hi2 nofun hp1
      refine Twp.bind (hs.cons ?_ (fun _ _ h => h.elim))
      rintro ⟨bs, ps⟩ t' ⟨c2, hlt, hps, hr2⟩
      exact go _ _ _ c2 hlt hps hr2 (head_ne hh)
    · refine Twp.bind (tw_inputPos ?_)
      refine Twp.bind (m := setSt _) (Twp.of_ok rfl ?_)
      refine ⟨hbl _ hb1.calm.le (by have := hb1.calm.lg.pos; rw [hb1.calm.code] at this; exact this), ?_⟩
      rw [hb1.calm.restore]
      exact Calm.refl hb.lg0


theorem At.infix' {p a b : Text} (h : At t (p ++ (a ++ b))) : a <:+: t.code := by
  obtain ⟨q, hq, _⟩ := dropBytes_split h
  exact ⟨q ++ p, b, by rw [hq]; simp only [List.append_assoc]⟩

theorem parts_step {k1 k2 : Kw} {bytes : List Byte} {parts : List TokSpan} {t0 : Tz} {a : Nat}
    (hcode : t.code = t0.code) (hqueue : t.queue = t0.queue) (hstate : t.st.state = t0.st.state)
    (hstack : t.st.stack = t0.st.stack) (hlt : t0.st.srcPos < t.st.srcPos) (hpos : t.st.srcPos ≤ byteLen t0.code)
    (hlines : LG t ∨ Gap t)
    (hr1 : ranged (.k k1) = false) (hr2 : ranged (.k k2) = false) (hk1 : isBrace (.k k1) = false) (hk2 : isBrace (.k k2) = false) (ha : a ≤ t.st.srcPos) (h2 : 2 ≤ t0.st.srcPos) (ha2 : 2 ≤ a)
    (hp : ∀ y ∈ parts, QOk t0.code y) (hq : HasQuote t0.code) :
    Twp U B (returnTokensFromParts ⟨.k k1, mkSpan t0.st.srcPos (t0.st.srcPos + 1)⟩ ⟨.k k2, mkSpan a t.st.srcPos⟩ bytes parts) t
      (TStep t0) (fun _ _ => False) := by
  unfold returnTokensFromParts
  refine Twp.of_ok rfl ?_
  refine ⟨hcode, Nat.le_of_lt hlt, ?_, .inr hlt, TokP.plain rfl (Nat.le_succ _) ?_ (unranged hr1),
    fun _ => ⟨Nat.le_refl _, hlt⟩, .str hk1 rfl ?_ _ (by dsimp only; rw [hqueue]) ?_ hq⟩
  · rcases hlines with h | ⟨s, w, r, h1, h2, h3, h4, h5⟩
    · exact .inl ⟨h.pos, h.lines, h.fin⟩
    · exact .inr ⟨⟨s, w, r, h1, h2, h3, h4, h5⟩, .inr rfl⟩
  · omega
  · show t.st.state :: t.st.stack = _
    rw [hstate, hstack]
  · intro y hy
    rw [List.mem_append] at hy
    rcases hy with hy | hy
    · exact hp y hy
    · have hend : QOk t0.code ⟨.k k2, mkSpan a t.st.srcPos⟩ := ⟨TokP.plain rfl ha hpos (unranged hr2), .inr hk2, Late.at2 ha2 (by rintro h; rw [h] at hk2; cases hk2)⟩
      split at hy
      · rw [List.mem_singleton] at hy; subst hy; exact hend
      · simp only [List.mem_cons, List.not_mem_nil, or_false] at hy
        rcases hy with rfl | rfl
        · exact flushed bytes h2 (Nat.le_of_lt hlt) hpos
        · exact hend

theorem dqString_wp {next : T TokSpan} (hn : NextOk next) (bfuel : Nat) (hB : Stopped next bfuel t → B) (h : LG t) (h1 : 2 ≤ t.st.srcPos) (hq : t.queue = []) :
    Twp U B (matchDqString next bfuel) t (TStep t) (Failed t) := by
  unfold matchDqString
  refine Twp.bind (tw_input fun i hi => ?_)
  refine Twp.ite (fun _ => .no (Same.refl h)) (fun _ => ?_)
  refine Twp.bind (m := getSt) (Twp.of_ok rfl ?_)
  dsimp only
  have body : ∀ n, 0 < n → Same t (t.adv n) → HasQuote t.code → (∃ o r, At t (o ++ r) ∧ (o = c!"\"" ∨ o = c!"b\"") ∧ At (t.adv n) r) → Twp U B (do
      let (bytes, parts) ← dqLoop next bfuel t.st (i.length + 1) [] []
      let cur ← inputPos
      let c1 ← subT cur 1
      returnTokensFromParts ⟨.k .DoubleQuote, mkSpan t.st.srcPos (t.st.srcPos + 1)⟩
        ⟨.k .DoubleQuote, mkSpan c1 cur⟩ bytes parts) (t.adv n) (TStep t) (Failed t) := by
    rintro n hn0 hs hquo ⟨o, ro, ho, ho', hro⟩
    have c1 := hs.calm h
    have hl := dqLoop_wp (U := U) hn (t0 := t) bfuel (i.length + 1) [] [] (t.adv n) (fun h => hB (h.back c1.code c1.le)) ⟨c1, hq, by simp only [Tz.adv_pos]; omega, h⟩
      (Fuel.start hi c1.code c1.le) nofun (show 0 + 3 ≤ t.st.srcPos + n by omega)
      (fun j hj hu _ h1 h2 => .unfinished (.double ho' ho.opens (by rw [hro.unique hj]; exact hu) h1 h2))
    refine Twp.bind (hl.cons ?_ ?_)
    · rintro ⟨bs, ps⟩ t' ⟨c2, hps⟩
      have c3 := c1.trans c2
      refine Twp.bind (tw_inputPos ?_)
      refine Twp.bind (tw_subT fun _ => ?_)
      have hp := c3.lg.pos
      rw [c3.code] at hp
      have hle2 := c2.le
      simp only [Tz.adv_pos] at hle2
      refine (parts_step c3.code c3.queue c3.state c3.stack ?_ hp (.inl c3.lg) rfl rfl rfl rfl (Nat.sub_le _ _) h1 (by omega) hps hquo).cons
        (fun _ _ h => h) (fun _ _ h => h.elim)
      have := c2.le
      simp only [Tz.adv_pos] at this
      omega
    · rintro e t' ⟨he, hc⟩
      exact .err he hc
  refine Twp.ite (fun hs => ?_) (fun _ => Twp.ite (fun hs => ?_) (fun _ => .no (Same.refl h)))
  · obtain ⟨r, rfl⟩ := startsWith_split hs
    have hi' : At t (c!"b" ++ (c!"\"" ++ r)) := hi
    exact Twp.bind (tw_advBytes hi rfl fun hr => body _ (by decide) hi.same (.inl hi'.infix') ⟨_, _, hi, by decide, hr⟩)
  · obtain ⟨r, rfl⟩ := startsWith_split hs
    exact Twp.bind (tw_advBytes hi rfl fun hr => body _ (by decide) hi.same (.inl hi.infix) ⟨_, _, hi, by decide, hr⟩)

theorem backquote_wp {next : T TokSpan} (hn : NextOk next) (bfuel : Nat) (hB : Stopped next bfuel t → B) (h : LG t) (h1 : 2 ≤ t.st.srcPos) (hq : t.queue = []) :
    Twp U B (matchBackquote next bfuel) t (TStep t) (Failed t) := by
  unfold matchBackquote
  refine Twp.bind (tw_input fun i hi => ?_)
  refine Twp.ite (fun _ => .no (Same.refl h)) (fun _ => Twp.ite (fun hs => ?_) (fun _ => .no (Same.refl h)))
  refine Twp.bind (m := getSt) (Twp.of_ok rfl ?_)
  obtain ⟨r, rfl⟩ := startsWith_split hs
  refine Twp.bind (tw_advBytes hi rfl fun _ => ?_)
  have c1 := hi.same.calm h
  have hlt : t.st.srcPos < (t.adv (byteLen c!"`")).st.srcPos := Nat.lt_succ_self _
  have hl := bqLoop_wp (U := U) hn (t0 := t) bfuel ((c!"`" ++ r).length + 1) [] [] _ (fun h => hB (h.back c1.code c1.le)) ⟨c1, hq, by omega, h⟩
    (Fuel.start hi c1.code c1.le) nofun (show 0 + 3 ≤ _ by omega)
    (fun _ h1 h2 => .unfinished (.backquote hi.opens h1 h2))
  refine Twp.bind (hl.cons ?_ ?_)
  · rintro ⟨bs, ps⟩ t' ⟨c2, hps⟩
    have c3 := c1.trans c2
    refine Twp.bind (tw_inputPos ?_)
    refine Twp.bind (tw_subT fun _ => ?_)
    have hp := c3.lg.pos
    rw [c3.code] at hp
    exact (parts_step c3.code c3.queue c3.state c3.stack (Nat.lt_of_lt_of_le hlt c2.le) hp (.inl c3.lg) rfl rfl rfl rfl
      (Nat.sub_le _ _) h1 (by have := c2.le; omega) hps (.inr (.inl hi.infix))).cons (fun _ _ h => h) (fun _ _ h => h.elim)
  · rintro e t' ⟨he, hc⟩
    exact .err he hc

/-! ## Documents -/

theorem newline_wp {E : SyntaxErr → Tz → Prop} (h : LG t) :
    Twp U B newline t (fun b t' => (b = false ∧ t' = t) ∨ (b = true ∧ ∃ w r, At t (w ++ r) ∧
      (w = c!"\n" ∨ w = c!"\r" ∨ w = c!"\r\n") ∧
      t' = { t.adv (byteLen w) with st := (t.adv (byteLen w)).st.nextLine })) E := by
  unfold newline
  refine Twp.bind (tw_input fun i hi => ?_)
  refine Twp.ite (fun hs => ?_) (fun _ => Twp.ite (fun hs => ?_) (fun _ => .inl ⟨rfl, rfl⟩))
  · obtain ⟨r, rfl⟩ := startsWith_split hs
    refine Twp.bind (tw_advBytes hi rfl fun _ => ?_)
    refine Twp.bind (m := modSt _) (Twp.of_ok rfl ?_)
    exact .inr ⟨rfl, _, _, hi, .inr (.inr rfl), rfl⟩
  · rw [Bool.or_eq_true] at hs
    rcases hs with hs | hs
    · obtain ⟨r, rfl⟩ := startsWith_split hs
      refine Twp.bind (tw_advBytes hi rfl fun _ => ?_)
      refine Twp.bind (m := modSt _) (Twp.of_ok rfl ?_)
      exact .inr ⟨rfl, _, _, hi, .inl rfl, rfl⟩
    · obtain ⟨r, rfl⟩ := startsWith_split hs
      refine Twp.bind (tw_advBytes hi rfl fun _ => ?_)
      refine Twp.bind (m := modSt _) (Twp.of_ok rfl ?_)
      exact .inr ⟨rfl, _, _, hi, .inr (.inl rfl), rfl⟩

/-- After the body of a document. -/
structure DocPost (t : Tz) (r : List Byte × List TokSpan) (t' : Tz) : Prop where
  code : t'.code = t.code
  queue : t'.queue = t.queue
  state : t'.st.state = t.st.state
  stack : t'.st.stack = t.st.stack
  le : t.st.srcPos ≤ t'.st.srcPos
  pos : t'.st.srcPos ≤ byteLen t.code
  gap : Gap t'
  qok : ∀ y ∈ r.2, QOk t.code y

theorem DocPost.after {t t1 t' : Tz} {r : List Byte × List TokSpan} (hc : Calm t t1) (h : DocPost t1 r t') : DocPost t r t' :=
  ⟨h.code.trans hc.code, h.queue.trans hc.queue, h.state.trans hc.state, h.stack.trans hc.stack, Nat.le_trans hc.le h.le,
    by rw [← hc.code]; exact h.pos, h.gap, by rw [← hc.code]; exact h.qok⟩

/-- Past an end tag, `;` and line break seen, the position is put back behind the tag. -/
theorem gap_of {s w r : Text} (h : LG t) (hi : At t (s ++ (w ++ r))) (hs : s = [] ∨ s = c!";")
    (hw : w = c!"\n" ∨ w = c!"\r" ∨ w = c!"\r\n") {n : Nat} (hn : n = byteLen (s ++ w)) :
    Gap (Tz.to { t.adv n with st := (t.adv n).st.nextLine } t.st.srcPos) := by
  subst hn
  refine ⟨s, w, r, hi, hs, hw, ?_, h.fin⟩
  exact h.lines.push (Nat.le_add_right _ _)

theorem docLoop_wp {next : T TokSpan} (hn : NextOk next) {t0 : Tz} (bfuel : Nat) (now : Bool) (tag : Text) (fuel : Nat)
    (bytes : List Byte) (parts : List TokSpan)
    (t : Tz) (hB : Stopped next bfuel t → B) (hb : Body t0 t) (hf : Fuel t fuel) (hp : ∀ y ∈ parts, QOk t.code y) (hr : bytes.length + 3 ≤ t.st.srcPos)
    (hbl : ∀ p, t0.st.srcPos ≤ p → p ≤ byteLen t0.code →
      Culprit t0.code (.unterminated "Here/Nowdoc" (mkSpan t0.st.srcPos p)) ∧
      Culprit t0.code (.unterminated "Here/Nowdoc: end-tag requires to be followed by a newline" (mkSpan t0.st.srcPos p))) :
    Twp U B (docLoop next bfuel t0.st now tag fuel bytes parts) t (DocPost t) (fun e t' => Culprit t0.code e ∧ Calm t0 t') := by
  induction fuel generalizing bytes parts t with
  | zero => exact absurd hf.1 (Nat.lt_irrefl _)
  | succ fuel ih =>
    unfold docLoop
    refine Twp.bind (tw_input fun i hi => ?_)
    dsimp only
    refine Twp.bind (tw_advChars hi fun _ => ?_)
    have s1 := hi.sameTake ((position (fun x => x == '\\' || x == '$' || x == '\n' || x == '{') i).getD (byteLen i))
    generalize hrr : i.take ((position (fun x => x == '\\' || x == '$' || x == '\n' || x == '{') i).getD (byteLen i)) = rr at *
    have hpu : (t.adv (byteLen rr)).st.srcPos = t.st.srcPos + (encode rr).length := by rw [encode_length]; rfl
    generalize t.adv (byteLen rr) = u at *
    have hr1 : (bytes ++ encode rr).length + 3 ≤ u.st.srcPos := by rw [List.length_append]; omega
    have c1 := s1.calm hb.calm.lg
    have hb1 := hb.step c1
    refine Twp.bind (tw_input fun i2 hi2 => ?_)
    have hq1 : u.queue = [] := by rw [hb1.calm.queue, hb.queue]
    have hp1 : ∀ y ∈ parts, QOk u.code y := by rw [c1.code]; exact hp
    have go : ∀ bs ps u', Calm u u' → u.st.srcPos < u'.st.srcPos → (∀ y ∈ ps, QOk u.code y) → bs.length + 3 ≤ u'.st.srcPos → i2 ≠ [] →
        Twp U B (docLoop next bfuel t0.st now tag fuel bs ps) u' (DocPost t) (fun e t' => Culprit t0.code e ∧ Calm t0 t') := by
      intro bs ps u' c2 hlt hps hr2 hne
      have c12 := c1.trans c2
      have := ih bs ps u' (fun h => hB (h.back c12.code c12.le)) (hb1.step c2)
        (hf.next hi hi2 hne c1.code c1.le c12.code (Nat.lt_of_le_of_lt c1.le hlt)) (by rw [c2.code]; exact hps) hr2
      exact this.cons (fun _ _ h => h.after c12) (fun _ _ h => h)
    have stop : ∀ u' e, Calm u u' → Culprit t0.code e →
        (fun e t' => Culprit t0.code e ∧ Calm t0 t') e { u' with st := t0.st } := by
      intro u' e c2 he
      refine ⟨he, ?_⟩
      rw [(hb1.step c2).calm.restore]
      exact Calm.refl hb.lg0
    have unt : Twp U B (do
        let old ← inputPos
        setSt t0.st
        fail (.unterminated "Here/Nowdoc" (mkSpan t0.st.srcPos old)) : T (List Byte × List TokSpan)) u (DocPost t)
        (fun e t' => Culprit t0.code e ∧ Calm t0 t') := by
      refine Twp.bind (tw_inputPos ?_)
      refine Twp.bind (m := setSt _) (Twp.of_ok rfl ?_)
      exact stop u _ (Calm.refl c1.lg) (hbl _ hb1.calm.le (by have := hb1.calm.lg.pos; rw [hb1.calm.code] at this; exact this)).1
    split
    · rename_i hh
      obtain ⟨r, rfl⟩ := head_split hh
      refine Twp.bind (tw_advBytes hi2 rfl fun hi3 => ?_)
      refine Twp.bind (m := modSt _) (Twp.of_ok rfl ?_)
      have c2 := nextLine_calm (hi2.same.calm c1.lg)
      have hlt2 : u.st.srcPos < ({ u.adv (byteLen ['\n']) with st := (u.adv (byteLen ['\n'])).st.nextLine } : Tz).st.srcPos :=
        Nat.lt_succ_self _
      generalize ({ u.adv (byteLen ['\n']) with st := (u.adv (byteLen ['\n'])).st.nextLine } : Tz) = v at *
      refine Twp.bind (tw_input fun i3 hi3 => ?_)
      refine Twp.ite (fun hs => ?_) (fun _ => ?_)
      · obtain ⟨r3, rfl⟩ := startsWith_split hs
        refine Twp.bind (tw_advBytes hi3 rfl fun hi4 => ?_)
        have c3 := c2.trans (hi3.same.calm c2.lg)
        generalize v.adv (byteLen tag) = x at *
        refine Twp.bind (tw_inputPos ?_)
        refine Twp.bind (Twp.of_ok (input_at hi4) ?_)
        have fin : ∀ (s : Text) y, (s = [] ∨ s = c!";") → (∃ r5, r3 = s ++ r5) → y = x.adv (byteLen s) → Calm x y →
            Twp U B (do
              if ← newline then
                setPos x.st.srcPos
                return (bytes ++ encode rr, parts)
              else
                let old ← inputPos
                setSt t0.st
                fail (.unterminated "Here/Nowdoc: end-tag requires to be followed by a newline"
                  (mkSpan t0.st.srcPos old))) y (DocPost t) (fun e t' => Culprit t0.code e ∧ Calm t0 t') := by
          rintro s y hs' ⟨r5, rfl⟩ rfl c4
          refine Twp.bind ((newline_wp c4.lg).cons ?_ (fun _ _ h => h))
          rintro b t' (⟨rfl, rfl⟩ | ⟨rfl, w, r6, hw, hw', rfl⟩)
          · refine Twp.ite (fun h => by cases h) (fun _ => ?_)
            refine Twp.bind (tw_inputPos ?_)
            refine Twp.bind (m := setSt _) (Twp.of_ok rfl ?_)
            have hb4 := hb1.step (c3.trans c4)
            exact stop _ _ (c3.trans c4) (hbl _ hb4.calm.le (by have := hb4.calm.lg.pos; rw [hb4.calm.code] at this; exact this)).2
          · refine Twp.ite (fun _ => ?_) (fun h => absurd rfl h)
            refine Twp.bind (m := setPos _) (Twp.of_ok rfl ?_)
            have hr5 : r5 = w ++ r6 := by
              have h7 := hi4.adv
              exact h7.unique hw
            subst hr5
            have c13 := c1.trans c3
            have hp3 := c13.lg.pos
            rw [c13.code] at hp3
            refine ⟨c13.code, c13.queue, c13.state, c13.stack, c13.le, hp3, ?_, hp⟩
            have := gap_of c3.lg hi4 hs' hw' rfl
            rw [byteLen_append] at this
            show Gap (Tz.to { (x.adv (byteLen s)).adv (byteLen w) with st := ((x.adv (byteLen s)).adv (byteLen w)).st.nextLine } x.st.srcPos)
            rw [Tz.adv_adv]
            exact this
        refine Twp.ite (fun hs => ?_) (fun _ => ?_)
        · obtain ⟨r5, rfl⟩ := startsWith_split hs
          refine Twp.bind (tw_advBytes hi4 rfl fun hi5 => ?_)
          exact fin c!";" _ (.inr rfl) ⟨r5, rfl⟩ rfl (hi4.same.calm c3.lg)
        · exact fin [] _ (.inl rfl) ⟨r3, rfl⟩ rfl (Calm.refl c3.lg)
      · exact go _ _ _ c2 hlt2 hp1 (by rw [List.length_append]; exact Nat.le_trans (Nat.add_le_add_right hr1 1) hlt2) (head_ne hh)
    · rename_i hh
      refine Twp.bind ((escape_wp _ now hi2 hh).cons ?_ ?_)
      · rintro bs t' ⟨hs, hlt, hbl⟩
        exact go _ _ _ (hs.calm c1.lg) hlt hp1 (by omega) (head_ne hh)
      · rintro e t' ⟨he, rfl⟩
        exact ⟨by rw [hb1.calm.code] at he; exact he, hb1.calm⟩
    · rename_i hh
      refine Twp.ite (fun _ => unt) (fun _ => ?_)
      obtain ⟨r, rfl⟩ := head_split hh
      have hs := strVariable_wp (U := U) hn bfuel (fun h => hB (h.back c1.code c1.le)) (bytes ++ encode rr) parts c1.lg hq1 hr1 hi2 hp1
      refine Twp.bind (hs.cons ?_ (fun _ _ h => h.elim))
      rintro ⟨bs, ps⟩ t' ⟨c2, hlt, hps, hr2⟩
      exact go _ _ _ c2 hlt hps hr2 (head_ne hh)
    · rename_i hh
      refine Twp.ite (fun _ => unt) (fun _ => ?_)
      obtain ⟨r, rfl⟩ := head_split hh
      have hs := strBlock_wp (U := U) hn bfuel (fun h => hB (h.back c1.code c1.le)) (bytes ++ encode rr) parts true c1.lg hq1 hr1 hi2 nofun hp1
      refine Twp.bind (hs.cons ?_ (fun _ _ h => h.elim))
      rintro ⟨bs, ps⟩ t' ⟨c2, hlt, hps, hr2⟩
      exact go _ _ _ c2 hlt hps hr2 (head_ne hh)
    · exact unt

end

end Pico
