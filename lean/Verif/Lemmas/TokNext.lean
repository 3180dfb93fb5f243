import Verif.Lemmas.TokStr
/-!
# One call of the tokenizer
-/
namespace Pico
open T

section
variable {U B : Prop} {t : Tz}

theorem docBody_wp {next : T TokSpan} (hn : NextOk next) {t0 : Tz} (bfuel : Nat) (now : Bool) (tag : Text)
    (hB : Stopped next bfuel t0 → B) (hb : Body t0 t) (h2 : 2 ≤ t0.st.srcPos) (hlt : t0.st.srcPos < t.st.srcPos) (hq : HasQuote t0.code)
    (ho : ∃ o r, At t0 (o ++ r) ∧ (o = c!"<<<" ∨ o = c!"b<<<")) :
    Twp U B (docBody next bfuel t0.st now tag) t (TStep t0) (Failed t0) := by
  unfold docBody
  refine Twp.bind (tw_input fun i hi => ?_)
  have hl := docLoop_wp (U := U) hn bfuel now tag (i.length + 1) [] [] t (fun h => hB (h.back hb.calm.code hb.calm.le)) hb (Fuel.start hi rfl (Nat.le_refl _)) nofun (by have := hb.one; simpa using this)
    (fun _ h1 h2 => by
      obtain ⟨o, r, ho, ho'⟩ := ho
      exact ⟨.unfinished (.doc ho' ho.opens h1 h2), .unfinished (.docEnd ho' ho.opens h1 h2)⟩)
  refine Twp.bind (hl.cons ?_ ?_)
  · rintro ⟨bs, ps⟩ t' hd
    have hd' := hd.after hb.calm
    have hlt' := Nat.lt_of_lt_of_le hlt hd.le
    refine Twp.bind (tw_inputPos ?_)
    refine Twp.ite (fun _ => ?_) (fun _ => ?_)
    · refine Twp.ite (fun _ => ?_) (fun _ => nofun)
      obtain ⟨k1, k2, k3, k4⟩ := bytesToken_kind bs
      exact ⟨hd'.code, hd'.le, .inr ⟨hd'.gap, .inl hd'.state⟩, .inr hlt', TokP.plain k1 hd'.le hd'.pos (unranged (bytesToken_ranged bs)),
        fun _ => ⟨Nat.le_refl _, Nat.le_refl _⟩, .keep k4 hd'.state hd'.stack hd'.queue⟩
    · refine Twp.bind (tw_subT fun _ => ?_)
      exact (parts_step hd'.code hd'.queue hd'.state hd'.stack hlt' hd'.pos (.inr hd'.gap) rfl rfl rfl rfl (Nat.sub_le _ _) h2
        (by have := hd.le; omega) hd'.qok hq).cons (fun _ _ h => h) (fun _ _ h => h.elim)
  · rintro e t' ⟨he, hc⟩
    exact .err he hc

theorem docHeader_wp {next : T TokSpan} (hn : NextOk next) {t0 : Tz} (bfuel : Nat)
    (hB : Stopped next bfuel t0 → B) (hb : Body t0 t) (h2 : 2 ≤ t0.st.srcPos) (hlt : t0.st.srcPos < t.st.srcPos) (hq : HasQuote t0.code)
    (ho : ∃ o r, At t0 (o ++ r) ∧ (o = c!"<<<" ∨ o = c!"b<<<")) :
    Twp U B (docHeader next bfuel t0.st) t (TStep t0) (Failed t0) := by
  unfold docHeader
  refine Twp.bind ((whitespaceOnly_wp hb.calm.lg).cons (fun _ u s1' => ?_) (fun _ _ h => h))
  have s1 := s1'.1
  have c1 := s1.calm hb.calm.lg
  have hb1 := hb.step c1
  have hlt1 := Nat.lt_of_lt_of_le hlt c1.le
  refine Twp.bind (tw_input fun i hi => ?_)
  have back : ∀ u', Calm u u' → Twp U B (do setSt t0.st; fail .none) u' (TStep t0) (Failed t0) := by
    intro u' c2
    refine Twp.bind (m := setSt _) (Twp.of_ok rfl ?_)
    rw [(hb1.step c2).calm.restore]
    exact .no (Same.refl hb.lg0)
  refine Twp.bind (Twp.cons (Q' := fun (_ : DocType) u' => Same u u') (E' := fun _ _ => False) ?_ ?_ (fun _ _ h => h.elim))
  · refine Twp.ite (fun hs => ?_) (fun _ => Twp.ite (fun hs => ?_) (fun _ => Same.refl c1.lg))
    · obtain ⟨r, rfl⟩ := startsWith_split hs
      exact Twp.bind (tw_advBytes hi rfl fun _ => hi.same)
    · obtain ⟨r, rfl⟩ := startsWith_split hs
      exact Twp.bind (tw_advBytes hi rfl fun _ => hi.same)
  · intro ty u2 s2
    have c2 := s2.calm c1.lg
    refine Twp.bind (label_wp (back _ c2) fun w r hw _ _ => ?_)
    dsimp only
    have c3 := c2.trans (hw.same.calm c2.lg)
    refine Twp.bind (tw_input fun i3 hi3 => ?_)
    refine Twp.ite (fun hs => ?_) (fun _ => back _ c3)
    obtain ⟨r3, rfl⟩ := startsWith_split hs
    refine Twp.bind (tw_advBytes hi3 rfl fun _ => ?_)
    have c4 := c3.trans (hi3.same.calm c3.lg)
    refine Twp.bind ((newline_wp c4.lg).cons ?_ (fun _ _ h => h))
    rintro b t' (⟨rfl, rfl⟩ | ⟨rfl, w, r6, hw, hw', rfl⟩)
    · exact Twp.ite (fun h => by cases h) (fun _ => back _ c4)
    · refine Twp.ite (fun _ => ?_) (fun h => absurd rfl h)
      have c5 := c4.trans (nextLine_calm (hw.same.calm c4.lg))
      exact docBody_wp hn bfuel _ _ hB (hb1.step c5) h2 (Nat.lt_of_lt_of_le hlt1 c5.le) hq ho

theorem hereNowDoc_wp {next : T TokSpan} (hn : NextOk next) (bfuel : Nat) (hB : Stopped next bfuel t → B) (h : LG t) (h1 : 2 ≤ t.st.srcPos) (hq : t.queue = []) :
    Twp U B (matchHereNowDoc next bfuel) t (TStep t) (Failed t) := by
  unfold matchHereNowDoc
  refine Twp.bind (tw_input fun i hi => ?_)
  refine Twp.ite (fun _ => .no (Same.refl h)) (fun _ => ?_)
  refine Twp.bind (m := getSt) (Twp.of_ok rfl ?_)
  refine Twp.ite (fun hs => ?_) (fun _ => Twp.ite (fun hs => ?_) (fun _ => .no (Same.refl h)))
  · obtain ⟨r, rfl⟩ := startsWith_split hs
    have hi' : At t (c!"b" ++ (c!"<<<" ++ r)) := hi
    have c1 := hi.same.calm h
    exact Twp.bind (tw_advBytes hi rfl fun _ => docHeader_wp hn bfuel hB ⟨c1, hq, by show 3 ≤ t.st.srcPos + 4; omega, h⟩ h1
      (by show _ < t.st.srcPos + 4; omega) (.inr (.inr hi'.infix')) ⟨_, _, hi, by decide⟩)
  · obtain ⟨r, rfl⟩ := startsWith_split hs
    have c1 := hi.same.calm h
    exact Twp.bind (tw_advBytes hi rfl fun _ => docHeader_wp hn bfuel hB ⟨c1, hq, by show 3 ≤ t.st.srcPos + 3; omega, h⟩ h1
      (by show _ < t.st.srcPos + 3; omega) (.inr (.inr hi.infix)) ⟨_, _, hi, by decide⟩)

theorem SMove.after {t0 t' : Tz} {x : TokSpan} (hc : Calm t0 t) (h : SMove t x t') : SMove t0 x t' := by
  cases h with
  | keep a b c d => exact .keep a (b.trans hc.state) (c.trans hc.stack) (d.trans hc.queue)
  | tag a b c d => exact .tag a b (c.trans hc.stack) (d.trans hc.queue)
  | arrow a b c d => exact .arrow a b (by rw [c, hc.state, hc.stack]) (d.trans hc.queue)
  | curly a b c d => exact .curly a b (by rw [c, hc.state, hc.stack]) (d.trans hc.queue)
  | close a b c => exact .close a (by rw [← hc.stack]; exact b) (c.trans hc.queue)
  | str a b c q d e f =>
    exact .str a b (by rw [c, hc.state, hc.stack]) q (by rw [d, hc.queue]) (by rw [← hc.code]; exact e) (by rw [← hc.code]; exact f)

theorem TStep.after {t0 t' : Tz} {x : TokSpan} (hc : Calm t0 t) (h : TStep t x t') : TStep t0 x t' := by
  refine ⟨h.code.trans hc.code, Nat.le_trans hc.le h.le, ?_, ?_, ?_, ?_, h.mv.after hc⟩
  · have := h.lines; rw [hc.state] at this; exact this
  · exact h.prog.imp id (Nat.lt_of_le_of_lt hc.le)
  · have := h.tp; rw [hc.code] at this; exact this
  · intro hn; have := h.ord hn; exact ⟨Nat.le_trans hc.le this.1, this.2⟩

theorem wsGo_gap {w : Text} (hw : w = c!"\n" ∨ w = c!"\r" ∨ w = c!"\r\n") (r : Text) (s : TState)
    (h : LinesOk s.lineMap (s.srcPos + byteLen w)) :
    LinesOk (wsGo (w ++ r) s).lineMap (wsGo (w ++ r) s).srcPos ∧ s.srcPos ≤ (wsGo (w ++ r) s).srcPos ∧
      (wsGo (w ++ r) s).lineMap.endPos = s.lineMap.endPos := by
  rcases hw with rfl | rfl | rfl
  · obtain ⟨a, b, c⟩ := wsGo_lines r ({ s with srcPos := s.srcPos + 1 } : TState).nextLine (h.push (Nat.le_refl _))
    exact ⟨a, Nat.le_trans (Nat.le_succ _) b, c⟩
  · obtain ⟨a, b, c⟩ := wsGo_lines r { s with srcPos := s.srcPos + 1 } h
    exact ⟨a, Nat.le_trans (Nat.le_succ _) b, c⟩
  · obtain ⟨a, b, c⟩ := wsGo_lines r ({ s with srcPos := s.srcPos + 1 + 1 } : TState).nextLine (h.push (Nat.le_refl _))
    exact ⟨a, Nat.le_trans (Nat.le_add_right _ 2) b, c⟩

/-- White space in any state between tokens of a script, except in front of the `;` behind a document. -/
theorem whitespace_any {i : Text} (hi : At t i) (h : LG t ∨ ∃ w r, i = w ++ r ∧ (w = c!"\n" ∨ w = c!"\r" ∨ w = c!"\r\n") ∧
      LinesOk t.st.lineMap (t.st.srcPos + byteLen w) ∧ t.st.lineMap.endPos = byteLen t.code) :
    whitespace t = .ok () { t with st := wsGo i t.st } ∧ Calm t { t with st := wsGo i t.st } := by
  have e : whitespace t = .ok () { t with st := wsGo i t.st } := by
    unfold whitespace
    rw [bind_ok (input_at hi)]
    rfl
  refine ⟨e, ?_⟩
  rcases h with h | ⟨w, r, rfl, hw, hl, hf⟩
  · exact (wsGo_lg i hi h.lines h.fin).1
  · obtain ⟨g1, g2, g3⟩ := wsGo_gap hw r t.st hl
    obtain ⟨w', r', he, hw', hr'⟩ := blank_split (w ++ r)
    rw [he] at hi g1 g2 g3 ⊢
    rw [wsGo_append w' r' hw' hr'] at g1 g2 g3 ⊢
    obtain ⟨f1, f2, f3, f4⟩ := wsGo_fields w' hw' t.st
    refine ⟨rfl, rfl, f2, f3, g2, ⟨?_, g1, g3.trans hf⟩⟩
    have := (hi.ws hw').total
    have h2 : (t.ws w').st.srcPos = (wsGo w' t.st).srcPos := rfl
    have h3 : (t.ws w').code = t.code := rfl
    rw [h2, h3] at this
    show (wsGo w' t.st).srcPos ≤ byteLen t.code
    omega

/-- One alternative of `in_scripting_token`, then the others. -/
theorem chain {m n : T TokSpan} {E : SyntaxErr → Tz → Prop} (hg : LG t)
    (hE : ∀ e t', Culprit t.code e → Calm t t' → E e t') {u : Tz} (hu : Same t u)
    (h1 : Twp U B m u (TStep u) (Failed u)) (h2 : ∀ u, Same t u → Twp U B n u (TStep t) E) :
    Twp U B (m <||> n) u (TStep t) E := by
  refine Twp.orElse (h1.cons (fun _ _ h => h.after (hu.calm hg)) ?_)
  intro e t' hf
  refine ⟨fun he => h2 _ (hu.trans (hf.none he)), fun he => hE _ _ (by have := hf.blame he; rw [(hu.calm hg).code] at this; exact this) ((hu.calm hg).trans (hf.other he))⟩

theorem scripting_rest {next : T TokSpan} (hn : NextOk next) (bfuel : Nat) (hB : Stopped next bfuel t → B) (h : LG t) (h1 : 2 ≤ t.st.srcPos) (hq : t.queue = [])
    (hU : t.st.stack = [] → U) :
    Twp U B (matchHereNowDoc next bfuel <||> bnum <||> hnum <||> onumDnumLnum <||> matchDqString next bfuel <||>
      matchVariable <||> matchSqString <||> matchComments <||> matchBackquote next bfuel <||>
      labelOrOther t.st.srcPos) t (TStep t) (fun e t' => Culprit t.code e ∧ Calm t t') := by
  have ch : ∀ {m n : T TokSpan} {u : Tz}, Same t u → Twp U B m u (TStep u) (Failed u) →
      (∀ u, Same t u → Twp U B n u (TStep t) (fun e t' => Culprit t.code e ∧ Calm t t')) →
      Twp U B (m <||> n) u (TStep t) (fun e t' => Culprit t.code e ∧ Calm t t') :=
    fun hu h1 h2 => chain h (fun _ _ he hc => ⟨he, hc⟩) hu h1 h2
  have pl : ∀ {m : T TokSpan} {u : Tz}, Twp U B m u (Plain u) (Failed u) →
      Twp U B m u (TStep u) (Failed u) := fun h => h.cons (fun _ _ h => h.step) (fun _ _ h => h)
  have lg : ∀ u, Same t u → LG u := fun u hu => (hu.calm h).lg
  have one : ∀ u, Same t u → 2 ≤ u.st.srcPos := fun u hu => Nat.le_trans h1 (hu.calm h).le
  have que : ∀ u, Same t u → u.queue = [] := fun u hu => by rw [(hu.calm h).queue, hq]
  have bck : ∀ u, Same t u → Stopped next bfuel u → B := fun u hu hk => hB (hk.back (hu.calm h).code (hu.calm h).le)
  refine ch (Same.refl h) (hereNowDoc_wp hn bfuel hB h h1 hq) fun u hu => ?_
  refine ch hu (pl (prefixedNum_wp _ _ _ rfl (by simp) (lg u hu))) fun u hu => ?_
  refine ch hu (pl (prefixedNum_wp _ _ _ rfl (by simp) (lg u hu))) fun u hu => ?_
  refine ch hu (pl (onum_wp (lg u hu))) fun u hu => ?_
  refine ch hu (by exact dqString_wp hn bfuel (bck u hu) (lg u hu) (one u hu) (que u hu)) fun u hu => ?_
  refine ch hu (pl (variable_wp (lg u hu) (one u hu))) fun u hu => ?_
  refine ch hu (pl (sqString_wp (lg u hu))) fun u hu => ?_
  refine ch hu (pl (comments_wp (lg u hu))) fun u hu => ?_
  refine ch hu (by exact backquote_wp hn bfuel (bck u hu) (lg u hu) (one u hu) (que u hu)) fun u hu => ?_
  exact labelOrOther_wp h h1 hu hU

theorem scripting_wp {next : T TokSpan} (hn : NextOk next) (bfuel : Nat) (hB : Stopped next bfuel t → B) (h : LG t ∨ Gap t) (h1 : 2 ≤ t.st.srcPos)
    (hq : t.queue = []) (hU : t.st.stack = [] → U) :
    Twp U B (inScriptingToken next bfuel) t (TStep t) (fun e t' => Culprit t.code e ∧ Calm t t') := by
  have main : ∀ i, At t i → (LG t ∨ ∃ w r, i = w ++ r ∧ (w = c!"\n" ∨ w = c!"\r" ∨ w = c!"\r\n") ∧
      LinesOk t.st.lineMap (t.st.srcPos + byteLen w) ∧ t.st.lineMap.endPos = byteLen t.code) →
      Twp U B (inScriptingToken next bfuel) t (TStep t) (fun e t' => Culprit t.code e ∧ Calm t t') := by
    intro i hi hh
    unfold inScriptingToken
    obtain ⟨e, c1⟩ := whitespace_any hi hh
    refine Twp.bind (Twp.of_ok e ?_)
    generalize ({ t with st := wsGo i t.st } : Tz) = u at *
    refine Twp.bind (tw_input fun i2 hi2 => ?_)
    refine Twp.ite (fun he => ?_) (fun he => ?_)
    · rw [List.isEmpty_iff] at he
      subst he
      exact (end_wp c1.lg hi2).cons (fun _ _ h => h.step.after c1) (fun _ _ h => h)
    · refine Twp.bind (tw_inputPos ?_)
      have := scripting_rest (U := U) hn bfuel (fun h => hB (h.back c1.code c1.le)) c1.lg (Nat.le_trans h1 c1.le) (by rw [c1.queue, hq]) (by rw [c1.stack]; exact hU)
      rw [c1.code] at this
      exact this.cons (fun _ _ h => h.after c1) (fun _ _ h => ⟨h.1, c1.trans h.2⟩)
  rcases h with h | ⟨s, w, r, hi, hs, hw, hl, hf⟩
  · cases hd : dropBytes t.code t.st.srcPos with
    | none =>
      refine Twp.of_panic (p := .charBoundary) ?_ nofun
      unfold inScriptingToken
      exact bind_panic (by unfold whitespace; exact bind_panic (by unfold input; rw [hd]))
    | some i => exact main i hd (.inl h)
  · rcases hs with rfl | rfl
    · exact main (w ++ r) hi (.inr ⟨w, r, rfl, hw, hl, hf⟩)
    · have hi' : At t ([] ++ (c!";" ++ (w ++ r))) := hi
      have hne : ∃ c r', w ++ r = c :: r' ∧ okNext c!";" c = true := by
        rcases hw with rfl | rfl | rfl <;> exact ⟨_, _, rfl, by decide⟩
      obtain ⟨c, r', he, hok⟩ := hne
      have e1 := plain_scripting next bfuel hi' rfl rfl rfl
      have e2 := op_char (k := .SemiColon) (c := ';') hi rfl rfl (by
        intro d hd
        rw [he] at hd
        cases hd
        exact hok) (by decide)
      refine Twp.of_ok (e1.trans e2) ?_
      have hgap : Gap (t.adv 1) := by
        refine ⟨[], w, r, hi.adv, .inl rfl, hw, ?_, hf⟩
        rw [byteLen_append] at hl
        have h2 : byteLen c!";" = 1 := rfl
        rw [h2, ← Nat.add_assoc] at hl
        exact hl
      have ht := hi.total
      rw [byteLen_append] at ht
      have h2 : byteLen c!";" = 1 := rfl
      refine ⟨rfl, Nat.le_succ _, .inr ⟨hgap, .inl rfl⟩, .inr (Nat.lt_succ_self _), TokP.plain rfl (Nat.le_succ _) (by omega) (fun _ => hi.stands0 (.symbol (by decide)) rfl rfl),
        fun _ => ⟨Nat.le_refl _, Nat.le_refl _⟩, .keep rfl rfl rfl rfl⟩


/-! ## Between tokens -/

theorem bottom_cons (a : LexState) (k : List LexState) (s : LexState) (hk : k ≠ []) :
    (s :: a :: k).getLast? = (a :: k).getLast? := by
  simp [List.getLast?_cons_cons]

theorem Awake.pop {s : TState} {k : List LexState} {a : LexState} (h : Awake s) (hk : s.stack = a :: k) :
    ∀ y ∈ a :: k, y ≠ .done ∧ y ≠ .doNothing := by
  intro y hy
  rw [← hk] at hy
  exact h y (List.mem_cons_of_mem _ hy)

theorem Awake.set {s : TState} {x : LexState} (h : Awake s) (hx : x ≠ .done ∧ x ≠ .doNothing) :
    ∀ y ∈ x :: s.stack, y ≠ .done ∧ y ≠ .doNothing := by
  intro y hy
  rw [List.mem_cons] at hy
  rcases hy with rfl | hy
  · exact hx
  · exact h y (List.mem_cons_of_mem _ hy)

theorem Awake.push {s : TState} {x : LexState} (h : Awake s) (hx : x ≠ .done ∧ x ≠ .doNothing) :
    ∀ y ∈ x :: s.state :: s.stack, y ≠ .done ∧ y ≠ .doNothing := by
  intro y hy
  rw [List.mem_cons] at hy
  rcases hy with rfl | hy
  · exact hx
  · exact h y hy

theorem TStep.post {x : TokSpan} {t' : Tz} (hi : Inv t) (hs : t.st.state = .inScripting) (h : TStep t x t') : NextPost t x t' := by
  have h1 : 2 ≤ t.st.srcPos := by
    rcases hi.one with h | h | h
    · rw [hs] at h; cases h
    · rw [hs] at h; cases h
    · exact h
  have hq : t.queue = [] := hi.queue (by rw [hs]; nofun)
  have h1' : 2 ≤ t'.st.srcPos := Nat.le_trans h1 h.le
  have hlines : LG t' ∨ (Gap t' ∧ (t'.st.state = .inScripting ∨ t'.st.state = .emitQueue)) := by
    have := h.lines; rw [hs] at this; exact this
  have hprog : x.tok = .k .End ∨ t.st.srcPos < t'.st.srcPos ∨ (t'.st.srcPos = t.st.srcPos ∧ t'.queue.length < t.queue.length) :=
    h.prog.imp id .inl
  have hdep : depth t.st = t.st.stack.length := by unfold depth; rw [hs]
  have hnob : isBrace x.tok = false → (if closesBrace x.tok then 1 else 0) = 0 ∧ (if opensBrace x.tok then 1 else 0) = 0 := by
    intro hb
    simp only [isBrace, Bool.or_eq_false_iff] at hb
    rw [hb.1, hb.2]
    exact ⟨rfl, rfl⟩
  cases h.mv with
  | keep a b c d =>
    obtain ⟨z1, z2⟩ := hnob a
    refine ⟨⟨hlines, by rw [c]; exact hi.stk, ?_, fun _ => by rw [d, hq], ?_, .inr (.inr h1'), fun _ => h1'⟩, h.code, h.le, h.tp,
      fun _ => h.ord, .inr ?_, ?_, hprog, ?_, Late.of fun hn => (h.ord hn).1, fun hw => .inr ?_⟩
    · rw [b, hs]; rintro (h | h) <;> cases h
    · rw [d, hq]; nofun
    · rw [z1, z2]; unfold depth; rw [b, c]
    · unfold bottom; rw [b, c]; exact id
    · rw [b, hs]; nofun
    · unfold Awake; rw [b, c]; exact hw
  | tag a b c d =>
    obtain ⟨z1, z2⟩ := hnob a
    refine ⟨⟨hlines, by rw [c]; exact hi.stk, ?_, fun _ => by rw [d, hq], ?_, .inr (.inr h1'), fun _ => h1'⟩, h.code, h.le, h.tp,
      fun _ => h.ord, .inr ?_, ?_, hprog, ?_, Late.of fun hn => (h.ord hn).1, fun hw => .inr ?_⟩
    · rw [b]; rintro (h | h) <;> cases h
    · rw [d, hq]; nofun
    · rw [z1, z2, hdep]; unfold depth; rw [b, c]
    · unfold bottom; rw [b, c, hs]
      cases t.st.stack with
      | nil => nofun
      | cons y ys => simp [List.getLast?_cons_cons]
    · rw [b]; nofun
    · unfold Awake; rw [b, c]; exact hw.set ⟨nofun, nofun⟩
  | arrow a b c d =>
    obtain ⟨z1, z2⟩ := hnob a
    refine ⟨⟨hlines, ?_, ?_, fun _ => by rw [d, hq], ?_, .inr (.inr h1'), fun _ => h1'⟩, h.code, h.le, h.tp,
      fun _ => h.ord, .inr ?_, ?_, hprog, ?_, Late.of fun hn => (h.ord hn).1, fun hw => .inr ?_⟩
    · rw [c, hs]
      intro s hs'
      rw [List.mem_cons] at hs'
      exact hs'.elim .inl (hi.stk s)
    · intro _; rw [c, hs]; exact ⟨_, rfl⟩
    · rw [d, hq]; nofun
    · rw [z1, z2, hdep]; unfold depth; rw [b, c]; rfl
    · unfold bottom; rw [c]; simp [List.getLast?_cons_cons]
    · rw [b]; nofun
    · unfold Awake; rw [b, c]; exact hw.push ⟨nofun, nofun⟩
  | curly a b c d =>
    refine ⟨⟨hlines, ?_, ?_, fun _ => by rw [d, hq], ?_, .inr (.inr h1'), fun _ => h1'⟩, h.code, h.le, h.tp,
      fun _ => h.ord, .inr ?_, ?_, hprog, ?_, Late.of fun hn => (h.ord hn).1, fun hw => .inr ?_⟩
    · rw [c, hs]
      intro s hs'
      rw [List.mem_cons] at hs'
      exact hs'.elim .inl (hi.stk s)
    · rw [b]; rintro (h | h) <;> cases h
    · rw [d, hq]; nofun
    · rw [a, hdep]; unfold depth; rw [b, c]; rfl
    · unfold bottom; rw [c]; simp [List.getLast?_cons_cons]
    · rw [b]; nofun
    · unfold Awake; rw [b, c]; exact hw.push ⟨nofun, nofun⟩
  | close a b c =>
    have hst : t'.st.state = .inScripting ∨ t'.st.state = .doNothing := hi.stk _ (by rw [b]; simp)
    refine ⟨⟨hlines, ?_, ?_, fun _ => by rw [c, hq], ?_, .inr (.inr h1'), fun _ => h1'⟩, h.code, h.le, h.tp,
      fun _ => h.ord, .inr ?_, ?_, hprog, ?_, Late.of fun hn => (h.ord hn).1, fun hw => .inr ?_⟩
    · intro s hs'
      exact hi.stk s (by rw [b]; simp [hs'])
    · rintro (h | h) <;> rw [h] at hst <;> rcases hst with h | h <;> cases h
    · rw [c, hq]; nofun
    · rw [a, hdep, b]
      have : depth t'.st = t'.st.stack.length := by
        unfold depth
        rcases hst with h | h <;> rw [h]
      rw [this]
      rfl
    · unfold bottom; rw [b]; simp [List.getLast?_cons_cons]
    · intro h; rw [h] at hst; rcases hst with h | h <;> cases h
    · intro s hs'; rw [← b] at hs'; exact hw s (List.mem_cons_of_mem _ hs')
  | str a b c q d e f =>
    obtain ⟨z1, z2⟩ := hnob a
    refine ⟨⟨hlines, ?_, ?_, fun h => absurd b h, ?_, .inr (.inr h1'), fun _ => h1'⟩, h.code, h.le, h.tp,
      fun _ => h.ord, .inr ?_, ?_, hprog, fun _ => .inr f, Late.of fun hn => (h.ord hn).1, fun hw => .inr ?_⟩
    · rw [c, hs]
      intro s hs'
      rw [List.mem_cons] at hs'
      exact hs'.elim .inl (hi.stk s)
    · intro _; rw [c, hs]; exact ⟨_, rfl⟩
    · rw [d, hq, h.code]
      intro y hy
      rw [List.append_nil] at hy
      exact e y hy
    · rw [z1, z2, hdep]; unfold depth; rw [b, c]; rfl
    · unfold bottom; rw [c]; simp [List.getLast?_cons_cons]
    · unfold Awake; rw [b, c]; exact hw.push ⟨nofun, nofun⟩

theorem popState_ok {s : LexState} {k : List LexState} (h : t.st.stack = s :: k) :
    popState t = .ok () { t with st := { t.st with state := s, stack := k } } := by
  unfold popState
  tstep (t.st) t
  rw [h]
  rfl

theorem Inv.lg (h : Inv t) (hs : t.st.state ≠ .inScripting) (he : t.st.state ≠ .emitQueue) : LG t := by
  rcases h.lines with h | ⟨_, h | h⟩
  · exact h
  · exact absurd h hs
  · exact absurd h he

/-- Nothing but the position changed on the way to the state where the token was read. -/
theorem NextPost.after {t1 t' : Tz} {x : TokSpan} (h : NextPost t1 x t') (hc : t1.code = t.code) (hle : t.st.srcPos ≤ t1.st.srcPos)
    (hd : depth t1.st = depth t.st) (hb : bottom t.st = some .doNothing → bottom t1.st = some .doNothing)
    (hq : t1.queue = []) (hs : t1.st.state ≠ .emitQueue) (hw : Awake t.st → Awake t1.st) : NextPost t x t' := by
  refine ⟨h.inv, h.code.trans hc, Nat.le_trans hle h.le, ?_, ?_, ?_, fun hh => h.bot (hb hh), ?_, ?_, h.late.mono hle, fun h' => h.wake (hw h')⟩
  · have := h.tp; rw [hc] at this; exact this
  · intro _ hn
    have := h.ord hs hn
    exact ⟨Nat.le_trans hle this.1, this.2⟩
  · rw [← hd]; exact h.dep.imp (fun h => absurd hq h.2) id
  · rcases h.prog with h | h | ⟨_, h⟩
    · exact .inl h
    · exact .inr (.inl (Nat.lt_of_le_of_lt hle h))
    · rw [hq] at h; exact absurd h (Nat.not_lt_zero _)
  · intro hh
    rcases h.quote hh with h | h
    · exact absurd h hs
    · rw [← hc]; exact .inr h

theorem NextErr.after {t1 t' : Tz} {e : SyntaxErr} (h : NextErr t1 e t') (hc : t1.code = t.code) (hle : t.st.srcPos ≤ t1.st.srcPos)
    (hw : Awake t.st → Awake t1.st) : NextErr t e t' := ⟨h.lg, h.queue, h.code.trans hc, Nat.le_trans hle h.le, by rw [← hc]; exact h.blame, fun h1 h2 => h.idle h1 (hw h2)⟩

/-- Tokens read in the initial state. -/
theorem initial_wp (hi : Inv t) (hs : t.st.state = .initial) :
    Twp U B initialToken t (NextPost t) (fun _ _ => False) := by
  have hg : LG t := hi.lg (by rw [hs]; nofun) (by rw [hs]; nofun)
  have hq : t.queue = [] := hi.queue (by rw [hs]; nofun)
  have hdep : depth t.st = t.st.stack.length := by unfold depth; rw [hs]
  -- a token that leads to the state `s`
  have fin : ∀ (k : Token) (p : Nat) (s : LexState) (a b : Nat), isBrace k = false → isWord k = false → isNumber k = false →
      (s = .initial ∨ s = .inScripting ∨ s = .done) → (s = .inScripting → 2 ≤ p) → t.st.srcPos ≤ p → p ≤ byteLen t.code →
      t.st.srcPos ≤ a → a ≤ b → b ≤ p → (k = .k .End ∨ t.st.srcPos < p) → (s = .done → k = .k .End) → (ranged k = true → StandsIn t.code ⟨k, mkSpan a b⟩) →
      NextPost t ⟨k, mkSpan a b⟩ { t with st := { t.st with srcPos := p, state := s } } := by
    intro k p s a b hb hw hnn hss hsp hp1 hp2 ha hab hbp hpr hdo hst
    have hg' := hg.to hp1 hp2
    simp only [isBrace, Bool.or_eq_false_iff] at hb
    refine ⟨⟨.inl ⟨hg'.pos, hg'.lines, hg'.fin⟩, hi.stk, ?_, fun _ => hq, ?_, ?_, ?_⟩, rfl, hp1,
      TokP.plain hw hab (Nat.le_trans hbp hp2) hst, fun _ _ => ⟨ha, hbp⟩, .inr ?_, ?_, hpr.imp id .inl, ?_, Late.of fun _ => ha, fun hw => ?_⟩
    · dsimp only; rcases hss with rfl | rfl | rfl <;> rintro (h | h) <;> cases h
    · dsimp only; rw [hq]; nofun
    · dsimp only
      rcases hss with rfl | rfl | rfl
      · exact .inl rfl
      · exact .inr (.inr (hsp rfl))
      · exact .inr (.inl rfl)
    · intro hne
      exact Nat.le_trans (hi.one' hne) hp1
    · dsimp only
      rw [hb.1, hb.2, hdep]
      rcases hss with rfl | rfl | rfl <;> rfl
    · unfold bottom
      dsimp only
      rw [hs]
      cases t.st.stack with
      | nil => nofun
      | cons y ys => simp [List.getLast?_cons_cons]
    · intro h
      rcases hss with rfl | rfl | rfl <;> cases h
    · rcases hss with rfl | rfl | rfl
      · exact .inr (hw.set ⟨nofun, nofun⟩)
      · exact .inr (hw.set ⟨nofun, nofun⟩)
      · exact .inl (hdo rfl)
  unfold initialToken
  refine Twp.bind (tw_input fun i hat => ?_)
  refine Twp.ite (fun he => ?_) (fun he => ?_)
  · rw [List.isEmpty_iff] at he
    subst he
    have ht := hat.total
    simp only [byteLen, Nat.add_zero] at ht
    refine Twp.bind (m := modSt _) (Twp.of_ok rfl ?_)
    have := fin (.k .End) t.st.srcPos .done (byteLen t.code) (byteLen t.code) rfl rfl rfl (.inr (.inr rfl)) nofun (Nat.le_refl _) hg.pos
      hg.pos (Nat.le_refl _) (by omega) (.inl rfl) (fun _ => rfl) nofun
    exact this
  · have tagw : ∀ e : Entry, e.act = .set .inScripting → isBrace (.k e.kw) = false → 2 ≤ byteLen e.text →
        (e.text.map lowerAscii, e.kw) ∈ tagTexts → byteLen e.text = byteLen (e.text.map lowerAscii) →
        Twp U B (matchTok e) t (NextPost t) (fun e' t' => NoMatch t e' t' ∧ ∀ i, At t i → startsWithCi i e.text = false) := by
      intro e ha hb hl htag hll
      unfold matchTok
      refine Twp.bind (tw_input fun i hi => ?_)
      refine Twp.ite (fun hm => ?_) (fun hm => ⟨⟨rfl, rfl⟩, fun j hj => ?_⟩)
      rotate_left
      · rw [Option.some.inj (hj.symm.trans hi)]
        simpa using hm
      refine Twp.bind (tw_inputPos ?_)
      refine Twp.bind (tw_advBytes' hi fun a b hab hl' _ => ?_)
      refine Twp.bind (tw_inputPos ?_)
      rw [ha]
      refine Twp.bind (m := Act.run _) (Twp.of_ok rfl ?_)
      have ht := hi.total
      rw [hab, byteLen_append] at ht
      exact fin (.k e.kw) (t.st.srcPos + byteLen e.text) .inScripting _ _ hb rfl rfl (.inr (.inl rfl)) (fun _ => by omega) (by omega) (by omega)
        (Nat.le_refl _) (by simp only [Tz.adv_pos]; omega) (by simp only [Tz.adv_pos]; omega) (.inr (by omega)) nofun (by
          intro _
          obtain ⟨r', hr', _⟩ := startsWithCi_split hm
          rw [hr'] at hi
          exact hi.stands0 (.tag htag) rfl (by simp only [Tz.adv_pos]; omega))
    have nx : ∀ {m n : T TokSpan} {P : Prop} {E}, Twp U B m t (NextPost t) (fun e t' => NoMatch t e t' ∧ P) →
        (P → Twp U B n t (NextPost t) E) → Twp U B (m <||> n) t (NextPost t) E := by
      intro m n P E h1 h2
      refine Twp.orElse (h1.cons (fun _ _ h => h) ?_)
      rintro e' t' ⟨⟨rfl, rfl⟩, hp⟩
      exact ⟨fun _ => h2 hp, fun h => absurd rfl h⟩
    refine nx (P := startsWithCi i c!"<?" = false) ?_ (fun hsw => ?_)
    · refine nx (tagw _ rfl rfl (by decide) (by decide) (by decide)) fun _ => nx (tagw _ rfl rfl (by decide) (by decide) (by decide)) fun _ => nx (tagw _ rfl rfl (by decide) (by decide) (by decide)) fun h => ?_
      exact ⟨⟨rfl, rfl⟩, by rw [h i hat]⟩
    · refine Twp.bind (Twp.of_ok (input_at hat) ?_)
      dsimp only
      have key : ∀ ep : Nat, ep ≠ 0 → Twp U B (if (ep != 0) = true then (do
            let p ← inputPos
            let s ← advanceBytes ep
            return ⟨.inlineHtml s, mkSpan p (p + ep)⟩)
          else endToken : T TokSpan) t (NextPost t) (fun _ _ => False) := by
        intro ep hne
        refine Twp.ite (fun _ => ?_) (fun hz => absurd (by simpa using hne) hz)
        refine Twp.bind (tw_inputPos ?_)
        refine Twp.bind (tw_advBytes' hat fun a b hab hl' _ => ?_)
        have ht := hat.total
        rw [hab, byteLen_append] at ht
        have := fin (.inlineHtml a) (t.st.srcPos + ep) .initial t.st.srcPos (t.st.srcPos + ep) rfl rfl rfl (.inl rfl) nofun (by omega) (by omega)
          (Nat.le_refl _) (by omega) (Nat.le_refl _) (.inr (by omega)) nofun (by
            intro _
            rw [hab] at hat
            exact hat.stands0 (.html a) rfl (by rw [hl']))
        rw [← hs] at this
        exact this
      have zero : ∀ {a : Text}, byteLen a = 0 → a = [] := by
        intro a h
        cases a with
        | nil => rfl
        | cons c r =>
          have := byteLen_pos (show (c :: r : Text) ≠ [] from nofun)
          omega
      cases hb : beforeSub c!"<?" i with
      | none =>
        exact key _ fun h => he (by rw [zero h]; rfl)
      | some pre =>
        refine key _ fun h => ?_
        obtain ⟨r, hr⟩ := beforeSub_split hb
        rw [zero h] at hr
        rw [hr] at hsw
        revert hsw
        cases r <;> exact nofun

theorem Inv.restarted (b : Bool) (h : Inv t) : Inv { t with st := { t.st with restart := b } } := by
  refine ⟨?_, h.stk, h.head, h.queue, h.qok, h.one, h.one'⟩
  rcases h.lines with h | ⟨⟨s, w, r, h1, h2, h3, h4, h5⟩, hs⟩
  · exact .inl ⟨h.pos, h.lines, h.fin⟩
  · exact .inr ⟨⟨s, w, r, h1, h2, h3, h4, h5⟩, hs⟩

/-- Tokens read after an arrow: a failure sends the tokenizer back to the scripting state. -/
theorem property_wp (hi : Inv t) (hs : t.st.state = .lookingForProperty) :
    Twp U B lookingForPropertyToken t (NextPost t) (fun e t' => e = .none ∧ t'.st.restart = true ∧ Inv t' ∧ t'.st.state = .inScripting ∧
      t'.code = t.code ∧ t.st.srcPos ≤ t'.st.srcPos ∧ depth t'.st = depth t.st ∧
      (bottom t.st = some .doNothing → bottom t'.st = some .doNothing) ∧ t'.queue = [] ∧
      (Awake t.st → Awake t'.st)) := by
  have hg : LG t := hi.lg (by rw [hs]; nofun) (by rw [hs]; nofun)
  have hq : t.queue = [] := hi.queue (by rw [hs]; nofun)
  obtain ⟨k, hk⟩ := hi.head (.inr hs)
  have hdep : depth t.st = k.length := by unfold depth; rw [hs, hk]; rfl
  have h1 : 2 ≤ t.st.srcPos := hi.one' (by rw [hk]; nofun)
  have hbot : bottom t.st = (LexState.inScripting :: k).getLast? := by
    unfold bottom; rw [hk]; simp [List.getLast?_cons_cons]
  unfold lookingForPropertyToken
  refine Twp.bind ((whitespace_wp hg).cons (fun _ u c' => ?_) (fun _ _ h => h))
  have c := c'.1
  have hdu : depth u.st = k.length := by unfold depth; rw [c.state, c.stack, hs, hk]; rfl
  have hiu : Inv u := ⟨.inl c.lg, by rw [c.stack]; exact hi.stk, fun _ => ⟨k, by rw [c.stack, hk]⟩, fun _ => by rw [c.queue, hq],
    by rw [c.queue, hq]; nofun, .inr (.inr (Nat.le_trans h1 c.le)), fun _ => Nat.le_trans h1 c.le⟩
  have hk' : u.st.stack = .inScripting :: k := by rw [c.stack, hk]
  have inv' : ∀ v : Tz, Same u v → Inv { v with st := { v.st with state := .inScripting, stack := k } } := by
    rintro v ⟨p, hp1, hp2, rfl⟩
    have := c.lg.to hp1 hp2
    exact ⟨.inl ⟨this.pos, this.lines, this.fin⟩, fun s hs' => hi.stk s (by rw [hk]; simp [hs']), (by rintro (h | h) <;> cases h),
      fun _ => by rw [Tz.to_queue, c.queue, hq], (by simp only [Tz.to_queue, c.queue, hq]; nofun),
      .inr (.inr (Nat.le_trans h1 (Nat.le_trans c.le hp1))), fun _ => Nat.le_trans h1 (Nat.le_trans c.le hp1)⟩
  have arrow : Twp U B (matchTok (ent .ObjectOp)) u (NextPost t) (NoMatch u) := by
    unfold matchTok
    refine Twp.bind (tw_input fun i hi => ?_)
    refine Twp.ite (fun hm => ?_) (fun _ => ⟨rfl, rfl⟩)
    refine Twp.bind (tw_inputPos ?_)
    refine Twp.bind (tw_advBytes' hi fun a b hab hl _ => ?_)
    refine Twp.bind (tw_inputPos ?_)
    refine Twp.bind (m := Act.run _) (Twp.of_ok rfl ?_)
    have h2 : byteLen (ent .ObjectOp).text = 2 := rfl
    rw [h2] at hl ⊢
    have ht := hi.total
    rw [hab, byteLen_append] at ht
    have hle := c.le
    have hg' := c.lg.to (p := u.st.srcPos + 2) (by omega) (by omega)
    show NextPost t _ _
    refine ⟨⟨.inl hg', hiu.stk, hiu.head, hiu.queue, hiu.qok, .inr (.inr ?_), fun _ => ?_⟩, c.code, ?_, ?_, ?_, .inr ?_, ?_, .inr (.inl ?_), ?_, Late.of fun _ => hle, fun hw => .inr ?_⟩
    · show 2 ≤ u.st.srcPos + 2
      omega
    · show 2 ≤ u.st.srcPos + 2
      omega
    · show _ ≤ u.st.srcPos + 2
      omega
    · exact TokP.plain rfl (show u.st.srcPos ≤ u.st.srcPos + 2 by omega) (show u.st.srcPos + 2 ≤ _ by rw [← c.code]; omega) (by
        intro _
        obtain ⟨r', hr', _⟩ := startsWithCi_split hm
        rw [hr'] at hi
        have hr : (ent .ObjectOp).text.map lowerAscii = c!"->" := by decide
        rw [hr] at hi
        have := hi.stands0 (k := .k .ObjectOp) (d := none) (.symbol (by decide)) rfl rfl
        rw [c.code] at this
        exact this)
    · intro _ _
      exact ⟨hle, Nat.le_refl _⟩
    · show depth u.st + 0 = depth t.st + 0
      rw [hdu, hdep]
    · unfold bottom
      rw [Tz.adv_state, Tz.adv_stack, c.state, c.stack]; exact id
    · show _ < u.st.srcPos + 2
      omega
    · rw [Tz.adv_state, c.state, hs]; nofun
    · unfold Awake
      rw [Tz.adv_state, Tz.adv_stack, c.state, c.stack]; exact hw
  refine Twp.orElse (arrow.cons (fun x v o => o) ?_)
  · rintro e v ⟨rfl, rfl⟩
    refine ⟨fun _ => ?_, fun h => absurd rfl h⟩
    refine Twp.bind (label_wp ?_ fun w r hw hne _ => ?_)
    · dsimp only
      refine Twp.bind (Twp.of_ok (popState_ok hk') ?_)
      refine Twp.bind (m := modSt _) (Twp.of_ok rfl ?_)
      have i := inv' v (Same.refl c.lg)
      refine ⟨rfl, rfl, i.restarted true, rfl, c.code, c.le, ?_, ?_, ?_, fun hw => hw.pop hk⟩
      · rw [hdep]; rfl
      · rw [hbot]; exact id
      · exact c.queue.trans hq
    · dsimp only
      have hk2 : (v.adv (byteLen w)).st.stack = .inScripting :: k := hk'
      refine Twp.bind (Twp.of_ok (popState_ok hk2) ?_)
      have hsame := hw.same
      have ht := hw.total
      rw [byteLen_append] at ht
      have hwl := length_le_byteLen w
      have hpos : 0 < w.length := List.length_pos_iff.2 hne
      refine ⟨inv' _ hsame, c.code, Nat.le_trans c.le (Nat.le_add_right _ _), ⟨fun _ => Nat.le_trans (Nat.le_trans (by decide) h1) c.le, fun _ => ⟨?_, ?_⟩, fun ha => ?_, nofun⟩, fun _ _ => ⟨c.le, ?_⟩,
        .inr ?_, ?_, .inr (.inl ?_), nofun, Late.of fun _ => c.le, fun hw => .inr (hw.pop hk)⟩
      · exact Nat.le_add_right _ _
      · show v.st.srcPos + w.length ≤ _
        rw [← c.code]; omega
      · have := hw.stands0 (k := .string w) (d := none) (.name w) rfl rfl
        rw [byteLen_ascii (w := w) ha, c.code] at this
        exact this
      · show v.st.srcPos + w.length ≤ v.st.srcPos + byteLen w
        omega
      · rw [hdep]; rfl
      · rw [hbot]; exact id
      · show _ < v.st.srcPos + byteLen w
        have := c.le
        omega

/-- How many rounds `nextToken` needs to reach a token. -/
def rounds (s : TState) : Nat :=
  match s.state, s.restart with
  | .inScripting, _ => 1
  | .initial, _ => 1
  | .done, false => 1
  | .doNothing, false => 1
  | _, _ => 2

/-- What one round of `nextToken` runs. -/
def stepOf (fuel : Nat) : LexState → T TokSpan
  | .done => fail .none
  | .doNothing => fail .none
  | .initial => initialToken
  | .inScripting => inScriptingToken (nextToken fuel) fuel
  | .lookingForProperty => lookingForPropertyToken
  | .emitQueue => noFuel

theorem next_state {fuel : Nat} {step : T TokSpan} (hs : t.st.state ≠ .emitQueue) (he : stepOf fuel t.st.state = step)
    {Q : TokSpan → Tz → Prop} {E : SyntaxErr → Tz → Prop}
    (h : Twp U B step t Q fun e t' =>
      (e = .none → t'.st.restart = true → Twp U B (nextToken fuel) { t' with st := { t'.st with restart := false } } Q E) ∧
      (e = .none → t'.st.restart = false → E .none t') ∧ (e ≠ .none → E e t')) :
    Twp U B (nextToken (fuel + 1)) t Q E := by
  have e : nextToken (fuel + 1) t = match step t with
    | .err .none t' =>
      if t'.st.restart then nextToken fuel { t' with st := { t'.st with restart := false } }
      else .err .none t'
    | r => r := by
    subst he
    conv => lhs; unfold nextToken
    dsimp only
    cases h : t.st.state with
    | emitQueue => exact absurd h hs
    | done => rfl
    | doNothing => rfl
    | initial =>
      dsimp only [stepOf]
      generalize initialToken t = r
      cases r with
      | err e t' => cases e <;> rfl
      | _ => rfl
    | inScripting =>
      dsimp only [stepOf]
      generalize inScriptingToken (nextToken fuel) fuel t = r
      cases r with
      | err e t' => cases e <;> rfl
      | _ => rfl
    | lookingForProperty =>
      dsimp only [stepOf]
      generalize lookingForPropertyToken t = r
      cases r with
      | err e t' => cases e <;> rfl
      | _ => rfl
  unfold Twp at h
  cases hr : step t with
  | ok a t' => rw [hr] at h e; exact Twp.of_ok e h
  | err er t' =>
    rw [hr] at h e
    by_cases hn : er = .none
    · subst hn
      dsimp only at e h
      by_cases hre : t'.st.restart = true
      · rw [if_pos hre] at e
        have := h.1 rfl hre
        unfold Twp at this ⊢
        rw [e]
        exact this
      · rw [if_neg hre] at e
        exact Twp.of_err e (h.2.1 rfl (by simpa using hre))
    · refine Twp.of_err (e := er) (t' := t') ?_ (h.2.2 hn)
      rw [e]
      cases er <;> first | rfl | exact absurd rfl hn
  | panic p => rw [hr] at h e; exact Twp.of_panic e h
  | oof =>
    rw [hr] at h e
    unfold Twp
    rw [e]
    exact h

/-- The fuel does not suffice for an expression between braces further on. -/
def Jammed (fuel : Nat) (t : Tz) : Prop := ∃ f, fuel ≤ f + rounds t.st ∧ Stopped (nextToken f) f t

/-- One call of `next_token`. -/
theorem next_stuck (fuel : Nat) : ∀ t, Inv t →
    Twp (depth t.st = 0 ∧ t.st.state ≠ .doNothing) (Jammed fuel t ∨ fuel < rounds t.st) (nextToken fuel) t (NextPost t) (NextErr t) := by
  induction fuel with
  | zero =>
    intro t _
    refine .inr ?_
    unfold rounds
    split <;> decide
  | succ fuel ih =>
    intro t hi
    have hn : NextOk (nextToken fuel) := fun t hi => (ih t hi).mono id (fun _ => trivial) (fun _ _ h => h) (fun _ _ h => h)
    -- a second round from the scripting state
    have again : ∀ t1 : Tz, Inv t1 → t1.st.state = .inScripting → t1.code = t.code → t.st.srcPos ≤ t1.st.srcPos →
        depth t1.st = depth t.st → t.st.state ≠ .doNothing → (bottom t.st = some .doNothing → bottom t1.st = some .doNothing) → t1.queue = [] →
        rounds t.st = 2 → (Awake t.st → Awake t1.st) →
        Twp (depth t.st = 0 ∧ t.st.state ≠ .doNothing) (Jammed (fuel + 1) t ∨ fuel + 1 < rounds t.st) (nextToken fuel) t1 (NextPost t) (NextErr t) := by
      intro t1 h1 hs hc hle hd hnd hb hq hr hw
      refine (ih t1 h1).mono ?_ ?_ (fun _ _ h => h.after hc hle hd hb hq (by rw [hs]; nofun) hw) (fun _ _ h => h.after hc hle hw)
      · rintro ⟨h, _⟩
        exact ⟨by rw [← hd]; exact h, hnd⟩
      · have : rounds t1.st = 1 := by unfold rounds; rw [hs]
        refine Or.imp (fun ⟨f, h1, h2⟩ => ⟨f, by omega, h2.back hc hle⟩) fun h => ?_
        omega
    -- the states in which nothing is read
    have stop : t.st.state = .done ∨ t.st.state = .doNothing →
        Twp (depth t.st = 0 ∧ t.st.state ≠ .doNothing) (Jammed (fuel + 1) t ∨ fuel + 1 < rounds t.st) (nextToken (fuel + 1)) t (NextPost t) (NextErr t) := by
      intro hs
      have he : t.st.state ≠ .emitQueue := by rcases hs with h | h <;> rw [h] <;> nofun
      have hs' : t.st.state ≠ .inScripting := by rcases hs with h | h <;> rw [h] <;> nofun
      refine next_state (step := fail .none) he (by rcases hs with h | h <;> rw [h] <;> rfl) ?_
      refine ⟨fun _ hr => ?_, fun _ _ => ⟨hi.lg hs' he, hi.queue he, rfl, Nat.le_refl _, fun h => absurd rfl h,
        fun _ hw => by have := hw t.st.state (List.mem_cons_self ..); rcases hs with h | h <;> rw [h] at this <;> simp at this⟩, fun h => absurd rfl h⟩
      refine (ih { t with st := { t.st with restart := false } } (hi.restarted false)).mono (fun h => h) ?_
        (fun _ _ h => h.after rfl (Nat.le_refl _) rfl (fun h => h) (hi.queue he) he (fun h => h)) (fun _ _ h => h.after rfl (Nat.le_refl _) (fun h => h))
      have h1 : rounds { t.st with restart := false } = 1 := by
        rcases hs with h | h <;> simp only [rounds, h]
      have h2 : rounds t.st = 2 := by
        rcases hs with h | h <;> simp only [rounds, h, hr]
      refine Or.imp (fun ⟨f, h3, h4⟩ => ⟨f, by rw [show rounds _ = 1 from h1] at h3; omega, h4.back rfl (Nat.le_refl _)⟩) fun h => ?_
      rw [h1] at h
      omega
    cases hs : t.st.state with
    | done => have := stop (.inl hs); rw [hs] at this; exact this
    | doNothing => have := stop (.inr hs); rw [hs] at this; exact this
    | initial =>
      refine next_state (by rw [hs]; nofun) (by rw [hs]) ?_
      exact (initial_wp hi hs).cons (fun _ _ h => h) (fun _ _ h => h.elim)
    | inScripting =>
      refine next_state (by rw [hs]; nofun) (by rw [hs]) ?_
      refine (scripting_wp (U := depth t.st = 0 ∧ t.st.state ≠ .doNothing) hn fuel
        (B := Jammed (fuel + 1) t) (fun h => ⟨fuel, by rw [show rounds t.st = 1 by unfold rounds; rw [hs]]; exact Nat.le_refl _, h⟩)
        (hi.lines.imp id (·.1)) ?_ (hi.queue (by rw [hs]; nofun)) ?_).mono ?_ .inl
        (fun _ _ h => h.post hi hs) ?_
      · rcases hi.one with h | h | h
        · rw [hs] at h; cases h
        · rw [hs] at h; cases h
        · exact h
      · intro h
        exact ⟨by unfold depth; rw [hs, h]; rfl, by rw [hs]; nofun⟩
      · rw [hs]; exact id
      · rintro e t' ⟨h1, h2⟩
        exact ⟨fun h => absurd h h1.ne, fun h => absurd h h1.ne, fun _ => ⟨h2.lg, by rw [h2.queue]; exact hi.queue (by rw [hs]; nofun), h2.code, h2.le,
          fun _ => h1, fun h => absurd h h1.ne⟩⟩
    | lookingForProperty =>
      refine next_state (by rw [hs]; nofun) (by rw [hs]) ?_
      refine (property_wp hi hs).cons (fun _ _ h => h) ?_
      rintro e t' ⟨rfl, hr, hi', hs', hc, hle, hd, hb, hq, hw⟩
      refine ⟨fun _ _ => ?_, fun _ h => by (rw [hr] at h; cases h), fun h => absurd rfl h⟩
      have := again _ (hi'.restarted false) hs' hc hle hd (by rw [hs]; nofun) hb hq (by unfold rounds; rw [hs]) hw
      rw [hs] at this
      exact this
    | emitQueue =>
      obtain ⟨k, hk⟩ := hi.head (.inl hs)
      have hdep : depth t.st = k.length := by unfold depth; rw [hs, hk]; rfl
      cases hq : t.queue with
      | cons x q =>
        refine Twp.of_ok (a := x) (t' := { t with queue := q }) ?_ ?_
        · conv => lhs; unfold nextToken
          simp only [hs, hq]
        · have hx : QOk t.code x := hi.qok x (by rw [hq]; simp)
          have hl : LG { t with queue := q } ∨ (Gap { t with queue := q } ∧ (t.st.state = .inScripting ∨ t.st.state = .emitQueue)) := by
            rcases hi.lines with h | ⟨⟨s, w, r, h1, h2, h3, h4, h5⟩, hs⟩
            · exact .inl ⟨h.pos, h.lines, h.fin⟩
            · exact .inr ⟨⟨s, w, r, h1, h2, h3, h4, h5⟩, hs⟩
          refine ⟨⟨hl, hi.stk, hi.head, fun h => absurd hs h, fun y hy => hi.qok y (by rw [hq]; simp [hy]), hi.one, hi.one'⟩, rfl, Nat.le_refl _,
            hx.tp, fun h => absurd hs h, ?_, fun h => h, .inr (.inr ⟨rfl, by rw [hq]; simp⟩), fun _ => .inl hs, hx.late.any, .inr⟩
          refine hx.nb.imp (fun h => ⟨h, by rw [hq]; nofun⟩) fun hb => ?_
          simp only [isBrace, Bool.or_eq_false_iff] at hb
          rw [hb.1, hb.2]
      | nil =>
        have e : nextToken (fuel + 1) t = nextToken fuel { t with st := { t.st with state := .inScripting, stack := k, restart := true } } := by
          conv => lhs; unfold nextToken
          simp only [hs, hq]
          rw [bind_ok (popState_ok hk)]
          refine (bind_ok (m := modSt _) rfl).trans ?_
          simp only [hq]
        have hi1 : Inv { t with st := { t.st with state := .inScripting, stack := k, restart := true } } := by
          have hl : Inv { t with st := { t.st with state := .inScripting, stack := k } } := by
            refine ⟨?_, fun s hs' => hi.stk s (by rw [hk]; simp [hs']), (by rintro (h | h) <;> cases h), fun _ => hq, (by rw [hq]; nofun),
              .inr (.inr (hi.one' (by rw [hk]; nofun))), fun _ => hi.one' (by rw [hk]; nofun)⟩
            rcases hi.lines with h | ⟨⟨s, w, r, h1, h2, h3, h4, h5⟩, _⟩
            · exact .inl ⟨h.pos, h.lines, h.fin⟩
            · exact .inr ⟨⟨s, w, r, h1, h2, h3, h4, h5⟩, .inl rfl⟩
          exact hl.restarted true
        have := again _ hi1 rfl rfl (Nat.le_refl _) (by rw [hdep]; rfl) (by rw [hs]; nofun)
          (by unfold bottom; rw [hk]; simp [List.getLast?_cons_cons]) hq (by unfold rounds; rw [hs])
          (fun hw => hw.pop hk)
        rw [hs] at this
        unfold Twp at this ⊢
        rw [e]
        exact this


theorem next_wp (fuel : Nat) (t : Tz) (h : Inv t) :
    Twp (depth t.st = 0 ∧ t.st.state ≠ .doNothing) (HasBlock t.code ∨ fuel < rounds t.st) (nextToken fuel) t (NextPost t) (NextErr t) :=
  (next_stuck fuel t h).mono id (Or.imp (fun ⟨_, _, _, _, h, _⟩ => h.block) id) (fun _ _ h => h) (fun _ _ h => h)

end

theorem inv_new (src : Text) : Inv (Tz.new src) := by
  refine ⟨.inl ⟨Nat.zero_le _, ⟨rfl, ?_, ?_⟩, rfl⟩, nofun, ?_, fun _ => rfl, nofun, .inl rfl, fun h => absurd rfl h⟩
  · exact List.pairwise_singleton _ _
  · intro x hx
    exact Nat.le_of_eq (List.mem_singleton.1 hx)
  · rintro (h | h) <;> cases h

end Pico
