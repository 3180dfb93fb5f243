import Verif.Lemmas.LayStr
/-! # Literals from their first to their last character -/
namespace Pico
open T

section
variable {t : Tz}

theorem sqLoop_lay (bak : TState) (fuel : Nat) (bytes : List Byte) (t : Tz) :
    Twp True True (sqLoop bak fuel bytes) t
      (fun bs t' => ∃ fs r, Lay t (fragSrc fs ++ c!"'") t' r ∧ FragsOk .single fs (c!"'" ++ r) ∧ bs = bytes ++ fragBytes fs)
      (fun e _ => e ≠ .none) := by
  induction fuel generalizing bytes t with
  | zero => exact trivial
  | succ fuel ih =>
    unfold sqLoop
    refine Twp.bind (tw_input fun i hi => ?_)
    dsimp only
    refine Twp.bind (tw_span hi (Nat.le_refl _) fun w r hr hw _ hl => ?_)
    generalize t.adv (byteLen w) = u at hl ⊢
    have hu := hl.mv.at'
    refine Twp.bind (Twp.of_ok (input_at hu) ?_)
    have hwok : FragsOk .single (w.map .plain) r := FragsOk.plain fun c hc _ => by
      have := hw c hc
      simp only [Bool.or_eq_false_iff, beq_eq_false_iff_ne] at this
      exact this.1
    have go : ∀ (f : Snip) v s u', Lay u (fragSrc [f]) u' s → f.Ok .single s → v = fragBytes [f] →
        Twp True True (sqLoop bak fuel (bytes ++ encode w ++ v)) u'
          (fun bs t' => ∃ fs r, Lay t (fragSrc fs ++ c!"'") t' r ∧ FragsOk .single fs (c!"'" ++ r) ∧ bs = bytes ++ fragBytes fs)
          (fun e _ => e ≠ .none) := by
      intro f v s u' h1 h2 h3
      refine (ih _ u').cons ?_ (fun _ _ h => h)
      rintro bs t' ⟨fs, r', k1, k2, k3⟩
      have e := h1.left k1.src
      have e2 := hl.left h1.src
      refine ⟨w.map .plain ++ (f :: fs), r', ?_, ?_, ?_⟩
      · have := (hl.trans h1).trans k1
        rw [fragSrc_append, fragSrc_plain]
        simpa [fragSrc] using this
      · refine FragsOk.append ?_ ⟨?_, k2⟩
        · have e3 : fragSrc (f :: fs) ++ (c!"'" ++ r') = r := by
            rw [e2, e]; simp [fragSrc]
          rw [e3]; exact hwok
        · rw [← List.append_assoc, ← e]; exact h2
      · rw [k3, h3, fragBytes_append, fragBytes_plain, show f :: fs = [f] ++ fs from rfl, fragBytes_append]
        simp
    split
    · rename_i hh
      obtain ⟨r2, rfl⟩ := head_split hh
      refine Twp.bind (tw_advBytes hu rfl fun hi3 => ?_)
      refine Twp.bind (m := modSt _) (Twp.of_ok rfl ?_)
      exact go (.plain '\n') [10] r2 _ (Lay.nextLine (.adv hu)) ⟨nofun, nofun⟩ rfl
    · rename_i hh
      obtain ⟨r2, rfl⟩ := head_split hh
      refine Twp.bind ((sqEscape_lay hu).cons ?_ (fun _ _ h => h))
      rintro bs t' ⟨e, v, s, rfl, k1, k2⟩
      exact go (.esc e v) v s _ (by rw [fragSrc_one]; exact k1) k2 (by simp [fragBytes])
    · rename_i hh
      obtain ⟨r2, rfl⟩ := head_split hh
      refine Twp.bind (tw_advBytes hu rfl fun hi3 => ?_)
      refine ⟨w.map .plain, r2, ?_, hwok, by rw [fragBytes_plain]⟩
      rw [fragSrc_plain]
      exact hl.trans (.adv hu)
    · refine Twp.bind (tw_inputPos ?_)
      refine Twp.bind (m := setSt _) (Twp.of_ok rfl ?_)
      exact Twp.fail nofun

theorem dqLoop_lay {next : T TokSpan} (bfuel : Nat) (bak : TState) (fuel : Nat) (bytes : List Byte) (parts : List TokSpan) (t : Tz)
    (hb : BlkOk next bfuel t) :
    Twp True True (dqLoop next bfuel bak fuel bytes parts) t (BodyL .double c!"\"" t bytes parts) (fun e _ => e ≠ .none) := by
  induction fuel generalizing bytes parts t with
  | zero => exact trivial
  | succ fuel ih =>
    unfold dqLoop
    refine Twp.bind (dqAdvance_lay.cons ?_ (fun _ _ h => h))
    rintro w u ⟨r, hl, hw, -⟩
    dsimp only
    have hu := hl.mv.at'
    refine Twp.bind (Twp.of_ok (input_at hu) ?_)
    have hbu : BlkOk next bfuel u := hb.moved hl.mv
    have hwok : FragsOk .double (w.map .plain) r := FragsOk.plain fun c hc => run_ok (q := .double) trivial (dqStop_ne (hw c hc))
    have hl' : Lay t (fragSrc (w.map .plain)) u r := by rw [fragSrc_plain]; exact hl
    have go : ∀ (f : Snip) s u' b1 p1, Lay u (fragSrc [f]) u' s → f.Ok .double s → Eff (bytes ++ encode w) parts [f] b1 p1 →
        Twp True True (dqLoop next bfuel bak fuel b1 p1) u' (BodyL .double c!"\"" t bytes parts) (fun e _ => e ≠ .none) := by
      intro f s u' b1 p1 h1 h2 h3
      refine (ih b1 p1 u' (hbu.moved h1.mv)).cons ?_ (fun _ _ h => h)
      exact fun res t' h => .cons hl' hwok (.plain _ _ _) (.cons h1 (.one h2) h3 h)
    split
    · rename_i hh
      obtain ⟨r2, rfl⟩ := head_split hh
      refine Twp.bind (tw_advBytes hu rfl fun hi3 => ?_)
      refine Twp.bind (m := modSt _) (Twp.of_ok rfl ?_)
      exact go (.plain '\n') r2 _ _ _ (Lay.nextLine (.adv hu)) ⟨nofun, nofun, by rintro (⟨h, _⟩ | ⟨h, _⟩) <;> cases h⟩ (.char _ _ _ rfl)
    · rename_i hh
      obtain ⟨r2, rfl⟩ := head_split hh
      refine Twp.bind ((dqEscape_lay hu).cons ?_ (fun _ _ h => h))
      rintro bs t' ⟨e, v, s, rfl, k1, k2⟩
      exact go (.esc e v) s _ _ _ (by rw [fragSrc_one]; exact k1) k2 (.esc _ _ _ _)
    · rename_i hh
      obtain ⟨r2, rfl⟩ := head_split hh
      refine Twp.bind (tw_advBytes hu rfl fun hi3 => ?_)
      exact BodyL.cons hl' hwok (.plain _ _ _) (.done (.adv hu))
    · rename_i hh
      obtain ⟨r2, rfl⟩ := head_split hh
      refine Twp.bind ((strVariable_lay bfuel .double trivial _ _ hu hbu).cons ?_ (fun _ _ h => h.elim))
      rintro ⟨b1, p1⟩ u' ⟨f, s, k1, k2, k3⟩
      exact go f s _ _ _ k1 k2 k3
    · rename_i hh
      obtain ⟨r2, rfl⟩ := head_split hh
      refine Twp.bind ((strBlock_lay bfuel .double trivial _ _ hu hbu).cons ?_ (fun _ _ h => h.elim))
      rintro ⟨b1, p1⟩ u' ⟨f, s, k1, k2, k3⟩
      exact go f s _ _ _ k1 k2 k3
    · refine Twp.bind (tw_inputPos ?_)
      refine Twp.bind (m := setSt _) (Twp.of_ok rfl ?_)
      exact Twp.fail nofun

theorem bqLoop_lay {next : T TokSpan} (bfuel : Nat) (bak : TState) (fuel : Nat) (bytes : List Byte) (parts : List TokSpan) (t : Tz)
    (hb : BlkOk next bfuel t) :
    Twp True True (bqLoop next bfuel bak fuel bytes parts) t (fun res t' => BodyL .back c!"`" t bytes parts res t' ∧ At t' []) (fun e _ => e ≠ .none) := by
  induction fuel generalizing bytes parts t with
  | zero => exact trivial
  | succ fuel ih =>
    unfold bqLoop
    refine Twp.bind (dqAdvance_lay.cons ?_ (fun _ _ h => h))
    rintro w u ⟨r, hl, hw, hend⟩
    dsimp only
    have hu := hl.mv.at'
    refine Twp.bind (Twp.of_ok (input_at hu) ?_)
    have hbu : BlkOk next bfuel u := hb.moved hl.mv
    have hwok : FragsOk .back (w.map .plain) r := FragsOk.plain fun c hc => run_ok (q := .back) trivial (dqStop_ne (hw c hc))
    have hl' : Lay t (fragSrc (w.map .plain)) u r := by rw [fragSrc_plain]; exact hl
    have go : ∀ (f : Snip) s u' b1 p1, Lay u (fragSrc [f]) u' s → f.Ok .back s → Eff (bytes ++ encode w) parts [f] b1 p1 →
        Twp True True (bqLoop next bfuel bak fuel b1 p1) u' (fun res t' => BodyL .back c!"`" t bytes parts res t' ∧ At t' []) (fun e _ => e ≠ .none) := by
      intro f s u' b1 p1 h1 h2 h3
      refine (ih b1 p1 u' (hbu.moved h1.mv)).cons ?_ (fun _ _ h => h)
      exact fun res t' h => ⟨.cons hl' hwok (.plain _ _ _) (.cons h1 (.one h2) h3 h.1), h.2⟩
    split
    · rename_i hh
      obtain ⟨r2, rfl⟩ := head_split hh
      refine Twp.bind (tw_advBytes hu rfl fun hi3 => ?_)
      refine Twp.bind (m := modSt _) (Twp.of_ok rfl ?_)
      exact go (.plain '\n') r2 _ _ _ (Lay.nextLine (.adv hu)) ⟨nofun, nofun, by rintro (⟨h, _⟩ | ⟨h, _⟩) <;> cases h⟩ (.char _ _ _ rfl)
    · rename_i hh
      obtain ⟨r2, rfl⟩ := head_split hh
      refine Twp.bind (tw_advBytes hu rfl fun hi3 => ?_)
      obtain rfl : r2 = [] := by
        rcases hend with h | ⟨c, h⟩
        · cases h _ rfl
        · simpa using (List.cons.inj h).2
      exact ⟨BodyL.cons hl' hwok (.plain _ _ _) (.done (.adv hu)), At.adv hu⟩
    · rename_i hh
      obtain ⟨r2, rfl⟩ := head_split hh
      refine Twp.bind ((strVariable_lay bfuel .back trivial _ _ hu hbu).cons ?_ (fun _ _ h => h.elim))
      rintro ⟨b1, p1⟩ u' ⟨f, s, k1, k2, k3⟩
      exact go f s _ _ _ k1 k2 k3
    · rename_i hh
      obtain ⟨r2, rfl⟩ := head_split hh
      refine Twp.bind ((strBlock_lay bfuel .back trivial _ _ hu hbu).cons ?_ (fun _ _ h => h.elim))
      rintro ⟨b1, p1⟩ u' ⟨f, s, k1, k2, k3⟩
      exact go f s _ _ _ k1 k2 k3
    · refine Twp.bind (tw_inputPos ?_)
      refine Twp.bind (m := setSt _) (Twp.of_ok rfl ?_)
      exact Twp.fail nofun

theorem newline_lay {i : Text} {E : SyntaxErr → Tz → Prop} (hi : At t i) :
    Twp True True newline t (fun b t' => (b = true → ∃ w r, Newline w r ∧ Lay t w t' r) ∧
      (b = false → ¬ c!"\n" <+: i ∧ ¬ c!"\r" <+: i) ∧ t'.code = t.code ∧ t'.queue = t.queue) E := by
  unfold newline
  refine Twp.bind (Twp.of_ok (input_at hi) ?_)
  have step : ∀ w r n, Newline w r → i = w ++ r → n = byteLen w → Twp True True (do
      let _ ← advanceBytes n
      modSt TState.nextLine
      return true : T Bool) t (fun b t' => (b = true → ∃ w r, Newline w r ∧ Lay t w t' r) ∧
      (b = false → ¬ c!"\n" <+: i ∧ ¬ c!"\r" <+: i) ∧ t'.code = t.code ∧ t'.queue = t.queue) E := by
    rintro w r n hw rfl hn
    refine Twp.bind (tw_advBytes hi hn fun _ => ?_)
    refine Twp.bind (m := modSt _) (Twp.of_ok rfl ?_)
    exact ⟨fun _ => ⟨w, r, hw, Lay.nextLine (.adv hi)⟩, nofun, rfl, rfl⟩
  refine Twp.ite (fun h => ?_) (fun h0 => Twp.ite (fun h => ?_) (fun h => ⟨nofun, fun _ => ?_, rfl, rfl⟩))
  · obtain ⟨r, rfl⟩ := startsWith_split h
    exact step c!"\r\n" r 2 (.inr (.inl rfl)) rfl rfl
  · rw [Bool.or_eq_true] at h
    rcases h with h | h
    · obtain ⟨r, rfl⟩ := startsWith_split h
      exact step c!"\n" r 1 (.inl rfl) rfl rfl
    · obtain ⟨r, rfl⟩ := startsWith_split h
      refine step c!"\r" r 1 (.inr (.inr ⟨rfl, ?_⟩)) rfl rfl
      rintro ⟨q, rfl⟩
      exact h0 (startsWith_append c!"\r\n" q)
  · rw [Bool.or_eq_true, not_or] at h
    exact ⟨noPrefix_of h.1, noPrefix_of h.2⟩

/-- Documents. -/
def docQuote (now : Bool) (tag : Text) : Quote := if now then .now tag else .here tag

/-- The rest of a document was read, up to its end label. -/
def DocL (now : Bool) (tag : Text) (t : Tz) (bytes : List Byte) (parts : List TokSpan) (res : List Byte × List TokSpan) (t' : Tz) : Prop :=
  ∃ fs r, Lay t (fragSrc fs ++ (c!"\n" ++ tag)) t' r ∧ FragsOk (docQuote now tag) fs (c!"\n" ++ tag ++ r) ∧
    Eff bytes parts fs res.1 res.2 ∧ (now = true → res = (bytes ++ fragBytes fs, parts)) ∧ EndsDoc r

theorem DocL.cons {now : Bool} {tag : Text} {t u t' : Tz} {fs : List Snip} {s : Text} {b b1 : List Byte} {p p1 : List TokSpan}
    {res : List Byte × List TokSpan} (h1 : Lay t (fragSrc fs) u s) (h2 : FragsOk (docQuote now tag) fs s) (h3 : Eff b p fs b1 p1)
    (h4 : now = true → b1 = b ++ fragBytes fs ∧ p1 = p)
    (h : DocL now tag u b1 p1 res t') : DocL now tag t b p res t' := by
  obtain ⟨gs, r, k1, k2, k3, k4, k5⟩ := h
  have e := h1.left k1.src
  subst e
  refine ⟨fs ++ gs, r, ?_, ?_, h3.trans k3, fun hn => ?_, k5⟩
  · rw [fragSrc_append, List.append_assoc]; exact h1.trans k1
  · refine FragsOk.append ?_ k2
    rw [List.append_assoc, ← List.append_assoc] at *
    simpa using h2
  · obtain ⟨rfl, rfl⟩ := h4 hn
    rw [k4 hn, fragBytes_append, List.append_assoc]

theorem docLoop_lay {next : T TokSpan} (bfuel : Nat) (bak : TState) (now : Bool) (tag : Text) (fuel : Nat) (bytes : List Byte)
    (parts : List TokSpan) (t : Tz) (hb : BlkOk next bfuel t) :
    Twp True True (docLoop next bfuel bak now tag fuel bytes parts) t (DocL now tag t bytes parts) (fun e _ => e ≠ .none) := by
  induction fuel generalizing bytes parts t with
  | zero => exact trivial
  | succ fuel ih =>
    unfold docLoop
    refine Twp.bind (tw_input fun i hi => ?_)
    dsimp only
    refine Twp.bind (tw_span hi (length_le_byteLen i) fun w r hr hw _ hl => ?_)
    generalize t.adv (byteLen w) = u at hl ⊢
    have hu := hl.mv.at'
    refine Twp.bind (Twp.of_ok (input_at hu) ?_)
    have hbu : BlkOk next bfuel u := hb.moved hl.mv
    have hwok : FragsOk (docQuote now tag) (w.map .plain) r := FragsOk.plain fun c hc s => by
      have := hw c hc
      simp only [Bool.or_eq_false_iff, beq_eq_false_iff_ne] at this
      obtain ⟨⟨⟨h1, h2⟩, h3⟩, h4⟩ := this
      cases now with
      | true => exact ⟨h1, h2, h4, fun h => absurd h h3⟩
      | false => exact ⟨h1, fun h => h.elim (fun h => h2 h.1) (fun h => h4 h.1), fun h => absurd h h3⟩
    have hl' : Lay t (fragSrc (w.map .plain)) u r := by rw [fragSrc_plain]; exact hl
    have w4 : now = true → bytes ++ encode w = bytes ++ fragBytes (w.map .plain) ∧ parts = parts := by
      rw [fragBytes_plain]; exact fun _ => ⟨rfl, rfl⟩
    have go : ∀ (f : Snip) s u' b1 p1, Lay u (fragSrc [f]) u' s → f.Ok (docQuote now tag) s → Eff (bytes ++ encode w) parts [f] b1 p1 →
        (now = true → b1 = bytes ++ encode w ++ fragBytes [f] ∧ p1 = parts) →
        Twp True True (docLoop next bfuel bak now tag fuel b1 p1) u' (DocL now tag t bytes parts) (fun e _ => e ≠ .none) := by
      intro f s u' b1 p1 h1 h2 h3 h4
      refine (ih b1 p1 u' (hbu.moved h1.mv)).cons ?_ (fun _ _ h => h)
      exact fun res t' h => .cons hl' hwok (.plain _ _ _) w4 (.cons h1 (.one h2) h3 h4 h)
    have unt : Twp True True (do
        let old ← inputPos
        setSt bak
        fail (.unterminated "Here/Nowdoc" (mkSpan bak.srcPos old)) : T (List Byte × List TokSpan)) u (DocL now tag t bytes parts)
        (fun e _ => e ≠ .none) := by
      refine Twp.bind (tw_inputPos ?_)
      refine Twp.bind (m := setSt _) (Twp.of_ok rfl ?_)
      exact Twp.fail nofun
    split
    · rename_i hh
      obtain ⟨r2, rfl⟩ := head_split hh
      refine Twp.bind (tw_advBytes hu rfl fun hi3 => ?_)
      refine Twp.bind (m := modSt _) (Twp.of_ok rfl ?_)
      have hl2 : Lay u c!"\n" ({ u.adv (byteLen ['\n']) with st := (u.adv (byteLen ['\n'])).st.nextLine } : Tz) r2 := Lay.nextLine (.adv hu)
      generalize ({ u.adv (byteLen ['\n']) with st := (u.adv (byteLen ['\n'])).st.nextLine } : Tz) = v at *
      have hv := hl2.mv.at'
      refine Twp.bind (Twp.of_ok (input_at hv) ?_)
      refine Twp.ite (fun hs => ?_) (fun hs => ?_)
      · obtain ⟨r3, rfl⟩ := startsWith_split hs
        refine Twp.bind (tw_advBytes hv rfl fun hi4 => ?_)
        have hl3 := hl2.trans (.adv hv)
        generalize v.adv (byteLen tag) = x at *
        refine Twp.bind (tw_inputPos ?_)
        refine Twp.bind (Twp.of_ok (input_at hi4) ?_)
        have fin : ∀ (s : Text) y, (s = [] ∨ s = c!";") → Lay x s y (r3.drop s.length) → r3 = s ++ r3.drop s.length →
            Twp True True (do
              if ← newline then
                setPos x.st.srcPos
                return (bytes ++ encode w, parts)
              else
                let old ← inputPos
                setSt bak
                fail (.unterminated "Here/Nowdoc: end-tag requires to be followed by a newline"
                  (mkSpan bak.srcPos old))) y (DocL now tag t bytes parts) (fun e _ => e ≠ .none) := by
          intro s y hs' hy hr3
          refine Twp.bind ((newline_lay hy.mv.at').cons ?_ (fun _ _ h => h))
          rintro b t' ⟨hb', _⟩
          cases b with
          | false =>
            refine Twp.ite (fun h => by cases h) (fun _ => ?_)
            refine Twp.bind (tw_inputPos ?_)
            refine Twp.bind (m := setSt _) (Twp.of_ok rfl ?_)
            exact Twp.fail nofun
          | true =>
            refine Twp.ite (fun _ => ?_) (fun h => absurd rfl h)
            refine Twp.bind (m := setPos _) (Twp.of_ok rfl ?_)
            obtain ⟨nl, r6, hnl, hl6⟩ := hb' rfl
            have hall := hy.trans hl6
            refine DocL.cons hl' hwok (.plain _ _ _) w4 ⟨[], r3, ⟨by simpa [fragSrc] using hl3.src, ?_⟩, trivial, .refl _ _, fun _ => by simp [fragBytes], ?_⟩
            · have hm := hl3.mv
              have ha := hall.mv
              exact ⟨by
                have := hm.at'
                unfold At at this ⊢
                show dropBytes t'.code x.st.srcPos = _
                rw [ha.code]; exact this, ha.code.trans hm.code, ha.state.trans hm.state, ha.stack.trans hm.stack, ha.queue.trans hm.queue⟩
            · refine ⟨s, nl, r6, ?_, hs', hnl⟩
              rw [List.append_assoc, ← hy.left hl6.src]; exact hr3
        refine Twp.ite (fun hs => ?_) (fun _ => ?_)
        · obtain ⟨r5, rfl⟩ := startsWith_split hs
          refine Twp.bind (tw_advBytes hi4 rfl fun hi5 => ?_)
          exact fin c!";" _ (.inr rfl) (.adv hi4) rfl
        · exact fin [] _ (.inl rfl) (.refl hi4) rfl
      · refine go (.plain '\n') r2 _ _ _ hl2 ?_ (.char _ _ _ rfl) (fun _ => ⟨rfl, rfl⟩)
        have hnp := noPrefix_of hs
        cases now with
        | true => exact ⟨nofun, nofun, nofun, fun _ => hnp⟩
        | false =>
          refine ⟨nofun, ?_, fun _ => hnp⟩
          rintro (⟨h, _⟩ | ⟨h, _⟩) <;> cases h
    · rename_i hh
      obtain ⟨r2, rfl⟩ := head_split hh
      cases now with
      | true =>
        refine Twp.bind ((sqEscape_lay hu).cons ?_ (fun _ _ h => h))
        rintro bs t' ⟨e, v, s, rfl, k1, k2⟩
        exact go (.esc e v) s _ _ _ (by rw [fragSrc_one]; exact k1) k2 (.esc _ _ _ _) (fun _ => by simp [fragBytes])
      | false =>
        refine Twp.bind ((dqEscape_lay hu).cons ?_ (fun _ _ h => h))
        rintro bs t' ⟨e, v, s, rfl, k1, k2⟩
        exact go (.esc e v) s _ _ _ (by rw [fragSrc_one]; exact k1) k2 (.esc _ _ _ _) nofun
    · rename_i hh
      obtain ⟨r2, rfl⟩ := head_split hh
      refine Twp.ite (fun _ => unt) (fun hn => ?_)
      cases now with
      | true => exact absurd rfl hn
      | false =>
        refine Twp.bind ((strVariable_lay bfuel (.here tag) trivial _ _ hu hbu).cons ?_ (fun _ _ h => h.elim))
        rintro ⟨b1, p1⟩ u' ⟨f, s, k1, k2, k3⟩
        exact go f s _ _ _ k1 k2 k3 nofun
    · rename_i hh
      obtain ⟨r2, rfl⟩ := head_split hh
      refine Twp.ite (fun _ => unt) (fun hn => ?_)
      cases now with
      | true => exact absurd rfl hn
      | false =>
        refine Twp.bind ((strBlock_lay bfuel (.here tag) trivial _ _ hu hbu).cons ?_ (fun _ _ h => h.elim))
        rintro ⟨b1, p1⟩ u' ⟨f, s, k1, k2, k3⟩
        exact go f s _ _ _ k1 k2 k3 nofun
    · exact unt

end
end Pico
