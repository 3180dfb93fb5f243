import Verif.Lemmas.LexPanicDoc
import Verif.Lemmas.TokNext
/-!
# Why the tokenizer panics: the other tokens, and `next_token`
-/
namespace Pico
open T

section
variable {src : Text} {U : Prop} {t : Tz} {E : SyntaxErr → Tz → Prop}

theorem Bd.same {t t' : Tz} (h : Bd src t) (hc : t'.code = t.code) (hp : t'.st.srcPos = t.st.srcPos) (hs : t'.st.state = t.st.state)
    (hk : t'.st.stack = t.st.stack) : Bd src t' :=
  ⟨h.on.same hc hp, by rw [hk]; exact h.stk, by rw [hs, hk]; exact h.head⟩

/-! ## Keywords and operators -/

/-- The entries of the tables, without `}`. -/
def okEntry (e : Entry) : Bool :=
  byteLen e.text == byteLen (e.text.map lowerAscii) &&
    (e.act == .keep || e.act == .set .initial || e.act == .set .inScripting || e.act == .push .lookingForProperty || e.act == .push .inScripting)

/-- A token of the scripting mode that is no string. -/
def Ot (src : Text) (t : Tz) (x : TokSpan) (t' : Tz) : Prop := Nx src t t' ∧ x.span.stop = t'.st.srcPos

/-- No token was found. -/
def Nm (src : Text) (t : Tz) (e : SyntaxErr) (t' : Tz) : Prop := e = .none ∧ Mv src t t' ∧ t'.st.srcPos = t.st.srcPos

theorem Nm.refl (h : On src t) : Nm src t .none t := ⟨rfl, Mv.refl h, rfl⟩

theorem Ot.keep {x : TokSpan} {t' : Tz} (hb : Bd src t) (h : Mv src t t') (hx : x.span.stop = t'.st.srcPos) : Ot src t x t' := ⟨h.nx hb, hx⟩

theorem tp_matchTok (e : Entry) (hg : okEntry e = true) (hb : Bd src t) (hs : t.st.state = .inScripting ∨ ∃ s, e.act = .set s) :
    Tp (Zz src U) (matchTok e) t (Ot src t) (Nm src t) := by
  simp only [okEntry, Bool.and_eq_true, Bool.or_eq_true, beq_iff_eq] at hg
  obtain ⟨hlen, hact⟩ := hg
  unfold matchTok
  refine Tp.bind (tp_input hb.on fun i hi => ?_)
  refine Tp.ite (fun hm => ?_) (fun _ => Nm.refl hb.on)
  obtain ⟨r, rfl, _⟩ := startsWithCi_split hm
  refine Tp.bind (tp_inputPos ?_)
  refine Tp.bind (tp_advBytes hi hlen fun hi2 => ?_)
  refine Tp.bind (tp_inputPos ?_)
  have m1 := Mv.adv hb.on.1 hi2
  generalize t.adv (byteLen (e.text.map lowerAscii)) = u at *
  have hset : ∀ s, (s = .initial ∨ s = .inScripting) → Bd src { u with st := { u.st with state := s } } := by
    intro s hss
    refine ⟨m1.on.same rfl rfl, by show ∀ x ∈ u.st.stack, _; rw [m1.stack]; exact hb.stk, ?_⟩
    rcases hss with rfl | rfl <;> rintro (h | h) <;> cases h
  have hpush : t.st.state = .inScripting → ∀ s, Bd src { u with st := u.st.push s } := by
    intro h s
    refine ⟨m1.on.same rfl rfl, ?_, fun _ => List.cons_ne_nil _ _⟩
    intro y hy
    have hy : y ∈ u.st.state :: u.st.stack := hy
    rw [m1.state, m1.stack, h, List.mem_cons] at hy
    rcases hy with rfl | hy
    · exact .inl rfl
    · exact hb.stk y hy
  rcases hact with (((h | h) | h) | h) | h <;> rw [h] at hs ⊢
  · refine Tp.bind (m := Act.run _) (Tp.of_ok rfl ?_)
    exact Ot.keep hb m1 rfl
  · refine Tp.bind (m := Act.run _) (Tp.of_ok rfl ?_)
    exact ⟨⟨hset _ (.inl rfl), m1.le⟩, rfl⟩
  · refine Tp.bind (m := Act.run _) (Tp.of_ok rfl ?_)
    exact ⟨⟨hset _ (.inr rfl), m1.le⟩, rfl⟩
  · refine Tp.bind (m := Act.run _) (Tp.of_ok rfl ?_)
    exact ⟨⟨hpush (hs.elim id (by rintro ⟨s, h⟩; cases h)) _, m1.le⟩, rfl⟩
  · refine Tp.bind (m := Act.run _) (Tp.of_ok rfl ?_)
    exact ⟨⟨hpush (hs.elim id (by rintro ⟨s, h⟩; cases h)) _, m1.le⟩, rfl⟩

theorem Ot.after {t0 t t' : Tz} {x : TokSpan} (h : t0.st.srcPos ≤ t.st.srcPos) (h' : Ot src t x t') : Ot src t0 x t' :=
  ⟨⟨h'.1.1, Nat.le_trans h h'.1.2⟩, h'.2⟩

theorem tp_or {m n : T TokSpan} {t0 : Tz} (hb : Bd src t0) (hu : Mv src t0 t) (hp : t.st.srcPos = t0.st.srcPos)
    (h1 : Bd src t → Tp (Zz src U) m t (Ot src t) (Nm src t))
    (h2 : ∀ u, Mv src t0 u → u.st.srcPos = t0.st.srcPos → Tp (Zz src U) n u (Ot src t0) E) :
    Tp (Zz src U) (m <||> n) t (Ot src t0) E := by
  refine Tp.orElse ((h1 (hu.bd hb)).cons (fun _ _ h => h.after hu.le) ?_)
  rintro e t' ⟨rfl, hm, hp'⟩
  exact ⟨fun _ => h2 _ (hu.trans hm) (hp'.trans hp), fun h => absurd rfl h⟩

theorem tp_matchFirst (es : List Entry) (hg : es.all okEntry = true) (hb : Bd src t)
    (hs : t.st.state = .inScripting ∨ ∀ e ∈ es, ∃ s, e.act = .set s) :
    Tp (Zz src U) (matchFirst es) t (Ot src t) (Nm src t) := by
  induction es generalizing t with
  | nil => exact Nm.refl hb.on
  | cons e es ih =>
    rw [List.all_cons, Bool.and_eq_true] at hg
    unfold matchFirst
    refine tp_or hb (Mv.refl hb.on) rfl (fun _ => tp_matchTok e hg.1 hb (hs.imp id fun h => h e (by simp))) fun u hu hp => ?_
    refine (ih hg.2 (hu.bd hb) ?_).cons (fun _ _ h => h.after hu.le) (fun _ _ h => ⟨h.1, hu.trans h.2.1, h.2.2.trans hp⟩)
    rw [hu.state]
    exact hs.imp id fun h e he => h e (by simp [he])

theorem tp_yield (hb : Bd src t) : Tp (Zz src U) matchYield t (Ot src t) (Nm src t) := by
  unfold matchYield
  refine Tp.bind (tp_input hb.on fun i hi => ?_)
  refine Tp.ite (fun hm => ?_) (fun _ => Nm.refl hb.on)
  obtain ⟨r, rfl, _⟩ := startsWithCi_split hm
  refine Tp.bind (tp_inputPos ?_)
  refine Tp.bind (tp_advBytes hi (by decide) fun hi2 => ?_)
  have m1 := Mv.adv hb.on.1 hi2
  refine Tp.bind ((tp_whitespace (E := fun _ _ => False) m1.on).cons ?_ (fun _ _ h => h.elim))
  rintro _ u ⟨m2, w, r2, _, _, hr2⟩
  refine Tp.bind (Tp.of_ok (input_at hr2) ?_)
  refine Tp.ite (fun hm => ?_) (fun _ => Tp.bind (tp_inputPos (Ot.keep hb (m1.trans m2) rfl)))
  obtain ⟨r3, rfl, _⟩ := startsWithCi_split hm
  refine Tp.bind (tp_advBytes hr2 (by decide) fun hi3 => ?_)
  exact Tp.bind (tp_inputPos (Ot.keep hb ((m1.trans m2).trans (Mv.adv m2.on.1 hi3)) rfl))

/-- The tables of the casts change nothing but the position. -/
theorem tp_castFirst (es : List Entry) (hg : es.all (fun e => okEntry e && e.act == .keep) = true) (hon : On src t) :
    Tp (Zz src U) (matchFirst es) t (fun _ t' => Mv src t t') (Nm src t) := by
  induction es generalizing t with
  | nil => exact Nm.refl hon
  | cons e es ih =>
    rw [List.all_cons, Bool.and_eq_true] at hg
    unfold matchFirst
    refine Tp.orElse (Tp.cons (Q' := fun _ t' => Mv src t t') (E' := Nm src t) ?_ (fun _ _ h => h) ?_)
    · have he := hg.1
      rw [Bool.and_eq_true, beq_iff_eq] at he
      have hlen := he.1
      simp only [okEntry, Bool.and_eq_true, beq_iff_eq] at hlen
      unfold matchTok
      refine Tp.bind (tp_input hon fun i hi => ?_)
      refine Tp.ite (fun hm => ?_) (fun _ => Nm.refl hon)
      obtain ⟨r, rfl, _⟩ := startsWithCi_split hm
      refine Tp.bind (tp_inputPos ?_)
      refine Tp.bind (tp_advBytes hi hlen.1 fun hi2 => ?_)
      refine Tp.bind (tp_inputPos ?_)
      rw [he.2]
      refine Tp.bind (m := Act.run _) (Tp.of_ok rfl ?_)
      exact Mv.adv hon.1 hi2
    · rintro e' t' ⟨rfl, hm, hp⟩
      refine ⟨fun _ => ?_, fun h => absurd rfl h⟩
      exact (ih hg.2 hm.on).cons (fun _ _ h => hm.trans h) (fun _ _ h => ⟨h.1, hm.trans h.2.1, h.2.2.trans hp⟩)

theorem tp_cast (hb : Bd src t) : Tp (Zz src U) matchCast t (Ot src t) (Nm src t) := by
  have hon := hb.on
  unfold matchCast
  refine Tp.bind (tp_input hon fun i hi => ?_)
  refine Tp.ite (fun hm => ?_) (fun _ => Nm.refl hon)
  obtain ⟨r, rfl⟩ := startsWith_split hm
  refine Tp.bind (tp_inputPos ?_)
  refine Tp.bind (tp_advBytes hi rfl fun hi2 => ?_)
  have m1 := Mv.adv hon.1 hi2
  refine Tp.bind ((tp_whitespaceOnly (E := fun _ _ => False) m1.on).cons ?_ (fun _ _ h => h.elim))
  intro _ u m2
  have back : ∀ v : Tz, Mv src t v → Tp (Zz src U) (do setPos t.st.srcPos; fail .none : T TokSpan) v (Ot src t) (Nm src t) := by
    intro v hv
    refine Tp.bind (m := setPos _) (Tp.of_ok rfl ?_)
    exact ⟨rfl, ⟨hon.same (hv.on.1.trans hon.1.symm) rfl, hv.state, hv.stack, Nat.le_refl _⟩, rfl⟩
  refine Tp.bind (Tp.cons (Q' := fun (_ : Option TokSpan) t' => Mv src u t') (E' := fun _ _ => False) ?_ ?_ (fun _ _ h => h.elim))
  · have := tp_castFirst (U := U) castTable (by decide +kernel) m2.on
    unfold Tp at this ⊢
    dsimp only
    revert this
    cases matchFirst castTable u with
    | ok a t' => exact id
    | err e t' => exact fun h => h.2.1
    | panic p => exact id
    | oof => exact id
  · intro tok v m3
    have mm := (m1.trans m2).trans m3
    cases tok with
    | none => exact back v mm
    | some tok =>
      dsimp only
      refine Tp.bind ((tp_whitespaceOnly (E := fun _ _ => False) m3.on).cons ?_ (fun _ _ h => h.elim))
      intro _ x m4
      refine Tp.bind (tp_input m4.on fun i4 hi4 => ?_)
      refine Tp.ite (fun hm => ?_) (fun _ => back x (mm.trans m4))
      obtain ⟨r5, rfl⟩ := startsWith_split hm
      refine Tp.bind (tp_advBytes hi4 rfl fun hi5 => ?_)
      exact Tp.bind (tp_inputPos (Ot.keep hb ((mm.trans m4).trans (Mv.adv m4.on.1 hi5)) rfl))

theorem tp_curlyClose (hb : Bd src t) (hU : (∃ r, At t ('}' :: r)) → U) : Tp (Zz src U) matchCurlyClose t (Ot src t) (Nm src t) := by
  unfold matchCurlyClose
  refine Tp.bind ?_
  unfold matchTok
  refine Tp.bind (tp_input hb.on fun i hi => ?_)
  refine Tp.ite (fun hm => ?_) (fun _ => Nm.refl hb.on)
  obtain ⟨r, rfl, _⟩ := startsWithCi_split hm
  refine Tp.bind (tp_inputPos ?_)
  refine Tp.bind (tp_advBytes hi (by decide) fun hi2 => ?_)
  refine Tp.bind (tp_inputPos ?_)
  have m1 := Mv.adv hb.on.1 hi2
  generalize t.adv _ = u at *
  cases hk : u.st.stack with
  | nil =>
    refine Tp.bind (Tp.of_panic (p := .unreachable) ?_ (.inr ⟨rfl, hU ⟨r, hi⟩⟩))
    show popState u = _
    unfold popState
    tstep (u.st) u
    rw [hk]
    rfl
  | cons s k =>
    refine Tp.bind (m := Act.run _) (Tp.of_ok (popState_ok hk) ?_)
    have hst : ∀ x ∈ s :: k, x = .inScripting ∨ x = .doNothing := by rw [← hk, m1.stack]; exact hb.stk
    refine ⟨⟨⟨m1.on.same rfl rfl, fun x hx => hst x (by simp [show x ∈ k from hx]), ?_⟩, m1.le⟩, rfl⟩
    have := hst s (by simp)
    show s = .emitQueue ∨ s = .lookingForProperty → _
    rcases this with rfl | rfl <;> rintro (h | h) <;> cases h

theorem tp_oneChar (hb : Bd src t) : Tp (Zz src U) oneCharToken t (Ot src t) (Nm src t) := by
  unfold oneCharToken
  refine Tp.bind (tp_input hb.on fun i hi => ?_)
  cases i with
  | nil =>
    refine Tp.of_ok (a := ⟨.k .End, mkSpan (byteLen t.code) (byteLen t.code)⟩) (t' := t) rfl ?_
    have ht := hi.total
    simp only [byteLen, Nat.add_zero] at ht
    exact Ot.keep hb (Mv.refl hb.on) ht.symm
  | cons c i =>
    dsimp only
    split
    · exact Nm.refl hb.on
    · have hi' : At t ([c] ++ i) := hi
      refine Tp.bind (tp_advChars' hi' rfl fun hi2 => ?_)
      refine Tp.bind (tp_inputPos ?_)
      have := byteLen_pos (show [c] ≠ [] from nofun)
      refine Tp.bind (tp_subT (by simp only [Tz.adv_pos]; omega) ?_)
      exact Ot.keep hb (Mv.adv hb.on.1 hi2) rfl

theorem tp_other (hb : Bd src t) (hs : t.st.state = .inScripting) (hU : (∃ r, At t ('}' :: r)) → U) :
    Tp (Zz src U) inScriptingOtherToken t (Ot src t)
      (fun e t' => e = .unknownCharacter (mkSpan t.st.srcPos (t.st.srcPos + 1)) ∧ Mv src t t') := by
  have at' : ∀ u, Mv src t u → u.st.srcPos = t.st.srcPos → ∀ i, At u i → At t i := by
    intro u hu hp i hi
    unfold At at hi ⊢
    rw [hu.on.1, hp] at hi
    rw [hb.on.1]
    exact hi
  have st' : ∀ u, Mv src t u → u.st.state = .inScripting := fun u hu => hu.state.trans hs
  unfold inScriptingOtherToken
  refine tp_or hb (Mv.refl hb.on) rfl (fun h => tp_matchFirst tableA (by decide +kernel) h (.inl hs)) fun u hu hp => ?_
  refine tp_or hb hu hp (fun h => tp_yield h) fun u hu hp => ?_
  refine tp_or hb hu hp (fun h => tp_matchFirst tableB (by decide +kernel) h (.inl (st' u hu))) fun u hu hp => ?_
  refine tp_or hb hu hp (fun h => tp_cast h) fun u hu hp => ?_
  refine tp_or hb hu hp (fun h => tp_matchFirst tableC (by decide +kernel) h (.inl (st' u hu))) fun u hu hp => ?_
  refine tp_or hb hu hp (fun h => tp_curlyClose h (fun ⟨r, hr⟩ => hU ⟨r, at' u hu hp _ hr⟩)) fun u hu hp => ?_
  refine tp_or hb hu hp (fun h => tp_matchFirst tableD (by decide +kernel) h (.inl (st' u hu))) fun u hu hp => ?_
  refine tp_or hb hu hp (fun h => tp_oneChar h) fun u hu hp => ?_
  unfold unknownChar
  refine Tp.bind (tp_inputPos ?_)
  refine Tp.of_err rfl ⟨?_, hu⟩
  rw [hp]

/-! ## Words -/

theorem label_on {w r : Text} {t' : Tz} (hc : t.code = src) (hw : At t (w ++ r)) (hl : IsLabel w) (hc' : t'.code = src)
    (hp : t'.st.srcPos = t.st.srcPos + w.length) : On src t' := by
  by_cases ha : ascii w = true
  · refine ⟨hc', .inl ⟨r, ?_⟩⟩
    have := hw.adv
    unfold At at this ⊢
    rw [Tz.adv_pos, byteLen_ascii ha] at this
    rw [hp, hc', ← hc]
    exact this
  · refine ⟨hc', .inr ?_⟩
    obtain ⟨c, hcw, hca⟩ : ∃ c ∈ w, ¬ c.toNat < 128 := by
      refine Classical.byContradiction fun h => ha ?_
      simp only [ascii, List.all_eq_true, decide_eq_true_eq]
      exact fun c hc => Classical.byContradiction fun h2 => h ⟨c, hc, h2⟩
    have hsrc : c ∈ src := by
      have := hw.infix
      rw [hc] at this
      exact this.subset hcw
    refine .wide hsrc (by omega) (.inl ?_)
    rcases hl.2.2 c hcw with h | h
    · exfalso
      apply hca
      have := isIdChar_ascii h
      omega
    · exact h.2

theorem tp_labelOrOther {t0 : Tz} (hb : Bd src t0) (hs : t0.st.state = .inScripting) (hu : Mv src t0 t)
    (hne : ∃ c r, At t0 (c :: r)) (hU : (∃ r, At t0 ('}' :: r)) → U) :
    Tp (Zz src U) (labelOrOther t0.st.srcPos) t (fun _ t' => Nx src t0 t')
      (fun e t' => e ≠ .none ∧ Er src t' ∧ t0.st.srcPos ≤ t'.st.srcPos) := by
  unfold labelOrOther
  refine Tp.bind (m := setPos _) (Tp.of_ok rfl ?_)
  have hat : ∀ {v : Tz} {i : Text}, v.code = src → v.st.srcPos = t0.st.srcPos → At v i → At t0 i := by
    intro v i h1 h2 h3
    unfold At at h3 ⊢
    rw [h1, h2] at h3
    rw [hb.on.1]
    exact h3
  have hb1 : Bd src { t with st := { t.st with srcPos := t0.st.srcPos } } :=
    ⟨hb.on.same (hu.on.1.trans hb.on.1.symm) rfl, by show ∀ s ∈ t.st.stack, _; rw [hu.stack]; exact hb.stk,
      by show t.st.state = _ ∨ t.st.state = _ → t.st.stack ≠ []; rw [hu.stack, hu.state]; exact hb.head⟩
  have hst1 : ({ t with st := { t.st with srcPos := t0.st.srcPos } } : Tz).st.state = .inScripting := hu.state.trans hs
  have key : ∀ (lbl : Option (Text × Span)) (v : Tz), Bd src v → v.st.state = .inScripting → v.st.srcPos = t0.st.srcPos →
      (∀ n s, lbl = some (n, s) → ∃ w r, At t0 (w ++ r) ∧ IsLabel w ∧ s.stop = t0.st.srcPos + w.length) →
      Tp (Zz src U) (fun t =>
        match inScriptingOtherToken t with
        | .ok tok t' =>
          match lbl with
          | some (name, span) =>
            if span.stop ≤ tok.span.stop then
              .ok tok { t' with st := { t'.st with srcPos := tok.span.stop } }
            else .ok ⟨.string name, span⟩ { t' with st := { t'.st with srcPos := span.stop } }
          | none => .ok tok { t' with st := { t'.st with srcPos := tok.span.stop } }
        | .err e t' =>
          match lbl with
          | some (name, span) => .ok ⟨.string name, span⟩ { t' with st := { t'.st with srcPos := span.stop } }
          | none =>
            match e with
            | .none => .err (.unknownCharacter (mkSpan t'.st.srcPos (t'.st.srcPos + 1))) t'
            | .unterminated _ sp => .err e { t' with st := { t'.st with srcPos := sp.stop } }
            | .unknownCharacter sp => .err e { t' with st := { t'.st with srcPos := sp.stop } }
        | .panic p => .panic p
        | .oof => .oof : T TokSpan) v (fun _ t' => Nx src t0 t') (fun e t' => e ≠ .none ∧ Er src t' ∧ t0.st.srcPos ≤ t'.st.srcPos) := by
    intro lbl v hbv hsv hpv hlbl
    have ho := tp_other (U := U) hbv hsv (fun ⟨r, hr⟩ => hU ⟨r, hat hbv.on.1 hpv hr⟩)
    have word : ∀ (n : Text) (s : Span) (v' : Tz), lbl = some (n, s) → Bd src v' →
        Nx src t0 { v' with st := { v'.st with srcPos := s.stop } } := by
      intro n s v' hl hb'
      obtain ⟨w, r, h1, h2, h3⟩ := hlbl n s hl
      refine ⟨⟨label_on hb.on.1 h1 h2 hb'.on.1 h3, hb'.stk, hb'.head⟩, ?_⟩
      show t0.st.srcPos ≤ s.stop
      omega
    unfold Tp at ho ⊢
    dsimp only
    cases hm : inScriptingOtherToken v with
    | ok tok t' =>
      rw [hm] at ho
      obtain ⟨⟨hb', hle⟩, hstop⟩ := ho
      have tokCase : Nx src t0 { t' with st := { t'.st with srcPos := tok.span.stop } } :=
        ⟨hb'.same rfl hstop rfl rfl, by show t0.st.srcPos ≤ tok.span.stop; rw [hstop, ← hpv]; exact hle⟩
      cases hl : lbl with
      | none => exact tokCase
      | some ns =>
        obtain ⟨n, s⟩ := ns
        dsimp only
        by_cases hle2 : s.stop ≤ tok.span.stop
        · rw [if_pos hle2]; exact tokCase
        · rw [if_neg hle2]; exact word n s t' hl hb'
    | err e t' =>
      rw [hm] at ho
      obtain ⟨rfl, hm'⟩ := ho
      cases hl : lbl with
      | some ns =>
        obtain ⟨n, s⟩ := ns
        exact word n s t' hl (hm'.bd hbv)
      | none =>
        refine ⟨nofun, ⟨hm'.on.1, ?_⟩, ?_⟩
        · obtain ⟨c, r, hc⟩ := hne
          by_cases ha : c.toNat < 128
          · left
            refine ⟨hm'.on.1, .inl ⟨r, ?_⟩⟩
            have hc' : At t0 ([c] ++ r) := hc
            have := hc'.adv
            have h1 : byteLen [c] = 1 := byteLen_ascii (by simp [ascii, ha])
            unfold At at this ⊢
            rw [Tz.adv_pos, h1] at this
            show dropBytes t'.code (v.st.srcPos + 1) = _
            rw [hpv, hm'.on.1, ← hb.on.1]
            exact this
          · right
            refine ⟨c, ?_, by omega⟩
            have hc' : At t0 ([c] ++ r) := hc
            have := hc'.infix
            rw [hb.on.1] at this
            exact this.subset (by simp)
        · show t0.st.srcPos ≤ v.st.srcPos + 1
          omega
    | panic p => rw [hm] at ho; exact ho
    | oof => trivial
  refine Tp.bind (tp_label hb1.on ?_ fun w r hw hl hat2 => ?_)
  · refine Tp.bind (m := setPos _) (Tp.of_ok rfl ?_)
    exact key none _ hb1 hst1 rfl nofun
  · refine Tp.bind (m := setPos _) (Tp.of_ok rfl ?_)
    refine key (some (w, mkSpan t0.st.srcPos (t0.st.srcPos + w.length))) _ (hb1.same rfl rfl rfl rfl) hst1 rfl ?_
    intro n s he
    cases he
    exact ⟨w, r, hat hb1.on.1 rfl hw, hl, rfl⟩

/-! ## The modes -/

/-- A `}` is ahead, behind blanks. -/
def BraceAhead (t : Tz) : Prop := ∃ w r, At t (w ++ '}' :: r) ∧ Blank w

theorem tp_scripting {next : T TokSpan} (hn : NextP src next) (bfuel : Nat) (hb : Bd src t) (hs : t.st.state = .inScripting) :
    Tp (Zz src (BraceAhead t)) (inScriptingToken next bfuel) t (fun _ t' => Nx src t t')
      (fun e t' => e ≠ .none ∧ Er src t' ∧ t.st.srcPos ≤ t'.st.srcPos) := by
  unfold inScriptingToken
  refine Tp.bind ((tp_whitespace (E := fun _ _ => False) hb.on).cons ?_ (fun _ _ h => h.elim))
  rintro _ u ⟨m1, w, i, hw, hbl, hi⟩
  have hbu := m1.bd hb
  have hsu : u.st.state = .inScripting := m1.state.trans hs
  refine Tp.bind (Tp.of_ok (input_at hi) ?_)
  refine Tp.ite (fun _ => ?_) (fun hne => ?_)
  · exact Tp.of_ok (a := ⟨.k .End, mkSpan (byteLen u.code) (byteLen u.code)⟩) (t' := u) rfl (m1.nx hb)
  refine Tp.bind (tp_inputPos ?_)
  have hne' : ∃ c r, At u (c :: r) := by
    cases i with
    | nil => exact absurd rfl hne
    | cons c r => exact ⟨c, r, hi⟩
  have ch : ∀ {m n : T TokSpan} {v : Tz}, Mv src u v →
      Tp (Zz src (BraceAhead t)) m v (fun _ t' => Nx src v t') (fun _ t' => Mv src v t') →
      (∀ v, Mv src u v → Tp (Zz src (BraceAhead t)) n v (fun _ t' => Nx src t t')
        (fun e t' => e ≠ .none ∧ Er src t' ∧ t.st.srcPos ≤ t'.st.srcPos)) →
      Tp (Zz src (BraceAhead t)) (m <||> n) v (fun _ t' => Nx src t t') (fun e t' => e ≠ .none ∧ Er src t' ∧ t.st.srcPos ≤ t'.st.srcPos) := by
    intro m n v hv h1 h2
    refine Tp.orElse (h1.cons (fun _ _ h => ⟨h.1, Nat.le_trans (m1.trans hv).le h.2⟩) ?_)
    intro e t' hm
    exact ⟨fun _ => h2 _ (hv.trans hm), fun he => ⟨he, hm.on.er, (m1.trans (hv.trans hm)).le⟩⟩
  have mv : ∀ {m : T TokSpan} {v : Tz}, Mv src u v → Tp (Zz src (BraceAhead t)) m v (fun _ t' => Mv src v t') (fun _ t' => Mv src v t') →
      Tp (Zz src (BraceAhead t)) m v (fun _ t' => Nx src v t') (fun _ t' => Mv src v t') :=
    fun hv h => h.cons (fun _ _ h => h.nx (hv.bd hbu)) (fun _ _ h => h)
  have st : ∀ v, Mv src u v → v.st.state = .inScripting := fun v hv => hv.state.trans hsu
  refine ch (Mv.refl hbu.on) (tp_hereNowDoc hn bfuel hbu hsu) fun v hv => ?_
  refine ch hv (mv hv (tp_bnum hv.on)) fun v hv => ?_
  refine ch hv (mv hv (tp_hnum hv.on)) fun v hv => ?_
  refine ch hv (mv hv (tp_onum hv.on)) fun v hv => ?_
  refine ch hv (tp_dqString hn bfuel (hv.bd hbu) (st v hv)) fun v hv => ?_
  refine ch hv (mv hv (tp_variable hv.on)) fun v hv => ?_
  refine ch hv (mv hv (tp_sqString hv.on)) fun v hv => ?_
  refine ch hv (mv hv (tp_comments hv.on)) fun v hv => ?_
  refine ch hv (tp_backquote hn bfuel (hv.bd hbu) (st v hv)) fun v hv => ?_
  refine (tp_labelOrOther hbu hsu hv hne' ?_).cons (fun _ _ h => ⟨h.1, Nat.le_trans m1.le h.2⟩)
    (fun _ _ h => ⟨h.1, h.2.1, Nat.le_trans m1.le h.2.2⟩)
  rintro ⟨r, hr⟩
  refine ⟨w, r, ?_, hbl⟩
  rw [← hi.unique hr]
  exact hw

theorem tp_initial (hb : Bd src t) (hs : t.st.state = .initial) :
    Tp (Zz src U) initialToken t (fun _ t' => Nx src t t') (fun _ _ => False) := by
  unfold initialToken
  refine Tp.bind (tp_input hb.on fun i hi => ?_)
  refine Tp.ite (fun _ => ?_) (fun _ => ?_)
  · refine Tp.bind (m := modSt _) (Tp.of_ok rfl ?_)
    refine Tp.of_ok rfl ⟨⟨hb.on.same rfl rfl, hb.stk, ?_⟩, Nat.le_refl _⟩
    rintro (h | h) <;> cases h
  refine Tp.orElse ((tp_matchFirst _ (by decide +kernel) hb (.inr ?_)).cons (fun _ _ h => h.1) ?_)
  · intro e he
    simp only [List.mem_cons, List.not_mem_nil, or_false] at he
    rcases he with rfl | rfl | rfl <;> exact ⟨_, rfl⟩
  rintro e t' ⟨rfl, hm, hp⟩
  refine ⟨fun _ => ?_, fun h => absurd rfl h⟩
  refine Tp.bind (tp_input hm.on fun i2 hi2 => ?_)
  dsimp only
  have key : ∀ a b : Text, i2 = a ++ b → Tp (Zz src U) (if (byteLen a != 0) = true then (do
            let p ← inputPos
            let s ← advanceBytes (byteLen a)
            return ⟨.inlineHtml s, mkSpan p (p + byteLen a)⟩)
          else endToken : T TokSpan) t' (fun _ t' => Nx src t t') (fun _ _ => False) := by
    rintro a b rfl
    refine Tp.ite (fun _ => ?_) (fun _ => Tp.of_ok rfl (hm.nx hb))
    refine Tp.bind (tp_inputPos ?_)
    exact Tp.bind (tp_advBytes hi2 rfl fun hi3 => (hm.trans (Mv.adv hm.on.1 hi3)).nx hb)
  cases hbs : beforeSub c!"<?" i2 with
  | none => exact key i2 [] (List.append_nil _).symm
  | some pre =>
    obtain ⟨q, hq⟩ := beforeSub_split hbs
    exact key pre _ hq

/-- Behind an arrow. -/
theorem tp_property (hb : Bd src t) (hs : t.st.state = .lookingForProperty) :
    Tp (Zz src U) lookingForPropertyToken t (fun _ t' => Nx src t t')
      (fun _ t' => Bd src t' ∧ t.st.srcPos ≤ t'.st.srcPos ∧ ∃ w r, At t (w ++ r) ∧ Blank w ∧ At t' r) := by
  have hk := hb.head (.inr hs)
  unfold lookingForPropertyToken
  refine Tp.bind ((tp_whitespace (E := fun _ _ => False) hb.on).cons ?_ (fun _ _ h => h.elim))
  rintro _ u ⟨m1, w, i, hw, hbl, hi⟩
  refine Tp.orElse ?_
  unfold matchTok
  refine Tp.bind (Tp.of_ok (input_at hi) ?_)
  refine Tp.ite (fun hm => ?_) (fun _ => ⟨fun _ => ?_, fun h => absurd rfl h⟩)
  · obtain ⟨r, rfl, _⟩ := startsWithCi_split hm
    refine Tp.bind (tp_inputPos ?_)
    refine Tp.bind (tp_advBytes hi (by decide) fun hi2 => ?_)
    refine Tp.bind (tp_inputPos ?_)
    refine Tp.bind (m := Act.run _) (Tp.of_ok rfl ?_)
    exact (m1.trans (Mv.adv m1.on.1 hi2)).nx hb
  · cases hk' : t.st.stack with
    | nil => exact absurd hk' hk
    | cons s k =>
      have hst : ∀ x ∈ s :: k, x = .inScripting ∨ x = .doNothing := by rw [← hk']; exact hb.stk
      have bd : ∀ v : Tz, On src v → v.st.state = s → v.st.stack = k → Bd src v := by
        intro v hv h1 h2
        refine ⟨hv, by rw [h2]; exact fun x hx => hst x (by simp [hx]), ?_⟩
        rw [h1]
        rcases hst s (by simp) with rfl | rfl <;> rintro (h | h) <;> cases h
      refine Tp.bind (tp_label m1.on ?_ fun w2 r2 hw2 hl2 hat2 => ?_)
      · refine Tp.bind (Tp.of_ok (popState_ok (m1.stack.trans hk')) ?_)
        refine Tp.bind (m := modSt _) (Tp.of_ok rfl ?_)
        refine Tp.of_err rfl ⟨bd _ (m1.on.same rfl rfl) rfl rfl, m1.le, w, i, hw, hbl, hi⟩
      · dsimp only
        have m2 := Mv.adv m1.on.1 hat2
        have m3 := m1.trans m2
        refine Tp.bind (Tp.of_ok (popState_ok (m3.stack.trans hk')) ?_)
        exact ⟨bd _ (m2.on.same rfl rfl) rfl rfl, m3.le⟩

theorem BraceAhead.back {t t' : Tz} {w r : Text} (h : BraceAhead t') (hw : At t (w ++ r)) (hb : Blank w) (hr : At t' r) : BraceAhead t := by
  obtain ⟨w2, r2, h2, hb2⟩ := h
  refine ⟨w ++ w2, r2, ?_, ?_⟩
  · rw [List.append_assoc, ← hr.unique h2]
    exact hw
  · intro c hc
    rw [List.mem_append] at hc
    exact hc.elim (hb c) (hb2 c)

theorem BraceAhead.same {t t' : Tz} (h : BraceAhead t') (hc : t'.code = t.code) (hp : t'.st.srcPos = t.st.srcPos) : BraceAhead t := by
  obtain ⟨w2, r2, h2, hb2⟩ := h
  refine ⟨w2, r2, ?_, hb2⟩
  unfold At at h2 ⊢
  rw [hc, hp] at h2
  exact h2

theorem Zz.mono {U U' : Prop} {p : Panic} (h : Zz src U p) (hu : U → U') : Zz src U' p := h.imp id fun h => ⟨h.1, hu h.2⟩

/-- One state of `next_token` that is not the queue. -/
theorem tp_state {fuel : Nat} {step : T TokSpan} (hs : t.st.state ≠ .emitQueue) (he : stepOf fuel t.st.state = step)
    {Z : Panic → Prop} {Q : TokSpan → Tz → Prop}
    (h : Tp Z step t Q (fun e t' =>
      (e = .none → t'.st.restart = true → Tp Z (nextToken fuel) { t' with st := { t'.st with restart := false } } Q E) ∧
      ((e = .none → t'.st.restart = false) → E e t'))) :
    Tp Z (nextToken (fuel + 1)) t Q E := by
  have e : nextToken (fuel + 1) t = match step t with
    | .err .none t' =>
      if t'.st.restart then nextToken fuel { t' with st := { t'.st with restart := false } }
      else .err .none t'
    | r => r := by
    subst he
    conv => lhs; unfold nextToken
    dsimp only
    cases h : t.st.state with
    | emitQueue => exact absurd h hs
    | done => rfl
    | doNothing => rfl
    | initial =>
      dsimp only [stepOf]
      generalize initialToken t = r
      cases r with
      | err e t' => cases e <;> rfl
      | _ => rfl
    | inScripting =>
      dsimp only [stepOf]
      generalize inScriptingToken (nextToken fuel) fuel t = r
      cases r with
      | err e t' => cases e <;> rfl
      | _ => rfl
    | lookingForProperty =>
      dsimp only [stepOf]
      generalize lookingForPropertyToken t = r
      cases r with
      | err e t' => cases e <;> rfl
      | _ => rfl
  unfold Tp at h
  cases hr : step t with
  | ok a t' => rw [hr] at h e; exact Tp.of_ok e h
  | err er t' =>
    rw [hr] at h e
    by_cases hn : er = .none
    · subst hn
      dsimp only at e h
      by_cases hre : t'.st.restart = true
      · rw [if_pos hre] at e
        have := h.1 rfl hre
        unfold Tp at this ⊢
        rw [e]
        exact this
      · rw [if_neg hre] at e
        exact Tp.of_err e (h.2 fun _ => by simpa using hre)
    · refine Tp.of_err (e := er) (t' := t') ?_ (h.2 fun h => absurd h hn)
      rw [e]
      cases er <;> first | rfl | exact absurd rfl hn
  | panic p => rw [hr] at h e; exact Tp.of_panic e h
  | oof =>
    rw [hr] at e
    unfold Tp
    rw [e]
    trivial

theorem tp_next (src : Text) (fuel : Nat) : ∀ t, Bd src t →
    Tp (Zz src (BraceAhead t)) (nextToken fuel) t (fun _ t' => Nx src t t') (fun _ t' => Er src t' ∧ t.st.srcPos ≤ t'.st.srcPos) := by
  induction fuel with
  | zero => exact fun _ _ => trivial
  | succ fuel ih =>
    intro t hb
    have hn : NextP src (nextToken fuel) := by
      intro t hb
      refine (ih t hb).mono fun p h => h.mono ?_
      rintro ⟨w, r, h, _⟩
      have := (show At t (w ++ (['}'] ++ r)) from h).infix'
      rw [hb.on.1] at this
      exact this.subset (by simp)
    have again : ∀ t1 : Tz, Bd src t1 → t.st.srcPos ≤ t1.st.srcPos → (BraceAhead t1 → BraceAhead t) →
        Tp (Zz src (BraceAhead t)) (nextToken fuel) t1 (fun _ t' => Nx src t t') (fun _ t' => Er src t' ∧ t.st.srcPos ≤ t'.st.srcPos) := by
      intro t1 h1 hle hbr
      refine Tp.mono ((ih t1 h1).cons (fun _ _ h => ⟨h.1, Nat.le_trans hle h.2⟩) (fun _ _ h => ⟨h.1, Nat.le_trans hle h.2⟩)) ?_
      exact fun p h => h.mono hbr
    have stop : t.st.state = .done ∨ t.st.state = .doNothing →
        Tp (Zz src (BraceAhead t)) (nextToken (fuel + 1)) t (fun _ t' => Nx src t t') (fun _ t' => Er src t' ∧ t.st.srcPos ≤ t'.st.srcPos) := by
      intro hs
      refine tp_state (step := fail .none) (by rcases hs with h | h <;> rw [h] <;> nofun) (by rcases hs with h | h <;> rw [h] <;> rfl) ?_
      refine Tp.of_err rfl ⟨fun _ _ => ?_, fun _ => ⟨hb.on.er, Nat.le_refl _⟩⟩
      exact again _ (hb.same rfl rfl rfl rfl) (Nat.le_refl _) (fun h => h.same rfl rfl)
    cases hs : t.st.state with
    | done => exact stop (.inl hs)
    | doNothing => exact stop (.inr hs)
    | initial =>
      refine tp_state (by rw [hs]; nofun) (by rw [hs]) ?_
      exact (tp_initial hb hs).cons (fun _ _ h => h) (fun _ _ h => h.elim)
    | inScripting =>
      refine tp_state (by rw [hs]; nofun) (by rw [hs]) ?_
      refine (tp_scripting hn fuel hb hs).cons (fun _ _ h => h) ?_
      rintro e t' ⟨h1, h2, h3⟩
      exact ⟨fun h => absurd h h1, fun _ => ⟨h2, h3⟩⟩
    | lookingForProperty =>
      refine tp_state (by rw [hs]; nofun) (by rw [hs]) ?_
      refine (tp_property hb hs).cons (fun _ _ h => h) ?_
      rintro e t' ⟨h1, h2, w, r, h3, h4, h5⟩
      refine ⟨fun _ _ => ?_, fun _ => ⟨h1.on.er, h2⟩⟩
      refine again _ (h1.same rfl rfl rfl rfl) h2 fun h => ?_
      exact BraceAhead.back (t' := t') (h.same rfl rfl) h3 h4 h5
    | emitQueue =>
      have hk := hb.head (.inl hs)
      cases hq : t.queue with
      | cons x q =>
        refine Tp.of_ok (a := x) (t' := { t with queue := q }) ?_ ?_
        · conv => lhs; unfold nextToken
          simp only [hs, hq]
        · exact ⟨hb.same rfl rfl rfl rfl, Nat.le_refl _⟩
      | nil =>
        cases hk' : t.st.stack with
        | nil => exact absurd hk' hk
        | cons s k =>
          have e : nextToken (fuel + 1) t = nextToken fuel { t with st := { t.st with state := s, stack := k, restart := true } } := by
            conv => lhs; unfold nextToken
            simp only [hs, hq]
            rw [bind_ok (popState_ok hk')]
            refine (bind_ok (m := modSt _) rfl).trans ?_
            simp only [hq]
          have hst : ∀ x ∈ s :: k, x = .inScripting ∨ x = .doNothing := by rw [← hk']; exact hb.stk
          have hb1 : Bd src { t with st := { t.st with state := s, stack := k, restart := true } } := by
            refine ⟨hb.on.same rfl rfl, fun x hx => hst x (by simp [show x ∈ k from hx]), ?_⟩
            show s = .emitQueue ∨ s = .lookingForProperty → _
            rcases hst s (by simp) with rfl | rfl <;> rintro (h | h) <;> cases h
          have := again _ hb1 (Nat.le_refl _) (fun h => h.same rfl rfl)
          unfold Tp at this ⊢
          rw [e]
          exact this

end

theorem bd_new (src : Text) : Bd src (Tz.new src) :=
  ⟨⟨rfl, .inl ⟨src, by unfold At; cases src <;> rfl⟩⟩, nofun, by rintro (h | h) <;> cases h⟩

theorem scanned_bd {src : Text} {toks : List TokSpan} {t : Tz} (h : Scanned src toks t) : Bd src t := by
  induction h with
  | start => exact bd_new src
  | next n _ hn ih =>
    have := tp_next src n _ ih
    unfold Tp at this
    rw [hn] at this
    exact this.1

end Pico
