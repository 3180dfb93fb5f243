import Verif.Lemmas.LexPanicStr
/-!
# Why the scanners panic: strings with interpolation and documents
-/
namespace Pico
open T

section
variable {src : Text} {U : Prop} {t : Tz} {E : SyntaxErr → Tz → Prop}

theorem tp_dqAdvance (hon : On src t) (hz : At t [] → LexCause src .subOverflow) :
    Tp (Zz src U) dqAdvance t (fun rr t' => ∃ i rest, Mv src t t' ∧ t'.st.srcPos = t.st.srcPos + (encode rr).length ∧
      At t i ∧ At t' rest ∧ i = rr ++ rest ∧ (∀ c ∈ rr, isDqStop c = false) ∧ ∀ c r, rest = c :: r → isDqStop c = true ∨ r = []) E := by
  unfold dqAdvance
  refine Tp.bind (tp_input hon fun i hi => ?_)
  have key := position_le isDqStop i i.length (Nat.le_refl _)
  split
  · rename_i n hn
    rw [hn] at key
    refine tp_advChars hi fun hi2 => ⟨i, _, Mv.adv hon.1 hi2, by rw [encode_length]; rfl, hi, hi2, (List.take_append_drop _ _).symm, ?_, ?_⟩
    · intro c hc
      have := of_takeWhile (p := fun c => !isDqStop c) (by rw [← key]; exact hc)
      simpa using this
    · intro c r hr
      exact .inl (drop_position (p := isDqStop) (i := i) (by rw [hn]; show (i.drop n).head? = _; rw [hr]; rfl))
  · rename_i hn
    rw [hn] at key
    cases i with
    | nil => exact Tp.bind (Tp.of_panic (p := .subOverflow) rfl (zz (hz hi)))
    | cons c0 i =>
    refine Tp.bind (tp_subT (Nat.succ_le_succ (Nat.zero_le _)) (tp_advChars hi fun hi2 =>
      ⟨_, _, Mv.adv hon.1 hi2, by rw [encode_length]; rfl, hi, hi2, (List.take_append_drop _ _).symm, ?_, ?_⟩))
    · intro c hc
      have := of_takeWhile (p := fun c => !isDqStop c) (by rw [← key]; simpa using List.mem_of_mem_take hc)
      simpa using this
    · intro c r hr
      have := congrArg List.length hr
      rw [List.length_drop] at this
      simp only [List.length_cons] at this
      exact .inr (List.eq_nil_of_length_eq_zero (by omega))

/-- What the string loops deliver. -/
def LoopP (src : Text) (t0 t : Tz) (t' : Tz) : Prop := Mv src t0 t' ∧ t.st.srcPos ≤ t'.st.srcPos

theorem tp_dqLoop {next : T TokSpan} (hn : NextP src next) (hQ : HasQuote src) {t0 : Tz} (hon0 : On src t0) (bfuel fuel : Nat) (bytes : List Byte)
    (parts : List TokSpan) (t : Tz) (h : Mv src t0 t) (hr : bytes.length ≤ t.st.srcPos)
    (hbl : ∀ i, At t i → ('$' ∈ i ∨ Unclosed '"' i) → LexCause src .subOverflow) :
    Tp (Zz src U) (dqLoop next bfuel t0.st fuel bytes parts) t (fun _ t' => LoopP src t0 t t') (fun _ t' => Mv src t0 t') := by
  induction fuel generalizing bytes parts t with
  | zero => exact trivial
  | succ fuel ih =>
    unfold dqLoop
    refine Tp.bind ((tp_dqAdvance (E := fun _ _ => False) h.on (fun h0 => hbl _ h0 (.inr .nil))).cons (fun rr u hu => ?_) (fun _ _ h => h.elim))
    obtain ⟨i, rest, m1, hpu, hi, hrest, hsum, hrr, hlast⟩ := hu
    have hc := m1.on.1
    have hr1 : (bytes ++ encode rr).length ≤ u.st.srcPos := by rw [List.length_append]; omega
    dsimp only
    refine Tp.bind (Tp.of_ok (input_at hrest) ?_)
    have hback : ('$' ∈ rest ∨ Unclosed '"' rest) → ('$' ∈ i ∨ Unclosed '"' i) := by
      rw [hsum]
      rintro (h | h)
      · exact .inl (by simp [h])
      · refine .inr (h.append fun c hc => ?_)
        have := hrr c hc
        simp only [isDqStop, Bool.or_eq_false_iff, beq_eq_false_iff_ne] at this
        exact ⟨this.1.1.1.2, this.1.1.1.1⟩
    have go : ∀ bs ps u', Mv src u u' → bs.length ≤ u'.st.srcPos →
        (∀ j, At u' j → ('$' ∈ j ∨ Unclosed '"' j) → ('$' ∈ rest ∨ Unclosed '"' rest)) →
        Tp (Zz src U) (dqLoop next bfuel t0.st fuel bs ps) u' (fun _ t' => LoopP src t0 t t') (fun _ t' => Mv src t0 t') := by
      intro bs ps u' m2 hr2 hu
      refine (ih bs ps u' ((h.trans m1).trans m2) hr2 (fun j hj h => hbl i hi (hback (hu j hj h)))).cons ?_ (fun _ _ h => h)
      exact fun _ t' h' => ⟨h'.1, Nat.le_trans (m1.trans m2).le h'.2⟩
    split
    · rename_i hh
      obtain ⟨r, rfl⟩ := head_split hh
      refine Tp.bind (tp_advBytes hrest rfl fun hi3 => ?_)
      refine Tp.bind (m := modSt _) (Tp.of_ok rfl ?_)
      exact go _ _ _ (Mv.adv hc hi3).nextLine (by rw [List.length_append]; exact Nat.add_le_add_right hr1 1)
        (fun j hj h => by
          have : r = j := hi3.unique hj
          subst this
          exact h.imp (fun h => by simp [h]) fun h => .other (c := '\n') (by decide) (by decide) h)
    · rename_i hh
      refine Tp.bind ((tp_escape _ false hc hrest hh (fun _ => hQ)).cons ?_ ?_)
      · rintro bs t' ⟨m2, hlt, hbl, w, r, hw, hr, hq⟩
        exact go _ _ _ m2 (by omega) fun j hj h => by
          have : r = j := hr.unique hj
          subst this
          exact h.imp (fun h => by rw [hw]; simp [h]) (hq _ (by decide))
      · exact fun _ _ m2 => (h.trans m1).trans m2
    · rename_i hh
      obtain ⟨r, rfl⟩ := head_split hh
      refine Tp.bind (tp_advBytes hrest rfl fun hi3 => ?_)
      have m2 := Mv.adv hc hi3
      exact ⟨(h.trans m1).trans m2, (m1.trans m2).le⟩
    · rename_i hh
      obtain ⟨r, rfl⟩ := head_split hh
      refine Tp.bind ((tp_strVariable hn hQ bfuel (bytes ++ encode rr) parts hc hr1 hrest).cons ?_ (fun _ _ h => h.elim))
      rintro ⟨bs, ps⟩ t' ⟨m2, hlt, hr2⟩
      exact go _ _ _ m2 hr2 (fun _ _ _ => .inl (by simp))
    · rename_i hh
      obtain ⟨r, rfl⟩ := head_split hh
      by_cases hm : '$' ∈ r
      · refine Tp.bind ((tp_strBlock hn bfuel (bytes ++ encode rr) parts true hc hr1 hrest nofun).cons ?_ (fun _ _ h => h.elim))
        rintro ⟨bs, ps⟩ t' ⟨⟨m2, hlt, hr2⟩, _⟩
        exact go _ _ _ m2 hr2 (fun _ _ _ => .inl (by simp [hm]))
      · have hno : startsWith r c!"$" = false := by
          cases hst : startsWith r c!"$" with
          | false => rfl
          | true =>
            obtain ⟨r', rfl⟩ := startsWith_split hst
            exact absurd (by simp) hm
        refine Tp.bind ?_
        unfold strBlock
        refine Tp.bind (tp_advBytes hrest rfl fun hi3 => ?_)
        refine Tp.bind (Tp.of_ok (input_at hi3) ?_)
        refine Tp.ite (fun h => absurd h (by rw [hno]; decide)) (fun _ => ?_)
        refine go _ _ _ (Mv.adv hc hi3) ?_ (fun j hj h => ?_)
        · rw [List.length_append]; exact Nat.add_le_add_right hr1 1
        · have : r = j := hi3.unique hj
          subst this
          exact h.imp (fun h => absurd h hm) fun h => .other (c := '{') (by decide) (by decide) h
    · refine Tp.bind (tp_inputPos ?_)
      refine Tp.bind (m := setSt _) (Tp.of_ok rfl ?_)
      exact Mv.restore hon0 hc

theorem tp_bqLoop {next : T TokSpan} (hn : NextP src next) (hQ : HasQuote src) {t0 : Tz} (hon0 : On src t0) {post : Text}
    (hz : ('$' ∈ post ∨ c!"\n" <:+ post ∨ c!"{" <:+ post) → LexCause src .subOverflow) (bfuel fuel : Nat) (bytes : List Byte)
    (parts : List TokSpan) (t : Tz) (h : Mv src t0 t) (hr : bytes.length ≤ t.st.srcPos)
    (hbl : LexCause src .subOverflow ∨ ((∀ i, At t i → i <:+ post) ∧ (At t [] → LexCause src .subOverflow))) :
    Tp (Zz src U) (bqLoop next bfuel t0.st fuel bytes parts) t (fun _ t' => LoopP src t0 t t') (fun _ t' => Mv src t0 t') := by
  induction fuel generalizing bytes parts t with
  | zero => exact trivial
  | succ fuel ih =>
    unfold bqLoop
    refine Tp.bind ((tp_dqAdvance (E := fun _ _ => False) h.on (fun h0 => hbl.elim id fun h => h.2 h0)).cons (fun rr u hu => ?_) (fun _ _ h => h.elim))
    obtain ⟨i, rest, m1, hpu, hi, hrest, hsum, hrr, hlast⟩ := hu
    have hc := m1.on.1
    have hr1 : (bytes ++ encode rr).length ≤ u.st.srcPos := by rw [List.length_append]; omega
    dsimp only
    refine Tp.bind (Tp.of_ok (input_at hrest) ?_)
    have hbl1 : LexCause src .subOverflow ∨ rest <:+ post :=
      hbl.imp id fun h => ((List.suffix_append rr rest).trans (by rw [← hsum]; exact List.suffix_refl i)).trans (h.1 i hi)
    have go : ∀ bs ps u', Mv src u u' → bs.length ≤ u'.st.srcPos →
        (LexCause src .subOverflow ∨ ((∀ i, At u' i → i <:+ post) ∧ (At u' [] → LexCause src .subOverflow))) →
        Tp (Zz src U) (bqLoop next bfuel t0.st fuel bs ps) u' (fun _ t' => LoopP src t0 t t') (fun _ t' => Mv src t0 t') := by
      intro bs ps u' m2 hr2 hu
      refine (ih bs ps u' ((h.trans m1).trans m2) hr2 hu).cons ?_ (fun _ _ h => h)
      exact fun _ t' h' => ⟨h'.1, Nat.le_trans (m1.trans m2).le h'.2⟩
    have one : ∀ (c : Char) r v, rest = c :: r → At v r → ([c] <:+ post → LexCause src .subOverflow) →
        (LexCause src .subOverflow ∨ ((∀ i, At v i → i <:+ post) ∧ (At v [] → LexCause src .subOverflow))) := by
      intro c r v e hv hl
      refine hbl1.imp id fun hs => ⟨fun j hj => ?_, fun h0 => hl ?_⟩
      · have : r = j := hv.unique hj
        subst this
        exact (show r <:+ rest by rw [e]; exact List.suffix_cons _ _).trans hs
      · have : r = [] := hv.unique h0
        subst this
        rw [e] at hs
        exact hs
    have dollar : ∀ r, rest = r → '$' ∈ r → LexCause src .subOverflow := by
      rintro r rfl hm
      rcases hbl1 with h | h
      · exact h
      · exact hz (.inl (h.subset hm))
    split
    · rename_i hh
      obtain ⟨r, rfl⟩ := head_split hh
      refine Tp.bind (tp_advBytes hrest rfl fun hi3 => ?_)
      refine Tp.bind (m := modSt _) (Tp.of_ok rfl ?_)
      exact go _ _ _ (Mv.adv hc hi3).nextLine (by rw [List.length_append]; exact Nat.add_le_add_right hr1 1)
        (one _ _ _ rfl hi3 fun h => hz (.inr (.inl h)))
    · rename_i hh
      obtain ⟨r, rfl⟩ := head_split hh
      refine Tp.bind (tp_advBytes hrest rfl fun hi3 => ?_)
      have m2 := Mv.adv hc hi3
      exact ⟨(h.trans m1).trans m2, (m1.trans m2).le⟩
    · rename_i hh
      obtain ⟨r, rfl⟩ := head_split hh
      refine Tp.bind ((tp_strVariable hn hQ bfuel (bytes ++ encode rr) parts hc hr1 hrest).cons ?_ (fun _ _ h => h.elim))
      rintro ⟨bs, ps⟩ t' ⟨m2, hlt, hr2⟩
      exact go _ _ _ m2 hr2 (.inl (dollar _ rfl (by simp)))
    · rename_i hh
      obtain ⟨r, rfl⟩ := head_split hh
      by_cases hm : '$' ∈ r
      · refine Tp.bind ((tp_strBlock hn bfuel (bytes ++ encode rr) parts true hc hr1 hrest nofun).cons ?_ (fun _ _ h => h.elim))
        rintro ⟨bs, ps⟩ t' ⟨⟨m2, hlt, hr2⟩, _⟩
        exact go _ _ _ m2 hr2 (.inl (dollar _ rfl (by simp [hm])))
      · have hno : startsWith r c!"$" = false := by
          cases hst : startsWith r c!"$" with
          | false => rfl
          | true =>
            obtain ⟨r', rfl⟩ := startsWith_split hst
            exact absurd (by simp) hm
        refine Tp.bind ?_
        unfold strBlock
        refine Tp.bind (tp_advBytes hrest rfl fun hi3 => ?_)
        refine Tp.bind (Tp.of_ok (input_at hi3) ?_)
        refine Tp.ite (fun h => absurd h (by rw [hno]; decide)) (fun _ => ?_)
        refine go _ _ _ (Mv.adv hc hi3) ?_ (one _ _ _ rfl hi3 fun h => hz (.inr (.inr h)))
        rw [List.length_append]; exact Nat.add_le_add_right hr1 1
    · refine Tp.bind (tp_inputPos ?_)
      refine Tp.bind (m := setSt _) (Tp.of_ok rfl ?_)
      exact Mv.restore hon0 hc

/-- What is known when a scanner of the scripting mode has succeeded. -/
def Nx (src : Text) (t t' : Tz) : Prop := Bd src t' ∧ t.st.srcPos ≤ t'.st.srcPos

theorem Mv.nx {t t' : Tz} (h : Mv src t t') (hb : Bd src t) : Nx src t t' := ⟨h.bd hb, h.le⟩

theorem tp_parts {t0 : Tz} (hb : Bd src t0) (hs : t0.st.state = .inScripting) (h : Mv src t0 t) (a b : TokSpan) (bytes : List Byte)
    (parts : List TokSpan) : Tp (Zz src U) (returnTokensFromParts a b bytes parts) t (fun _ t' => Nx src t0 t') E := by
  unfold returnTokensFromParts
  refine Tp.of_ok rfl ⟨⟨h.on.same rfl rfl, ?_, fun _ => List.cons_ne_nil _ _⟩, h.le⟩
  intro s hm
  have hm : s ∈ t.st.state :: t.st.stack := hm
  rw [h.state, h.stack, hs, List.mem_cons] at hm
  rcases hm with rfl | hm
  · exact .inl rfl
  · exact hb.stk s hm

theorem tp_dqString {next : T TokSpan} (hn : NextP src next) (bfuel : Nat) (hb : Bd src t) (hs : t.st.state = .inScripting) :
    Tp (Zz src U) (matchDqString next bfuel) t (fun _ t' => Nx src t t') (fun _ t' => Mv src t t') := by
  have hon := hb.on
  unfold matchDqString
  refine Tp.bind (tp_input hon fun i hi => ?_)
  refine Tp.ite (fun _ => Mv.refl hon) (fun _ => ?_)
  refine Tp.bind (m := getSt) (Tp.of_ok rfl ?_)
  dsimp only
  have body : ∀ o r, At t (o ++ r) → (o = c!"\"" ∨ o = c!"b\"") → At (t.adv (byteLen o)) r → HasQuote src → Tp (Zz src U) (do
      let (bytes, parts) ← dqLoop next bfuel t.st (i.length + 1) [] []
      let cur ← inputPos
      let c1 ← subT cur 1
      returnTokensFromParts ⟨.k .DoubleQuote, mkSpan t.st.srcPos (t.st.srcPos + 1)⟩
        ⟨.k .DoubleQuote, mkSpan c1 cur⟩ bytes parts) (t.adv (byteLen o)) (fun _ t' => Nx src t t') (fun _ t' => Mv src t t') := by
    intro o r ho ho' hr hQ
    have m1 := Mv.adv hon.1 hr
    have hpos : 1 ≤ (t.adv (byteLen o)).st.srcPos := by
      rw [Tz.adv_pos]
      rcases ho' with rfl | rfl
      · exact Nat.le_add_left _ _
      · exact Nat.le_trans (by decide) (Nat.le_add_left _ _)
    refine Tp.bind ((tp_dqLoop hn hQ hon bfuel (i.length + 1) [] [] _ m1 (Nat.zero_le _) ?_).cons ?_ (fun _ _ h => h))
    · intro j hj hu
      refine .double ho' (a := t.st.srcPos) (post := r) ?_ (by rw [hr.unique hj]; exact hu)
      rw [← hon.1]
      exact ho.opens
    · rintro ⟨bs, ps⟩ t' ⟨m2, hle⟩
      refine Tp.bind (tp_inputPos ?_)
      refine Tp.bind (tp_subT (Nat.le_trans hpos hle) ?_)
      exact tp_parts hb hs m2 _ _ _ _
  refine Tp.ite (fun hs => ?_) (fun _ => Tp.ite (fun hs => ?_) (fun _ => Mv.refl hon))
  · obtain ⟨r, rfl⟩ := startsWith_split hs
    have hi' : At t (c!"b" ++ (c!"\"" ++ r)) := hi
    exact Tp.bind (tp_advBytes hi rfl fun hr => body _ _ hi (.inr rfl) hr (by rw [← hon.1]; exact .inl hi'.infix'))
  · obtain ⟨r, rfl⟩ := startsWith_split hs
    exact Tp.bind (tp_advBytes hi rfl fun hr => body _ _ hi (.inl rfl) hr (by rw [← hon.1]; exact .inl hi.infix))

theorem tp_backquote {next : T TokSpan} (hn : NextP src next) (bfuel : Nat) (hb : Bd src t) (hs : t.st.state = .inScripting) :
    Tp (Zz src U) (matchBackquote next bfuel) t (fun _ t' => Nx src t t') (fun _ t' => Mv src t t') := by
  have hon := hb.on
  unfold matchBackquote
  refine Tp.bind (tp_input hon fun i hi => ?_)
  refine Tp.ite (fun _ => Mv.refl hon) (fun hlen => Tp.ite (fun hs' => ?_) (fun _ => Mv.refl hon))
  refine Tp.bind (m := getSt) (Tp.of_ok rfl ?_)
  obtain ⟨r, rfl⟩ := startsWith_split hs'
  refine Tp.bind (tp_advBytes hi rfl fun hr => ?_)
  have m1 := Mv.adv hon.1 hr
  have hpos : 1 ≤ (t.adv (byteLen c!"`")).st.srcPos := Nat.le_add_left _ _
  have hne : r ≠ [] := by
    rintro rfl
    exact hlen (by decide)
  refine Tp.bind ((tp_bqLoop (post := r) hn (by rw [← hon.1]; exact .inr (.inl hi.infix)) hon (fun h => .backquote (a := t.st.srcPos) ?_ h)
    bfuel _ [] [] _ m1 (Nat.zero_le _) (.inr ⟨fun j hj => ?_, fun h0 => ?_⟩)).cons ?_ (fun _ _ h => h))
  · rw [← hon.1]; exact hi.opens
  · rw [hr.unique hj]; exact List.suffix_refl _
  · exact absurd (hr.unique h0) hne
  · rintro ⟨bs, ps⟩ t' ⟨m2, hle⟩
    refine Tp.bind (tp_inputPos ?_)
    refine Tp.bind (tp_subT (Nat.le_trans hpos hle) ?_)
    exact tp_parts hb hs m2 _ _ _ _

/-! ## Documents -/

theorem tp_docLoop {next : T TokSpan} (hn : NextP src next) (hQ : HasQuote src) {t0 : Tz} (hon0 : On src t0) (bfuel : Nat) (now : Bool)
    (tag : Text) (fuel : Nat) (bytes : List Byte)
    (parts : List TokSpan) (t : Tz) (h : Mv src t0 t) (hr : bytes.length ≤ t.st.srcPos) :
    Tp (Zz src U) (docLoop next bfuel t0.st now tag fuel bytes parts) t
      (fun r t' => LoopP src t0 t t' ∧ (now = true → r.2 = parts)) (fun _ t' => Mv src t0 t') := by
  induction fuel generalizing bytes parts t with
  | zero => exact trivial
  | succ fuel ih =>
    unfold docLoop
    refine Tp.bind (tp_input h.on fun i hi => ?_)
    dsimp only
    refine Tp.bind (tp_advChars hi fun hi2 => ?_)
    have m1 := Mv.adv h.on.1 hi2
    generalize hrr : i.take ((position (fun x => x == '\\' || x == '$' || x == '\n' || x == '{') i).getD (byteLen i)) = rr at *
    have hpu : (t.adv (byteLen rr)).st.srcPos = t.st.srcPos + (encode rr).length := by rw [encode_length]; rfl
    generalize t.adv (byteLen rr) = u at *
    have hr1 : (bytes ++ encode rr).length ≤ u.st.srcPos := by rw [List.length_append]; omega
    have hc := m1.on.1
    refine Tp.bind (Tp.of_ok (input_at hi2) ?_)
    generalize i.drop _ = i2 at *
    have go : ∀ bs ps u', Mv src u u' → bs.length ≤ u'.st.srcPos → (now = true → ps = parts) →
        Tp (Zz src U) (docLoop next bfuel t0.st now tag fuel bs ps) u'
          (fun r t' => LoopP src t0 t t' ∧ (now = true → r.2 = parts)) (fun _ t' => Mv src t0 t') := by
      intro bs ps u' m2 hr2 hps
      refine (ih bs ps u' ((h.trans m1).trans m2) hr2).cons ?_ (fun _ _ h => h)
      exact fun _ t' h' => ⟨⟨h'.1.1, Nat.le_trans (m1.trans m2).le h'.1.2⟩, fun hw => (h'.2 hw).trans (hps hw)⟩
    have unt : Tp (Zz src U) (do
        let old ← inputPos
        setSt t0.st
        fail (.unterminated "Here/Nowdoc" (mkSpan t0.st.srcPos old)) : T (List Byte × List TokSpan)) u
        (fun r t' => LoopP src t0 t t' ∧ (now = true → r.2 = parts)) (fun _ t' => Mv src t0 t') := by
      refine Tp.bind (tp_inputPos ?_)
      refine Tp.bind (m := setSt _) (Tp.of_ok rfl ?_)
      exact Mv.restore hon0 hc
    split
    · rename_i hh
      obtain ⟨r, rfl⟩ := head_split hh
      refine Tp.bind (tp_advBytes hi2 rfl fun hi3 => ?_)
      refine Tp.bind (m := modSt _) (Tp.of_ok rfl ?_)
      have m2 := (Mv.adv hc hi3).nextLine
      have hlt2 : u.st.srcPos < ({ u.adv (byteLen ['\n']) with st := (u.adv (byteLen ['\n'])).st.nextLine } : Tz).st.srcPos :=
        Nat.lt_succ_self _
      generalize ({ u.adv (byteLen ['\n']) with st := (u.adv (byteLen ['\n'])).st.nextLine } : Tz) = v at *
      refine Tp.bind (tp_input m2.on fun i3 hi3 => ?_)
      refine Tp.ite (fun hs => ?_) (fun _ => ?_)
      · obtain ⟨r3, rfl⟩ := startsWith_split hs
        refine Tp.bind (tp_advBytes hi3 rfl fun hi4 => ?_)
        have m3 := m2.trans (Mv.adv m2.on.1 hi4)
        generalize v.adv (byteLen tag) = x at *
        refine Tp.bind (tp_inputPos ?_)
        refine Tp.bind (Tp.of_ok (input_at hi4) ?_)
        have fin : ∀ y, Mv src x y →
            Tp (Zz src U) (do
              if ← newline then
                setPos x.st.srcPos
                return (bytes ++ encode rr, parts)
              else
                let old ← inputPos
                setSt t0.st
                fail (.unterminated "Here/Nowdoc: end-tag requires to be followed by a newline"
                  (mkSpan t0.st.srcPos old))) y
              (fun r t' => LoopP src t0 t t' ∧ (now = true → r.2 = parts)) (fun _ t' => Mv src t0 t') := by
          intro y m4
          refine Tp.bind ((tp_newline (E := fun _ _ => False) m4.on).cons ?_ (fun _ _ h => h.elim))
          intro b t' m5
          cases b with
          | false =>
            refine Tp.ite (fun h => by cases h) (fun _ => ?_)
            refine Tp.bind (tp_inputPos ?_)
            refine Tp.bind (m := setSt _) (Tp.of_ok rfl ?_)
            exact Mv.restore hon0 m5.on.1
          | true =>
            refine Tp.ite (fun _ => ?_) (fun h => absurd rfl h)
            refine Tp.bind (m := setPos _) (Tp.of_ok rfl ?_)
            have mm := (h.trans m1).trans m3
            have m6 := m4.trans m5
            refine ⟨⟨⟨mm.on.same (m6.on.1.trans m3.on.1.symm) rfl, m6.state.trans mm.state, m6.stack.trans mm.stack, mm.le⟩, ?_⟩, fun _ => rfl⟩
            exact (m1.trans m3).le
        refine Tp.ite (fun hs => ?_) (fun _ => ?_)
        · obtain ⟨r5, rfl⟩ := startsWith_split hs
          refine Tp.bind (tp_advBytes hi4 rfl fun hi5 => ?_)
          exact fin _ (Mv.adv m3.on.1 hi5)
        · exact fin _ (Mv.refl m3.on)
      · exact go _ _ _ m2 (by rw [List.length_append]; exact Nat.le_trans (Nat.add_le_add_right hr1 1) hlt2) (fun _ => rfl)
    · rename_i hh
      refine Tp.bind ((tp_escape _ now hc hi2 hh (fun _ => hQ)).cons ?_ ?_)
      · rintro bs t' ⟨m2, hlt, hbl, _⟩
        exact go _ _ _ m2 (by omega) (fun _ => rfl)
      · exact fun _ _ m2 => (h.trans m1).trans m2
    · rename_i hh
      refine Tp.ite (fun _ => unt) (fun hw => ?_)
      obtain ⟨r, rfl⟩ := head_split hh
      refine Tp.bind ((tp_strVariable hn hQ bfuel (bytes ++ encode rr) parts hc hr1 hi2).cons ?_ (fun _ _ h => h.elim))
      rintro ⟨bs, ps⟩ t' ⟨m2, hlt, hr2⟩
      exact go _ _ _ m2 hr2 (fun h => absurd h hw)
    · rename_i hh
      refine Tp.ite (fun _ => unt) (fun hw => ?_)
      obtain ⟨r, rfl⟩ := head_split hh
      refine Tp.bind ((tp_strBlock hn bfuel (bytes ++ encode rr) parts true hc hr1 hi2 nofun).cons ?_ (fun _ _ h => h.elim))
      rintro ⟨bs, ps⟩ t' ⟨⟨m2, hlt, hr2⟩, _⟩
      exact go _ _ _ m2 hr2 (fun h => absurd h hw)
    · exact unt

theorem tp_docBody {next : T TokSpan} (hn : NextP src next) (hQ : HasQuote src) {t0 : Tz} (hb : Bd src t0) (hs : t0.st.state = .inScripting)
    (bfuel : Nat) (now : Bool) (tag : Text) (h : Mv src t0 t) (h1 : 1 ≤ t.st.srcPos) :
    Tp (Zz src U) (docBody next bfuel t0.st now tag) t (fun _ t' => Nx src t0 t') (fun _ t' => Mv src t0 t') := by
  unfold docBody
  refine Tp.bind (tp_input h.on fun i hi => ?_)
  refine Tp.bind ((tp_docLoop hn hQ hb.on bfuel now tag _ [] [] t h (Nat.zero_le _)).cons ?_ (fun _ _ h => h))
  rintro ⟨bs, ps⟩ t' ⟨⟨m2, hle⟩, hps⟩
  refine Tp.bind (tp_inputPos ?_)
  refine Tp.ite (fun hw => ?_) (fun _ => ?_)
  · refine Tp.ite (fun _ => m2.nx hb) (fun he => ?_)
    exact absurd (by rw [show ps = [] from hps hw]; rfl) he
  · refine Tp.bind (tp_subT (Nat.le_trans h1 hle) ?_)
    exact tp_parts hb hs m2 _ _ _ _

theorem tp_docHeader {next : T TokSpan} (hn : NextP src next) (hQ : HasQuote src) {t0 : Tz} (hb : Bd src t0) (hs : t0.st.state = .inScripting)
    (bfuel : Nat) (h : Mv src t0 t) (h1 : 1 ≤ t.st.srcPos) :
    Tp (Zz src U) (docHeader next bfuel t0.st) t (fun _ t' => Nx src t0 t') (fun _ t' => Mv src t0 t') := by
  unfold docHeader
  refine Tp.bind ((tp_whitespaceOnly (E := fun _ _ => False) h.on).cons ?_ (fun _ _ h => h.elim))
  rintro _ u m1
  have stop : ∀ v : Tz, v.code = src → Tp (Zz src U) (do setSt t0.st; fail .none : T TokSpan) v (fun _ t' => Nx src t0 t') (fun _ t' => Mv src t0 t') := by
    intro v hv
    refine Tp.bind (m := setSt _) (Tp.of_ok rfl ?_)
    exact Mv.restore hb.on hv
  refine Tp.bind (tp_input m1.on fun i hi => ?_)
  refine Tp.bind (Tp.cons (Q' := fun (_ : DocType) t' => Mv src u t') (E' := fun _ _ => False) ?_ ?_ (fun _ _ h => h.elim))
  · refine Tp.ite (fun hd => ?_) (fun _ => Tp.ite (fun hd => ?_) (fun _ => Mv.refl m1.on))
    · obtain ⟨r, rfl⟩ := startsWith_split hd
      exact Tp.bind (tp_advBytes hi rfl fun hi2 => Mv.adv m1.on.1 hi2)
    · obtain ⟨r, rfl⟩ := startsWith_split hd
      exact Tp.bind (tp_advBytes hi rfl fun hi2 => Mv.adv m1.on.1 hi2)
  · intro ty v m2
    refine Tp.bind (tp_label m2.on ?_ fun w r hw hl hat => ?_)
    · exact stop v m2.on.1
    · dsimp only
      refine Tp.bind (Tp.of_ok (input_at hat) ?_)
      have m3 := Mv.adv m2.on.1 hat
      refine Tp.ite (fun hd => ?_) (fun _ => stop _ m3.on.1)
      obtain ⟨r2, rfl⟩ := startsWith_split hd
      refine Tp.bind (tp_advBytes hat rfl fun hi4 => ?_)
      have m4 := Mv.adv m3.on.1 hi4
      refine Tp.bind ((tp_newline (E := fun _ _ => False) m4.on).cons ?_ (fun _ _ h => h.elim))
      intro b t' m5
      have mm := (((m1.trans m2).trans m3).trans m4).trans m5
      cases b with
      | false => exact Tp.ite (fun h => by cases h) (fun _ => stop _ m5.on.1)
      | true => exact Tp.ite (fun _ => tp_docBody hn hQ hb hs bfuel _ _ (h.trans mm) (Nat.le_trans h1 mm.le)) (fun h => absurd rfl h)

theorem tp_hereNowDoc {next : T TokSpan} (hn : NextP src next) (bfuel : Nat) (hb : Bd src t) (hs : t.st.state = .inScripting) :
    Tp (Zz src U) (matchHereNowDoc next bfuel) t (fun _ t' => Nx src t t') (fun _ t' => Mv src t t') := by
  have hon := hb.on
  unfold matchHereNowDoc
  refine Tp.bind (tp_input hon fun i hi => ?_)
  refine Tp.ite (fun _ => Mv.refl hon) (fun _ => ?_)
  refine Tp.bind (m := getSt) (Tp.of_ok rfl ?_)
  refine Tp.ite (fun hd => ?_) (fun _ => Tp.ite (fun hd => ?_) (fun _ => Mv.refl hon))
  · obtain ⟨r, rfl⟩ := startsWith_split hd
    have hi' : At t (c!"b" ++ (c!"<<<" ++ r)) := hi
    exact Tp.bind (tp_advBytes hi rfl fun hr => tp_docHeader hn (by rw [← hon.1]; exact .inr (.inr hi'.infix')) hb hs bfuel
      (Mv.adv hon.1 hr) (Nat.le_trans (by decide) (Nat.le_add_left _ _)))
  · obtain ⟨r, rfl⟩ := startsWith_split hd
    exact Tp.bind (tp_advBytes hi rfl fun hr => tp_docHeader hn (by rw [← hon.1]; exact .inr (.inr hi.infix)) hb hs bfuel
      (Mv.adv hon.1 hr) (Nat.le_trans (by decide) (Nat.le_add_left _ _)))

end
end Pico
