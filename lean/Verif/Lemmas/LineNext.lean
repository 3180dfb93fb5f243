import Verif.Lemmas.LineStr
import Verif.Lemmas.LexPanicNext
/-!
# Counting lines: the other tokens, and `next_token`
-/
namespace Pico
open T

section
variable {src : Text} {t : Tz} {E : SyntaxErr → Tz → Prop}

/-! ## Keywords and operators -/

/-- The entries of the tables have no line break, and only `?>` leaves the scripting mode. -/
def evenEntry (e : Entry) : Bool :=
  okEntry e && !(e.text.map lowerAscii).contains '\n' && e.kw != .End && (e.act != .set .initial || e.text.map lowerAscii == c!"?>")

/-- A keyword or an operator. -/
structure Lop (src : Text) (t : Tz) (x : TokSpan) (t' : Tz) : Prop where
  ld : Ld src t'
  ru : Ru src t t'
  stop : x.span.stop = t'.st.srcPos
  last : x.tok = .k .End → byteLen src ≤ t'.st.srcPos
  tag : t'.st.state = .initial → ∃ r, At t (c!"?>" ++ r)
  free : t'.queue = []

theorem Lop.keep {x : TokSpan} {t' : Tz} (hb : Ld src t) (h1 : t.st.state ≠ .initial) (h2 : t.st.state ≠ .emitQueue) (h : Mw src t t')
    (hx : x.span.stop = t'.st.srcPos) (he : x.tok = .k .End → byteLen src ≤ t'.st.srcPos) : Lop src t x t' :=
  ⟨h.ld hb h1 h2, h.ru, hx, he, fun h' => absurd (h.state.symm.trans h') h1, h.queue.trans (hb.queue h2)⟩

/-- No token was found. -/
def Nok (src : Text) (t : Tz) (e : SyntaxErr) (t' : Tz) : Prop := e = .none ∧ Keep src t t' ∧ t'.st.srcPos = t.st.srcPos

theorem Nok.refl (h : t.code = src) : Nok src t .none t := ⟨rfl, .refl h, rfl⟩

theorem tl_matchTok (e : Entry) (hg : evenEntry e = true) (hb : Ld src t) (hs : t.st.state = .inScripting ∨ t.st.state = .initial ∧ e.act = .set .inScripting) :
    Tl (matchTok e) t (Lop src t) (fun er t' => Nok src t er t' ∧ ∀ i, At t i → startsWithCi i e.text = false) := by
  have hns : t.st.state ≠ .emitQueue := by
    rcases hs with h | ⟨h, _⟩ <;> rw [h] <;> nofun
  simp only [evenEntry, okEntry, Bool.and_eq_true, Bool.or_eq_true, beq_iff_eq, bne_iff_ne, Bool.not_eq_true'] at hg
  obtain ⟨⟨⟨⟨hlen, hact⟩, hfree⟩, hend⟩, hini⟩ := hg
  have hfree : '\n' ∉ e.text.map lowerAscii := by
    intro h
    rw [← List.contains_iff_mem] at h
    rw [hfree] at h
    cases h
  have hc := hb.code
  unfold matchTok
  refine Tp.bind (tl_input fun i hi => ?_)
  refine Tp.ite (fun hm => ?_) (fun hm => ⟨Nok.refl hc, fun i' hi' => by rw [← hi.unique hi']; simpa using hm⟩)
  obtain ⟨r, rfl, _⟩ := startsWithCi_split hm
  refine Tp.bind (tp_inputPos ?_)
  refine Tp.bind (tp_advBytes hi hlen fun hi2 => ?_)
  refine Tp.bind (tp_inputPos ?_)
  have m1 := Mw.adv hc hi hfree
  have hpu : (t.adv (byteLen (e.text.map lowerAscii))).st.srcPos = t.st.srcPos + byteLen (e.text.map lowerAscii) := rfl
  generalize t.adv (byteLen (e.text.map lowerAscii)) = u at *
  have hq := hb.queue hns
  have hend' : ∀ p, (⟨.k e.kw, mkSpan t.st.srcPos u.st.srcPos⟩ : TokSpan).tok = .k .End → byteLen src ≤ p := by
    intro p h
    injection h with h
    exact absurd h hend
  have hset : ∀ s, (s = .initial → Outside src u.st.srcPos) → Ld src { u with st := { u.st with state := s } } := by
    intro s hss
    refine ⟨m1.code, by show ∀ x ∈ u.st.stack, _; rw [m1.stack]; exact hb.stk, fun _ => m1.queue.trans hq, ?_, hss⟩
    show EndOk src u.queue _
    rw [m1.queue, hq]
    exact EndOk.nil
  have hpush : t.st.state = .inScripting → ∀ s, s ≠ .initial → Ld src { u with st := u.st.push s } := by
    intro h s hs1
    refine ⟨m1.code, ?_, fun _ => m1.queue.trans hq, ?_, fun h => absurd h hs1⟩
    · intro y hy
      have hy : y ∈ u.st.state :: u.st.stack := hy
      rw [m1.state, m1.stack, h, List.mem_cons] at hy
      rcases hy with rfl | hy
      · exact ⟨nofun, nofun⟩
      · exact hb.stk y hy
    · show EndOk src u.queue _
      rw [m1.queue, hq]
      exact EndOk.nil
  have scr : ∀ {a : Act}, e.act = a → a ≠ .set .inScripting → t.st.state = .inScripting := by
    intro a h hne
    rcases hs with hs | ⟨_, hs⟩
    · exact hs
    · exact absurd (h.symm.trans hs) hne
  rcases hact with (((h | h) | h) | h) | h
  · have hs' := scr h nofun
    rw [h]
    refine Tp.bind (m := Act.run _) (Tp.of_ok rfl ?_)
    exact Lop.keep hb (by rw [hs']; nofun) hns m1 rfl (hend' _)
  · have htxt : e.text.map lowerAscii = c!"?>" := hini.elim (fun h' => absurd h h') id
    rw [h]
    refine Tp.bind (m := Act.run _) (Tp.of_ok rfl ?_)
    rw [htxt] at hi hpu
    refine ⟨hset _ fun _ => ?_, ⟨m1.le, m1.lines⟩, rfl, hend' _, fun _ => ⟨r, hi⟩, m1.queue.trans hq⟩
    obtain ⟨a, ha, hl⟩ := dropBytes_split hi
    refine ⟨a ++ c!"?>", r, ?_, ?_, .inr (.inl (List.suffix_append _ _))⟩
    · rw [← hc, ha, List.append_assoc]
    · rw [byteLen_append, hl, hpu]
  · rw [h]
    refine Tp.bind (m := Act.run _) (Tp.of_ok rfl ?_)
    exact ⟨hset _ nofun, ⟨m1.le, m1.lines⟩, rfl, hend' _, nofun, m1.queue.trans hq⟩
  · have hs' := scr h nofun
    rw [h]
    refine Tp.bind (m := Act.run _) (Tp.of_ok rfl ?_)
    exact ⟨hpush hs' _ nofun, ⟨m1.le, m1.lines⟩, rfl, hend' _, nofun, m1.queue.trans hq⟩
  · have hs' := scr h nofun
    rw [h]
    refine Tp.bind (m := Act.run _) (Tp.of_ok rfl ?_)
    exact ⟨hpush hs' _ nofun, ⟨m1.le, m1.lines⟩, rfl, hend' _, nofun, m1.queue.trans hq⟩

theorem At.of_keep {t0 : Tz} {i : Text} (hc : t0.code = src) (h : Keep src t0 t) (hp : t.st.srcPos = t0.st.srcPos) (hi : At t i) : At t0 i := by
  unfold At at hi ⊢
  rw [h.1.code, hp] at hi
  rw [hc]
  exact hi

theorem Lop.after {t0 t t' : Tz} {x : TokSpan} (hc : t0.code = src) (h : Keep src t0 t) (hp : t.st.srcPos = t0.st.srcPos) (h' : Lop src t x t') : Lop src t0 x t' :=
  ⟨h'.ld, h.1.ru.trans h'.ru, h'.stop, h'.last, fun hs => (h'.tag hs).imp fun _ hr => hr.of_keep hc h hp, h'.free⟩

theorem tl_or {m n : T TokSpan} {t0 : Tz} (hb : Ld src t0) (h1 : t0.st.state ≠ .initial) (h2 : t0.st.state ≠ .emitQueue)
    (hu : Keep src t0 t) (hp : t.st.srcPos = t0.st.srcPos)
    (hm : Ld src t → Tl m t (Lop src t) (Nok src t))
    (hn : ∀ u, Keep src t0 u → u.st.srcPos = t0.st.srcPos → Tl n u (Lop src t0) E) :
    Tl (m <||> n) t (Lop src t0) E := by
  refine Tp.orElse ((hm (hu.1.ld hb h1 h2)).cons (fun _ _ h => h.after hb.code hu hp) ?_)
  rintro e t' ⟨rfl, hk, hp'⟩
  exact ⟨fun _ => hn _ (hu.trans hk) (hp'.trans hp), fun h => absurd rfl h⟩

theorem Keep.ld {t0 : Tz} (h : Keep src t0 t) (hb : Ld src t0) (hp : t.st.srcPos = t0.st.srcPos) : Ld src t :=
  ⟨h.1.code, by rw [h.1.stack]; exact hb.stk, by rw [h.1.state, h.1.queue]; exact hb.queue, by rw [h.1.queue, hp]; exact hb.qe,
    by rw [h.1.state, hp]; exact hb.ini⟩

theorem tl_matchFirst (es : List Entry) (hg : es.all evenEntry = true) (hb : Ld src t)
    (hs : t.st.state = .inScripting ∨ t.st.state = .initial ∧ ∀ e ∈ es, e.act = .set .inScripting) :
    Tl (matchFirst es) t (Lop src t) (fun er t' => Nok src t er t' ∧ ∀ i, At t i → ∀ e ∈ es, startsWithCi i e.text = false) := by
  induction es generalizing t with
  | nil => exact Tp.of_err rfl ⟨Nok.refl hb.code, nofun⟩
  | cons e es ih =>
    rw [List.all_cons, Bool.and_eq_true] at hg
    unfold matchFirst
    refine Tp.orElse ((tl_matchTok e hg.1 hb (hs.imp id fun h => ⟨h.1, h.2 e (by simp)⟩)).cons (fun _ _ h => h) ?_)
    rintro er t' ⟨⟨rfl, hk, hp⟩, hno⟩
    refine ⟨fun _ => ?_, fun h => absurd rfl h⟩
    refine (ih hg.2 (hk.ld hb hp) ?_).cons (fun _ _ h => h.after hb.code hk hp) ?_
    · rw [hk.1.state]
      exact hs.imp id fun h => ⟨h.1, fun e he => h.2 e (by simp [he])⟩
    · rintro e2 t2 ⟨⟨h1, h2, h3⟩, h4⟩
      refine ⟨⟨h1, hk.trans h2, h3.trans hp⟩, fun i hi e' he' => ?_⟩
      rw [List.mem_cons] at he'
      rcases he' with rfl | he'
      · exact hno i hi
      · refine h4 i ?_ e' he'
        unfold At at hi ⊢
        rw [hk.1.code, hp, ← hb.code]
        exact hi

theorem tl_table (es : List Entry) (hg : es.all evenEntry = true) (hb : Ld src t) (hs : t.st.state = .inScripting) :
    Tl (matchFirst es) t (Lop src t) (Nok src t) :=
  (tl_matchFirst es hg hb (.inl hs)).cons (fun _ _ h => h) (fun _ _ h => h.1)

theorem tl_yield (hb : Ld src t) (h1 : t.st.state ≠ .initial) (h2 : t.st.state ≠ .emitQueue) : Tl matchYield t (Lop src t) (Nok src t) := by
  have hc := hb.code
  unfold matchYield
  refine Tp.bind (tl_input fun i hi => ?_)
  refine Tp.ite (fun hm => ?_) (fun _ => Nok.refl hc)
  obtain ⟨r, rfl, _⟩ := startsWithCi_split hm
  refine Tp.bind (tp_inputPos ?_)
  refine Tp.bind (tp_advBytes hi (by decide) fun hi2 => ?_)
  have m1 := Mw.adv hc hi (by decide)
  refine Tp.bind ((tl_whitespace (E := fun _ _ => False) m1.code).cons ?_ (fun _ _ h => h.elim))
  rintro _ u ⟨m2, r2, hr2, _⟩
  refine Tp.bind (Tp.of_ok (input_at hr2) ?_)
  refine Tp.ite (fun hm => ?_) (fun _ => Tp.bind (tp_inputPos (Lop.keep hb h1 h2 (m1.trans m2) rfl nofun)))
  obtain ⟨r3, rfl, _⟩ := startsWithCi_split hm
  refine Tp.bind (tp_advBytes hr2 (by decide) fun hi3 => ?_)
  exact Tp.bind (tp_inputPos (Lop.keep hb h1 h2 ((m1.trans m2).trans (Mw.adv m2.code hr2 (by decide))) rfl nofun))

/-- The tables of the casts change nothing but the position. -/
theorem tl_castFirst (es : List Entry) (hg : es.all (fun e => evenEntry e && e.act == .keep) = true) (hc : t.code = src) :
    Tl (matchFirst es) t (fun x t' => Keep src t t' ∧ x.tok ≠ .k .End) (Nok src t) := by
  induction es generalizing t with
  | nil => exact Tp.of_err rfl (Nok.refl hc)
  | cons e es ih =>
    rw [List.all_cons, Bool.and_eq_true] at hg
    unfold matchFirst
    refine Tp.orElse (Tp.cons (Q' := fun x t' => Keep src t t' ∧ x.tok ≠ .k .End) (E' := Nok src t) ?_ (fun _ _ h => h) ?_)
    · have he := hg.1
      rw [Bool.and_eq_true, beq_iff_eq] at he
      have hlen := he.1
      simp only [evenEntry, okEntry, Bool.and_eq_true, beq_iff_eq, bne_iff_ne, Bool.not_eq_true'] at hlen
      have hfree : '\n' ∉ e.text.map lowerAscii := by
        intro h
        rw [← List.contains_iff_mem] at h
        rw [hlen.1.1.2] at h
        cases h
      unfold matchTok
      refine Tp.bind (tl_input fun i hi => ?_)
      refine Tp.ite (fun hm => ?_) (fun _ => Nok.refl hc)
      obtain ⟨r, rfl, _⟩ := startsWithCi_split hm
      refine Tp.bind (tp_inputPos ?_)
      refine Tp.bind (tp_advBytes hi hlen.1.1.1.1 fun hi2 => ?_)
      refine Tp.bind (tp_inputPos ?_)
      rw [he.2]
      refine Tp.bind (m := Act.run _) (Tp.of_ok rfl ?_)
      refine ⟨Keep.adv hc hi hfree, fun h => ?_⟩
      injection h with h
      exact hlen.1.2 h
    · rintro e' t' ⟨rfl, hm, hp⟩
      refine ⟨fun _ => ?_, fun h => absurd rfl h⟩
      exact (ih hg.2 hm.1.code).cons (fun _ _ h => ⟨hm.trans h.1, h.2⟩) (fun _ _ h => ⟨h.1, hm.trans h.2.1, h.2.2.trans hp⟩)

theorem tl_cast (hb : Ld src t) (h1 : t.st.state ≠ .initial) (h2 : t.st.state ≠ .emitQueue) : Tl matchCast t (Lop src t) (Nok src t) := by
  have hc := hb.code
  unfold matchCast
  refine Tp.bind (tl_input fun i hi => ?_)
  refine Tp.ite (fun hm => ?_) (fun _ => Nok.refl hc)
  obtain ⟨r, rfl⟩ := startsWith_split hm
  refine Tp.bind (tp_inputPos ?_)
  refine Tp.bind (tp_advBytes hi rfl fun hi2 => ?_)
  have m1 := Keep.adv hc hi (by decide)
  refine Tp.bind ((tl_whitespaceOnly (E := fun _ _ => False) m1.1.code).cons ?_ (fun _ _ h => h.elim))
  intro _ u m2
  have back : ∀ v : Tz, Keep src t v → Tl (do setPos t.st.srcPos; fail .none : T TokSpan) v (Lop src t) (Nok src t) := by
    intro v hv
    refine Tp.bind (m := setPos _) (Tp.of_ok rfl ?_)
    exact Tp.of_err rfl ⟨rfl, hv.back, rfl⟩
  refine Tp.bind (Tp.cons (Q' := fun (o : Option TokSpan) t' => Keep src u t' ∧ ∀ x, o = some x → x.tok ≠ .k .End) (E' := fun _ _ => False) ?_ ?_ (fun _ _ h => h.elim))
  · have := tl_castFirst castTable (by decide +kernel) m2.1.code
    unfold Tl Tp at this
    unfold Tp
    dsimp only
    revert this
    cases matchFirst castTable u with
    | ok a t' => exact fun h => ⟨h.1, fun x hx => by cases hx; exact h.2⟩
    | err e t' => exact fun h => ⟨h.2.1, nofun⟩
    | panic p => exact id
    | oof => exact id
  · rintro tok v ⟨m3, hne⟩
    have mm := (m1.trans m2).trans m3
    cases tok with
    | none => exact back v mm
    | some tok =>
      dsimp only
      refine Tp.bind ((tl_whitespaceOnly (E := fun _ _ => False) m3.1.code).cons ?_ (fun _ _ h => h.elim))
      intro _ x m4
      refine Tp.bind (tl_input fun i4 hi4 => ?_)
      refine Tp.ite (fun hm => ?_) (fun _ => back x (mm.trans m4))
      obtain ⟨r5, rfl⟩ := startsWith_split hm
      refine Tp.bind (tp_advBytes hi4 rfl fun hi5 => ?_)
      exact Tp.bind (tp_inputPos (Lop.keep hb h1 h2 ((mm.trans m4).trans (Keep.adv m4.1.code hi4 (by decide))).1 rfl fun h => absurd h (hne tok rfl)))

theorem tl_curlyClose (hb : Ld src t) (hs : t.st.state = .inScripting) : Tl matchCurlyClose t (Lop src t) (Nok src t) := by
  have hc := hb.code
  unfold matchCurlyClose
  refine Tp.bind ?_
  unfold matchTok
  refine Tp.bind (tl_input fun i hi => ?_)
  refine Tp.ite (fun hm => ?_) (fun _ => Nok.refl hc)
  obtain ⟨r, rfl, _⟩ := startsWithCi_split hm
  refine Tp.bind (tp_inputPos ?_)
  refine Tp.bind (tp_advBytes hi (by decide) fun hi2 => ?_)
  refine Tp.bind (tp_inputPos ?_)
  have m1 := Mw.adv hc hi (by decide)
  generalize t.adv _ = u at *
  cases hk : u.st.stack with
  | nil =>
    refine Tp.bind (Tp.of_panic (p := .unreachable) ?_ trivial)
    show popState u = _
    unfold popState
    tstep (u.st) u
    rw [hk]
    rfl
  | cons s k =>
    refine Tp.bind (m := Act.run _) (Tp.of_ok (popState_ok hk) ?_)
    have hst : ∀ x ∈ s :: k, x ≠ .initial ∧ x ≠ .emitQueue := by rw [← hk, m1.stack]; exact hb.stk
    have hq := hb.queue (by rw [hs]; nofun)
    have hs1 := (hst s (by simp)).1
    refine ⟨⟨m1.code, fun x hx => hst x (by simp [show x ∈ k from hx]), fun _ => m1.queue.trans hq, ?_, fun h => absurd h hs1⟩,
      ⟨m1.le, m1.lines⟩, rfl, nofun, fun h => absurd h hs1, m1.queue.trans hq⟩
    show EndOk src u.queue _
    rw [m1.queue, hq]
    exact EndOk.nil

theorem tl_oneChar (hb : Ld src t) (h1 : t.st.state ≠ .initial) (h2 : t.st.state ≠ .emitQueue) : Tl oneCharToken t (Lop src t) (Nok src t) := by
  have hc := hb.code
  unfold oneCharToken
  refine Tp.bind (tl_input fun i hi => ?_)
  cases i with
  | nil =>
    refine Tp.of_ok (a := ⟨.k .End, mkSpan (byteLen t.code) (byteLen t.code)⟩) (t' := t) rfl ?_
    have ht := hi.total
    simp only [byteLen, Nat.add_zero] at ht
    refine Lop.keep hb h1 h2 (Mw.refl hc) ht.symm fun _ => ?_
    rw [← hc, ht]
    exact Nat.le_refl _
  | cons c i =>
    dsimp only
    split
    · exact Tp.of_err rfl (Nok.refl hc)
    · rename_i k hk
      have hcn : c ≠ '\n' := by rintro rfl; cases hk
      have hke : k ≠ .End := by
        rintro rfl
        unfold charToken at hk
        split at hk <;> cases hk
      have hi' : At t ([c] ++ i) := hi
      refine Tp.bind (tp_advChars' hi' rfl fun hi2 => ?_)
      refine Tp.bind (tp_inputPos ?_)
      refine Tp.bind (tl_subT fun _ => ?_)
      refine Lop.keep hb h1 h2 (Mw.adv hc hi' (by simpa using hcn.symm)) rfl fun h => ?_
      injection h with h
      exact absurd h hke

theorem tl_other (hb : Ld src t) (hs : t.st.state = .inScripting) :
    Tl inScriptingOtherToken t (Lop src t)
      (fun e t' => e = .unknownCharacter (mkSpan t.st.srcPos (t.st.srcPos + 1)) ∧ Keep src t t' ∧ t'.st.srcPos = t.st.srcPos) := by
  have h1 : t.st.state ≠ .initial := by rw [hs]; nofun
  have h2 : t.st.state ≠ .emitQueue := by rw [hs]; nofun
  have st' : ∀ {u}, Keep src t u → u.st.state = .inScripting := fun hu => hu.1.state.trans hs
  have n1 : ∀ {u}, Keep src t u → u.st.state ≠ .initial := fun hu => by rw [st' hu]; nofun
  have n2 : ∀ {u}, Keep src t u → u.st.state ≠ .emitQueue := fun hu => by rw [st' hu]; nofun
  unfold inScriptingOtherToken
  refine tl_or hb h1 h2 (Keep.refl hb.code) rfl (fun h => tl_table tableA (by decide +kernel) h hs) fun u hu hp => ?_
  refine tl_or hb h1 h2 hu hp (fun h => tl_yield h (n1 hu) (n2 hu)) fun u hu hp => ?_
  refine tl_or hb h1 h2 hu hp (fun h => tl_table tableB (by decide +kernel) h (st' hu)) fun u hu hp => ?_
  refine tl_or hb h1 h2 hu hp (fun h => tl_cast h (n1 hu) (n2 hu)) fun u hu hp => ?_
  refine tl_or hb h1 h2 hu hp (fun h => tl_table tableC (by decide +kernel) h (st' hu)) fun u hu hp => ?_
  refine tl_or hb h1 h2 hu hp (fun h => tl_curlyClose h (st' hu)) fun u hu hp => ?_
  refine tl_or hb h1 h2 hu hp (fun h => tl_table tableD (by decide +kernel) h (st' hu)) fun u hu hp => ?_
  refine tl_or hb h1 h2 hu hp (fun h => tl_oneChar h (n1 hu) (n2 hu)) fun u hu hp => ?_
  unfold unknownChar
  refine Tp.bind (tp_inputPos ?_)
  refine Tp.of_err rfl ⟨?_, hu, hp⟩
  rw [hp]

/-! ## Words -/

theorem gap_of_free {w r : Text} {q : Nat} (hc : t.code = src) (h : At t (w ++ r)) (hf : '\n' ∉ w) (hq : q ≤ t.st.srcPos + byteLen w) :
    lineGap src t.st.srcPos q = [] := by
  refine lineGap_sub (p := t.st.srcPos) (q := t.st.srcPos + byteLen w) ?_ (Nat.le_refl _) hq
  rw [← hc, h.gap, breaksFrom_free hf]

theorem tl_labelOrOther {t0 : Tz} (hb : Ld src t0) (hs : t0.st.state = .inScripting) (hu : Keep src t0 t)
    (hne : ∃ c r, At t0 (c :: r) ∧ c ≠ '\n') :
    Tl (labelOrOther t0.st.srcPos) t (Nl src t0) (fun e t' => e ≠ .none ∧ El src t0 e t') := by
  have h1 : t0.st.state ≠ .initial := by rw [hs]; nofun
  have h2 : t0.st.state ≠ .emitQueue := by rw [hs]; nofun
  unfold labelOrOther
  refine Tp.bind (m := setPos _) (Tp.of_ok rfl ?_)
  have hu1 : Keep src t0 { t with st := { t.st with srcPos := t0.st.srcPos } } := hu.back
  have key : ∀ (lbl : Option (Text × Span)) (v : Tz), Keep src t0 v → v.st.srcPos = t0.st.srcPos →
      (∀ n s, lbl = some (n, s) → ∃ w r, At t0 (w ++ r) ∧ IsLabel w ∧ s.stop = t0.st.srcPos + w.length) →
      Tl (fun t =>
        match inScriptingOtherToken t with
        | .ok tok t' =>
          match lbl with
          | some (name, span) =>
            if span.stop ≤ tok.span.stop then
              .ok tok { t' with st := { t'.st with srcPos := tok.span.stop } }
            else .ok ⟨.string name, span⟩ { t' with st := { t'.st with srcPos := span.stop } }
          | none => .ok tok { t' with st := { t'.st with srcPos := tok.span.stop } }
        | .err e t' =>
          match lbl with
          | some (name, span) => .ok ⟨.string name, span⟩ { t' with st := { t'.st with srcPos := span.stop } }
          | none =>
            match e with
            | .none => .err (.unknownCharacter (mkSpan t'.st.srcPos (t'.st.srcPos + 1))) t'
            | .unterminated _ sp => .err e { t' with st := { t'.st with srcPos := sp.stop } }
            | .unknownCharacter sp => .err e { t' with st := { t'.st with srcPos := sp.stop } }
        | .panic p => .panic p
        | .oof => .oof : T TokSpan) v (Nl src t0) (fun e t' => e ≠ .none ∧ El src t0 e t') := by
    intro lbl v hv hpv hlbl
    have hsv : v.st.state = .inScripting := hv.1.state.trans hs
    have hbv := hv.ld hb hpv
    have ho := tl_other hbv hsv
    have word : ∀ (n : Text) (s : Span) (v' : Tz), lbl = some (n, s) → Ld src v' → Ru src t0 v' →
        (v'.st.state = .initial → ∃ r, At t0 (c!"?>" ++ r)) → v'.st.srcPos ≤ s.stop → v'.queue = [] →
        Nl src t0 ⟨.string n, s⟩ { v' with st := { v'.st with srcPos := s.stop } } := by
      intro n s v' hl hb' hru htag hle hq
      obtain ⟨w, r, h1, h2, h3⟩ := hlbl n s hl
      have hlen := length_le_byteLen w
      have hg : ∀ q, q ≤ s.stop → lineGap src t0.st.srcPos q = [] := by
        intro q hq
        exact gap_of_free hb.code h1 (label_free h2) (by omega)
      refine ⟨⟨hb'.code, hb'.stk, fun _ => hq, ?_, fun hi => ?_⟩, ⟨?_, ?_⟩, nofun⟩
      · show EndOk src v'.queue _
        rw [hq]
        exact EndOk.nil
      · exfalso
        obtain ⟨r2, hr2⟩ := htag hi
        have := hr2.unique h1
        obtain ⟨c, w', rfl⟩ : ∃ c w', w = c :: w' := by
          cases w with
          | nil => exact absurd rfl h2.1
          | cons c w' => exact ⟨c, w', rfl⟩
        injection this with hcc _
        subst hcc
        rcases h2.2.2 _ (List.mem_cons_self ..) with h | h
        · cases h
        · exact absurd h.1 (by decide)
      · show t0.st.srcPos ≤ s.stop
        omega
      · show v'.st.lineMap.data = _ ++ lineGap src _ s.stop
        rw [hru.lines, hg _ hle, hg _ (Nat.le_refl _)]
    unfold Tl Tp at ho
    unfold Tl Tp
    dsimp only
    cases hm : inScriptingOtherToken v with
    | ok tok t' =>
      rw [hm] at ho
      replace ho : Lop src t0 tok t' := Lop.after hb.code hv hpv ho
      have tokCase : Nl src t0 tok { t' with st := { t'.st with srcPos := tok.span.stop } } := by
        have e : ({ t' with st := { t'.st with srcPos := tok.span.stop } } : Tz) = t' := by rw [ho.stop]
        rw [e]
        exact ⟨ho.ld, ho.ru, ho.last⟩
      cases hl : lbl with
      | none => exact tokCase
      | some ns =>
        obtain ⟨n, s⟩ := ns
        dsimp only
        by_cases hle2 : s.stop ≤ tok.span.stop
        · rw [if_pos hle2]; exact tokCase
        · rw [if_neg hle2]
          exact word n s t' hl ho.ld ho.ru ho.tag (by rw [← ho.stop]; omega) ho.free
    | err e t' =>
      rw [hm] at ho
      obtain ⟨rfl, hk', hp'⟩ := ho
      have hk := hv.trans hk'
      cases hl : lbl with
      | some ns =>
        obtain ⟨n, s⟩ := ns
        refine word n s t' hl (hk.ld hb (hp'.trans hpv)) hk.1.ru ?_ ?_ (hk.1.queue.trans (hb.queue h2))
        · rw [hk.1.state]; exact fun h => absurd h h1
        · obtain ⟨w, r, _, _, h3⟩ := hlbl n s hl
          omega
      | none =>
        obtain ⟨c, r, hc, hcn⟩ := hne
        have hg : lineGap src t0.st.srcPos (t0.st.srcPos + 1) = [] := by
          refine gap_of_free (w := [c]) hb.code hc (by simpa using hcn.symm) ?_
          have := byteLen_pos (show [c] ≠ [] from nofun)
          omega
        refine ⟨nofun, hk.1.code, hk.1.queue.trans (hb.queue h2), ⟨?_, ?_⟩, ?_⟩
        · show t0.st.srcPos ≤ v.st.srcPos + 1
          omega
        · show t'.st.lineMap.data = _ ++ lineGap src _ (v.st.srcPos + 1)
          rw [hpv, hg, hk.2, List.append_nil]
        · intro sp hsp
          cases hsp
          refine ⟨Nat.le_succ _, Nat.le_succ _, ?_⟩
          show lineGap src v.st.srcPos (v.st.srcPos + 1) = []
          rw [hpv]
          exact hg
    | panic p => trivial
    | oof => trivial
  refine Tp.bind (tl_label ?_ fun w r hw hl hat2 => ?_)
  · refine Tp.bind (m := setPos _) (Tp.of_ok rfl ?_)
    exact key none _ hu1 rfl nofun
  · refine Tp.bind (m := setPos _) (Tp.of_ok rfl ?_)
    refine key (some (w, mkSpan t0.st.srcPos (t0.st.srcPos + w.length))) _ ?_ rfl ?_
    · exact hu.back
    · intro n s he
      cases he
      exact ⟨w, r, hw.of_keep hb.code hu1 rfl, hl, rfl⟩

/-! ## The modes -/

theorem tl_hereNowDoc (next : T TokSpan) (bfuel : Nat) (hk : Counted src) (hc : t.code = src) :
    Tl (matchHereNowDoc next bfuel) t (Nl src t) (Al src t) := by
  unfold matchHereNowDoc
  refine Tp.bind (tl_input fun i hi => ?_)
  refine Tp.ite (fun _ => Al.refl hc) (fun _ => ?_)
  refine Tp.bind (m := getSt) (Tp.of_ok rfl ?_)
  refine Tp.ite (fun h => ?_) (fun _ => Tp.ite (fun h => ?_) (fun _ => Al.refl hc))
  · obtain ⟨r, rfl⟩ := startsWith_split h
    exfalso
    apply hk.doc
    rw [← hc]
    exact (show At t (['b'] ++ (c!"<<<" ++ r)) from hi).infix'
  · obtain ⟨r, rfl⟩ := startsWith_split h
    exfalso
    apply hk.doc
    rw [← hc]
    exact hi.infix

theorem tl_scripting {next : T TokSpan} (hk : Counted src) (hn : NextL src next) (bfuel : Nat) (hb : Ld src t) (hs : t.st.state = .inScripting) :
    Tl (inScriptingToken next bfuel) t (Nl src t) (fun e t' => e ≠ .none ∧ El src t e t') := by
  have h1 : t.st.state ≠ .initial := by rw [hs]; nofun
  have h2 : t.st.state ≠ .emitQueue := by rw [hs]; nofun
  unfold inScriptingToken
  refine Tp.bind ((tl_whitespace (E := fun _ _ => False) hb.code).cons ?_ (fun _ _ h => h.elim))
  rintro _ u ⟨m1, i, hi, hin⟩
  have hbu := m1.ld hb h1 h2
  have hsu : u.st.state = .inScripting := m1.state.trans hs
  have hqu : u.queue = [] := m1.queue.trans (hb.queue h2)
  refine Tp.bind (Tp.of_ok (input_at hi) ?_)
  refine Tp.ite (fun he => ?_) (fun hne => ?_)
  · refine Tp.of_ok (a := ⟨.k .End, mkSpan (byteLen u.code) (byteLen u.code)⟩) (t' := u) rfl ⟨hbu, m1.ru, fun _ => ?_⟩
    rw [List.isEmpty_iff] at he
    subst he
    exact (tl_end (x := ⟨.k .End, mkSpan 0 0⟩) (Mw.refl m1.code) hi).2 rfl
  refine Tp.bind (tp_inputPos ?_)
  have hne' : ∃ c r, At u (c :: r) ∧ c ≠ '\n' := by
    cases i with
    | nil => exact absurd rfl hne
    | cons c r => exact ⟨c, r, hi, fun h => hin r (by rw [h])⟩
  have st : ∀ {v}, Keep src u v → v.st.state = .inScripting := fun hv => hv.1.state.trans hsu
  have ld : ∀ {v}, Keep src u v → Ld src v := fun hv => hv.1.ld hbu (by rw [hsu]; nofun) (by rw [hsu]; nofun)
  have ch : ∀ {m n : T TokSpan} {v : Tz}, Keep src u v →
      Tl m v (Nl src v) (Al src v) →
      (∀ v, Keep src u v → Tl n v (Nl src t) (fun e t' => e ≠ .none ∧ El src t e t')) →
      Tl (m <||> n) v (Nl src t) (fun e t' => e ≠ .none ∧ El src t e t') := by
    intro m n v hv h1 h2
    refine Tp.orElse (h1.cons (fun _ _ h => ⟨h.1, (m1.trans hv.1).ru.trans h.2.1, h.2.2⟩) ?_)
    intro e t' ha
    refine ⟨fun he => h2 _ (hv.trans ⟨ha.mw, ha.none he⟩), fun he => ⟨he, ha.mw.code, ?_, ((m1.trans hv.1).trans ha.mw).ru, ha.span⟩⟩
    exact ha.mw.queue.trans (hv.1.queue.trans hqu)
  have mv : ∀ {m : T TokSpan} {v : Tz}, Keep src u v → Tl m v (Pw src v) (Al src v) → Tl m v (Nl src v) (Al src v) :=
    fun hv h => h.cons (fun _ _ h => ⟨h.1.ld (ld hv) (by rw [st hv]; nofun) (by rw [st hv]; nofun), h.1.ru, h.2⟩) (fun _ _ h => h)
  refine ch (Keep.refl m1.code) (tl_hereNowDoc next bfuel hk m1.code) fun v hv => ?_
  refine ch hv (mv hv (tl_bnum hv.1.code)) fun v hv => ?_
  refine ch hv (mv hv (tl_hnum hv.1.code)) fun v hv => ?_
  refine ch hv (mv hv (tl_onum hv.1.code)) fun v hv => ?_
  refine ch hv (tl_dqString hk hn bfuel (ld hv) (st hv)) fun v hv => ?_
  refine ch hv (mv hv (tl_variable hv.1.code)) fun v hv => ?_
  refine ch hv (mv hv (tl_sqString hk hv.1.code)) fun v hv => ?_
  refine ch hv (mv hv (tl_comments hk hv.1.code)) fun v hv => ?_
  refine ch hv (tl_backquote hn bfuel (ld hv) (st hv)) fun v hv => ?_
  exact (tl_labelOrOther hbu hsu hv hne').cons (fun _ _ h => ⟨h.1, m1.ru.trans h.2.1, h.2.2⟩)
    (fun _ _ h => ⟨h.1, h.2.code, h.2.queue, m1.ru.trans h.2.ru, h.2.span⟩)

theorem tl_initial (hk : Counted src) (hb : Ld src t) (hs : t.st.state = .initial) :
    Tl initialToken t (Nl src t) (fun _ _ => False) := by
  have hc := hb.code
  have hq := hb.queue (by rw [hs]; nofun)
  unfold initialToken
  refine Tp.bind (tl_input fun i hi => ?_)
  refine Tp.ite (fun he => ?_) (fun hne => ?_)
  · refine Tp.bind (m := modSt _) (Tp.of_ok rfl ?_)
    refine Tp.of_ok rfl ⟨⟨hc, hb.stk, fun _ => hq, hb.qe, nofun⟩, ⟨Nat.le_refl _, (Mw.refl hc).lines⟩, fun _ => ?_⟩
    rw [List.isEmpty_iff] at he
    subst he
    exact (tl_end (x := ⟨.k .End, mkSpan 0 0⟩) (Mw.refl hc) hi).2 rfl
  refine Tp.orElse ((tl_matchFirst _ (by decide +kernel) hb (.inr ⟨hs, ?_⟩)).cons (fun _ _ h => ⟨h.ld, h.ru, h.last⟩) ?_)
  · intro e he
    simp only [List.mem_cons, List.not_mem_nil, or_false] at he
    rcases he with rfl | rfl | rfl <;> rfl
  rintro e t' ⟨⟨rfl, hm, hp⟩, hno⟩
  refine ⟨fun _ => ?_, fun h => absurd rfl h⟩
  have hno : startsWithCi i c!"<?" = false := hno i hi ⟨c!"<?", .OpenTag, .set .inScripting⟩ (by simp)
  have hi2 : At t' i := by
    unfold At at hi ⊢
    rw [hm.1.code, hp, ← hc]
    exact hi
  refine Tp.bind (Tp.of_ok (input_at hi2) ?_)
  dsimp only
  have hpre : ¬ c!"<?" <+: i := by
    rintro ⟨r, rfl⟩
    cases hno
  have key : ∀ a b : Text, i = a ++ b → ¬ c!"<?" <:+: a → (b = [] ∨ c!"<?" <+: b) → Tl (if (byteLen a != 0) = true then (do
            let p ← inputPos
            let s ← advanceBytes (byteLen a)
            return ⟨.inlineHtml s, mkSpan p (p + byteLen a)⟩)
          else endToken : T TokSpan) t' (Nl src t) (fun _ _ => False) := by
    rintro a b rfl hfree hb2
    refine Tp.ite (fun _ => ?_) (fun h0 => ?_)
    · refine Tp.bind (tp_inputPos ?_)
      refine Tp.bind (tp_advBytes hi2 rfl fun hi3 => ?_)
      obtain ⟨pa, pc, h1, h2, h3⟩ := hb.ini hs
      have hpc : pc = a ++ b := by
        have hd := dropBytes_append pa pc
        rw [← h1, h2, ← hc] at hd
        exact Option.some.inj (hd.symm.trans hi)
      subst hpc
      have hnl : '\n' ∉ a := by
        rcases h3 with h3 | h3 | h3 | h3
        · exact hk.outside pa a b (by rw [h1, List.append_assoc]) (.inl h3) hfree
        · exact hk.outside pa a b (by rw [h1, List.append_assoc]) (.inr h3) hfree
        · rw [h3] at hne; exact absurd rfl hne
        · exact absurd h3 hpre
      have m := hm.1.trans (Mw.adv hm.1.code hi2 hnl)
      refine ⟨⟨m.code, by rw [m.stack]; exact hb.stk, fun _ => m.queue.trans hq, ?_, fun _ => ?_⟩, m.ru, nofun⟩
      · rw [m.queue, hq]; exact EndOk.nil
      · refine ⟨pa ++ a, b, by rw [h1, List.append_assoc], ?_, .inr (.inr hb2)⟩
        rw [byteLen_append, h2, Tz.adv_pos, hp]
    · exfalso
      have ha : a = [] := by
        cases a with
        | nil => rfl
        | cons c a =>
          have := byteLen_pos (show c :: a ≠ [] from nofun)
          simp at h0
          omega
      subst ha
      rcases hb2 with rfl | h
      · exact hne rfl
      · exact hpre h
  cases hbs : beforeSub c!"<?" i with
  | none => exact key i [] (List.append_nil _).symm (beforeSub_nowhere hbs) (.inl rfl)
  | some pre =>
    obtain ⟨q, hq, hf⟩ := beforeSub_first hbs
    exact key pre (c!"<?" ++ q) (by rw [hq, List.append_assoc]) (hf (by decide)) (.inr ⟨q, rfl⟩)

/-- Behind an arrow. -/
theorem tl_property (hb : Ld src t) (hs : t.st.state = .lookingForProperty) :
    Tl lookingForPropertyToken t (Nl src t) (fun e t' => e = .none ∧ Ld src t' ∧ Ru src t t' ∧ t'.queue = []) := by
  have h1 : t.st.state ≠ .initial := by rw [hs]; nofun
  have h2 : t.st.state ≠ .emitQueue := by rw [hs]; nofun
  have hq := hb.queue h2
  unfold lookingForPropertyToken
  refine Tp.bind ((tl_whitespace (E := fun _ _ => False) hb.code).cons ?_ (fun _ _ h => h.elim))
  rintro _ u ⟨m1, i, hi, _⟩
  refine Tp.orElse ?_
  unfold matchTok
  refine Tp.bind (Tp.of_ok (input_at hi) ?_)
  refine Tp.ite (fun hm => ?_) (fun _ => ⟨fun _ => ?_, fun h => absurd rfl h⟩)
  · obtain ⟨r, rfl, _⟩ := startsWithCi_split hm
    refine Tp.bind (tp_inputPos ?_)
    refine Tp.bind (tp_advBytes hi (by decide) fun hi2 => ?_)
    refine Tp.bind (tp_inputPos ?_)
    refine Tp.bind (m := Act.run _) (Tp.of_ok rfl ?_)
    have m2 := m1.trans (Mw.adv m1.code hi (by decide))
    exact ⟨m2.ld hb h1 h2, m2.ru, nofun⟩
  · have bd : ∀ {v v' : Tz} {s k}, Mw src t v → v.st.stack = s :: k → v'.code = v.code → v'.queue = v.queue → v'.st.state = s → v'.st.stack = k →
        Ld src v' ∧ v'.queue = [] := by
      intro v v' s k hv hk e1 e2 e3 e4
      have hst : ∀ x ∈ s :: k, x ≠ .initial ∧ x ≠ .emitQueue := by rw [← hk, hv.stack]; exact hb.stk
      have hq' : v'.queue = [] := e2.trans (hv.queue.trans hq)
      refine ⟨⟨e1.trans hv.code, by rw [e4]; exact fun x hx => hst x (by simp [hx]), fun _ => hq', by rw [hq']; exact EndOk.nil, ?_⟩, hq'⟩
      rw [e3]
      exact fun h => absurd h (hst s (by simp)).1
    have none' : ∀ v : Tz, v.st.stack = [] → popState v = .panic .unreachable := by
      intro v hv
      unfold popState
      tstep (v.st) v
      rw [hv]
      rfl
    refine Tp.bind (tl_label ?_ fun w2 r2 hw2 hl2 hat2 => ?_)
    · dsimp only
      cases hk' : u.st.stack with
      | nil => exact Tp.bind (Tp.of_panic (none' u hk') trivial)
      | cons s k =>
        refine Tp.bind (Tp.of_ok (popState_ok hk') ?_)
        refine Tp.bind (m := modSt _) (Tp.of_ok rfl ?_)
        have := bd (v' := { u with st := { u.st with state := s, stack := k, restart := true } }) m1 hk' rfl rfl rfl rfl
        exact Tp.of_err rfl ⟨rfl, this.1, ⟨m1.le, m1.lines⟩, this.2⟩
    · dsimp only
      have m3 := m1.trans (Mw.adv m1.code hw2 (label_free hl2))
      cases hk' : (u.adv (byteLen w2)).st.stack with
      | nil => exact Tp.bind (Tp.of_panic (none' _ hk') trivial)
      | cons s k =>
        refine Tp.bind (Tp.of_ok (popState_ok hk') ?_)
        have := bd (v' := { u.adv (byteLen w2) with st := { (u.adv (byteLen w2)).st with state := s, stack := k } }) m3 hk' rfl rfl rfl rfl
        exact ⟨this.1, ⟨m3.le, m3.lines⟩, nofun⟩

theorem tl_next (hk : Counted src) (fuel : Nat) : NextL src (nextToken fuel) := by
  induction fuel with
  | zero => exact fun _ _ => trivial
  | succ fuel ih =>
    intro t hb
    have again : ∀ t1 : Tz, Ld src t1 → Ru src t t1 → Tl (nextToken fuel) t1 (Nl src t) (El src t) := by
      intro t1 h1 h2
      exact (ih t1 h1).cons (fun _ _ h => ⟨h.1, h2.trans h.2.1, h.2.2⟩) (fun _ _ h => ⟨h.code, h.queue, h2.trans h.ru, h.span⟩)
    have stop : t.st.state = .done ∨ t.st.state = .doNothing → Tl (nextToken (fuel + 1)) t (Nl src t) (El src t) := by
      intro hs
      have hne : t.st.state ≠ .emitQueue := by rcases hs with h | h <;> rw [h] <;> nofun
      refine tp_state (step := fail .none) hne (by rcases hs with h | h <;> rw [h] <;> rfl) ?_
      refine Tp.of_err rfl ⟨fun _ _ => ?_, fun _ => ⟨hb.code, hb.queue hne, (Mw.refl hb.code).ru, nofun⟩⟩
      exact again _ ⟨hb.code, hb.stk, hb.queue, hb.qe, hb.ini⟩ ⟨Nat.le_refl _, (Mw.refl hb.code).lines⟩
    cases hs : t.st.state with
    | done => exact stop (.inl hs)
    | doNothing => exact stop (.inr hs)
    | initial =>
      refine tp_state (by rw [hs]; nofun) (by rw [hs]) ?_
      exact (tl_initial hk hb hs).cons (fun _ _ h => h) (fun _ _ h => h.elim)
    | inScripting =>
      refine tp_state (by rw [hs]; nofun) (by rw [hs]) ?_
      refine (tl_scripting hk ih fuel hb hs).cons (fun _ _ h => h) ?_
      rintro e t' ⟨h1, h2⟩
      exact ⟨fun h => absurd h h1, fun _ => h2⟩
    | lookingForProperty =>
      refine tp_state (by rw [hs]; nofun) (by rw [hs]) ?_
      refine (tl_property hb hs).cons (fun _ _ h => h) ?_
      rintro e t' ⟨rfl, h1, h2, h3⟩
      refine ⟨fun _ _ => ?_, fun _ => ⟨h1.code, h3, h2, nofun⟩⟩
      exact again _ ⟨h1.code, h1.stk, h1.queue, h1.qe, h1.ini⟩ ⟨h2.le, h2.lines⟩
    | emitQueue =>
      cases hq : t.queue with
      | cons x q =>
        refine Tp.of_ok (a := x) (t' := { t with queue := q }) ?_ ?_
        · conv => lhs; unfold nextToken
          simp only [hs, hq]
        · have hqe := hb.qe
          rw [hq] at hqe
          refine ⟨⟨hb.code, hb.stk, fun h => absurd hs h, fun y hy => hqe y (by simp [show y ∈ q from hy]), hb.ini⟩,
            ⟨Nat.le_refl _, (Mw.refl hb.code).lines⟩, hqe x (by simp)⟩
      | nil =>
        cases hk' : t.st.stack with
        | nil =>
          refine Tp.of_panic (p := .unreachable) ?_ trivial
          conv => lhs; unfold nextToken
          simp only [hs, hq]
          refine bind_panic ?_
          unfold popState
          tstep (t.st) t
          rw [hk']
          rfl
        | cons s k =>
          have e : nextToken (fuel + 1) t = nextToken fuel { t with st := { t.st with state := s, stack := k, restart := true } } := by
            conv => lhs; unfold nextToken
            simp only [hs, hq]
            rw [bind_ok (popState_ok hk')]
            refine (bind_ok (m := modSt _) rfl).trans ?_
            simp only [hq]
          have hst : ∀ x ∈ s :: k, x ≠ .initial ∧ x ≠ .emitQueue := by rw [← hk']; exact hb.stk
          have hb1 : Ld src { t with st := { t.st with state := s, stack := k, restart := true } } :=
            ⟨hb.code, fun x hx => hst x (by simp [show x ∈ k from hx]), fun _ => hq, hb.qe, fun h => absurd h (hst s (by simp)).1⟩
          have := again _ hb1 ⟨Nat.le_refl _, (Mw.refl hb.code).lines⟩
          unfold Tl Tp at this ⊢
          rw [e]
          exact this

end
end Pico
