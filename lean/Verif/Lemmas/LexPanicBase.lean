import Verif.Spec.LexPanics
import Verif.Lemmas.GoNum
/-!
# Why the scanners panic: the judgement, and the tokens without interpolation
-/
namespace Pico
open T

/-- Running `m` in `t` ends in `Q` or `E`, or panics only as `Z` allows. -/
def Tp {α : Type} (Z : Panic → Prop) (m : T α) (t : Tz) (Q : α → Tz → Prop) (E : SyntaxErr → Tz → Prop) : Prop :=
  match m t with
  | .ok a t' => Q a t'
  | .err e t' => E e t'
  | .panic p => Z p
  | .oof => True

section
variable {α β : Type} {Z : Panic → Prop} {t : Tz} {Q : α → Tz → Prop} {E : SyntaxErr → Tz → Prop}

theorem Tp.of_ok {m : T α} {a : α} {t' : Tz} (h : m t = .ok a t') (hq : Q a t') : Tp Z m t Q E := by
  unfold Tp; rw [h]; exact hq

theorem Tp.of_err {m : T α} {e : SyntaxErr} {t' : Tz} (h : m t = .err e t') (hq : E e t') : Tp Z m t Q E := by
  unfold Tp; rw [h]; exact hq

theorem Tp.of_panic {m : T α} {p : Panic} (h : m t = .panic p) (hq : Z p) : Tp Z m t Q E := by
  unfold Tp; rw [h]; exact hq

theorem Tp.bind {m : T β} {f : β → T α} (h : Tp Z m t (fun b t' => Tp Z (f b) t' Q E) E) : Tp Z (m >>= f) t Q E := by
  unfold Tp at h ⊢
  rw [bind_apply]
  unfold T.bnd
  cases hm : m t with
  | ok a t' => rw [hm] at h; exact h
  | err e t' => rw [hm] at h; exact h
  | panic p => rw [hm] at h; exact h
  | oof => trivial

theorem Tp.cons {m : T α} {Q' : α → Tz → Prop} {E' : SyntaxErr → Tz → Prop} (h : Tp Z m t Q' E') (hQ : ∀ a t', Q' a t' → Q a t')
    (hE : ∀ e t', E' e t' → E e t') : Tp Z m t Q E := by
  unfold Tp at h ⊢
  cases hm : m t with
  | ok a t' => rw [hm] at h; exact hQ _ _ h
  | err e t' => rw [hm] at h; exact hE _ _ h
  | panic p => rw [hm] at h; exact h
  | oof => trivial

theorem Tp.mono {m : T α} {Z' : Panic → Prop} (h : Tp Z' m t Q E) (hZ : ∀ p, Z' p → Z p) : Tp Z m t Q E := by
  unfold Tp at h ⊢
  cases hm : m t with
  | ok a t' => rw [hm] at h; exact h
  | err e t' => rw [hm] at h; exact h
  | panic p => rw [hm] at h; exact hZ _ h
  | oof => trivial

theorem Tp.orElse {m n : T α} (h : Tp Z m t Q (fun e t' => (e = .none → Tp Z n t' Q E) ∧ (e ≠ .none → E e t'))) :
    Tp Z (m <||> n) t Q E := by
  unfold Tp at h ⊢
  unfold T.orElse
  cases hm : m t with
  | ok a t' => rw [hm] at h; exact h
  | err e t' =>
    rw [hm] at h
    cases e with
    | none => exact h.1 rfl
    | unterminated w s => exact h.2 nofun
    | unknownCharacter s => exact h.2 nofun
  | panic p => rw [hm] at h; exact h
  | oof => trivial

theorem Tp.ite {c : Prop} [Decidable c] {m n : T α} (h1 : c → Tp Z m t Q E) (h2 : ¬c → Tp Z n t Q E) :
    Tp Z (if c then m else n) t Q E := by
  by_cases hc : c
  · rw [if_pos hc]; exact h1 hc
  · rw [if_neg hc]; exact h2 hc

theorem Tp.of_safe {m : T α} (h : Safe m t Q E) : Tp Z m t Q E := by
  unfold Safe at h
  unfold Tp
  cases hm : m t with
  | ok a t' => rw [hm] at h; exact h
  | err e t' => rw [hm] at h; exact h
  | panic p => rw [hm] at h; exact h.elim
  | oof => trivial

/-- What is known from elsewhere. -/
theorem Tp.and {m : T α} {Q' : α → Tz → Prop} {E' : SyntaxErr → Tz → Prop} {U B : Prop} (h : Tp Z m t Q E) (h' : Twp U B m t Q' E') :
    Tp Z m t (fun a t' => Q a t' ∧ Q' a t') (fun e t' => E e t' ∧ E' e t') := by
  unfold Tp at h ⊢
  unfold Twp at h'
  cases hm : m t with
  | ok a t' => rw [hm] at h h'; exact ⟨h, h'⟩
  | err e t' => rw [hm] at h h'; exact ⟨h, h'⟩
  | panic p => rw [hm] at h; exact h
  | oof => trivial

end

/-- The permitted panics: those with a cause in the source, and `unreachable!()` if `U`. -/
def Zz (src : Text) (U : Prop) (p : Panic) : Prop := LexCause src p ∨ p = .unreachable ∧ U

/-- The position is at the beginning of a character, or could be wrong for a reason. -/
def On (src : Text) (t : Tz) : Prop := t.code = src ∧ ((∃ i, At t i) ∨ LexCause src .charBoundary)

/-- Scanning on: nothing but the position (and the lines) changes. -/
structure Mv (src : Text) (t t' : Tz) : Prop where
  on : On src t'
  state : t'.st.state = t.st.state
  stack : t'.st.stack = t.st.stack
  le : t.st.srcPos ≤ t'.st.srcPos

section
variable {src : Text} {U : Prop} {t : Tz} {E : SyntaxErr → Tz → Prop}

theorem On.of {i : Text} (hc : t.code = src) (h : At t i) : On src t := ⟨hc, .inl ⟨i, h⟩⟩

theorem On.same {t t' : Tz} (h : On src t) (hc : t'.code = t.code) (hp : t'.st.srcPos = t.st.srcPos) : On src t' := by
  refine ⟨hc.trans h.1, h.2.imp_left ?_⟩
  rintro ⟨i, hi⟩
  refine ⟨i, ?_⟩
  unfold At at hi ⊢
  rw [hc, hp]
  exact hi

theorem Mv.refl (h : On src t) : Mv src t t := ⟨h, rfl, rfl, Nat.le_refl _⟩

theorem Mv.trans {t t' t'' : Tz} (h : Mv src t t') (h' : Mv src t' t'') : Mv src t t'' :=
  ⟨h'.on, h'.state.trans h.state, h'.stack.trans h.stack, Nat.le_trans h.le h'.le⟩

theorem Mv.adv {n : Nat} {b : Text} (hc : t.code = src) (h : At (t.adv n) b) : Mv src t (t.adv n) :=
  ⟨.of hc h, rfl, rfl, Nat.le_add_right _ _⟩

theorem Mv.nextLine {t' : Tz} (h : Mv src t t') : Mv src t { t' with st := t'.st.nextLine } :=
  ⟨h.on.same rfl rfl, h.state, h.stack, h.le⟩

theorem zz {p : Panic} (h : LexCause src p) : Zz src U p := .inl h

theorem tp_input {Q : Text → Tz → Prop} (hon : On src t) (h : ∀ i, At t i → Q i t) : Tp (Zz src U) input t Q E := by
  unfold Tp input
  cases hd : dropBytes t.code t.st.srcPos with
  | some i => exact h i hd
  | none =>
    rcases hon.2 with ⟨i, hi⟩ | hz
    · unfold At at hi; rw [hd] at hi; cases hi
    · exact zz hz

theorem tp_inputPos {Z : Panic → Prop} {Q : Nat → Tz → Prop} (h : Q t.st.srcPos t) : Tp Z inputPos t Q E := h

theorem tp_subT {Z : Panic → Prop} {a b : Nat} {Q : Nat → Tz → Prop} (hle : b ≤ a) (h : Q (a - b) t) : Tp Z (subT a b) t Q E :=
  .of_safe (sf_subT hle h)

theorem tp_advBytes {Z : Panic → Prop} {a b : Text} {n : Nat} {Q : Text → Tz → Prop} (h : At t (a ++ b)) (hn : n = byteLen a)
    (hq : At (t.adv (byteLen a)) b → Q a (t.adv (byteLen a))) : Tp Z (advanceBytes n) t Q E := by
  subst hn
  exact Tp.of_ok (advanceBytes_at h) (hq h.adv)

theorem tp_advChars {Z : Panic → Prop} {i : Text} {n : Nat} {Q : Text → Tz → Prop} (h : At t i)
    (hq : At (t.adv (byteLen (i.take n))) (i.drop n) → Q (i.take n) (t.adv (byteLen (i.take n)))) :
    Tp Z (advanceChars n) t Q E := by
  unfold advanceChars
  refine Tp.bind (Tp.of_ok (input_at h) ?_)
  have h' : At t (i.take n ++ i.drop n) := by rw [List.take_append_drop]; exact h
  exact tp_advBytes h' rfl hq

theorem tp_advChars' {Z : Panic → Prop} {a b : Text} {n : Nat} {Q : Text → Tz → Prop} (h : At t (a ++ b)) (hn : n = a.length)
    (hq : At (t.adv (byteLen a)) b → Q a (t.adv (byteLen a))) : Tp Z (advanceChars n) t Q E := by
  subst hn
  refine tp_advChars h ?_
  rw [List.take_left, List.drop_left]
  exact hq

theorem tp_label {Q : Option (Text × Span) → Tz → Prop} (hon : On src t)
    (hn : Q none t)
    (hs : ∀ w r, At t (w ++ r) → IsLabel w → At (t.adv (byteLen w)) r →
      Q (some (w, mkSpan t.st.srcPos (t.st.srcPos + w.length))) (t.adv (byteLen w))) : Tp (Zz src U) label t Q E := by
  rcases hon.2 with ⟨i, hi⟩ | hz
  · refine .of_safe (sf_label hi (fun _ => hn) fun w r e hw _ _ => ?_)
    subst e
    exact hs w r hi hw hi.adv
  · cases hd : dropBytes t.code t.st.srcPos with
    | some i =>
      refine .of_safe (sf_label hd (fun _ => hn) fun w r e hw _ _ => ?_)
      subst e
      exact hs w r hd hw (At.adv hd)
    | none =>
      refine Tp.of_panic (p := .charBoundary) ?_ (zz hz)
      unfold label
      exact bind_panic (by unfold input; rw [hd])

theorem tp_whitespace (hon : On src t) :
    Tp (Zz src U) whitespace t (fun _ t' => Mv src t t' ∧ ∃ w r, At t (w ++ r) ∧ Blank w ∧ At t' r) E := by
  unfold whitespace
  refine Tp.bind (tp_input hon fun i hi => ?_)
  obtain ⟨w, r, rfl, hw, hr⟩ := blank_split i
  have hat := hi.ws hw
  obtain ⟨f1, f2, f3, f4⟩ := wsGo_fields w hw t.st
  have e : wsGo (w ++ r) t.st = wsGo w t.st := wsGo_append w r hw hr _
  refine Tp.of_ok rfl ?_
  rw [e]
  exact ⟨⟨.of hon.1 hat, f2, f3, by show t.st.srcPos ≤ (wsGo w t.st).srcPos; rw [f1]; exact Nat.le_add_right _ _⟩, w, r, hi, blank_of hw, hat⟩

theorem tp_whitespaceOnly (hon : On src t) : Tp (Zz src U) whitespaceOnly t (fun _ t' => Mv src t t') E := by
  rcases hd : dropBytes t.code t.st.srcPos with _ | i
  · refine Tp.of_panic (p := .charBoundary) (by unfold whitespaceOnly; exact bind_panic (by unfold input; rw [hd])) ?_
    rcases hon.2 with ⟨i, hi⟩ | hz
    · unfold At at hi; rw [hd] at hi; cases hi
    · exact zz hz
  · obtain ⟨w, r, rfl, hw, hr⟩ := gap_split i
    have hi : At t (w ++ r) := hd
    exact Tp.of_ok (whitespaceOnly_at hi hw hr) (.adv hon.1 hi.adv)

theorem tp_newline (hon : On src t) : Tp (Zz src U) newline t (fun _ t' => Mv src t t') E := by
  unfold newline
  refine Tp.bind (tp_input hon fun i hi => ?_)
  refine Tp.ite (fun h => ?_) (fun _ => Tp.ite (fun h => ?_) (fun _ => Mv.refl hon))
  · obtain ⟨r, rfl⟩ := startsWith_split h
    refine Tp.bind (tp_advBytes hi rfl fun h1 => ?_)
    exact (Mv.adv hon.1 h1).nextLine
  · rw [Bool.or_eq_true] at h
    rcases h with h | h
    · obtain ⟨r, rfl⟩ := startsWith_split h
      exact Tp.bind (tp_advBytes hi rfl fun h1 => (Mv.adv hon.1 h1).nextLine)
    · obtain ⟨r, rfl⟩ := startsWith_split h
      exact Tp.bind (tp_advBytes hi rfl fun h1 => (Mv.adv hon.1 h1).nextLine)

/-! ## Numbers -/

/-- A run of digits with the value of a literal can be read. -/
theorem dec_reads {ds : Text} {v : Nat} (he : ds ≠ []) (hdig : ∀ c ∈ ds, c.isDigit = true) (h1 : IntLit ds v) (hv : v < 2 ^ 63) :
    (if startsWith ds c!"0" && ds.length > 1 then fromStrRadix i64Max 8 (ds.drop 1) else fromStrRadix i64Max 10 ds) = some v := by
  cases h1 with
  | dec _ _ _ hz =>
    have hcond : (startsWith ds c!"0" && decide (ds.length > 1)) = false := by
      cases ds with
      | nil => exact absurd rfl he
      | cons c ds =>
        by_cases hc : c = '0'
        · subst hc
          rw [hz rfl]
          rfl
        · simp [startsWith, hc]
    rw [hcond]
    exact fromStrRadix_value he (fun c hc => ⟨by simp [hdig c hc], isDigit_value (hdig c hc)⟩) hv
  | oct es hes ho =>
    have hdig : ∀ c, isOctDigit c = true → c.isDigit = true ∧ digitValue c < 8 := by
      intro c hc
      unfold isOctDigit at hc
      simp only [Bool.or_eq_true, beq_iff_eq] at hc
      rcases hc with ((((((rfl | rfl) | rfl) | rfl) | rfl) | rfl) | rfl) | rfl <;> decide
    have hcond : (startsWith (c!"0" ++ es) c!"0" && decide ((c!"0" ++ es).length > 1)) = true := by
      have := List.length_pos_iff.2 hes
      simp [startsWith]
      omega
    rw [hcond]
    exact fromStrRadix_value hes (fun x hx => ⟨by simp [(hdig x (ho x hx)).1], (hdig x (ho x hx)).2⟩) hv
  | hex es hes _ => cases hdig 'x' (by simp)
  | bin es hes _ => cases hdig 'b' (by simp)

theorem At.whole {a b : Text} (h : At t (a ++ b)) : ∃ p, t.code = p ++ a ++ b := by
  obtain ⟨p, hp, _⟩ := dropBytes_split h
  exact ⟨p, by rw [hp, List.append_assoc]⟩

theorem tp_onum (hon : On src t) : Tp (Zz src U) onumDnumLnum t (fun _ t' => Mv src t t') (fun _ t' => Mv src t t') := by
  unfold onumDnumLnum
  refine Tp.bind (tp_input hon fun i hi => ?_)
  refine Tp.ite (fun he => Tp.of_ok rfl (Mv.refl hon)) (fun hie => ?_)
  have hine : i ≠ [] := by rintro rfl; exact hie rfl
  obtain ⟨ds, r, rfl, hds, hr⟩ := span_at notDigit i
  have hdig : ∀ c ∈ ds, c.isDigit = true := fun c hc => notDigit_false (hds c hc)
  have hnd : ∀ c, r.head? = some c → c.isDigit = false := fun c hc => notDigit_true (hr c hc)
  dsimp only
  have hlen : (ds ++ r).take ((position notDigit (ds ++ r)).getD (byteLen (ds ++ r))) = ds := by
    rw [position_of_span hds hr]
    split
    · rename_i h0; subst h0
      rw [List.append_nil]
      exact List.take_of_length_le (length_le_byteLen ds)
    · exact List.take_left
  have he0 : ((position notDigit (ds ++ r)).getD (byteLen (ds ++ r))) = 0 ↔ ds = [] := by
    rw [position_of_span hds hr]
    split
    · rename_i h0; subst h0
      have := length_le_byteLen ds
      rw [List.append_nil] at hine ⊢
      have := byteLen_pos hine
      show byteLen ds = 0 ↔ _
      constructor
      · omega
      · intro h; exact absurd h hine
    · exact List.length_eq_zero_iff
  generalize (position notDigit (ds ++ r)).getD (byteLen (ds ++ r)) = e at *
  refine Tp.bind (tp_inputPos ?_)
  have hdrop : (ds ++ r).drop e = r := by
    have := List.take_append_drop e (ds ++ r)
    rw [hlen] at this
    exact List.append_cancel_left this
  refine Tp.bind (tp_advChars hi fun hi1 => ?_)
  rw [hlen, hdrop] at hi1
  rw [hlen]
  have m1 := Mv.adv hon.1 hi1
  have back : ∀ n, Mv src t ((t.adv n).to t.st.srcPos) := fun n => ⟨hon.same rfl rfl, rfl, rfl, Nat.le_refl _⟩
  refine Tp.bind (Tp.of_ok (input_at hi1) ?_)
  refine Tp.ite (fun hdot => ?_) (fun hdot => ?_)
  · refine Tp.bind (tp_inputPos ?_)
    refine Tp.ite (fun hne => ?_) (fun _ => back _)
    have hne : ds ≠ [] := fun h => by rw [he0.2 h] at hne; exact absurd hne (by decide)
    have bad : ∀ o, (if startsWith ds c!"0" && ds.length > 1 then fromStrRadix i64Max 8 (ds.drop 1) else fromStrRadix i64Max 10 ds) = o →
        o = none → Zz src U .unwrap := by
      intro o ho ho2
      subst ho2
      obtain ⟨p, hp⟩ := hi.whole
      refine zz (.number (a := p) (w := ds) (b := r) (by rw [← hon.1, hp]) (.dec hne hdig ?_) ?_)
      · rintro c q rfl
        refine ⟨hnd c rfl, ?_⟩
        rintro rfl
        simp [startsWith] at hdot
      · intro v hv
        by_cases hlt : v < 2 ^ 63
        · rw [dec_reads hne hdig hv hlt] at ho; cases ho
        · omega
    rw [byteLen_ascii (digits_ascii hds)] at m1 ⊢
    refine Tp.ite (fun h8 => ?_) (fun h8 => ?_)
    · rw [if_pos h8] at bad
      cases hv : fromStrRadix i64Max 8 (ds.drop 1) with
      | none => exact bad _ hv rfl
      | some v => exact m1
    · rw [if_neg h8] at bad
      cases hv : fromStrRadix i64Max 10 ds with
      | none => exact bad _ hv rfl
      | some v => exact m1
  · have hd' : startsWith r c!"." = true := by simpa using hdot
    obtain ⟨q, rfl⟩ := startsWith_split hd'
    refine Tp.bind (tp_advChars' (a := c!".") hi1 rfl fun hi2 => ?_)
    have m2 := m1.trans (Mv.adv hon.1 hi2)
    refine Tp.bind (Tp.of_ok (input_at hi2) ?_)
    refine Tp.ite (fun _ => back 0) (fun h0 => ?_)
    refine Tp.bind (tp_inputPos ?_)
    refine Tp.bind (tp_advChars hi2 fun hi3 => ?_)
    refine Tp.ite (fun hdot => ?_) (fun _ => m2.trans (Mv.adv hon.1 hi3))
    -- nothing but a point
    refine zz (.dot ?_)
    have hdot := eq_of_beq hdot
    have hds0 : ds = [] := by
      cases ds with
      | nil => rfl
      | cons d ds =>
        have := congrArg List.length hdot
        simp at this
    subst hds0
    have hq : q.take ((position notDigit q).getD q.length) = [] := by
      simpa using hdot
    have hq0 : q = [] := by
      cases q with
      | nil => rfl
      | cons c q =>
        exfalso
        cases hp : position notDigit (c :: q) with
        | none => rw [hp] at hq; simp at hq
        | some n =>
          rw [hp] at hq
          cases n with
          | zero => apply h0; rw [hp]; rfl
          | succ n => simp at hq
    subst hq0
    obtain ⟨p, hp⟩ := hi.whole
    exact ⟨p, by rw [← hon.1, hp]; simp⟩

theorem tp_prefixed (pre : Text) (radix : Nat) (isDigit : Char → Bool) (hp : byteLen pre = 2) (hon : On src t)
    (hz : ∀ ds r, At t (pre ++ (ds ++ r)) → ds ≠ [] → (∀ c ∈ ds, isDigit c = true) → (∀ c, r.head? = some c → isDigit c = false) →
      fromStrRadix i64Max radix ds = none → LexCause src .unwrap) :
    Tp (Zz src U) (prefixedNum pre radix isDigit) t (fun _ t' => Mv src t t') (fun _ t' => Mv src t t') := by
  unfold prefixedNum
  refine Tp.bind (tp_input hon fun i hi => ?_)
  refine Tp.ite (fun _ => Mv.refl hon) (fun hc => ?_)
  simp only [Bool.or_eq_true, not_or, decide_eq_true_eq] at hc
  have hs : startsWith i pre = true := by simpa using hc.2
  obtain ⟨i, rfl⟩ := startsWith_split hs
  refine Tp.bind (tp_advBytes hi hp.symm fun hi1 => ?_)
  have m1 := Mv.adv hon.1 hi1
  refine Tp.bind (Tp.of_ok (input_at hi1) ?_)
  dsimp only
  refine Tp.ite (fun _ => m1) (fun h0 => ?_)
  obtain ⟨ds, r, rfl, hds, hr⟩ := span_at (fun c => !isDigit c) i
  have hpos : (position (fun c => !isDigit c) (ds ++ r)).getD (ds ++ r).length = ds.length := by
    rw [position_of_span hds hr]
    split
    · rename_i h0; subst h0; simp
    · rfl
  refine Tp.bind (tp_inputPos ?_)
  refine Tp.bind (tp_subT (by simp only [Tz.adv_pos, hp]; omega) ?_)
  refine Tp.bind (tp_advChars' hi1 hpos fun hi2 => ?_)
  cases hv : fromStrRadix i64Max radix ds with
  | some v => exact m1.trans (Mv.adv hon.1 hi2)
  | none =>
    refine zz (hz ds r hi ?_ (fun c hc => by simpa using hds c hc) (fun c hc => by simpa using hr c hc) hv)
    rintro rfl
    rw [position_of_span hds hr] at h0
    split at h0
    · rename_i hr0
      subst hr0
      apply hc.1
      rw [byteLen_append, hp]
      decide
    · exact h0 rfl

theorem intLit_prefixed {x : Char} {ds : Text} {v : Nat} (hx : x = 'x' ∨ x = 'b') (h : IntLit ('0' :: x :: ds) v) :
    v = numberValue (if x = 'x' then 16 else 2) ds := by
  generalize hl : '0' :: x :: ds = l at h
  cases h with
  | dec _ _ hd =>
    subst hl
    have := hd x (by simp)
    rcases hx with rfl | rfl <;> cases this
  | oct es _ hd =>
    cases hl
    have := hd x (by simp)
    rcases hx with rfl | rfl <;> cases this
  | hex es _ _ => cases hl; rfl
  | bin es _ _ => cases hl; rfl

theorem tp_hnum (hon : On src t) : Tp (Zz src U) hnum t (fun _ t' => Mv src t t') (fun _ t' => Mv src t t') := by
  refine tp_prefixed _ _ _ rfl hon fun ds r hi hne hd hr hv => ?_
  have hd' : ∀ c ∈ ds, c.isDigit = true ∨ c ∈ c!"abcdefABCDEF" := fun c hc => (isHexDigit_iff c).1 (hd c hc)
  rw [← List.append_assoc] at hi
  obtain ⟨p, hp⟩ := hi.whole
  refine .number (a := p) (w := c!"0x" ++ ds) (b := r) (by rw [← hon.1, hp]) (.hex hne hd' ?_) ?_
  · rintro c q rfl h
    have := hr c rfl
    rw [(isHexDigit_iff c).2 h] at this
    cases this
  · intro v h
    by_cases hlt : v < 2 ^ 63
    · rw [intLit_prefixed (.inl rfl) h] at hlt
      rw [fromStrRadix_value hne (fun c hc => ⟨(hexDigit_class (hd' c hc)).2.1, (hexDigit_class (hd' c hc)).2.2⟩) hlt] at hv
      cases hv
    · omega

theorem tp_bnum (hon : On src t) : Tp (Zz src U) bnum t (fun _ t' => Mv src t t') (fun _ t' => Mv src t t') := by
  refine tp_prefixed _ _ _ rfl hon fun ds r hi hne hd hr hv => ?_
  have hd' : ∀ c ∈ ds, c = '0' ∨ c = '1' := fun c hc => by simpa using hd c hc
  rw [← List.append_assoc] at hi
  obtain ⟨p, hp⟩ := hi.whole
  refine .number (a := p) (w := c!"0b" ++ ds) (b := r) (by rw [← hon.1, hp]) (.bin hne hd' ?_) ?_
  · rintro c q rfl h
    have := hr c rfl
    rcases h with rfl | rfl <;> cases this
  · intro v h
    by_cases hlt : v < 2 ^ 63
    · rw [intLit_prefixed (.inr rfl) h, if_neg (by decide)] at hlt
      rw [fromStrRadix_value hne (fun c hc => by rcases hd' c hc with rfl | rfl <;> decide) hlt] at hv
      cases hv
    · omega

theorem tp_variable (hon : On src t) : Tp (Zz src U) matchVariable t (fun _ t' => Mv src t t') (fun _ t' => Mv src t t') := by
  unfold matchVariable
  refine Tp.bind (tp_input hon fun i hi => ?_)
  refine Tp.ite (fun _ => Mv.refl hon) (fun hc => ?_)
  have hs : startsWith i c!"$" = true := by simp only [Bool.or_eq_true, not_or] at hc; simpa using hc.2
  obtain ⟨r, rfl⟩ := startsWith_split hs
  refine Tp.bind (tp_inputPos ?_)
  refine Tp.bind (tp_advBytes hi rfl fun hi1 => ?_)
  have m1 := Mv.adv hon.1 hi1
  refine Tp.bind (tp_label m1.on ?_ fun w r2 hw hl hat => ?_)
  · exact (⟨hon.same rfl rfl, rfl, rfl, Nat.le_refl _⟩ : Mv src t _)
  · exact m1.trans (Mv.adv hon.1 hat)

/-! ## Comments -/

theorem tp_commentDone {t0 : Tz} (old : Nat) (doc : Bool) (c : Text) (h : Mv src t0 t) :
    Tp (Zz src U) (commentDone old doc c) t (fun _ t' => Mv src t0 t') E := by
  unfold commentDone
  refine Tp.bind (m := modSt _) (Tp.of_ok rfl ?_)
  obtain ⟨f1, f2, f3, f4⟩ := repeatN_nextLine (linesCount c - 1) t.st
  exact ⟨h.on.same rfl f1, f2.trans h.state, f3.trans h.stack, by show t0.st.srcPos ≤ _; rw [f1]; exact h.le⟩

theorem tp_comments (hon : On src t) : Tp (Zz src U) matchComments t (fun _ t' => Mv src t t') (fun _ t' => Mv src t t') := by
  have line : ∀ {a r : Text} {n : Nat}, At t (a ++ r) → n = byteLen a →
      Tp (Zz src U) (lineComment t.st.srcPos n) t (fun _ t' => Mv src t t') (fun _ t' => Mv src t t') := by
    intro a r n hi hn
    unfold lineComment
    refine Tp.bind (tp_advBytes hi hn fun h1 => ?_)
    refine Tp.bind (Tp.of_ok (input_at h1) ?_)
    refine Tp.bind (tp_advChars h1 fun h2 => ?_)
    exact tp_commentDone _ _ _ ((Mv.adv hon.1 h1).trans (Mv.adv hon.1 h2))
  have block : ∀ {a r : Text} {n : Nat} {doc : Bool}, At t (a ++ r) → n = byteLen a →
      Tp (Zz src U) (blockComment t.st.srcPos n doc) t (fun _ t' => Mv src t t') (fun _ t' => Mv src t t') := by
    intro a r n doc hi hn
    unfold blockComment
    refine Tp.bind (tp_advBytes hi hn fun h1 => ?_)
    refine Tp.bind (Tp.of_ok (input_at h1) ?_)
    cases hb : beforeSub c!"*/" r with
    | none => exact Tp.bind (tp_inputPos (Mv.adv hon.1 h1))
    | some body =>
      obtain ⟨q, rfl⟩ := beforeSub_split hb
      refine Tp.bind (tp_advBytes h1 rfl fun h2 => ?_)
      refine Tp.bind (tp_advBytes h2 rfl fun h3 => ?_)
      exact tp_commentDone _ _ _ (((Mv.adv hon.1 h1).trans (Mv.adv hon.1 h2)).trans (Mv.adv hon.1 h3))
  unfold matchComments
  refine Tp.bind (tp_inputPos ?_)
  refine Tp.bind (tp_input hon fun i hi => ?_)
  refine Tp.ite (fun h => ?_) (fun _ => Tp.ite (fun h => ?_) (fun _ => Tp.ite (fun h => ?_) (fun _ => Tp.ite (fun h => ?_) (fun _ => Mv.refl hon))))
  · obtain ⟨r, rfl⟩ := startsWith_split h; exact line hi rfl
  · obtain ⟨r, rfl⟩ := startsWith_split h; exact line hi rfl
  · obtain ⟨r, rfl⟩ := startsWith_split h; exact block hi rfl
  · obtain ⟨r, rfl⟩ := startsWith_split h; exact block hi rfl

end
end Pico
