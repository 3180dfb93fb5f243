import Verif.Lemmas.LayTok
/-! # Numbers, variables and comments -/
namespace Pico
open T

section
variable {t : Tz}

/-! ### Integers -/

/-- Characters with a property do not reach beyond the last one of them. -/
theorem prefix_run {p : Char → Prop} {es ds r : Text} (h : es <+: ds ++ r) (he : ∀ c ∈ es, p c) (hr : ∀ c, r.head? = some c → ¬ p c) :
    es.length ≤ ds.length := by
  induction ds generalizing es with
  | nil =>
    cases es with
    | nil => exact Nat.le_refl _
    | cons e es =>
      obtain ⟨q, rfl⟩ : e :: es <+: r := h
      exact absurd (he e (by simp)) (hr e rfl)
  | cons d ds ih =>
    cases es with
    | nil => simp
    | cons e es =>
      rw [List.cons_append, List.cons_prefix_cons] at h
      have := ih h.2 fun c hc => he c (by simp [hc])
      simp only [List.length_cons]
      omega

/-- The forms of integers. -/
theorem intLit_forms {l : Text} {u : Nat} (h : IntLit l u) : (∀ c ∈ l, c.isDigit = true) ∨
    (∃ es, l = c!"0x" ++ es ∧ es ≠ [] ∧ ∀ c ∈ es, c.isDigit = true ∨ c ∈ c!"abcdefABCDEF") ∨
    (∃ es, l = c!"0b" ++ es ∧ es ≠ [] ∧ ∀ c ∈ es, c = '0' ∨ c = '1') := by
  cases h with
  | dec _ h hd hz => exact .inl hd
  | oct es h hd =>
    refine .inl fun c hc => ?_
    have hoct : ∀ c, isOctDigit c = true → c.isDigit = true := by
      intro c h
      simp only [isOctDigit, Bool.or_eq_true, beq_iff_eq] at h
      rcases h with ((((((rfl | rfl) | rfl) | rfl) | rfl) | rfl) | rfl) | rfl <;> rfl
    rcases List.mem_cons.1 hc with rfl | hc
    · rfl
    · exact hoct c (hd c hc)
  | hex es h hd => exact .inr (.inl ⟨es, rfl, h, hd⟩)
  | bin es h hd => exact .inr (.inr ⟨es, rfl, h, hd⟩)

/-- Digits are an integer as far as they go, unless they begin another form. -/
theorem int_longest {ds r l : Text} {u : Nat} (hr : ∀ c, r.head? = some c → c.isDigit = false)
    (hx : ∀ c q, ds ++ r ≠ c!"0x" ++ c :: q) (hb : ∀ c q, ds ++ r ≠ c!"0b" ++ c :: q)
    (h : IntLit l u) (hp : l <+: ds ++ r) : l.length ≤ ds.length := by
  rcases intLit_forms h with h | ⟨es, rfl, hne, _⟩ | ⟨es, rfl, hne, _⟩
  · exact prefix_run (p := fun c => c.isDigit = true) hp h fun c hc h => by rw [hr c hc] at h; cases h
  · obtain ⟨q, hq⟩ := hp
    cases es with
    | nil => exact absurd rfl hne
    | cons e es => exact absurd hq.symm (by simpa using hx e (es ++ q))
  · obtain ⟨q, hq⟩ := hp
    cases es with
    | nil => exact absurd rfl hne
    | cons e es => exact absurd hq.symm (by simpa using hb e (es ++ q))

theorem hex_longest {ds r l : Text} {u : Nat} (hr : ∀ c, r.head? = some c → ¬ (c.isDigit = true ∨ c ∈ c!"abcdefABCDEF"))
    (h : IntLit l u) (hp : l <+: c!"0x" ++ (ds ++ r)) : l.length ≤ (c!"0x" ++ ds).length := by
  rcases intLit_forms h with h | ⟨es, rfl, hne, he⟩ | ⟨es, rfl, hne, _⟩
  · have := prefix_run (p := fun c => c.isDigit = true) (ds := c!"0") (r := 'x' :: (ds ++ r)) hp h fun c hc h => by cases hc; cases h
    simp only [List.length_append, List.length_cons, List.length_nil] at this ⊢
    omega
  · rw [List.prefix_append_right_inj] at hp
    have := prefix_run hp he hr
    simp only [List.length_append]
    omega
  · obtain ⟨q, hq⟩ := hp
    cases hq

theorem bin_longest {ds r l : Text} {u : Nat} (hr : ∀ c, r.head? = some c → ¬ (c = '0' ∨ c = '1'))
    (h : IntLit l u) (hp : l <+: c!"0b" ++ (ds ++ r)) : l.length ≤ (c!"0b" ++ ds).length := by
  rcases intLit_forms h with h | ⟨es, rfl, hne, _⟩ | ⟨es, rfl, hne, he⟩
  · have := prefix_run (p := fun c => c.isDigit = true) (ds := c!"0") (r := 'b' :: (ds ++ r)) hp h fun c hc h => by cases hc; cases h
    simp only [List.length_append, List.length_cons, List.length_nil] at this ⊢
    omega
  · obtain ⟨q, hq⟩ := hp
    cases hq
  · rw [List.prefix_append_right_inj] at hp
    have := prefix_run hp he hr
    simp only [List.length_append]
    omega

theorem notDigit_false {c : Char} (h : notDigit c = false) : c.isDigit = true := by
  rw [isDigit_iff]; rw [notDigit_inRange] at h; simpa using h

theorem notDigit_true {c : Char} (h : notDigit c = true) : c.isDigit = false := by
  rw [isDigit_iff]; rw [notDigit_inRange] at h; simpa using h

theorem i64_lt {v : Nat} (h : v ≤ i64Max) : v < 2 ^ 63 := by unfold i64Max at h; omega

/-- No fraction begins here. -/
def NoFracAt (t : Tz) : Prop := ∀ c r, At t ('.' :: c :: r) → c.isDigit = false

theorem onum_lay {i : Text} (hs : Scr t) (hi : At t i) (hne : i ≠ []) (hx : ∀ c q, i ≠ c!"0x" ++ c :: q)
    (hb : ∀ c q, i ≠ c!"0b" ++ c :: q) : MatchL (NoFracAt t) onumDnumLnum t := by
  unfold MatchL onumDnumLnum
  refine Twp.bind (Twp.of_ok (input_at hi) ?_)
  refine Twp.ite (fun h => absurd (List.isEmpty_iff.1 h) hne) (fun _ => ?_)
  dsimp only
  refine Twp.bind (tw_inputPos ?_)
  have hend : ∀ ds r, i = ds ++ r → (∀ c ∈ ds, notDigit c = false) → (∀ c, r.head? = some c → notDigit c = true) →
      ((position notDigit i).getD (byteLen i) != 0) = true → ds ≠ [] := by
    rintro ds r rfl h1 h2 h rfl
    rw [position_of_span h1 h2] at h
    split at h
    · rename_i hr
      subst hr
      exact hne rfl
    · cases h
  refine Twp.bind (tw_span hi (length_le_byteLen i) fun ds r hr hds hrr hl => ?_)
  have back : ∀ n, ({ (t.adv (byteLen ds)).adv n with st := { ((t.adv (byteLen ds)).adv n).st with srcPos := t.st.srcPos } } : Tz) = t := fun _ => rfl
  have back0 : ({ (t.adv (byteLen ds)) with st := { (t.adv (byteLen ds)).st with srcPos := t.st.srcPos } } : Tz) = t := rfl
  refine Twp.bind (Twp.of_ok (input_at hl.mv.at') ?_)
  have hdig : ∀ c ∈ ds, c.isDigit = true := fun c hc => notDigit_false (hds c hc)
  refine Twp.ite (fun hdot => ?_) (fun hdot => ?_)
  · refine Twp.bind (tw_inputPos ?_)
    refine Twp.ite (fun h0 => ?_) (fun _ => ?_)
    · have hdne := hend ds r hr hds hrr h0
      have hnd' : ∀ c, r.head? = some c → c.isDigit = false := fun c hc => notDigit_true (hrr c hc)
      rw [hr] at hx hb
      have hmax : ∀ l u, IntLit l u → l <+: ds ++ r → l.length ≤ ds.length := fun l u h hp => int_longest hnd' hx hb h hp
      have hnd : (∀ c ∈ ds, c.isDigit = true) → ∀ c, r.head? = some c → c.isDigit = false ∧ c ≠ '.' := by
        refine fun _ c hc => ⟨hnd' c hc, ?_⟩
        rintro rfl
        obtain ⟨q, rfl⟩ := head_split hc
        simp [startsWith] at hdot
      refine Twp.ite (fun hz => ?_) (fun hz => ?_)
      · cases hf : fromStrRadix i64Max 8 (ds.drop 1) with
        | none => exact Twp.abort fun _ => trivial
        | some v =>
          obtain ⟨f1, f2, f3, f4⟩ := fromStrRadix_inv hf
          rw [Bool.and_eq_true] at hz
          obtain ⟨es, rfl⟩ := startsWith_split hz.1
          have hlit : IntLit (c!"0" ++ es) v := by
            rw [f3]
            exact .oct es f1 fun c hc => octDigit_of (hdig c (by simp [hc])) (f2 c (by simpa using hc)).2
          exact StepM.plain hs hl (.int hlit (i64_lt f4) hmax hnd) nofun nofun
      · cases hf : fromStrRadix i64Max 10 ds with
        | none => exact Twp.abort fun _ => trivial
        | some v =>
          obtain ⟨f1, f2, f3, f4⟩ := fromStrRadix_inv hf
          have hlit : IntLit ds v := by
            rw [f3]
            refine .dec ds f1 hdig fun h0 => ?_
            obtain ⟨es, rfl⟩ := head_split h0
            cases es with
            | nil => rfl
            | cons e es =>
              exfalso
              apply hz
              rw [Bool.and_eq_true]
              refine ⟨startsWith_append _ _, ?_⟩
              have := length_le_byteLen (['0'] ++ e :: es)
              simp only [List.cons_append, List.nil_append, List.length_cons] at this
              rw [decide_eq_true_eq]
              show byteLen ('0' :: e :: es) > 1
              omega
          exact StepM.plain hs hl (.int hlit (i64_lt f4) hmax hnd) nofun nofun
    · refine Twp.bind (m := setPos _) (Twp.of_ok rfl ?_)
      refine fun _ => ⟨back0, fun c q hq => ?_⟩
      have e := hi.unique hq
      rw [e] at hr
      cases ds with
      | nil =>
        have : r = '.' :: c :: q := hr.symm
        subst this
        simp [startsWith] at hdot
      | cons d ds =>
        injection hr with h1 h2
        subst h1
        have := hdig '.' (by simp)
        cases this
  · have hdot' : startsWith r c!"." = true := by simpa using hdot
    obtain ⟨r2, rfl⟩ := startsWith_split hdot'
    refine Twp.bind (tw_advChars hl.mv.at' fun _ => ?_)
    have hl2 : Lay (t.adv (byteLen ds)) c!"." ((t.adv (byteLen ds)).adv (byteLen ((c!"." ++ r2).take 1))) r2 := Lay.adv hl.mv.at'
    have hl2 := hl.trans hl2
    have htk : (c!"." ++ r2).take 1 = c!"." := by simp
    rw [htk] at hl2 ⊢
    refine Twp.bind (Twp.of_ok (input_at hl2.mv.at') ?_)
    refine Twp.ite (fun h0 => ?_) (fun _ => ?_)
    · refine Twp.bind (m := setPos _) (Twp.of_ok rfl ?_)
      refine fun _ => ⟨back _, fun c q hq => ?_⟩
      rw [Bool.and_eq_true, beq_iff_eq, beq_iff_eq, byteLen_append, show byteLen c!"." = 1 from rfl] at h0
      have hdn : ds = [] := by
        have := length_le_byteLen ds
        cases ds with
        | nil => rfl
        | cons d ds => simp only [List.length_cons] at this; omega
      subst hdn
      have e := hi.unique hq
      rw [e] at hr
      injection hr with _ h1
      have h1 : c :: q = r2 := h1
      subst h1
      have := h0.1
      unfold position at this
      cases hcd : notDigit c with
      | true => exact notDigit_true hcd
      | false => simp [hcd] at this
    · refine Twp.bind (tw_inputPos ?_)
      refine Twp.bind (tw_span hl2.mv.at' (Nat.le_refl _) fun fs r3 _ hfs hr3 hl3 => ?_)
      refine Twp.ite (fun _ => Twp.abort fun _ => trivial) (fun hnd => ?_)
      refine StepM.plain hs (hl2.trans hl3) ?_ nofun nofun
      refine .double ds fs ?_ ?_ ?_
      · intro c hc
        rcases List.mem_append.1 hc with hc | hc
        · exact hdig c hc
        · exact notDigit_false (hfs c hc)
      · intro h
        obtain ⟨rfl, rfl⟩ := List.append_eq_nil_iff.1 h
        exact hnd rfl
      · exact fun c hc => notDigit_true (hr3 c hc)

/-- No number with this prefix stands here. -/
def NoNumAt (t : Tz) (pre : Text) : Prop := ∀ c r, ¬ At t (pre ++ c :: r)

theorem prefixedNum_lay {pre : Text} {radix : Nat} {p : Char → Bool} (hs : Scr t) (hpre : byteLen pre = 2)
    (hstray : ∀ c r, At t (pre ++ c :: r) → p c = true)
    (hlit : ∀ ds, ds ≠ [] → (∀ c ∈ ds, p c = true) → IntLit (pre ++ ds) (numberValue radix ds))
    (hmax : ∀ ds r l u, (∀ c, r.head? = some c → p c = false) → IntLit l u → l <+: pre ++ (ds ++ r) → l.length ≤ (pre ++ ds).length)
    (hx : ∃ c ∈ pre, c.isDigit = false) : MatchL (NoNumAt t pre) (prefixedNum pre radix p) t := by
  unfold MatchL prefixedNum
  refine Twp.bind (tw_input fun i hi => ?_)
  refine Twp.ite (fun h => fun _ => ⟨rfl, fun c r hr => ?_⟩) (fun h => ?_)
  · have e := hi.unique hr
    subst e
    rw [Bool.or_eq_true, decide_eq_true_eq, startsWith_append, byteLen_append, hpre] at h
    have := length_le_byteLen (c :: r)
    rw [List.length_cons] at this
    rcases h with h | h
    · omega
    · cases h
  simp only [Bool.or_eq_true, decide_eq_true_eq, Bool.not_eq_true', not_or, Bool.not_eq_false] at h
  obtain ⟨h3, hp⟩ := h
  obtain ⟨r, rfl⟩ := startsWith_split hp
  rw [byteLen_append, hpre] at h3
  have hrne : r ≠ [] := by rintro rfl; simp [byteLen] at h3
  refine Twp.bind (tw_advBytes hi hpre.symm fun _ => ?_)
  have hl := Lay.adv hi
  refine Twp.bind (Twp.of_ok (input_at hl.mv.at') ?_)
  dsimp only
  obtain ⟨a, b, rfl, ha, hb⟩ := span_at (fun c => !p c) r
  refine Twp.ite (fun h0 => ?_) (fun h0 => ?_)
  · intro _
    exfalso
    have hanil : a = [] := by
      rw [position_of_span ha hb] at h0
      split at h0
      · cases h0
      · simpa using h0
    subst hanil
    cases b with
    | nil => exact hrne rfl
    | cons c b =>
      have := hb c rfl
      rw [hstray c b hi] at this
      cases this
  · refine Twp.bind (tw_inputPos ?_)
    refine Twp.bind (tw_subT fun _ => ?_)
    refine Twp.bind (tw_span hl.mv.at' (Nat.le_refl _) fun ds r' hdr hds hr' hl' => ?_)
    cases hf : fromStrRadix i64Max radix ds with
    | none => exact Twp.abort fun _ => trivial
    | some v =>
      obtain ⟨f1, f2, f3, f4⟩ := fromStrRadix_inv hf
      refine StepM.plain hs (hl.trans hl') (.int ?_ (i64_lt f4) ?_ ?_) nofun nofun
      · rw [f3]; exact hlit ds f1 fun c hc => by simpa using hds c hc
      · intro l u h hp
        rw [List.append_assoc] at hp
        exact hmax ds r' l u (fun c hc => by simpa using hr' c hc) h hp
      · intro h
        obtain ⟨c, hc, hcd⟩ := hx
        rw [h c (by simp [hc])] at hcd
        cases hcd

theorem At.code {a : Text} (h : At t a) : ∃ p, t.code = p ++ a := by
  obtain ⟨p, hp, _⟩ := dropBytes_split h
  exact ⟨p, hp⟩

theorem hnum_lay (hs : Scr t) (hst : ¬ HasStray t.code) : MatchL (NoNumAt t c!"0x") hnum t := by
  refine prefixedNum_lay hs rfl ?_ ?_ ?_ ⟨'x', by decide, rfl⟩
  · intro c r h
    obtain ⟨p, hp⟩ := h.code
    rw [isHexDigit_iff]
    refine Classical.byContradiction fun hn => hst ⟨p, c, r, .inl ⟨by rw [hp, List.append_assoc], ?_, fun h => hn (.inr h)⟩⟩
    cases hd : c.isDigit with
    | false => rfl
    | true => exact absurd (.inl hd) hn
  · exact fun ds hne hd => .hex ds hne fun c hc => (isHexDigit_iff c).1 (hd c hc)
  · exact fun ds r l u hr h hp => hex_longest (fun c hc h => by rw [← isHexDigit_iff, hr c hc] at h; cases h) h hp

theorem bnum_lay (hs : Scr t) (hst : ¬ HasStray t.code) : MatchL (NoNumAt t c!"0b") bnum t := by
  refine prefixedNum_lay hs rfl ?_ ?_ ?_ ⟨'b', by decide, rfl⟩
  · intro c r h
    obtain ⟨p, hp⟩ := h.code
    refine Classical.byContradiction fun hn => hst ⟨p, c, r, .inr ⟨by rw [hp, List.append_assoc], ?_, ?_⟩⟩
    · rintro rfl; exact hn rfl
    · rintro rfl; exact hn rfl
  · exact fun ds hne hd => .bin ds hne fun c hc => by simpa using hd c hc
  · refine fun ds r l u hr h hp => bin_longest (fun c hc h => ?_) h hp
    have := hr c hc
    rcases h with rfl | rfl <;> cases this

/-! ### Variables -/

/-- No variable begins here. -/
def NoVarAt (t : Tz) : Prop := ∀ r, At t ('$' :: r) → noIdentifier r

theorem variable_lay (hs : Scr t) : Twp True True matchVariable t (StepM t) (fun e t' => e = .none → t' = t ∧ NoVarAt t) := by
  unfold matchVariable
  refine Twp.bind (tw_input fun i hi => ?_)
  refine Twp.ite (fun h => fun _ => ⟨rfl, fun r hr => ?_⟩) (fun h => ?_)
  · have e := hi.unique hr
    subst e
    simp only [Bool.or_eq_true, decide_eq_true_eq, Bool.not_eq_true'] at h
    rcases h with h | h
    · cases r with
      | nil => exact .inl rfl
      | cons c r =>
        have := length_le_byteLen ('$' :: c :: r)
        simp only [List.length_cons] at this
        omega
    · simp [startsWith] at h
  simp only [Bool.or_eq_true, decide_eq_true_eq, Bool.not_eq_true', not_or, Bool.not_eq_false] at h
  obtain ⟨r, rfl⟩ := startsWith_split h.2
  refine Twp.bind (tw_inputPos ?_)
  refine Twp.bind (tw_advBytes hi rfl fun h1 => ?_)
  have hl := Lay.adv hi
  refine Twp.bind (label_lay h1 (fun hno => ?_) ?_)
  · refine Twp.bind (m := setPos _) (Twp.of_ok rfl ?_)
    refine fun _ => ⟨rfl, fun r' hr => ?_⟩
    have e := hi.unique hr
    cases e
    exact hno
  · rintro w r' rfl hw he hl'
    exact StepM.plain hs (hl.trans hl') (.variable w hw he) nofun nofun

/-! ### Comments -/

theorem lineComment_lay {o r : Text} {n : Nat} (hs : Scr t) (old : Nat) (hi : At t (o ++ r)) (hn : n = byteLen o) (ho : o = c!"#" ∨ o = c!"//") :
    Twp True True (lineComment old n) t (StepM t) (fun e _ => e ≠ .none) := by
  unfold lineComment
  refine Twp.bind (tw_advBytes hi hn fun _ => ?_)
  have hl := Lay.adv hi
  refine Twp.bind (Twp.of_ok (input_at hl.mv.at') ?_)
  refine Twp.bind (tw_span hl.mv.at' (length_le_byteLen _) fun s r2 _ hss hr2 hl2 => ?_)
  obtain ⟨t', e1, e2⟩ := commentDone_ok old false s hl2.mv.at'
  refine Twp.of_ok e1 (StepM.plain hs ⟨(hl.trans hl2).src, (hl.trans hl2).mv.trans e2⟩ ?_ nofun nofun)
  refine .line o s ho ?_ ?_
  · intro hm
    have := hss _ hm
    simp at this
  · cases r2 with
    | nil => exact .inl rfl
    | cons c r2 =>
      have := hr2 c rfl
      rw [beq_iff_eq] at this
      subst this
      exact .inr ⟨r2, rfl⟩

theorem beforeSub_inv {a b : Char} {i body : Text} (h : beforeSub [a, b] i = some body) :
    ¬ [a, b] <:+: body ∧ ∃ r, i = body ++ ([a, b] ++ r) := by
  refine ⟨?_, beforeSub_split h⟩
  induction i generalizing body with
  | nil => simp [beforeSub, startsWith] at h
  | cons c i ih =>
    rw [beforeSub] at h
    split at h
    · cases h
      rintro ⟨p, s, h⟩
      simp at h
    · rename_i hst
      cases hb : beforeSub [a, b] i with
      | none => rw [hb] at h; cases h
      | some body' =>
        rw [hb] at h
        cases h
        obtain ⟨r, hr⟩ := beforeSub_split hb
        rw [List.infix_cons_iff]
        rintro (⟨q, hq⟩ | hh)
        · apply hst
          rw [hr]
          have : c :: (body' ++ ([a, b] ++ r)) = [a, b] ++ (q ++ ([a, b] ++ r)) := by
            rw [← List.append_assoc [a, b] q, hq]; rfl
          rw [this]
          exact startsWith_append _ _
        · exact ih hb hh

theorem blockComment_lay {o r : Text} {n : Nat} {doc : Bool} (hs : Scr t) (old : Nat) (hi : At t (o ++ r)) (hn : n = byteLen o)
    (ho : ∀ s r', r = s ++ (c!"*/" ++ r') → o = c!"/**" ∨ o = c!"/*" ∧ ¬ c!"*" <+: s ++ c!"*/") :
    Twp True True (blockComment old n doc) t (StepM t) (fun e _ => e ≠ .none) := by
  unfold blockComment
  refine Twp.bind (tw_advBytes hi hn fun _ => ?_)
  have hl := Lay.adv hi
  refine Twp.bind (Twp.of_ok (input_at hl.mv.at') ?_)
  cases hb : beforeSub c!"*/" r with
  | none =>
    refine Twp.bind (tw_inputPos ?_)
    exact nofun
  | some s =>
    obtain ⟨h1, r', rfl⟩ := beforeSub_inv hb
    refine Twp.bind (tw_advBytes hl.mv.at' rfl fun _ => ?_)
    have hl2 := hl.trans (.adv hl.mv.at')
    refine Twp.bind (tw_advBytes hl2.mv.at' rfl fun _ => ?_)
    have hl3 := hl2.trans (.adv hl2.mv.at')
    obtain ⟨t', e1, e2⟩ := commentDone_ok old doc s hl3.mv.at'
    exact Twp.of_ok e1 (StepM.plain hs ⟨hl3.src, hl3.mv.trans e2⟩ (.block o s (ho s r' rfl) h1) nofun nofun)

theorem comments_lay (hs : Scr t) : MatchL (NotHere c!"//" t ∧ NotHere c!"/*" t) matchComments t := by
  unfold MatchL matchComments
  refine Twp.bind (tw_inputPos ?_)
  refine Twp.bind (tw_input fun i hi => ?_)
  refine Twp.ite (fun h => ?_) (fun _ => Twp.ite (fun h => ?_) (fun hl => Twp.ite (fun h => ?_) (fun hd => Twp.ite (fun h => ?_) (fun hs => fun _ => ⟨rfl, .of hi (noPrefix_of hl), .of hi (noPrefix_of hs)⟩))))
  · obtain ⟨r, rfl⟩ := startsWith_split h
    exact (lineComment_lay hs _ hi rfl (.inl rfl)).cons (fun _ _ h => h) (fun _ _ h he => absurd he h)
  · obtain ⟨r, rfl⟩ := startsWith_split h
    exact (lineComment_lay hs _ hi rfl (.inr rfl)).cons (fun _ _ h => h) (fun _ _ h he => absurd he h)
  · obtain ⟨r, rfl⟩ := startsWith_split h
    exact (blockComment_lay hs _ hi rfl (fun _ _ _ => .inl rfl)).cons (fun _ _ h => h) (fun _ _ h he => absurd he h)
  · obtain ⟨r, rfl⟩ := startsWith_split h
    refine (blockComment_lay hs _ hi rfl (fun s r' hr => .inr ⟨rfl, ?_⟩)).cons (fun _ _ h => h) (fun _ _ h he => absurd he h)
    rintro ⟨q, hq⟩
    apply hd
    have : c!"/*" ++ r = c!"/**" ++ (q ++ r') := by
      rw [hr, ← List.append_assoc s, ← hq]
      simp
    rw [this]
    exact startsWith_append _ _

end
end Pico
