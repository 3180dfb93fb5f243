import Verif.Lemmas.TameNext
/-! # One token after the other -/
namespace Pico
open T

section
variable {t : Tz}

/-! ### Whole sources -/

/-- What the state stands for. -/
def regionOf : LexState → Region
  | .initial => .html
  | .done => .html
  | .lookingForProperty => .prop
  | _ => .script

theorem regionOf_script {s : LexState} (h : scriptState s) : regionOf s = .script := by
  rcases h with rfl | rfl | rfl <;> rfl

/-- The tokens still to come are those of the text still to be read. -/
def Rest (t : Tz) (toks : List Token) : Prop :=
  ∃ rs r, toks = t.queue.map TokSpan.tok ++ rs ∧ At t r ∧ Laid (regionOf t.st.state) r rs

/-- A token was read and stands where it should. -/
def StepQ (t : Tz) (x : TokSpan) (t' : Tz) : Prop :=
  (∃ v, x.tok = .string v ∧ ascii v = false) ∨
    ((∀ y ∈ t'.queue, y.tok ≠ .k .End) ∧ (x.tok = .k .End → Rest t []) ∧
      (x.tok ≠ .k .End → ∀ toks, Rest t' toks → Rest t (x.tok :: toks)))

theorem StepQ.before {u t' : Tz} {x : TokSpan} (h : StepQ u x t') (hr : ∀ toks, Rest u toks → Rest t toks) : StepQ t x t' := by
  rcases h with h | ⟨h1, h2, h3⟩
  · exact .inl h
  · exact .inr ⟨h1, fun he => hr _ (h2 he), fun he toks ht => hr _ (h3 he toks ht)⟩

theorem Laid.blank {r : Text} {ts : List Token} (h : Laid .script r ts) {b : Text} (hb : Blank b) :
    Laid .script (b ++ r) ts := by
  have app : ∀ c : Text, Blank c → Blank (b ++ c) := by
    intro c hc x hx
    rcases List.mem_append.1 hx with h | h
    · exact hb x h
    · exact hc x h
  cases h with
  | scriptEnd h => exact .scriptEnd (app _ h)
  | closeTag c hc h =>
    have := Laid.closeTag (b ++ c) (app _ hc) h
    simpa using this
  | piece c w ks hc hw h =>
    have := Laid.piece (b ++ c) w ks (app _ hc) hw h
    simpa using this

theorem bytesTok_noEnd {bs : List Nat} {k : Token} (h : BytesTok bs k) : Token.k .End ≠ k := by
  cases h <;> nofun

theorem textPart_noEnd {bs : List Nat} {ts : List Token} (h : TextPart bs ts) : Token.k .End ∉ ts := by
  cases h with
  | none => nofun
  | some _ h => cases h <;> simp

theorem Bit.noEnd {w r : Text} {k : Token} (h : Bit w k r) : Token.k .End ≠ k := by
  cases h with
  | word h _ _ _ _ => exact fun he => identifierToken_not_end w he.symm
  | symbol h =>
    have : ∀ p ∈ symbols, p.2 ≠ .End := by decide
    have := this _ h
    exact fun he => this (by cases he; rfl)
  | cast b w b' k hb h =>
    have : ∀ p ∈ castWords, p.2 ≠ .End := by decide
    have := this _ h
    exact fun he => this (by cases he; rfl)
  | _ => nofun

theorem Inner.noEnd {g : Region} {s r : Text} {ts : List Token} (h : Inner g s ts r) : Token.k .End ∉ ts := by
  induction h with
  | close => simp
  | piece b w k hb hw h ih => simp [hw.noEnd, ih]
  | propName b w hb hw he h ih => simp [ih]
  | propArrow b hb h ih => simp [ih]
  | propNone b hb hr hn ha h ih => exact ih

theorem Snip.inner {q : Quote} {s rest : Text} {ts : List Token} (h : (Snip.block s ts).Ok q rest ∨ (Snip.dollar s ts).Ok q rest) :
    Inner .script s ts rest := by
  rcases h with h | h <;> (cases q <;> first | exact h.2 | exact h | exact h.elim)

theorem parts_noEnd {q : Quote} {rest : Text} {bs : List Nat} {fs : List Snip} {ts : List Token} (h : Parts bs fs ts)
    (hf : FragsOk q fs rest) : Token.k .End ∉ ts := by
  induction h with
  | nil h => exact textPart_noEnd h
  | plain _ _ ih => exact ih hf.2
  | esc _ _ _ ih => exact ih hf.2
  | var n hb _ ih => simp [textPart_noEnd hb, ih hf.2]
  | prop n p hb _ ih => simp [textPart_noEnd hb, ih hf.2]
  | block s is hb _ ih => simp [textPart_noEnd hb, ih hf.2, (Snip.inner (.inl hf.1)).noEnd]
  | dollar s is hb _ ih => simp [textPart_noEnd hb, ih hf.2, (Snip.inner (.inr hf.1)).noEnd]

theorem Scrap.noEnd {w r : Text} {ks : List Token} (h : Scrap w ks r) : Token.k .End ∉ ks := by
  cases h with
  | word h _ _ _ _ => simpa using fun he => identifierToken_not_end w he.symm
  | yieldFrom => simp
  | «variable» => simp
  | dollar => simp
  | int => simp
  | double => simp
  | symbol h =>
    have : ∀ p ∈ symbols, p.2 ≠ .End := by decide
    have := this _ h
    simpa using fun he => this he.symm
  | cast b w b' k hb h =>
    have : ∀ p ∈ castWords, p.2 ≠ .End := by decide
    have := this _ h
    simpa using fun he => this he.symm
  | line => simp
  | block => simp
  | single p fs k hp h hk => simpa using bytesTok_noEnd hk
  | quoted p fs ts hp h hk => simp [parts_noEnd hk h]
  | back fs ts h hk => simp [parts_noEnd hk h]
  | doc p w ks hp h =>
    cases h with
    | here b q tag nl fs ts hb hq ht hn h hk => simp [parts_noEnd hk h]
    | now b tag nl fs k hb ht hn h hk => simpa using bytesTok_noEnd hk

/-- A piece behind blanks. -/
theorem StepP.stepQ {u t' : Tz} {x : TokSpan} {w c r b s : Text} (hs : Scr t) (h : StepP u x t' w c r)
    (hl : Lay t b u s) (hb : Blank b) : StepQ t x t' := by
  have hne := h.piece.noEnd
  have es := hl.mv.at'.unique h.src
  subst es
  refine .inr ⟨fun y hy he => hne ?_, fun he => absurd ?_ hne, fun _ toks ht => ?_⟩
  · rw [← he]
    simp only [List.mem_cons, List.mem_map]
    exact .inr ⟨y, hy, rfl⟩
  · rw [he]; simp
  · obtain ⟨rs, r', rfl, h1, h2⟩ := ht
    have e := h.at'.unique h1
    subst e
    refine ⟨x.tok :: t'.queue.map TokSpan.tok ++ rs, b ++ w ++ (c ++ r), by rw [hs.queue]; rfl, ?_, ?_⟩
    · have := hl.src
      simpa using this
    · rw [hs.state]
      refine Laid.piece b w _ hb h.piece ?_
      rcases h.mode with ⟨m1, m2, m3, m4⟩ | ⟨m1, m2⟩
      · rw [m4, m1, m2, if_pos (by rfl)]
        rw [m3] at h2
        exact h2
      · rw [if_neg (by intro h; injection h with h; exact m1 h)]
        rw [regionOf_script m2] at h2
        exact h2.blank h.blank

theorem ScriptL.stepQ {t' : Tz} {x : TokSpan} (hs : Scr t) (h : ScriptL t x t') : StepQ t x t' := by
  rcases h with ⟨h1, h2, b, hb, ha⟩ | ⟨b, u, s, hl, hb, h⟩
  · refine .inr ⟨by rw [h2]; nofun, fun _ => ⟨[], b, by rw [hs.queue]; rfl, ha, ?_⟩, fun h => absurd h1 h⟩
    rw [hs.state]
    exact .scriptEnd hb
  · rcases h.read with ⟨r, h1, h2, h3, h4, h5⟩ | ⟨w, c, r, h⟩ | h
    · refine .inr ⟨by rw [h5]; nofun, fun h => by (rw [h3] at h; cases h), fun _ toks ht => ?_⟩
      obtain ⟨rs, r', rfl, h6, h7⟩ := ht
      have e := h2.unique h6
      subst e
      have es := hl.mv.at'.unique h1
      subst es
      refine ⟨_, b ++ c!"?>" ++ r, by rw [hs.queue]; rfl, by simpa using hl.src, ?_⟩
      rw [hs.state, h3, h5]
      rw [h4] at h7
      exact .closeTag b hb h7
    · exact StepP.stepQ hs h hl hb
    · exact .inl (h.elim fun v h => h.elim fun _ h => ⟨v, h.2.2.2⟩)

theorem HtmlL.stepQ {t' : Tz} {x : TokSpan} (hs : t.st.state = .initial) (hq : t.queue = []) (h : HtmlL t x t') : StepQ t x t' := by
  obtain ⟨hq', _, h⟩ := h
  rcases h with ⟨h1, h2⟩ | ⟨s, r, h1, h2, h3, h4, h5, h6, h7⟩ | ⟨w, k, r, h1, h2, h3, h4, h5, h6⟩
  · refine .inr ⟨by rw [hq']; nofun, fun _ => ⟨[], [], by rw [hq]; rfl, h2, ?_⟩, fun h => absurd h1 h⟩
    rw [hs]; exact .htmlEnd
  · refine .inr ⟨by rw [hq']; nofun, fun h => by (rw [h3] at h; cases h), fun _ toks ht => ?_⟩
    obtain ⟨rs, r', rfl, h8, h9⟩ := ht
    have e := h2.unique h8
    subst e
    refine ⟨_, s ++ r, by rw [hq]; rfl, h1, ?_⟩
    rw [hs, h3, hq']
    rw [h7] at h9
    exact .html s h4 h5 h6 h9
  · have hk : ∀ p ∈ openTags, p.2 ≠ .End := by decide
    have hk := hk _ h4
    refine .inr ⟨by rw [hq']; nofun, fun h => ?_, fun _ toks ht => ?_⟩
    · rw [h3] at h; cases h; exact absurd rfl hk
    obtain ⟨rs, r', rfl, h8, h9⟩ := ht
    have e := h2.unique h8
    subst e
    refine ⟨_, w ++ r, by rw [hq]; rfl, h1, ?_⟩
    rw [hs, h3, hq']
    rw [h6] at h9
    exact .openTag w k h4 h5 h9

theorem PropL.stepQ {t' : Tz} {x : TokSpan} (hs : t.st.state = .lookingForProperty) (hq : t.queue = []) (h : PropL t x t') : StepQ t x t' := by
  obtain ⟨hq', _, _, b, w, r, h1, hb, h2, h⟩ := h
  rcases h with ⟨rfl, h3, h4, _⟩ | ⟨h3, h4, h5, h6, _⟩
  · refine .inr ⟨by rw [hq']; nofun, fun h => by (rw [h3] at h; cases h), fun _ toks ht => ?_⟩
    obtain ⟨rs, r', rfl, h8, h9⟩ := ht
    have e := h2.unique h8
    subst e
    refine ⟨_, b ++ c!"->" ++ r, by rw [hq]; rfl, h1, ?_⟩
    rw [hs, h3, hq']
    rw [h4] at h9
    exact .propArrow b hb h9
  · refine .inr ⟨by rw [hq']; nofun, fun h => by (rw [h5] at h; cases h), fun _ toks ht => ?_⟩
    obtain ⟨rs, r', rfl, h8, h9⟩ := ht
    have e := h2.unique h8
    subst e
    refine ⟨_, b ++ w ++ r, by rw [hq]; rfl, h1, ?_⟩
    rw [hs, h5, hq']
    rw [h6] at h9
    exact .propName b w hb h3 h4 h9

/-- What a step needs. -/
structure LInv (t : Tz) : Prop where
  stk : ∀ s ∈ t.st.stack, s = .inScripting ∨ s = .doNothing
  head : (t.st.state = .emitQueue ∨ t.st.state = .lookingForProperty) → ∃ r, t.st.stack = .inScripting :: r
  queue : t.st.state ≠ .emitQueue → t.queue = []
  noEnd : ∀ y ∈ t.queue, y.tok ≠ .k .End

theorem next_lay (fuel : Nat) : ∀ t, LInv t → ¬ HasWild t.code → ¬ HasStray t.code → Twp True True (nextToken fuel) t (StepQ t) (fun _ _ => True) := by
  induction fuel with
  | zero => exact fun _ _ _ _ => trivial
  | succ fuel ih =>
    intro t hi hb hst
    have stop : t.st.state = .done ∨ t.st.state = .doNothing →
        Twp True True (nextToken (fuel + 1)) t (StepQ t) (fun _ _ => True) := by
      intro hs
      have he : t.st.state ≠ .emitQueue := by rcases hs with h | h <;> rw [h] <;> nofun
      refine next_state (step := fail .none) he (by rcases hs with h | h <;> rw [h] <;> rfl) ?_
      refine ⟨fun _ _ => ?_, fun _ _ => trivial, fun _ => trivial⟩
      exact (ih { t with st := { t.st with restart := false } } ⟨hi.stk, hi.head, hi.queue, hi.noEnd⟩ hb hst).cons
        (fun _ _ h => h.before fun _ h => h) (fun _ _ h => h)
    cases hs : t.st.state with
    | done => exact stop (.inl hs)
    | doNothing => exact stop (.inr hs)
    | initial =>
      refine next_state (by rw [hs]; nofun) (by rw [hs]) ?_
      have hq := hi.queue (by rw [hs]; nofun)
      exact (initial_lay hs hq).cons (fun _ _ h => h.stepQ hs hq) (fun _ _ h => ⟨fun he => absurd he h, fun _ _ => trivial, fun _ => trivial⟩)
    | inScripting =>
      refine next_state (by rw [hs]; nofun) (by rw [hs]) ?_
      have hq := hi.queue (by rw [hs]; nofun)
      have hsc : Scr t := ⟨hs, hq, hi.stk⟩
      exact (scripting_lay fuel hsc ⟨hq, (blkNext_all hb hst fuel).blocks hb fuel⟩ hst).cons (fun _ _ h => h.stepQ hsc) (fun _ _ h => ⟨fun he => absurd he h, fun _ _ => trivial, fun _ => trivial⟩)
    | lookingForProperty =>
      refine next_state (by rw [hs]; nofun) (by rw [hs]) ?_
      have hq := hi.queue (by rw [hs]; nofun)
      obtain ⟨k, hk⟩ := hi.head (.inr hs)
      refine (property_lay hs hk hq).cons (fun _ _ h => h.stepQ hs hq) ?_
      rintro e u ⟨rfl, hc, hq', hs', hk', hr, b, r, h1, h2, h3, h4, h5, h6⟩
      refine ⟨fun _ _ => ?_, fun _ _ => trivial, fun _ => trivial⟩
      refine (ih { u with st := { u.st with restart := false } } ⟨?_, ?_, fun _ => hq', by rw [hq']; nofun⟩ (by rw [hc]; exact hb) (by rw [hc]; exact hst)).cons
        (fun _ _ h => h.before fun toks ht => ?_) (fun _ _ h => h)
      · intro s hs; rw [hk'] at hs; exact hi.stk s (by rw [hk]; simp [hs])
      · rintro (h | h) <;> (rw [hs'] at h; cases h)
      · obtain ⟨rs, r', rfl, h8, h9⟩ := ht
        have e : r = r' := h3.unique h8
        subst e
        refine ⟨rs, b ++ r, by rw [hq, hq'], h1, ?_⟩
        rw [hs]
        have h9 : Laid (regionOf u.st.state) r rs := h9
        rw [hs'] at h9
        exact .propNone b h2 h4 h5 h6 h9
    | emitQueue =>
      obtain ⟨k, hk⟩ := hi.head (.inl hs)
      cases hq : t.queue with
      | cons x q =>
        refine Twp.of_ok (a := x) (t' := { t with queue := q }) ?_ ?_
        · conv => lhs; unfold nextToken
          simp only [hs, hq]
        · refine .inr ⟨fun y hy => hi.noEnd y (by rw [hq]; simp [show y ∈ q from hy]), fun h => absurd h (hi.noEnd x (by rw [hq]; simp)), fun _ toks ht => ?_⟩
          obtain ⟨rs, r, rfl, h1, h2⟩ := ht
          exact ⟨rs, r, by rw [hq]; rfl, h1, h2⟩
      | nil =>
        have e : nextToken (fuel + 1) t = nextToken fuel { t with st := { t.st with state := .inScripting, stack := k, restart := true } } := by
          conv => lhs; unfold nextToken
          simp only [hs, hq]
          rw [bind_ok (popState_ok hk)]
          refine (bind_ok (m := modSt _) rfl).trans ?_
          simp only [hq]
        have := ih { t with st := { t.st with state := .inScripting, stack := k, restart := true } }
          ⟨fun s hs' => hi.stk s (by rw [hk]; simp [show s ∈ k from hs']), (by rintro (h | h) <;> cases h), fun _ => hq, hi.noEnd⟩ hb hst
        unfold Twp at this ⊢
        rw [e]
        refine Twp.cons (m := nextToken fuel) this (fun _ _ h => h.before fun toks ht => ?_) (fun _ _ h => h)
        obtain ⟨rs, r, rfl, h1, h2⟩ := ht
        exact ⟨rs, r, rfl, h1, by rw [hs]; exact h2⟩

theorem lexAll_ext {fuel : Nat} : ∀ (n : Nat) (t : Tz) (acc toks : List TokSpan) (t' : Tz),
    lexAll fuel n t acc = .ok (toks, t') → ∃ b, toks = acc ++ b := by
  intro n
  induction n with
  | zero => intro t acc toks t' h; cases h
  | succ n ih =>
    intro t acc toks t' h
    unfold lexAll at h
    cases hn : nextToken fuel t with
    | ok x u =>
      rw [hn] at h
      dsimp only at h
      split at h
      · cases h
        exact ⟨[], by simp⟩
      · obtain ⟨b, rfl⟩ := ih u (acc ++ [x]) toks t' h
        exact ⟨x :: b, by simp⟩
    | err e u => rw [hn] at h; cases h
    | panic p => rw [hn] at h; cases h
    | oof => rw [hn] at h; cases h

theorem lexAll_lay {fuel : Nat} : ∀ (n : Nat) (t : Tz) (acc toks : List TokSpan) (t' : Tz), Inv t → (∀ y ∈ t.queue, y.tok ≠ .k .End) →
    ¬ HasWild t.code → ¬ HasStray t.code → lexAll fuel n t acc = .ok (toks, t') →
    ∃ b, toks = acc ++ b ∧ ((∀ y ∈ b, ∀ w, y.tok = .string w → ascii w = true) → Rest t (b.map TokSpan.tok)) := by
  intro n
  induction n with
  | zero => intro t acc toks t' _ _ _ _ h; cases h
  | succ n ih =>
    intro t acc toks t' hi hne hb hst h
    unfold lexAll at h
    cases hn : nextToken fuel t with
    | ok x u =>
      rw [hn] at h
      dsimp only at h
      have hp := (next_wp fuel t hi).elim hn
      have hq := (next_lay fuel t ⟨hi.stk, hi.head, hi.queue, hne⟩ hb hst).elim hn
      split at h
      · rename_i he
        cases h
        refine ⟨[], by simp, fun _ => ?_⟩
        rcases hq with ⟨v, hv, _⟩ | ⟨_, h, _⟩
        · rw [hv] at he; cases he
        · exact h he
      · rename_i he
        rcases hq with ⟨v, hv, hva⟩ | ⟨h1, h2, h3⟩
        · -- not ASCII: nothing is claimed
          have := lexAll_ext n u (acc ++ [x]) toks t' h
          obtain ⟨b, rfl⟩ := this
          refine ⟨x :: b, by simp, fun hall => ?_⟩
          rw [hall x (by simp) v hv] at hva
          cases hva
        · obtain ⟨b, rfl, hb'⟩ := ih u (acc ++ [x]) toks t' hp.inv h1 (by rw [hp.code]; exact hb) (by rw [hp.code]; exact hst) h
          refine ⟨x :: b, by simp, fun hall => ?_⟩
          exact h3 he _ (hb' fun y hy => hall y (by simp [hy]))
    | err e u => rw [hn] at h; cases h
    | panic p => rw [hn] at h; cases h
    | oof => rw [hn] at h; cases h

end
end Pico
