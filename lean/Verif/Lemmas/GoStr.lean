import Verif.Lemmas.GoBase
/-! # Literals are read to their ends -/
namespace Pico
open T

section
variable {t : Tz}

theorem sf_flush {bytes : List Byte} {parts : List TokSpan} {stop : Nat} {Q : List TokSpan → Tz → Prop} {E : SyntaxErr → Tz → Prop}
    (hle : bytes.length ≤ stop) (h : ∀ ps, Q ps t) : Safe (flushBytes bytes parts stop) t Q E := by
  unfold flushBytes
  exact .ite (fun _ => h _) fun _ => .bind (sf_subT hle (h _))

/-- The tokens of an expression between braces are read. -/
def BlkGo (next : T TokSpan) (fuel : Nat) (code : Text) : Prop :=
  ∀ (u : Tz) (s rest : Text) (ts : List Token) (acc : List TokSpan), u.code = code → u.queue = [] → u.st.state = .inScripting →
    u.st.stack = [.doNothing] → At u (s ++ rest) → (∃ pre, (code = pre ++ c!"{" ++ (s ++ rest) ∧ c!"$" <+: s ++ rest) ∨ code = pre ++ c!"${" ++ (s ++ rest)) →
    Inner .script s ts rest → Safe (blockLoop next fuel acc) u (fun _ _ => True) (fun _ _ => False)

/-- The expressions between braces are read, and as they should be. -/
structure Gb (next : T TokSpan) (fuel : Nat) (t : Tz) : Prop where
  ok : BlkOk next fuel t
  go : BlkGo next fuel t.code

theorem Gb.moved {next : T TokSpan} {fuel : Nat} {t u : Tz} {r : Text} (h : Gb next fuel t) (m : Moved t u r) : Gb next fuel u :=
  ⟨h.ok.moved m, by rw [m.code]; exact h.go⟩

/-- What begins with a brace. -/
theorem Snip.Ok.brace {q : Quote} {f : Snip} {s d : Text} (hq : q.vars) (hf : f.Ok q s) (hd : f.src = '{' :: d) :
    ¬ c!"$" <+: d ++ s ∨ ∃ ts, c!"$" <+: d ∧ Inner .script d ts s := by
  cases f with
  | plain c =>
    injection hd with hc hd
    subst hc hd
    exact .inl fun h => hf.begins hq (.inr ⟨rfl, h⟩)
  | esc b v => obtain ⟨s', hs'⟩ := hf.esc_head; rw [show Snip.src (.esc b v) = b from rfl, hs'] at hd; cases hd
  | var n => cases hd
  | prop n p => cases hd
  | block w ts =>
    injection hd with _ hd
    have hd : w = d := hd
    subst hd
    exact .inr ⟨ts, hf.block.1⟩
  | dollar w ts => cases hd

/-- What begins with a dollar sign and a brace. -/
theorem Snip.Ok.dollarBrace {q : Quote} {f : Snip} {s d r : Text} (hq : q.vars) (hf : f.Ok q s) (hd : f.src = '$' :: d) (he : d ++ s = c!"{" ++ r) :
    ∃ w ts, r = w ++ s ∧ Inner .script w ts s := by
  have lb : ∀ {n r s : Text}, IsLabel n → n ++ r = '{' :: s → False := by
    intro n r s h he
    obtain ⟨c, s', e, h1, _⟩ := h.head (r := r)
    rw [he] at e
    injection e with e
    subst e
    cases h1
  cases f with
  | plain c =>
    injection hd with hc hd
    subst hc hd
    exact (hf.begins hq (.inl ⟨rfl, .inr ⟨r, he.symm⟩⟩)).elim
  | esc b v => obtain ⟨s', hs'⟩ := hf.esc_head; rw [show Snip.src (.esc b v) = b from rfl, hs'] at hd; cases hd
  | var n =>
    injection hd with _ hd
    subst hd
    exact (lb hf.var.1.1 he).elim
  | prop n p =>
    injection hd with _ hd
    subst hd
    have he : n ++ (c!"->" ++ (p ++ s)) = '{' :: r := by simpa using he
    exact (lb hf.prop.1.1 he).elim
  | block w ts => cases hd
  | dollar w ts =>
    injection hd with _ hd
    have hd : '{' :: w = d := hd
    subst hd
    injection he with _ he
    exact ⟨w, ts, he.symm, hf.dollar.1⟩

theorem Snip.Ok.blockOr {q : Quote} {f : Snip} {s d : Text} {code : Text} (hq : q.vars) (hf : f.Ok q s) (hd : f.src = '{' :: d) :
    (true = true ∧ ¬ c!"$" <+: d ++ s) ∨ ∃ w ts r, d ++ s = w ++ r ∧ Inner .script w ts r ∧
      ((true = true ∧ c!"$" <+: d ++ s) ∨ (true = false ∧ ∃ pre, code = pre ++ c!"${" ++ (d ++ s))) :=
  (hf.brace hq hd).imp (fun h => ⟨rfl, h⟩) fun ⟨ts, h1, h2⟩ => ⟨d, ts, s, rfl, h2, .inl ⟨rfl, h1.trans (List.prefix_append _ _)⟩⟩

theorem sf_strBlock {next : T TokSpan} (fuel : Nat) (rd : Bool) {bytes : List Byte} {parts : List TokSpan} {i : Text}
    (h : At t ('{' :: i)) (hb : Gb next fuel t) (hlen : bytes.length ≤ t.st.srcPos)
    (hf : (rd = true ∧ ¬ c!"$" <+: i) ∨ ∃ w ts r, i = w ++ r ∧ Inner .script w ts r ∧
      ((rd = true ∧ c!"$" <+: i) ∨ (rd = false ∧ ∃ pre, t.code = pre ++ c!"${" ++ i))) :
    Safe (strBlock next fuel bytes parts rd) t (fun res u => res.1.length ≤ u.st.srcPos) (fun _ _ => False) := by
  have h0 : At t (c!"{" ++ i) := h
  rcases hf with ⟨rfl, hf⟩ | ⟨w, ts, r, rfl, hin, ho⟩
  · unfold strBlock
    refine .bind (sf_advBytes h0 rfl fun hl => ?_)
    refine .bind (sf_input hl.mv.at' ?_)
    refine .ite (fun hs => ?_) fun _ => ?_
    · simp only [Bool.not_true, Bool.or_false] at hs
      obtain ⟨r, rfl⟩ := startsWith_split hs
      exact absurd (List.prefix_append _ _) hf
    · show (bytes ++ [123]).length ≤ t.st.srcPos + 1
      rw [List.length_append]
      exact Nat.add_le_add_right hlen 1
  · have hlay := strBlock_open fuel rd bytes parts h hb.ok ho
    refine (Safe.and (Q := fun _ _ => True) (E := fun _ _ => False) ?_ hlay).cons ?_ (fun _ _ h => h.1)
    · unfold strBlock
      refine .bind (sf_advBytes h0 rfl fun hl => ?_)
      refine .bind (sf_input hl.mv.at' ?_)
      have hv : (t.adv (byteLen c!"{")).st.srcPos = t.st.srcPos + 1 := rfl
      generalize t.adv (byteLen c!"{") = v at hl hv ⊢
      refine .ite (fun _ => ?_) fun _ => trivial
      refine .bind (m := getSt) (.of_ok rfl ?_)
      refine .bind (m := modSt _) (.of_ok rfl ?_)
      refine .bind (sf_inputPos ?_)
      refine .bind (sf_subT (by show 1 ≤ v.st.srcPos; omega) ?_)
      have hopen : ∃ pre, (v.code = pre ++ c!"{" ++ (w ++ r) ∧ c!"$" <+: w ++ r) ∨ v.code = pre ++ c!"${" ++ (w ++ r) := by
        rw [hl.mv.code]
        rcases ho with ⟨_, ho⟩ | ⟨_, pre, ho⟩
        · obtain ⟨pre, h2, _⟩ := dropBytes_split h0
          exact ⟨pre, .inl ⟨by rw [h2]; simp, ho⟩⟩
        · exact ⟨pre, .inr ho⟩
      have := (hb.moved hl.mv).go ({ v with st := { v.st with state := .inScripting, stack := [.doNothing] } } : Tz) w r ts
        [⟨.k .CurlyBracesOpen, mkSpan (v.st.srcPos - 1) v.st.srcPos⟩] rfl (hb.moved hl.mv).ok.queue rfl rfl hl.mv.at' hopen hin
      refine .bind (this.cons (fun toks u _ => ?_) (fun _ _ h => h))
      refine .ite (fun _ => ?_) fun _ => .bind (m := setSt _) (.of_ok rfl trivial)
      refine .bind (sf_subT (by omega) ?_)
      refine .bind (sf_flush (by omega) fun ps => ?_)
      exact .bind (sf_modSt trivial)
    · rintro ⟨bs, ps⟩ u ⟨_, _, _, _, _, _, _, _, _, _, h, _⟩
      rw [h]
      exact Nat.zero_le _

theorem sf_strVariable {next : T TokSpan} (fuel : Nat) {q : Quote} (hq : q.vars) {bytes : List Byte} {parts : List TokSpan} {f : Snip} {s d : Text}
    (h : At t (f.src ++ s)) (hd : f.src = '$' :: d) (hf : f.Ok q s) (hb : Gb next fuel t) (hlen : bytes.length ≤ t.st.srcPos) :
    Safe (strVariable next fuel bytes parts) t (fun res u => res.1.length ≤ u.st.srcPos) (fun _ _ => False) := by
  have h0 : At t (c!"$" ++ (d ++ s)) := by rw [hd] at h; exact h
  unfold strVariable
  refine .bind (sf_advBytes h0 rfl fun hl => ?_)
  refine .bind (sf_input hl.mv.at' ?_)
  refine .ite (fun hs => ?_) fun hns => ?_
  · obtain ⟨r, hr⟩ := startsWith_split hs
    obtain ⟨w, ts, rfl, hin⟩ := hf.dollarBrace hq hd hr
    have hl1 := hl.mv
    rw [hr] at hl1
    refine .bind (sf_inputPos ?_)
    refine .bind (sf_subT (by show 1 ≤ t.st.srcPos + 1; omega) ?_)
    refine .bind (sf_flush (by show bytes.length ≤ t.st.srcPos + 1 - 1; omega) fun ps => ?_)
    have hopen : ∃ pre, (t.adv (byteLen c!"$")).code = pre ++ c!"${" ++ (w ++ s) := by
      rw [hr] at h0
      obtain ⟨pre, h2, _⟩ := dropBytes_split h0
      exact ⟨pre, by show t.code = _; rw [h2]; simp⟩
    refine .bind (((sf_strBlock fuel false hl1.at' (hb.moved hl1) (Nat.zero_le _) (.inr ⟨w, ts, s, rfl, hin, .inr ⟨rfl, hopen⟩⟩)).and
      (strBlock_open fuel false [] ps hl1.at' (hb.moved hl1).ok (.inr ⟨rfl, hopen⟩))).cons ?_ (fun _ _ h => h.1))
    rintro ⟨b1, p1⟩ u ⟨_, w', r', xs, y, qs, _, _, _, k3, rfl, rfl, _, k6, k7⟩
    obtain rfl := k6 rfl
    have hg : (qs ++ y :: xs)[qs.length]? = some y := by simp
    dsimp only
    rw [hg]
    refine .ite (fun _ => ?_) (fun hne => absurd (by rw [k3]; rfl) hne)
    refine .bind (sf_subT (by rw [k7]; show 1 ≤ t.st.srcPos + 1; omega) ?_)
    exact Nat.zero_le _
  have hpos : (t.adv (byteLen c!"$")).st.srcPos = t.st.srcPos + 1 := rfl
  refine .bind (sf_label hl.mv.at' (fun _ => ?_) ?_)
  · show (bytes ++ [36]).length ≤ t.st.srcPos + 1
    rw [List.length_append]
    exact Nat.add_le_add_right hlen 1
  · intro w r e hw he hl1
    dsimp only
    refine .bind (sf_input hl1.mv.at' ?_)
    have fin : ∀ (tmp : List TokSpan) (v : Tz), Safe (do
        let start ← subT (mkSpan (t.adv (byteLen c!"$")).st.srcPos ((t.adv (byteLen c!"$")).st.srcPos + w.length)).start 1
        let parts ← flushBytes bytes parts start
        return ([], parts ++ [⟨.variable w, mkSpan start (mkSpan (t.adv (byteLen c!"$")).st.srcPos ((t.adv (byteLen c!"$")).st.srcPos + w.length)).stop⟩] ++ tmp) : T (List Byte × List TokSpan)) v
        (fun res u => res.1.length ≤ u.st.srcPos) (fun _ _ => False) := by
      intro tmp v
      refine .bind (sf_subT (by show 1 ≤ t.st.srcPos + 1; omega) ?_)
      refine .bind (sf_flush (by show bytes.length ≤ t.st.srcPos + 1 - 1; omega) fun ps => ?_)
      exact Nat.zero_le _
    refine .bind (Safe.cons (E' := fun _ _ => False) (Q' := fun _ _ => True) ?_ (fun tmp v _ => fin tmp v) (fun _ _ h => h))
    refine .ite (fun hsq => ?_) fun _ => .ite (fun _ => ?_) fun _ => trivial
    · exfalso
      obtain ⟨r2, rfl⟩ := startsWith_split hsq
      cases f with
      | plain c =>
        injection hd with hc hd
        subst hc hd
        exact hf.plain_dollar hw e (by cases q <;> first | exact hq.elim | exact ⟨nofun, nofun⟩)
      | esc b v => obtain ⟨s', hs'⟩ := hf.esc_head; rw [show Snip.src (.esc b v) = b from rfl, hs'] at hd; cases hd
      | var n =>
        injection hd with _ hd
        subst hd
        obtain ⟨rfl, rfl⟩ := label_unique hf.var.1.1 hw hf.var.1.2.1 he e
        exact hf.var.1.2.2.1 (List.prefix_append _ _)
      | prop n p =>
        injection hd with _ hd
        subst hd
        have e1 : n ++ (c!"->" ++ (p ++ s)) = w ++ (c!"[" ++ r2) := by simpa using e
        obtain ⟨rfl, e2⟩ := label_unique hf.prop.1.1 hw (arrow_ends _) he e1
        cases e2
      | block w ts => cases hd
      | dollar w' ts =>
        injection hd with _ hd
        have hd : '{' :: w' = d := hd
        subst hd
        exact hns (startsWith_append c!"{" (w' ++ s))
    · rename_i hst
      obtain ⟨r2, rfl⟩ := startsWith_split hst
      refine .bind (sf_inputPos ?_)
      refine .bind (sf_advBytes hl1.mv.at' rfl fun hl2 => ?_)
      exact .bind (sf_label hl2.mv.at' (fun _ => trivial) fun _ _ _ _ _ _ => trivial)

theorem vars_of {q : Quote} (h : q ≠ .single ∧ ∀ t, q ≠ .now t) : q.vars := by
  cases q with
  | single => exact h.1 rfl
  | now t => exact h.2 t rfl
  | _ => trivial

/-- The characters before the first one that is a stop. -/
theorem snips_skip {q : Quote} {stop : Char → Bool} (h1 : q.vars → stop '$' = true ∧ stop '{' = true) (h2 : stop '\\' = true) (z : Text) :
    ∀ fs, FragsOk q fs z → ∃ a gs, fragSrc fs = a ++ fragSrc gs ∧ FragsOk q gs z ∧ (∀ c ∈ a, stop c = false) ∧
      (gs = [] ∨ ∃ f fs' c s, gs = f :: fs' ∧ f.src = c :: s ∧ stop c = true) := by
  intro fs
  induction fs with
  | nil => exact fun _ => ⟨[], [], rfl, trivial, nofun, .inl rfl⟩
  | cons f fs ih =>
    intro h
    have stay : (∃ c s, f.src = c :: s ∧ stop c = true) → ∃ a gs, fragSrc (f :: fs) = a ++ fragSrc gs ∧ FragsOk q gs z ∧ (∀ c ∈ a, stop c = false) ∧
      (gs = [] ∨ ∃ f fs' c s, gs = f :: fs' ∧ f.src = c :: s ∧ stop c = true) :=
      fun ⟨c, s, e, hc⟩ => ⟨[], f :: fs, rfl, h, nofun, .inr ⟨f, fs, c, s, rfl, e, hc⟩⟩
    cases f with
    | plain c =>
      cases hc : stop c with
      | true => exact stay ⟨c, [], rfl, hc⟩
      | false =>
        obtain ⟨a, gs, e, k1, k2, k3⟩ := ih h.2
        refine ⟨c :: a, gs, ?_, k1, fun d hd => ?_, k3⟩
        · show [c] ++ fragSrc fs = c :: a ++ fragSrc gs
          rw [e]; rfl
        · rcases List.mem_cons.1 hd with rfl | hd
          · exact hc
          · exact k2 d hd
    | esc e v => obtain ⟨s, e'⟩ := h.1.esc_head; exact stay ⟨_, s, e', h2⟩
    | var n => exact stay ⟨_, _, rfl, (h1 (vars_of h.1.var.2)).1⟩
    | prop n p => exact stay ⟨_, _, rfl, (h1 (vars_of h.1.prop.2)).1⟩
    | block w ts => exact stay ⟨_, _, rfl, (h1 h.1.block.2).2⟩
    | dollar w ts => exact stay ⟨_, _, rfl, (h1 h.1.dollar.2).1⟩

theorem fragSrc_cons (f : Snip) (fs : List Snip) (z : Text) : fragSrc (f :: fs) ++ z = f.src ++ (fragSrc fs ++ z) := by
  simp [fragSrc]

theorem SqEscape.len {e : Text} {v : List Nat} (h : SqEscape e v) : v.length ≤ byteLen e := by
  have one : ∀ c : Char, (utf8 [c]).length = c.utf8Size := by
    intro c; rw [utf8_one, encodeChar_length]
  cases h with
  | known c _ => rw [one]; simp [byteLen]
  | other c _ =>
    rw [show ['\\', c] = ['\\'] ++ [c] from rfl, utf8_append, List.length_append, one, one]
    simp [byteLen]

/-- The characters before the first stop are skipped. -/
theorem sf_skip {p : Char → Bool} {a b : Text} {d : Nat} {Q : Text → Tz → Prop} {E : SyntaxErr → Tz → Prop}
    (hi : At t (a ++ b)) (ha : ∀ c ∈ a, p c = false) (hb : ∃ c s, b = c :: s ∧ p c = true)
    (h : Lay t a (t.adv (byteLen a)) b → Q a (t.adv (byteLen a))) : Safe (advanceChars ((position p (a ++ b)).getD d)) t Q E := by
  obtain ⟨c, s, rfl, hc⟩ := hb
  have : position p (a ++ c :: s) = some a.length := by
    rw [position_of_span ha (fun d hd => by cases hd; exact hc), if_neg nofun]
  rw [this]
  exact sf_advChars' hi rfl h

theorem sf_sqLoop (bak : TState) (fuel : Nat) (bytes : List Byte) (t : Tz) {fs : List Snip} {r : Text}
    (h : At t (fragSrc fs ++ (c!"'" ++ r))) (hok : FragsOk .single fs (c!"'" ++ r)) :
    Safe (sqLoop bak fuel bytes) t (fun _ _ => True) (fun _ _ => False) := by
  induction fuel generalizing bytes t fs with
  | zero => exact trivial
  | succ fuel ih =>
    unfold sqLoop
    refine .bind (sf_input h ?_)
    dsimp only
    obtain ⟨a, gs, e, k1, k2, k3⟩ := snips_skip (q := .single) (stop := fun x => x == '\\' || x == '\'' || x == '\n') nofun rfl _ fs hok
    rw [e, List.append_assoc] at h ⊢
    have hst : ∃ c s, fragSrc gs ++ (c!"'" ++ r) = c :: s ∧ (c == '\\' || c == '\'' || c == '\n') = true := by
      rcases k3 with rfl | ⟨f, fs', c, s, rfl, hs, hc⟩
      · exact ⟨'\'', r, rfl, rfl⟩
      · exact ⟨c, s ++ (fragSrc fs' ++ (c!"'" ++ r)), by rw [fragSrc_cons, hs]; rfl, hc⟩
    refine .bind (sf_skip h k2 hst fun hl => ?_)
    clear hst
    have hu := hl.mv.at'
    generalize t.adv (byteLen a) = u at hl hu ⊢
    refine .bind (sf_input hu ?_)
    rcases k3 with rfl | ⟨f, fs', c, s, rfl, hs, hc⟩
    · have hu : At u (c!"'" ++ r) := hu
      exact .bind (sf_advBytes hu rfl fun _ => trivial)
    · cases f with
      | plain d =>
        have hd : d = '\n' := by
          injection hs with hs
          subst hs
          have := k1.1
          simp only [Bool.or_eq_true, beq_iff_eq] at hc
          rcases hc with (hc | hc) | hc
          · exact absurd hc this.1
          · exact absurd hc this.2
          · exact hc
        subst hd
        have hu' : At u (c!"\n" ++ (fragSrc fs' ++ (c!"'" ++ r))) := by rw [fragSrc_cons] at hu; exact hu
        rw [fragSrc_cons]
        refine .bind (sf_advBytes hu' rfl fun hl2 => ?_)
        refine .bind (sf_modSt ?_)
        exact ih _ _ hl2.nextLine.mv.at' k1.2
      | esc b v =>
        have hb := k1.1
        rw [fragSrc_cons] at hu ⊢
        have go : ∀ x s2, b ++ (fragSrc fs' ++ (c!"'" ++ r)) = '\\' :: x :: s2 → Safe (do
            let bytes ← strEscape (bytes ++ encode a) true
            sqLoop bak fuel bytes) u (fun _ _ => True) (fun _ _ => False) := by
          intro x s2 e2
          have hu2 : At u ('\\' :: (x :: s2)) := by rw [← e2]; exact hu
          refine .bind (((sf_sqEscape hu2).and (sqEscape_lay hu2)).cons ?_ (fun _ _ h => h.1))
          rintro bs t' ⟨_, e', v', s', _, m1, m2⟩
          have e3 := hu.unique m1.src
          obtain ⟨rfl, _⟩ := SqEscape.unique hb m2 e3
          have := List.append_cancel_left e3
          subst this
          exact ih _ _ m1.mv.at' k1.2
        cases hb with
        | known c hc => exact go c _ rfl
        | other c hc => exact go c _ rfl
      | var n => exact k1.1.elim
      | prop n p => exact k1.1.elim
      | block w ts => exact k1.1.elim
      | dollar w ts => exact k1.1.elim

theorem sf_dqAdvance {a b : Text} {Q : Text → Tz → Prop} {E : SyntaxErr → Tz → Prop}
    (hi : At t (a ++ b)) (ha : ∀ c ∈ a, isDqStop c = false) (hb : ∃ c s, b = c :: s ∧ isDqStop c = true)
    (h : Lay t a (t.adv (byteLen a)) b → Q a (t.adv (byteLen a))) : Safe dqAdvance t Q E := by
  unfold dqAdvance
  refine .bind (sf_input hi ?_)
  obtain ⟨c, s, rfl, hc⟩ := hb
  have : position isDqStop (a ++ c :: s) = some a.length := by
    rw [position_of_span ha (fun d hd => by cases hd; exact hc), if_neg nofun]
  rw [this]
  exact sf_advChars' hi rfl h

theorem sf_dqAdvance_last {a : Text} {c : Char} {Q : Text → Tz → Prop} {E : SyntaxErr → Tz → Prop}
    (hi : At t (a ++ [c])) (ha : ∀ d ∈ a ++ [c], isDqStop d = false)
    (h : Lay t a (t.adv (byteLen a)) [c] → Q a (t.adv (byteLen a))) : Safe dqAdvance t Q E := by
  unfold dqAdvance
  refine .bind (sf_input hi ?_)
  have : position isDqStop (a ++ [c]) = none := by
    have := position_of_span (b := []) ha nofun
    rwa [List.append_nil, if_pos rfl] at this
  rw [this]
  dsimp only
  refine .bind (sf_subT (by simp) ?_)
  exact sf_advChars' hi (by simp) h

theorem dqStop_cases {c : Char} (h : isDqStop c = true) : c = '\\' ∨ c = '"' ∨ c = '$' ∨ c = '\n' ∨ c = '{' := by
  unfold isDqStop at h
  simp only [Bool.or_eq_true, beq_iff_eq] at h
  rcases h with (((h | h) | h) | h) | h <;> simp [h]

theorem len_after {u v : Tz} {a r : Text} {b : List Byte} (hl : Lay u a v r) (h : b.length ≤ u.st.srcPos) : (b ++ encode a).length ≤ v.st.srcPos := by
  rw [List.length_append, encode_length, hl.pos]
  exact Nat.add_le_add_right h _

theorem sf_dqLoop {next : T TokSpan} (bfuel : Nat) (bak : TState) (fuel : Nat) (bytes : List Byte) (parts : List TokSpan) (t : Tz)
    {fs : List Snip} {r : Text} (h : At t (fragSrc fs ++ (c!"\"" ++ r))) (hok : FragsOk .double fs (c!"\"" ++ r)) (hb : Gb next bfuel t)
    (hlen : bytes.length ≤ t.st.srcPos) :
    Safe (dqLoop next bfuel bak fuel bytes parts) t (fun _ _ => True) (fun _ _ => False) := by
  induction fuel generalizing bytes parts t fs with
  | zero => exact trivial
  | succ fuel ih =>
    unfold dqLoop
    obtain ⟨a, gs, e, k1, k2, k3⟩ := snips_skip (q := .double) (stop := isDqStop) (fun _ => ⟨rfl, rfl⟩) rfl _ fs hok
    rw [e, List.append_assoc] at h
    have hst : ∃ c s, fragSrc gs ++ (c!"\"" ++ r) = c :: s ∧ isDqStop c = true := by
      rcases k3 with rfl | ⟨f, fs', c, s, rfl, hs, hc⟩
      · exact ⟨'"', r, rfl, rfl⟩
      · exact ⟨c, s ++ (fragSrc fs' ++ (c!"\"" ++ r)), by rw [fragSrc_cons, hs]; rfl, hc⟩
    refine .bind (sf_dqAdvance h k2 hst fun hl => ?_)
    clear hst
    have hu := hl.mv.at'
    have hlen := len_after hl hlen
    generalize t.adv (byteLen a) = u at hl hu hlen ⊢
    have hbu : Gb next bfuel u := hb.moved hl.mv
    dsimp only
    generalize bytes ++ encode a = bytes at hlen ⊢
    refine .bind (sf_input hu ?_)
    rcases k3 with rfl | ⟨f, fs', c, s, rfl, hs, hc⟩
    · have hu : At u (c!"\"" ++ r) := hu
      exact .bind (sf_advBytes hu rfl fun _ => trivial)
    rw [fragSrc_cons] at hu ⊢
    have hf := k1.1
    have hh : (f.src ++ (fragSrc fs' ++ (c!"\"" ++ r))).head? = some c := by rw [hs]; rfl
    have next : ∀ {f' : Snip} {s' : Text} {v : Tz} {bs : List Byte} {ps : List TokSpan}, Lay u f'.src v s' → f'.Ok .double s' → bs.length ≤ v.st.srcPos →
        Safe (dqLoop next bfuel bak fuel bs ps) v (fun _ _ => True) (fun _ _ => False) := by
      intro f' s' v bs ps m1 m2 m3
      have e3 := hu.unique m1.src
      obtain rfl := Snip.unique (fun _ => innerU) hf m2 e3
      have := List.append_cancel_left e3
      subst this
      exact ih _ _ _ m1.mv.at' k1.2 (hbu.moved m1.mv) m3
    rcases dqStop_cases hc with rfl | rfl | rfl | rfl | rfl
    · simp only [hh]
      have hu2 : At u ('\\' :: (s ++ (fragSrc fs' ++ (c!"\"" ++ r)))) := by rw [hs] at hu; exact hu
      cases f with
      | esc b v =>
        refine .bind (((sf_dqEscape hu hf (by simp)).and (dqEscape_lay hu2)).cons ?_ (fun _ _ h => h.1))
        rintro bs t' ⟨_, e', v', s', rfl, m1, m2⟩
        refine next (f' := .esc e' v') m1 m2 ?_
        rw [List.length_append, m1.pos]
        exact Nat.add_le_add hlen m2.len
      | plain d => injection hs with hs; exact absurd hs hf.1
      | var n => cases hs
      | prop n p => cases hs
      | block w ts => cases hs
      | dollar w ts => cases hs
    · exact absurd ⟨_, by rw [hs]; rfl⟩ (hf.first (c := '"') ⟨by decide, by decide, by decide⟩ fun _ h => h.2.1 rfl)
    · simp only [hh]
      have hu2 : At u ('$' :: (s ++ (fragSrc fs' ++ (c!"\"" ++ r)))) := by rw [hs] at hu; exact hu
      refine .bind (((sf_strVariable bfuel (q := .double) trivial hu hs hf hbu hlen).and (strVariable_lay bfuel .double trivial _ _ hu2 hbu.ok)).cons ?_ (fun _ _ h => h.1))
      rintro ⟨bs, ps⟩ t' ⟨m3, f', s', m1, m2, _⟩
      rw [fragSrc_one] at m1
      exact next m1 m2 m3
    · simp only [hh]
      have hu2 : At u (c!"\n" ++ (s ++ (fragSrc fs' ++ (c!"\"" ++ r)))) := by rw [hs] at hu; exact hu
      refine .bind (sf_advBytes hu2 rfl fun hl2 => ?_)
      refine .bind (sf_modSt ?_)
      refine next (f' := .plain '\n') hl2.nextLine ⟨nofun, nofun, by rintro (⟨h, _⟩ | ⟨h, _⟩) <;> cases h⟩ ?_
      rw [List.length_append]
      exact Nat.add_le_add_right hlen 1
    · simp only [hh]
      have hu2 : At u ('{' :: (s ++ (fragSrc fs' ++ (c!"\"" ++ r)))) := by rw [hs] at hu; exact hu
      refine .bind (((sf_strBlock bfuel true hu2 hbu hlen (hf.blockOr (q := .double) trivial hs)).and (strBlock_lay bfuel .double trivial _ _ hu2 hbu.ok)).cons ?_ (fun _ _ h => h.1))
      rintro ⟨bs, ps⟩ t' ⟨m3, f', s', m1, m2, _⟩
      rw [fragSrc_one] at m1
      exact next m1 m2 m3

theorem sf_bqLoop {next : T TokSpan} (bfuel : Nat) (bak : TState) (fuel : Nat) (bytes : List Byte) (parts : List TokSpan) (t : Tz)
    {fs : List Snip} (h : At t (fragSrc fs ++ c!"`")) (hok : FragsOk .back fs c!"`") (hb : Gb next bfuel t)
    (hlen : bytes.length ≤ t.st.srcPos) :
    Safe (bqLoop next bfuel bak fuel bytes parts) t (fun _ _ => True) (fun _ _ => False) := by
  induction fuel generalizing bytes parts t fs with
  | zero => exact trivial
  | succ fuel ih =>
    unfold bqLoop
    obtain ⟨a, gs, e, k1, k2, k3⟩ := snips_skip (q := .back) (stop := isDqStop) (fun _ => ⟨rfl, rfl⟩) rfl _ fs hok
    rw [e, List.append_assoc] at h
    rcases k3 with rfl | ⟨f, fs', c, s, rfl, hs, hc⟩
    · have h : At t (a ++ ['`']) := h
      refine .bind (sf_dqAdvance_last h (fun d hd => ?_) fun hl => ?_)
      · rcases List.mem_append.1 hd with hd | hd
        · exact k2 d hd
        · rw [List.mem_singleton] at hd; subst hd; rfl
      · refine .bind (sf_input hl.mv.at' ?_)
        have : At (t.adv (byteLen a)) (c!"`" ++ []) := hl.mv.at'
        exact .bind (sf_advBytes this rfl fun _ => trivial)
    have hst : ∃ c s, fragSrc (f :: fs') ++ c!"`" = c :: s ∧ isDqStop c = true :=
      ⟨c, s ++ (fragSrc fs' ++ c!"`"), by rw [fragSrc_cons, hs]; rfl, hc⟩
    refine .bind (sf_dqAdvance h k2 hst fun hl => ?_)
    clear hst
    have hu := hl.mv.at'
    have hlen := len_after hl hlen
    generalize t.adv (byteLen a) = u at hl hu hlen ⊢
    have hbu : Gb next bfuel u := hb.moved hl.mv
    dsimp only
    generalize bytes ++ encode a = bytes at hlen ⊢
    refine .bind (sf_input hu ?_)
    rw [fragSrc_cons] at hu ⊢
    have hf := k1.1
    have hh : (f.src ++ (fragSrc fs' ++ c!"`")).head? = some c := by rw [hs]; rfl
    have next : ∀ {f' : Snip} {s' : Text} {v : Tz} {bs : List Byte} {ps : List TokSpan}, Lay u f'.src v s' → f'.Ok .back s' → bs.length ≤ v.st.srcPos →
        Safe (bqLoop next bfuel bak fuel bs ps) v (fun _ _ => True) (fun _ _ => False) := by
      intro f' s' v bs ps m1 m2 m3
      have e3 := hu.unique m1.src
      obtain rfl := Snip.unique (fun _ => innerU) hf m2 e3
      have := List.append_cancel_left e3
      subst this
      exact ih _ _ _ m1.mv.at' k1.2 (hbu.moved m1.mv) m3
    rcases dqStop_cases hc with rfl | rfl | rfl | rfl | rfl
    · cases f with
      | esc b v => exact hf.elim
      | plain d => injection hs with hs; exact absurd hs hf.1
      | var n => cases hs
      | prop n p => cases hs
      | block w ts => cases hs
      | dollar w ts => cases hs
    · exact absurd ⟨_, by rw [hs]; rfl⟩ (hf.first (c := '"') ⟨by decide, by decide, by decide⟩ fun _ h => h.2.1 rfl)
    · simp only [hh]
      have hu2 : At u ('$' :: (s ++ (fragSrc fs' ++ c!"`"))) := by rw [hs] at hu; exact hu
      refine .bind (((sf_strVariable bfuel (q := .back) trivial hu hs hf hbu hlen).and (strVariable_lay bfuel .back trivial _ _ hu2 hbu.ok)).cons ?_ (fun _ _ h => h.1))
      rintro ⟨bs, ps⟩ t' ⟨m3, f', s', m1, m2, _⟩
      rw [fragSrc_one] at m1
      exact next m1 m2 m3
    · simp only [hh]
      have hu2 : At u (c!"\n" ++ (s ++ (fragSrc fs' ++ c!"`"))) := by rw [hs] at hu; exact hu
      refine .bind (sf_advBytes hu2 rfl fun hl2 => ?_)
      refine .bind (sf_modSt ?_)
      refine next (f' := .plain '\n') hl2.nextLine ⟨nofun, nofun, by rintro (⟨h, _⟩ | ⟨h, _⟩) <;> cases h⟩ ?_
      rw [List.length_append]
      exact Nat.add_le_add_right hlen 1
    · simp only [hh]
      have hu2 : At u ('{' :: (s ++ (fragSrc fs' ++ c!"`"))) := by rw [hs] at hu; exact hu
      refine .bind (((sf_strBlock bfuel true hu2 hbu hlen (hf.blockOr (q := .back) trivial hs)).and (strBlock_lay bfuel .back trivial _ _ hu2 hbu.ok)).cons ?_ (fun _ _ h => h.1))
      rintro ⟨bs, ps⟩ t' ⟨m3, f', s', m1, m2, _⟩
      rw [fragSrc_one] at m1
      exact next m1 m2 m3

theorem sf_newline {i : Text} (hi : At t i) {Q : Bool → Tz → Prop} {E : SyntaxErr → Tz → Prop}
    (h1 : ∀ w r u, i = w ++ r → Newline w r → Lay t w u r → Q true u) (h2 : ¬ c!"\n" <+: i → ¬ c!"\r" <+: i → Q false t) :
    Safe newline t Q E := by
  unfold newline
  refine .bind (sf_input hi ?_)
  have step : ∀ w r n, Newline w r → i = w ++ r → n = byteLen w → Safe (do
      let _ ← advanceBytes n
      modSt TState.nextLine
      return true : T Bool) t Q E := by
    rintro w r n hw rfl hn
    exact .bind (sf_advBytes hi hn fun hl => .bind (sf_modSt (h1 w r _ rfl hw hl.nextLine)))
  refine .ite (fun h => ?_) fun h0 => .ite (fun h => ?_) fun h => ?_
  · obtain ⟨r, rfl⟩ := startsWith_split h
    exact step c!"\r\n" r 2 (.inr (.inl rfl)) rfl rfl
  · rw [Bool.or_eq_true] at h
    rcases h with h | h
    · obtain ⟨r, rfl⟩ := startsWith_split h
      exact step c!"\n" r 1 (.inl rfl) rfl rfl
    · obtain ⟨r, rfl⟩ := startsWith_split h
      refine step c!"\r" r 1 (.inr (.inr ⟨rfl, ?_⟩)) rfl rfl
      rintro ⟨q, rfl⟩
      exact h0 (startsWith_append c!"\r\n" q)
  · rw [Bool.or_eq_true, not_or] at h
    exact h2 (noPrefix_of h.1) (noPrefix_of h.2)

theorem docStop_cases {c : Char} (h : (c == '\\' || c == '$' || c == '\n' || c == '{') = true) : c = '\\' ∨ c = '$' ∨ c = '\n' ∨ c = '{' := by
  simp only [Bool.or_eq_true, beq_iff_eq] at h
  rcases h with ((h | h) | h) | h <;> simp [h]

theorem newline_starts {nl s : Text} {r : Text} (h : Newline nl r) : c!"\n" <+: nl ++ s ∨ c!"\r" <+: nl ++ s := by
  rcases h with rfl | rfl | ⟨rfl, _⟩
  · exact .inl (List.prefix_append _ _)
  · exact .inr ⟨_, rfl⟩
  · exact .inr (List.prefix_append _ _)

theorem sf_docLoop {next : T TokSpan} (bfuel : Nat) (bak : TState) (now : Bool) (tag : Text) (fuel : Nat) (bytes : List Byte)
    (parts : List TokSpan) (t : Tz) {fs : List Snip} {r : Text} (h : At t (fragSrc fs ++ (c!"\n" ++ tag ++ r)))
    (hok : FragsOk (docQuote now tag) fs (c!"\n" ++ tag ++ r)) (he : EndsDoc r) (hb : Gb next bfuel t) (hlen : bytes.length ≤ t.st.srcPos) :
    Safe (docLoop next bfuel bak now tag fuel bytes parts) t (fun _ _ => True) (fun _ _ => False) := by
  induction fuel generalizing bytes parts t fs with
  | zero => exact trivial
  | succ fuel ih =>
    unfold docLoop
    refine .bind (sf_input h ?_)
    dsimp only
    obtain ⟨a, gs, e, k1, k2, k3⟩ := snips_skip (stop := fun x => x == '\\' || x == '$' || x == '\n' || x == '{') (fun _ => ⟨rfl, rfl⟩) rfl _ fs hok
    rw [e, List.append_assoc] at h ⊢
    have hst : ∃ c s, fragSrc gs ++ (c!"\n" ++ tag ++ r) = c :: s ∧ (c == '\\' || c == '$' || c == '\n' || c == '{') = true := by
      rcases k3 with rfl | ⟨f, fs', c, s, rfl, hs, hc⟩
      · exact ⟨'\n', tag ++ r, rfl, rfl⟩
      · exact ⟨c, s ++ (fragSrc fs' ++ (c!"\n" ++ tag ++ r)), by rw [fragSrc_cons, hs]; rfl, hc⟩
    refine .bind (sf_skip h k2 hst fun hl => ?_)
    clear hst
    have hu := hl.mv.at'
    have hlen := len_after hl hlen
    generalize t.adv (byteLen a) = u at hl hu hlen ⊢
    have hbu : Gb next bfuel u := hb.moved hl.mv
    generalize bytes ++ encode a = bytes at hlen ⊢
    refine .bind (sf_input hu ?_)
    rcases k3 with rfl | ⟨f, fs', c, s, rfl, hs, hc⟩
    · have hu : At u (c!"\n" ++ (tag ++ r)) := hu
      refine .bind (sf_advBytes hu rfl fun hl2 => ?_)
      refine .bind (sf_modSt ?_)
      have hl2 := hl2.nextLine
      generalize ({ u.adv (byteLen c!"\n") with st := (u.adv (byteLen c!"\n")).st.nextLine } : Tz) = v at hl2 ⊢
      refine .bind (sf_input hl2.mv.at' ?_)
      rw [if_pos (startsWith_append tag r)]
      refine .bind (sf_advBytes hl2.mv.at' rfl fun hl3 => ?_)
      refine .bind (sf_inputPos ?_)
      refine .bind (sf_input hl3.mv.at' ?_)
      obtain ⟨s, nl, r', rfl, hs, hnl⟩ := he
      have fin : ∀ y, At y (nl ++ r') → Safe (do
          if ← newline then
            setPos (v.adv (byteLen tag)).st.srcPos
            return (bytes, parts)
          else
            let old ← inputPos
            setSt bak
            fail (.unterminated "Here/Nowdoc: end-tag requires to be followed by a newline"
              (mkSpan bak.srcPos old))) y (fun _ _ => True) (fun _ _ => False) := by
        intro y hy
        refine .bind (sf_newline hy (fun _ _ _ _ _ _ => trivial) fun n1 n2 => ?_)
        rcases newline_starts (s := r') hnl with h | h
        · exact absurd h n1
        · exact absurd h n2
      rcases hs with rfl | rfl
      · have hns : ¬ startsWith ([] ++ nl ++ r') c!";" = true := by
          intro h
          obtain ⟨q, hq⟩ := startsWith_split h
          rcases hnl with rfl | rfl | ⟨rfl, _⟩ <;> cases hq
        rw [if_neg hns]
        exact fin _ hl3.mv.at'
      · rw [if_pos (show startsWith (c!";" ++ nl ++ r') c!";" = true from startsWith_append c!";" (nl ++ r'))]
        have h3 : At (v.adv (byteLen tag)) (c!";" ++ (nl ++ r')) := hl3.mv.at'
        exact .bind (sf_advBytes h3 rfl fun hl4 => fin _ hl4.mv.at')
    rw [fragSrc_cons] at hu ⊢
    have hf := k1.1
    have hh : (f.src ++ (fragSrc fs' ++ (c!"\n" ++ tag ++ r))).head? = some c := by rw [hs]; rfl
    have next : ∀ {f' : Snip} {s' : Text} {v : Tz} {bs : List Byte} {ps : List TokSpan}, Lay u f'.src v s' → f'.Ok (docQuote now tag) s' → bs.length ≤ v.st.srcPos →
        Safe (docLoop next bfuel bak now tag fuel bs ps) v (fun _ _ => True) (fun _ _ => False) := by
      intro f' s' v bs ps m1 m2 m3
      have e3 := hu.unique m1.src
      obtain rfl := Snip.unique (fun _ => innerU) hf m2 e3
      have := List.append_cancel_left e3
      subst this
      exact ih _ _ _ m1.mv.at' k1.2 (hbu.moved m1.mv) m3
    rcases docStop_cases hc with rfl | rfl | rfl | rfl
    · simp only [hh]
      have hu2 : At u ('\\' :: (s ++ (fragSrc fs' ++ (c!"\n" ++ tag ++ r)))) := by rw [hs] at hu; exact hu
      cases f with
      | esc b v =>
        cases now with
        | true =>
          have hx : ∃ x s2, b ++ (fragSrc fs' ++ (c!"\n" ++ tag ++ r)) = '\\' :: x :: s2 := by
            have hf : SqEscape b v := hf
            cases hf with
            | known c _ => exact ⟨c, _, rfl⟩
            | other c _ => exact ⟨c, _, rfl⟩
          obtain ⟨x, s2, ex⟩ := hx
          have hu3 : At u ('\\' :: x :: s2) := by rw [← ex]; exact hu
          refine .bind (((sf_sqEscape hu3).and (sqEscape_lay hu3)).cons ?_ (fun _ _ h => h.1))
          rintro bs t' ⟨_, e', v', s', rfl, m1, m2⟩
          refine next (f' := .esc e' v') m1 m2 ?_
          rw [List.length_append, m1.pos]
          exact Nat.add_le_add hlen m2.len
        | false =>
          refine .bind (((sf_dqEscape hu hf (by simp)).and (dqEscape_lay hu2)).cons ?_ (fun _ _ h => h.1))
          rintro bs t' ⟨_, e', v', s', rfl, m1, m2⟩
          refine next (f' := .esc e' v') m1 m2 ?_
          rw [List.length_append, m1.pos]
          exact Nat.add_le_add hlen m2.len
      | plain d => injection hs with hs; exact absurd hs hf.plain_ne
      | var n => cases hs
      | prop n p => cases hs
      | block w ts => cases hs
      | dollar w ts => cases hs
    · simp only [hh]
      have hu2 : At u ('$' :: (s ++ (fragSrc fs' ++ (c!"\n" ++ tag ++ r)))) := by rw [hs] at hu; exact hu
      cases now with
      | true =>
        cases f with
        | plain d => injection hs with hs; exact absurd hs hf.2.1
        | esc b v => obtain ⟨s', hs'⟩ := hf.esc_head; rw [show Snip.src (.esc b v) = b from rfl, hs'] at hs; cases hs
        | var n => exact hf.elim
        | prop n p => exact hf.elim
        | block w ts => exact hf.elim
        | dollar w ts => exact hf.elim
      | false =>
        refine .ite (fun h => by cases h) fun _ => ?_
        refine .bind (((sf_strVariable bfuel (q := .here tag) trivial hu hs hf hbu hlen).and (strVariable_lay bfuel (.here tag) trivial _ _ hu2 hbu.ok)).cons ?_ (fun _ _ h => h.1))
        rintro ⟨bs, ps⟩ t' ⟨m3, f', s', m1, m2, _⟩
        rw [fragSrc_one] at m1
        exact next m1 m2 m3
    · simp only [hh]
      have hu2 : At u (c!"\n" ++ (s ++ (fragSrc fs' ++ (c!"\n" ++ tag ++ r)))) := by rw [hs] at hu; exact hu
      obtain rfl : f = .plain '\n' := by
        cases f with
        | plain d => injection hs with hs; subst hs; rfl
        | esc b v => obtain ⟨s', hs'⟩ := hf.esc_head; rw [show Snip.src (.esc b v) = b from rfl, hs'] at hs; cases hs
        | var n => cases hs
        | prop n p => cases hs
        | block w ts => cases hs
        | dollar w ts => cases hs
      obtain rfl : s = [] := by injection hs with _ hs; exact hs.symm
      have hnt : ¬ tag <+: fragSrc fs' ++ (c!"\n" ++ tag ++ r) := by
        cases now with
        | true => exact hf.2.2.2 rfl
        | false => exact hf.2.2 rfl
      refine .bind (sf_advBytes hu2 rfl fun hl2 => ?_)
      refine .bind (sf_modSt ?_)
      refine .bind (sf_input hl2.nextLine.mv.at' ?_)
      refine .ite (fun hs => ?_) fun _ => ?_
      · obtain ⟨q, hq⟩ := startsWith_split hs
        exact absurd ⟨q, hq.symm⟩ hnt
      refine next (f' := .plain '\n') hl2.nextLine hf ?_
      rw [List.length_append]
      exact Nat.add_le_add_right hlen 1
    · simp only [hh]
      have hu2 : At u ('{' :: (s ++ (fragSrc fs' ++ (c!"\n" ++ tag ++ r)))) := by rw [hs] at hu; exact hu
      cases now with
      | true =>
        cases f with
        | plain d => injection hs with hs; exact absurd hs hf.2.2.1
        | esc b v => obtain ⟨s', hs'⟩ := hf.esc_head; rw [show Snip.src (.esc b v) = b from rfl, hs'] at hs; cases hs
        | var n => exact hf.elim
        | prop n p => exact hf.elim
        | block w ts => exact hf.elim
        | dollar w ts => exact hf.elim
      | false =>
        refine .ite (fun h => by cases h) fun _ => ?_
        refine .bind (((sf_strBlock bfuel true hu2 hbu hlen (hf.blockOr (q := (.here tag)) trivial hs)).and (strBlock_lay bfuel (.here tag) trivial _ _ hu2 hbu.ok)).cons ?_ (fun _ _ h => h.1))
        rintro ⟨bs, ps⟩ t' ⟨m3, f', s', m1, m2, _⟩
        rw [fragSrc_one] at m1
        exact next m1 m2 m3

end
end Pico
