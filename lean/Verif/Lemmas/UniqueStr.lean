import Verif.Lemmas.LayNext
/-! # What stands in a literal is read in one way only -/
namespace Pico

/-! ### Bytes -/

theorem utf8_inj {a b : Text} (h : utf8 a = utf8 b) : a = b := by
  rw [utf8_eq, utf8_eq] at h
  have := congrArg decode h
  rw [decode_encode, decode_encode] at this
  injection this

theorem BytesTok.unique {bs : List Nat} {k k' : Token} (h : BytesTok bs k) (h' : BytesTok bs k') : k = k' := by
  cases h with
  | text s =>
    generalize hb : utf8 s = bs at h'
    cases h' with
    | text s' => rw [utf8_inj hb]
    | binary h => exact absurd hb (h s)
  | binary h =>
    cases h' with
    | text s => exact absurd rfl (h s)
    | binary _ => rfl

theorem TextPart.unique {bs : List Nat} {ts ts' : List Token} (h : TextPart bs ts) (h' : TextPart bs ts') : ts = ts' := by
  cases h with
  | none =>
    cases h' with
    | none => rfl
    | some hne _ => exact absurd rfl hne
  | some hne h =>
    cases h' with
    | none => exact absurd rfl hne
    | some _ h' => rw [h.unique h']

theorem Parts.unique {bs : List Nat} {fs : List Snip} {ts ts' : List Token} (h : Parts bs fs ts) (h' : Parts bs fs ts') : ts = ts' := by
  induction h generalizing ts' with
  | nil h => cases h' with | nil h' => exact h.unique h'
  | plain c _ ih => cases h' with | plain _ h' => exact ih h'
  | esc e v _ ih => cases h' with | esc _ _ h' => exact ih h'
  | var n hb _ ih => cases h' with | var _ hb' h' => rw [ih h', hb.unique hb']
  | prop n p hb _ ih => cases h' with | prop _ _ hb' h' => rw [ih h', hb.unique hb']
  | block s is hb _ ih => cases h' with | block _ _ hb' h' => rw [ih h', hb.unique hb']
  | dollar s is hb _ ih => cases h' with | dollar _ _ hb' h' => rw [ih h', hb.unique hb']

/-! ### Names -/

theorem label_unique {w w' r r' : Text} (hw : IsLabel w) (hw' : IsLabel w') (hr : endsIdentifier r = true) (hr' : endsIdentifier r' = true)
    (h : w ++ r = w' ++ r') : w = w' ∧ r = r' :=
  run_unique (p := fun c => isLabelChar c = true) hw.lab hw'.lab (fun c hc h => by rw [endsIdentifier_head hr c hc] at h; cases h)
    (fun c hc h => by rw [endsIdentifier_head hr' c hc] at h; cases h) h

theorem label_some' {w r : Text} (hw : IsLabel w) : ¬ noIdentifier (w ++ r) := by
  obtain ⟨c, s, e, h1, h2⟩ := hw.head (r := r)
  rw [e]
  intro h
  have := noIdentifier_head h
  rw [h1, h2] at this
  cases this

/-! ### Escape sequences -/

theorem SqEscape.unique {e e' r r' : Text} {v v' : List Nat} (h : SqEscape e v) (h' : SqEscape e' v') (he : e ++ r = e' ++ r') :
    e = e' ∧ v = v' := by
  cases h with
  | known c hc =>
    cases h' with
    | known c' hc' => injection he with _ he; injection he with he; subst he; exact ⟨rfl, rfl⟩
    | other c' hc' =>
      injection he with _ he; injection he with he; subst he
      rcases hc with h | h
      · exact absurd h hc'.1
      · exact absurd h hc'.2
  | other c hc =>
    cases h' with
    | known c' hc' =>
      injection he with _ he; injection he with he; subst he
      rcases hc' with h | h
      · exact absurd h hc.1
      · exact absurd h hc.2
    | other c' hc' => injection he with _ he; injection he with he; subst he; exact ⟨rfl, rfl⟩

theorem hex_alphanum {c : Char} (h : c.isDigit = true ∨ c ∈ c!"abcdefABCDEF") : c.isAlphanum = true := by
  rcases h with h | h
  · simp [Char.isAlphanum, h]
  · have : ∀ c ∈ c!"abcdefABCDEF", c.isAlphanum = true := by decide
    exact this c h

theorem dqEscapes_keys : (∀ p ∈ dqEscapes, ∀ q ∈ dqEscapes, p.1 = q.1 → p = q) ∧
    ∀ p ∈ dqEscapes, p.1 ≠ 'x' ∧ p.1 ≠ 'X' ∧ p.1 ∈ c!"nrtfve\"\\$u" := by decide

theorem hex_ne {ds r : Text} (hl : ds.length = 2 ∨ ds.length = 1 ∧ ∀ c, r.head? = some c → c.isAlphanum = false) :
    ∃ d es, ds = d :: es := by
  cases ds with
  | nil => rcases hl with h | h <;> simp at h
  | cons d es => exact ⟨d, es, rfl⟩

theorem hex_two {ds ds' r r' : Text} (hl : ds.length = 2)
    (hl' : ds'.length = 1 ∧ ∀ c, r'.head? = some c → c.isAlphanum = false)
    (hd : ∀ c ∈ ds, c.isDigit = true ∨ c ∈ c!"abcdefABCDEF") (h : ds ++ r = ds' ++ r') : False := by
  obtain ⟨a, b, rfl⟩ : ∃ a b, ds = [a, b] := by
    rcases ds with _ | ⟨a, _ | ⟨b, _ | ⟨c, ds⟩⟩⟩
    · cases hl
    · cases hl
    · exact ⟨a, b, rfl⟩
    · cases hl
  obtain ⟨a', rfl⟩ := List.length_eq_one_iff.1 hl'.1
  injection h with _ h
  have h : b :: r = r' := h
  subst h
  have := hl'.2 b rfl
  rw [hex_alphanum (hd b (by simp))] at this
  cases this

theorem DqEscape.unique {e e' r r' : Text} {v v' : List Nat} (h : DqEscape e v r) (h' : DqEscape e' v' r') (he : e ++ r = e' ++ r') :
    e = e' ∧ v = v' := by
  have hexOther : ∀ {x c : Char} {ds r r' : Text} (_ : x = 'x' ∨ x = 'X')
      (_ : ds.length = 2 ∨ ds.length = 1 ∧ ∀ c, r.head? = some c → c.isAlphanum = false)
      (_ : ∀ c ∈ ds, c.isDigit = true ∨ c ∈ c!"abcdefABCDEF")
      (_ : c = 'x' ∨ c = 'X' → ∀ d, r'.head? = some d → d.isAlphanum = false),
      '\\' :: x :: ds ++ r = ['\\', c] ++ r' → False := by
    intro x c ds r r' hx hl hd ho he
    injection he with _ he; injection he with he1 he; subst he1
    obtain ⟨d, es, rfl⟩ := hex_ne hl
    have he : d :: (es ++ r) = r' := he
    have := ho hx d (by rw [← he]; rfl)
    rw [hex_alphanum (hd d (by simp))] at this
    cases this
  cases h with
  | known c v hc =>
    cases h' with
    | known c' v' hc' =>
      injection he with _ he; injection he with he; subst he
      have := dqEscapes_keys.1 _ hc _ hc' rfl
      cases this
      exact ⟨rfl, rfl⟩
    | hex x ds hx hl hd =>
      injection he with _ he; injection he with he; subst he
      have := dqEscapes_keys.2 _ hc
      rcases hx with h | h
      · exact absurd h this.1
      · exact absurd h this.2.1
    | other c' hc' hx =>
      injection he with _ he; injection he with he; subst he
      exact absurd (dqEscapes_keys.2 _ hc).2.2 hc'
  | hex x ds hx hl hd =>
    cases h' with
    | known c' v' hc' =>
      injection he with _ he; injection he with he; subst he
      have := dqEscapes_keys.2 _ hc'
      rcases hx with h | h
      · exact absurd h this.1
      · exact absurd h this.2.1
    | hex x' ds' hx' hl' hd' =>
      injection he with _ he; injection he with he1 he; subst he1
      have hlen : ds.length = ds'.length := by
        rcases hl with hl | hl <;> rcases hl' with hl' | hl'
        · rw [hl, hl']
        · exact (hex_two hl hl' hd he).elim
        · exact (hex_two hl' hl hd' he.symm).elim
        · rw [hl.1, hl'.1]
      obtain ⟨rfl, _⟩ := List.append_inj he hlen
      exact ⟨rfl, rfl⟩
    | other c' hc' hx' => exact (hexOther hx hl hd hx' he).elim
  | other c hc hx =>
    cases h' with
    | known c' v' hc' =>
      injection he with _ he; injection he with he; subst he
      exact absurd (dqEscapes_keys.2 _ hc').2.2 hc
    | hex x' ds' hx' hl' hd' => exact (hexOther hx' hl' hd' hx he.symm).elim
    | other c' hc' hx' => injection he with _ he; injection he with he; subst he; exact ⟨rfl, rfl⟩

/-! ### One after the other -/

theorem DqEscape.head {e r : Text} {v : List Nat} (h : DqEscape e v r) : ∃ s, e = '\\' :: s := by
  cases h <;> exact ⟨_, rfl⟩

theorem SqEscape.head {e : Text} {v : List Nat} (h : SqEscape e v) : ∃ s, e = '\\' :: s := by
  cases h <;> exact ⟨_, rfl⟩

theorem Snip.Ok.esc_head {q : Quote} {e r : Text} {v : List Nat} (h : (Snip.esc e v).Ok q r) : ∃ s, e = '\\' :: s := by
  cases q with
  | single => exact SqEscape.head h
  | double => exact DqEscape.head h
  | back => exact h.elim
  | here _ => exact DqEscape.head h
  | now _ => exact SqEscape.head h

theorem Snip.Ok.plain_ne {q : Quote} {c : Char} {r : Text} (h : (Snip.plain c).Ok q r) : c ≠ '\\' := by
  cases q <;> exact h.1

/-- Where variables may stand a plain character does not begin one. -/
theorem Snip.Ok.plain_dollar {q : Quote} {r n s : Text} (h : (Snip.plain '$').Ok q r) (hn : IsLabel n) (e : r = n ++ s)
    (hq : q ≠ .single ∧ ∀ t, q ≠ .now t) : False := by
  subst e
  have hb : Begins '$' (n ++ s) := .inl ⟨rfl, .inl (label_some' hn)⟩
  cases q with
  | single => exact hq.1 rfl
  | double => exact h.2.2 hb
  | back => exact h.2.2 hb
  | here _ => exact h.2.1 hb
  | now t => exact hq.2 t rfl

theorem Snip.Ok.var {q : Quote} {n r : Text} (h : (Snip.var n).Ok q r) :
    (IsLabel n ∧ endsIdentifier r = true ∧ ¬ c!"[" <+: r ∧ ∀ s, r = c!"->" ++ s → noIdentifier s) ∧ (q ≠ .single ∧ ∀ t, q ≠ .now t) := by
  cases q with
  | single => exact h.elim
  | now _ => exact h.elim
  | double => exact ⟨h, nofun, nofun⟩
  | back => exact ⟨h, nofun, nofun⟩
  | here _ => exact ⟨h, nofun, nofun⟩

theorem Snip.Ok.prop {q : Quote} {n p r : Text} (h : (Snip.prop n p).Ok q r) :
    (IsLabel n ∧ IsLabel p ∧ endsIdentifier r = true) ∧ (q ≠ .single ∧ ∀ t, q ≠ .now t) := by
  cases q with
  | single => exact h.elim
  | now _ => exact h.elim
  | double => exact ⟨h, nofun, nofun⟩
  | back => exact ⟨h, nofun, nofun⟩
  | here _ => exact ⟨h, nofun, nofun⟩

/-- The expressions between braces are read in one way only. -/
def InnerU : Prop := ∀ s ts rest s' ts' rest', Inner .script s ts rest → Inner .script s' ts' rest' → s ++ rest = s' ++ rest' → s = s' ∧ ts = ts'

theorem Snip.Ok.block {q : Quote} {s r : Text} {ts : List Token} (h : (Snip.block s ts).Ok q r) :
    (c!"$" <+: s ∧ Inner .script s ts r) ∧ q.vars := by
  cases q with
  | single => exact h.elim
  | now _ => exact h.elim
  | double => exact ⟨h, trivial⟩
  | back => exact ⟨h, trivial⟩
  | here _ => exact ⟨h, trivial⟩

theorem Snip.Ok.dollar {q : Quote} {s r : Text} {ts : List Token} (h : (Snip.dollar s ts).Ok q r) :
    Inner .script s ts r ∧ q.vars := by
  cases q with
  | single => exact h.elim
  | now _ => exact h.elim
  | double => exact ⟨h, trivial⟩
  | back => exact ⟨h, trivial⟩
  | here _ => exact ⟨h, trivial⟩

theorem Snip.Ok.begins {q : Quote} {c : Char} {r : Text} (h : (Snip.plain c).Ok q r) (hq : q.vars) : ¬ Begins c r := by
  cases q with
  | single => exact hq.elim
  | now _ => exact hq.elim
  | double => exact h.2.2
  | back => exact h.2.2
  | here _ => exact h.2.1

theorem arrow_ends (r : Text) : endsIdentifier (c!"->" ++ r) = true := rfl

theorem Snip.unique {q : Quote} {f f' : Snip} {r r' : Text} (hu : q.vars → InnerU) (h : f.Ok q r) (h' : f'.Ok q r') (e : f.src ++ r = f'.src ++ r') : f = f' := by
  have pe : ∀ {c : Char} {e : Text} {v : List Nat} {r r' : Text}, (Snip.plain c).Ok q r → (Snip.esc e v).Ok q r' → [c] ++ r = e ++ r' → False := by
    intro c e v r r' h h' he
    obtain ⟨s, rfl⟩ := h'.esc_head
    injection he with he
    exact h.plain_ne he
  have pv : ∀ {c : Char} {n r s : Text}, (Snip.plain c).Ok q r → IsLabel n → (q ≠ .single ∧ ∀ t, q ≠ .now t) → [c] ++ r = '$' :: (n ++ s) → False := by
    intro c n r s h hn hq he
    injection he with he1 he
    subst he1
    exact h.plain_dollar hn he hq
  have ed : ∀ {e : Text} {v : List Nat} {r s : Text}, (Snip.esc e v).Ok q r → e ++ r = '$' :: s → False := by
    intro e v r s h he
    obtain ⟨s, rfl⟩ := h.esc_head
    injection he with he
    cases he
  have vp : ∀ {n n' p r r' : Text}, (Snip.var n).Ok q r → (Snip.prop n' p).Ok q r' →
      c!"$" ++ n ++ r = c!"$" ++ n' ++ c!"->" ++ p ++ r' → False := by
    intro n n' p r r' h h' he
    have h := h.var.1
    have h' := h'.prop.1
    have e1 : n ++ r = n' ++ (c!"->" ++ (p ++ r')) := by simpa using he
    obtain ⟨_, e2⟩ := label_unique h.1 h'.1 h.2.1 (arrow_ends _) e1
    exact label_some' h'.2.1 (h.2.2.2 _ e2)
  have lb : ∀ {n r s : Text}, IsLabel n → n ++ r = '{' :: s → False := by
    intro n r s h he
    obtain ⟨c, s', e, h1, _⟩ := h.head (r := r)
    rw [he] at e
    injection e with e
    subst e
    cases h1
  have pb : ∀ {c : Char} {s r r' : Text} {ts : List Token}, (Snip.plain c).Ok q r → (Snip.block s ts).Ok q r' →
      [c] ++ r = (Snip.block s ts).src ++ r' → False := by
    intro c s r r' ts h h' he
    obtain ⟨⟨⟨x, rfl⟩, _⟩, hq⟩ := h'.block
    injection he with h1 h2
    have h2 : r = c!"$" ++ x ++ r' := h2
    exact h.begins hq (.inr ⟨h1, x ++ r', by rw [h2]; simp⟩)
  have pd : ∀ {c : Char} {s r r' : Text} {ts : List Token}, (Snip.plain c).Ok q r → (Snip.dollar s ts).Ok q r' →
      [c] ++ r = (Snip.dollar s ts).src ++ r' → False := by
    intro c s r r' ts h h' he
    injection he with h1 h2
    have h2 : r = c!"{" ++ (s ++ r') := h2
    exact h.begins h'.dollar.2 (.inl ⟨h1, .inr ⟨s ++ r', h2.symm⟩⟩)
  have eb : ∀ {e : Text} {v : List Nat} {r s : Text}, (Snip.esc e v).Ok q r → e ++ r = '{' :: s → False := by
    intro e v r s h he
    obtain ⟨s, rfl⟩ := h.esc_head
    injection he with he
    cases he
  have bd : ∀ {s s' : Text}, '{' :: s = '$' :: s' → False := fun h => by injection h with h; cases h
  cases f with
  | plain c =>
    cases f' with
    | plain c' => injection e with e; rw [e]
    | block s ts => exact (pb h h' e).elim
    | dollar s ts => exact (pd h h' e).elim
    | esc b v => exact (pe h h' e).elim
    | var n => exact (pv h h'.var.1.1 h'.var.2 e).elim
    | prop n p => exact (pv (n := n) (s := c!"->" ++ p ++ r') h h'.prop.1.1 h'.prop.2 (by simpa [Snip.src] using e)).elim
  | esc b v =>
    cases f' with
    | plain c' => exact (pe h' h e.symm).elim
    | esc b' v' =>
      have : b = b' ∧ v = v' := by
        cases q with
        | single => exact SqEscape.unique h h' e
        | double => exact DqEscape.unique h h' e
        | back => exact h.elim
        | here _ => exact DqEscape.unique h h' e
        | now _ => exact SqEscape.unique h h' e
      rw [this.1, this.2]
    | var n => exact (ed h e).elim
    | prop n p => exact (ed (s := n ++ c!"->" ++ p ++ r') h (by simpa [Snip.src] using e)).elim
    | block s ts => exact (eb h e).elim
    | dollar s ts => exact (ed h e).elim
  | var n =>
    cases f' with
    | plain c' => exact (pv h' h.var.1.1 h.var.2 e.symm).elim
    | esc b' v' => exact (ed h' e.symm).elim
    | var n' =>
      have e1 : n ++ r = n' ++ r' := by simpa [Snip.src] using e
      rw [(label_unique h.var.1.1 h'.var.1.1 h.var.1.2.1 h'.var.1.2.1 e1).1]
    | prop n' p => exact (vp h h' e).elim
    | block s ts => exact (bd e.symm).elim
    | dollar s ts => injection e with _ e; exact (lb h.var.1.1 e).elim
  | prop n p =>
    cases f' with
    | plain c' => exact (pv (n := n) (s := c!"->" ++ p ++ r) h' h.prop.1.1 h.prop.2 (by simpa [Snip.src] using e.symm)).elim
    | esc b' v' => exact (ed (s := n ++ c!"->" ++ p ++ r) h' (by simpa [Snip.src] using e.symm)).elim
    | var n' => exact (vp h' h e.symm).elim
    | prop n' p' =>
      have e1 : n ++ (c!"->" ++ (p ++ r)) = n' ++ (c!"->" ++ (p' ++ r')) := by simpa [Snip.src] using e
      obtain ⟨rfl, e2⟩ := label_unique h.prop.1.1 h'.prop.1.1 (arrow_ends _) (arrow_ends _) e1
      have e3 := List.append_cancel_left e2
      rw [(label_unique h.prop.1.2.1 h'.prop.1.2.1 h.prop.1.2.2 h'.prop.1.2.2 e3).1]
    | block s ts => exact (bd e.symm).elim
    | dollar s ts =>
      have e1 : n ++ (c!"->" ++ (p ++ r)) = '{' :: (s ++ r') := by simpa [Snip.src] using e
      exact (lb h.prop.1.1 e1).elim
  | block s ts =>
    cases f' with
    | plain c' => exact (pb h' h e.symm).elim
    | esc b' v' => exact (eb h' e.symm).elim
    | var n' => exact (bd e).elim
    | prop n' p' => exact (bd e).elim
    | block s' ts' =>
      have e1 : s ++ r = s' ++ r' := by simpa [Snip.src] using e
      obtain ⟨rfl, rfl⟩ := hu h.block.2 _ _ _ _ _ _ h.block.1.2 h'.block.1.2 e1
      rfl
    | dollar s' ts' => exact (bd e).elim
  | dollar s ts =>
    cases f' with
    | plain c' => exact (pd h' h e.symm).elim
    | esc b' v' => exact (ed h' e.symm).elim
    | var n' => injection e with _ e; exact (lb h'.var.1.1 e.symm).elim
    | prop n' p' =>
      have e1 : n' ++ (c!"->" ++ (p' ++ r')) = '{' :: (s ++ r) := by simpa [Snip.src] using e.symm
      exact (lb h'.prop.1.1 e1).elim
    | block s' ts' => exact (bd e.symm).elim
    | dollar s' ts' =>
      have e1 : s ++ r = s' ++ r' := by simpa [Snip.src] using e
      obtain ⟨rfl, rfl⟩ := hu h.dollar.2 _ _ _ _ _ _ h.dollar.1 h'.dollar.1 e1
      rfl

/-- The inside of a literal ends at the first place where it may. -/
theorem frags_unique {q : Quote} {C : Text → Prop} (hu : q.vars → InnerU) (hC : ∀ f r, Snip.Ok q r f → r ≠ [] → ¬ C (f.src ++ r)) :
    ∀ {fs fs' : List Snip} {z z' : Text}, FragsOk q fs z → FragsOk q fs' z' → C z → C z' → z ≠ [] → z' ≠ [] →
      fragSrc fs ++ z = fragSrc fs' ++ z' → fs = fs' ∧ z = z' := by
  have ne : ∀ {fs : List Snip} {z : Text}, z ≠ [] → fragSrc fs ++ z ≠ [] := fun hz h => hz (List.append_eq_nil_iff.1 h).2
  have src : ∀ (f : Snip) (fs : List Snip) (z : Text), fragSrc (f :: fs) ++ z = f.src ++ (fragSrc fs ++ z) := by
    intro f fs z; simp [fragSrc]
  intro fs
  induction fs with
  | nil =>
    intro fs' z z' _ h' hz _ _ hn' e
    cases fs' with
    | nil => exact ⟨rfl, e⟩
    | cons f fs' =>
      rw [src] at e
      have e : z = f.src ++ (fragSrc fs' ++ z') := e
      rw [e] at hz
      exact absurd hz (hC _ _ h'.1 (ne hn'))
  | cons f fs ih =>
    intro fs' z z' h h' hz hz' hn hn' e
    cases fs' with
    | nil =>
      rw [src] at e
      have e : f.src ++ (fragSrc fs ++ z) = z' := e
      rw [← e] at hz'
      exact absurd hz' (hC _ _ h.1 (ne hn))
    | cons f' fs' =>
      rw [src, src] at e
      have hf := Snip.unique hu h.1 h'.1 e
      subst hf
      obtain ⟨rfl, rfl⟩ := ih h.2 h'.2 hz hz' hn hn' (List.append_cancel_left e)
      exact ⟨rfl, rfl⟩

/-- A snip does not begin with the character that none of them may begin with. -/
theorem Snip.Ok.first {q : Quote} {f : Snip} {r : Text} {c : Char} (h : f.Ok q r) (hc : c ≠ '\\' ∧ c ≠ '$' ∧ c ≠ '{')
    (hp : ∀ r, ¬ (Snip.plain c).Ok q r) : ¬ [c] <+: f.src ++ r := by
  rintro ⟨s, hs⟩
  cases f with
  | plain d => injection hs with hs; subst hs; exact hp _ h
  | esc e v =>
    obtain ⟨s', rfl⟩ := h.esc_head
    injection hs with hs; exact hc.1 hs
  | var n => injection hs with hs; exact hc.2.1 hs
  | prop n p => injection hs with hs; exact hc.2.1 hs
  | block s ts => injection hs with hs; exact hc.2.2 hs
  | dollar s ts => injection hs with hs; exact hc.2.1 hs

theorem single_unique {fs fs' : List Snip} {r r' : Text} (h : FragsOk .single fs (c!"'" ++ r)) (h' : FragsOk .single fs' (c!"'" ++ r'))
    (e : fragSrc fs ++ (c!"'" ++ r) = fragSrc fs' ++ (c!"'" ++ r')) : fs = fs' :=
  (frags_unique (q := .single) (fun h => h.elim) (C := fun s => c!"'" <+: s) (fun _ _ hf _ => hf.first ⟨by decide, by decide, by decide⟩ fun _ h => h.2 rfl) h h'
    (List.prefix_append _ _) (List.prefix_append _ _) nofun nofun e).1

theorem double_unique (hu : InnerU) {fs fs' : List Snip} {r r' : Text} (h : FragsOk .double fs (c!"\"" ++ r)) (h' : FragsOk .double fs' (c!"\"" ++ r'))
    (e : fragSrc fs ++ (c!"\"" ++ r) = fragSrc fs' ++ (c!"\"" ++ r')) : fs = fs' :=
  (frags_unique (q := .double) (fun _ => hu) (C := fun s => c!"\"" <+: s) (fun _ _ hf _ => hf.first ⟨by decide, by decide, by decide⟩ fun _ h => h.2.1 rfl) h h'
    (List.prefix_append _ _) (List.prefix_append _ _) nofun nofun e).1

theorem back_unique (hu : InnerU) {fs fs' : List Snip} (h : FragsOk .back fs c!"`") (h' : FragsOk .back fs' c!"`")
    (e : fragSrc fs ++ c!"`" = fragSrc fs' ++ c!"`") : fs = fs' := by
  refine (frags_unique (q := .back) (fun _ => hu) (C := fun s => s = c!"`") (fun f r hf hr hs => ?_) h h' rfl rfl nofun nofun e).1
  have hl := congrArg List.length hs
  rw [List.length_append] at hl
  have h1 := List.length_pos_iff.2 hr
  have h2 : f.src ≠ [] := by
    cases f with
    | plain c => nofun
    | esc e v => obtain ⟨s, rfl⟩ := hf.esc_head; nofun
    | var n => nofun
    | prop n p => nofun
    | block s ts => nofun
    | dollar s ts => nofun
  have h2 := List.length_pos_iff.2 h2
  simp only [List.length_cons, List.length_nil] at hl
  omega

theorem doc_end {q : Quote} {tag : Text} (hq : q = .here tag ∨ q = .now tag) : ∀ f r, Snip.Ok q r f → r ≠ [] →
    ¬ c!"\n" ++ tag <+: f.src ++ r := by
  rintro f r hf _ ⟨s, hs⟩
  have hp : ∀ d, f = .plain d → d = '\n' → False := by
    rintro d rfl rfl
    have hs : tag ++ s = r := by simpa [Snip.src] using hs
    rcases hq with rfl | rfl
    · exact hf.2.2 rfl ⟨s, hs⟩
    · exact hf.2.2.2 rfl ⟨s, hs⟩
  cases f with
  | plain d => injection hs with h1 _; exact hp d rfl h1.symm
  | esc e v =>
    obtain ⟨s', rfl⟩ := hf.esc_head
    injection hs with hs; cases hs
  | var n => injection hs with hs; cases hs
  | prop n p => injection hs with hs; cases hs
  | block s ts => injection hs with hs; cases hs
  | dollar s ts => injection hs with hs; cases hs

theorem doc_body_unique {q : Quote} {tag : Text} {fs fs' : List Snip} {r r' : Text} (hu : q.vars → InnerU) (hq : q = .here tag ∨ q = .now tag)
    (h : FragsOk q fs (c!"\n" ++ tag ++ r)) (h' : FragsOk q fs' (c!"\n" ++ tag ++ r'))
    (e : fragSrc fs ++ (c!"\n" ++ tag ++ r) = fragSrc fs' ++ (c!"\n" ++ tag ++ r')) : fs = fs' :=
  (frags_unique hu (C := fun s => c!"\n" ++ tag <+: s) (doc_end hq) h h' (List.prefix_append _ _) (List.prefix_append _ _) nofun nofun e).1

/-! ### Documents -/

theorem newline_unique {nl nl' z z' y y' : Text} (h : Newline nl z) (h' : Newline nl' z') (hz : z ≠ []) (hz' : z' ≠ [])
    (e : nl ++ (z ++ y) = nl' ++ (z' ++ y')) : nl = nl' := by
  have key : ∀ {z y s : Text}, ¬ c!"\n" <+: z → z ≠ [] → '\n' :: s = z ++ y → False := by
    intro z y s h hz e
    cases z with
    | nil => exact hz rfl
    | cons c z => injection e with e; subst e; exact h ⟨z, rfl⟩
  rcases h with rfl | rfl | ⟨rfl, h⟩
  · rcases h' with rfl | rfl | ⟨rfl, h'⟩
    · rfl
    · cases e
    · cases e
  · rcases h' with rfl | rfl | ⟨rfl, h'⟩
    · cases e
    · rfl
    · injection e with _ e
      exact (key h' hz' e).elim
  · rcases h' with rfl | rfl | ⟨rfl, h'⟩
    · cases e
    · injection e with _ e
      exact (key h hz e.symm).elim
    · rfl

/-- The first line of a document is read in one way. -/
theorem docHead_unique {b q tag nl z y b' q' tag' nl' z' y' : Text} (hb : Spaces b) (hb' : Spaces b')
    (hq : q = [] ∨ q = c!"'" ∨ q = c!"\"") (hq' : q' = [] ∨ q' = c!"'" ∨ q' = c!"\"") (ht : IsLabel tag) (ht' : IsLabel tag')
    (hn : Newline nl z) (hn' : Newline nl' z') (hz : z ≠ []) (hz' : z' ≠ [])
    (e : b ++ (q ++ (tag ++ (q ++ (nl ++ (z ++ y))))) = b' ++ (q' ++ (tag' ++ (q' ++ (nl' ++ (z' ++ y')))))) :
    b = b' ∧ q = q' ∧ tag = tag' ∧ nl = nl' ∧ z ++ y = z' ++ y' := by
  have gap : ∀ {b : Text}, Spaces b → ∀ c ∈ b, isGap c = true := fun {b} h c hc => by
    rcases h c hc with rfl | rfl <;> rfl
  have hend : ∀ {q nl z s : Text}, (q = [] ∨ q = c!"'" ∨ q = c!"\"") → Newline nl z → endsIdentifier (q ++ (nl ++ s)) = true := by
    intro q nl z s hq hn
    rcases hq with rfl | rfl | rfl
    · rcases hn with rfl | rfl | ⟨rfl, _⟩ <;> rfl
    · rfl
    · rfl
  have nogap : ∀ {q tag s : Text}, (q = [] ∨ q = c!"'" ∨ q = c!"\"") → IsLabel tag →
      ∀ c, (q ++ (tag ++ s)).head? = some c → ¬ isGap c = true := by
    intro q tag s hq ht c hc h
    rcases hq with rfl | rfl | rfl
    · obtain ⟨d, s', e, h1, _⟩ := ht.head (r := s)
      rw [List.nil_append, e] at hc
      cases hc
      have : c = ' ' ∨ c = '\t' := by simpa [isGap] using h
      rcases this with rfl | rfl <;> cases h1
    · cases hc; cases h
    · cases hc; cases h
  obtain ⟨rfl, e1⟩ := run_unique (p := fun c => isGap c = true) (gap hb) (gap hb') (nogap hq ht) (nogap hq' ht') e
  have hqq : q = q' := by
    have no : ∀ {tag s u : Text} {c : Char}, IsLabel tag → isLabelChar c = false → tag ++ s = c :: u → False := by
      intro tag s u c ht hc h
      obtain ⟨d, s', e, h1, _⟩ := ht.head (r := s)
      rw [h] at e
      cases e
      rw [hc] at h1
      cases h1
    rcases hq with rfl | rfl | rfl <;> rcases hq' with rfl | rfl | rfl
    · rfl
    · exact (no (c := '\'') ht (by decide) e1).elim
    · exact (no (c := '"') ht (by decide) e1).elim
    · exact (no (c := '\'') ht' (by decide) e1.symm).elim
    · rfl
    · injection e1 with e1; cases e1
    · exact (no (c := '"') ht' (by decide) e1.symm).elim
    · injection e1 with e1; cases e1
    · rfl
  subst hqq
  have e2 := List.append_cancel_left e1
  obtain ⟨rfl, e3⟩ := label_unique ht ht' (hend hq hn) (hend hq hn') e2
  have e4 := List.append_cancel_left e3
  have hnn := newline_unique hn hn' hz hz' e4
  subst hnn
  exact ⟨rfl, rfl, rfl, rfl, List.append_cancel_left e4⟩

theorem Doc.unique {w w' r r' : Text} {ks ks' : List Token} (hu : 2 ≤ ks.length → InnerU) (h : Doc w ks r) (h' : Doc w' ks' r') (e : w ++ r = w' ++ r') :
    w = w' ∧ ks = ks' := by
  have ne : ∀ fs : List Snip, fragSrc fs ++ c!"\n" ≠ [] := fun fs h => by simp at h
  have two : ∀ {q : Text}, q = [] ∨ q = c!"\"" → q = [] ∨ q = c!"'" ∨ q = c!"\"" := fun h => by
    rcases h with h | h
    · exact .inl h
    · exact .inr (.inr h)
  cases h with
  | here b q tag nl fs ts hb hq ht hn h hk he =>
    cases h' with
    | here b' q' tag' nl' fs' ts' hb' hq' ht' hn' h' hk' he' =>
      have e1 : b ++ (q ++ (tag ++ (q ++ (nl ++ ((fragSrc fs ++ c!"\n") ++ (tag ++ r)))))) =
          b' ++ (q' ++ (tag' ++ (q' ++ (nl' ++ ((fragSrc fs' ++ c!"\n") ++ (tag' ++ r')))))) := by simpa using e
      obtain ⟨rfl, rfl, rfl, rfl, e2⟩ := docHead_unique hb hb' (two hq) (two hq') ht ht' hn hn' (ne _) (ne _) e1
      have := doc_body_unique (fun _ => hu (by simp)) (.inl rfl) h h' (by simpa using e2)
      subst this
      rw [hk.unique hk']
      exact ⟨rfl, rfl⟩
    | now b' tag' nl' fs' k' hb' ht' hn' h' hk' he' =>
      have e1 : b ++ (q ++ (tag ++ (q ++ (nl ++ ((fragSrc fs ++ c!"\n") ++ (tag ++ r)))))) =
          b' ++ (c!"'" ++ (tag' ++ (c!"'" ++ (nl' ++ ((fragSrc fs' ++ c!"\n") ++ (tag' ++ r')))))) := by simpa using e
      obtain ⟨_, rfl, _⟩ := docHead_unique hb hb' (two hq) (.inr (.inl rfl)) ht ht' hn hn' (ne _) (ne _) e1
      rcases hq with h | h <;> cases h
  | now b tag nl fs k hb ht hn h hk he =>
    cases h' with
    | here b' q' tag' nl' fs' ts' hb' hq' ht' hn' h' hk' he' =>
      have e1 : b ++ (c!"'" ++ (tag ++ (c!"'" ++ (nl ++ ((fragSrc fs ++ c!"\n") ++ (tag ++ r)))))) =
          b' ++ (q' ++ (tag' ++ (q' ++ (nl' ++ ((fragSrc fs' ++ c!"\n") ++ (tag' ++ r')))))) := by simpa using e
      obtain ⟨_, rfl, _⟩ := docHead_unique hb hb' (.inr (.inl rfl)) (two hq') ht ht' hn hn' (ne _) (ne _) e1
      rcases hq' with h | h <;> cases h
    | now b' tag' nl' fs' k' hb' ht' hn' h' hk' he' =>
      have e1 : b ++ (c!"'" ++ (tag ++ (c!"'" ++ (nl ++ ((fragSrc fs ++ c!"\n") ++ (tag ++ r)))))) =
          b' ++ (c!"'" ++ (tag' ++ (c!"'" ++ (nl' ++ ((fragSrc fs' ++ c!"\n") ++ (tag' ++ r')))))) := by simpa using e
      obtain ⟨rfl, _, rfl, rfl, e2⟩ := docHead_unique hb hb' (.inr (.inl rfl)) (.inr (.inl rfl)) ht ht' hn hn' (ne _) (ne _) e1
      have := doc_body_unique (q := .now tag) (fun h => h.elim) (.inr rfl) h h' (by simpa using e2)
      subst this
      rw [hk.unique hk']
      exact ⟨rfl, rfl⟩

end Pico
