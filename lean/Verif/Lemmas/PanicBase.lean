import Verif.Spec.Panics
/-!
# Why the parser panics: rules

`Ab toks base lo pos m V E`: when `m` is run at `pos`, it panics only for one of the reasons of `Fault`; when it returns, it
has not gone back behind `lo`, is not behind the end (unless a parenthesis is left open), and has not closed more
parentheses than `base` allows. `V` holds for results, `E` for the position where it fails.
-/
namespace Pico
open P

section
variable {α β σ : Type} {toks : List TokSpan} {base : Int} {lo pos : Nat}

def kinds (toks : List TokSpan) : List Token := toks.map TokSpan.tok

def dep (toks : List TokSpan) (p : Nat) : Int := depthAt (kinds toks) p

/-- A parenthesis is never closed. -/
def Gone (toks : List TokSpan) : Prop := ∃ i, OpenTo (kinds toks) i toks.length

def Fault (toks : List TokSpan) (q : Panic) : Prop := Cause (kinds toks) q ∨ q = .subOverflow ∧ BadStart toks

structure Reach (toks : List TokSpan) (base : Int) (lo p : Nat) : Prop where
  le : lo ≤ p
  fits : p ≤ toks.length ∨ Gone toks
  deep : ∀ c, lo ≤ c → c ≤ p → base ≤ dep toks c

def Ab (toks : List TokSpan) (base : Int) (lo pos : Nat) (m : P α) (V : α → Nat → Prop) (E : Nat → Prop) : Prop :=
  match m toks pos with
  | .ok a p => Reach toks base lo p ∧ V a p
  | .err _ p => Reach toks base lo p ∧ E p
  | .panic q => Fault toks q
  | .oof => True

/-- The same, relative to the position where it begins. -/
abbrev Aq (toks : List TokSpan) (pos : Nat) (m : P α) (V : α → Nat → Prop) (E : Nat → Prop) : Prop :=
  Ab toks (dep toks pos) pos pos m V E

/-- Any result, any error. -/
abbrev At0 (toks : List TokSpan) (pos : Nat) (m : P α) : Prop := Aq toks pos m (fun _ _ => True) (fun _ => True)

theorem kinds_get {i : Nat} : (kinds toks)[i]? = toks[i]?.map TokSpan.tok := by
  unfold kinds; simp

theorem kinds_length : (kinds toks).length = toks.length := by unfold kinds; simp

theorem parens_append (a b : List Token) : parens (a ++ b) = parens a + parens b := by
  induction a with
  | nil => simp [parens]
  | cons t a ih => simp only [List.cons_append, parens, ih]; omega

theorem dep_step {t : TokSpan} (h : toks[pos]? = some t) : dep toks (pos + 1) = dep toks pos + parens [t.tok] := by
  unfold dep depthAt
  rw [List.take_succ, parens_append, kinds_get, h]
  rfl

theorem dep_other {t : TokSpan} (h : toks[pos]? = some t) (h1 : t.tok ≠ .k .ParenthesesOpen) (h2 : t.tok ≠ .k .ParenthesesClose) :
    dep toks (pos + 1) = dep toks pos := by
  rw [dep_step h]
  simp [parens, h1, h2]

theorem dep_up {t : TokSpan} (h : toks[pos]? = some t) (h2 : t.tok ≠ .k .ParenthesesClose) :
    dep toks pos ≤ dep toks (pos + 1) := by
  rw [dep_step h]
  simp only [parens, h2, if_false]
  split <;> omega

theorem dep_open {t : TokSpan} (h : toks[pos]? = some t) (h1 : t.tok = .k .ParenthesesOpen) :
    dep toks (pos + 1) = dep toks pos + 1 := by
  rw [dep_step h, h1]; rfl

theorem dep_close {t : TokSpan} (h : toks[pos]? = some t) (h1 : t.tok = .k .ParenthesesClose) :
    dep toks (pos + 1) = dep toks pos - 1 := by
  rw [dep_step h, h1]; rfl

theorem lt_of_get {i : Nat} {t : TokSpan} (h : toks[i]? = some t) : i < toks.length := by
  obtain ⟨h', _⟩ := List.getElem?_eq_some_iff.1 h
  exact h'

theorem Reach.refl (h : pos ≤ toks.length ∨ Gone toks) : Reach toks (dep toks pos) pos pos :=
  ⟨Nat.le_refl _, h, fun c h1 h2 => by rw [Nat.le_antisymm h1 h2]; exact Int.le_refl _⟩

theorem Reach.floor (h : Reach toks base lo pos) : base ≤ dep toks pos := h.deep pos h.le (Nat.le_refl _)

theorem Reach.trans {p : Nat} (h : Reach toks base lo pos) (h' : Reach toks (dep toks pos) pos p) : Reach toks base lo p :=
  ⟨Nat.le_trans h.le h'.le, h'.fits, fun c h1 h2 => by
    rcases Nat.le_total c pos with hc | hc
    · exact h.deep c h1 hc
    · exact Int.le_trans h.floor (h'.deep c hc h2)⟩

theorem Reach.step {t : TokSpan} (h : Reach toks base lo pos) (ht : toks[pos]? = some t) (hd : base ≤ dep toks (pos + 1)) :
    Reach toks base lo (pos + 1) :=
  ⟨Nat.le_succ_of_le h.le, .inl (lt_of_get ht), fun c h1 h2 => by
    rcases Nat.lt_or_ge pos c with hc | hc
    · rw [show c = pos + 1 by omega]; exact hd
    · exact h.deep c h1 hc⟩

/-- Going behind the end. -/
theorem Reach.past (h : Reach toks base lo pos) (ht : toks[pos]? = none) (hg : Gone toks) : Reach toks base lo (pos + 1) := by
  have e : dep toks (pos + 1) = dep toks pos := by
    have hl : toks.length ≤ pos := List.getElem?_eq_none_iff.1 ht
    unfold dep depthAt
    rw [List.take_of_length_le (by rw [show (kinds toks).length = toks.length by unfold kinds; simp]; exact Nat.le_succ_of_le hl),
      List.take_of_length_le (by rw [show (kinds toks).length = toks.length by unfold kinds; simp]; exact hl)]
  exact ⟨Nat.le_succ_of_le h.le, .inr hg, fun c h1 h2 => by
    rcases Nat.lt_or_ge pos c with hc | hc
    · rw [show c = pos + 1 by omega, e]; exact h.floor
    · exact h.deep c h1 hc⟩

theorem Reach.here (h : Reach toks base lo pos) : Reach toks (dep toks pos) pos pos := Reach.refl h.fits

/-! ## Rules -/

theorem Ab.bind {m : P α} {f : α → P β} {V : α → Nat → Prop} {W : β → Nat → Prop} {E E0 : Nat → Prop}
    (h : Aq toks pos m V E0) (hr : Reach toks base lo pos)
    (hf : ∀ a p, Reach toks base lo p → pos ≤ p → dep toks pos ≤ dep toks p → V a p → Ab toks base lo p (f a) W E)
    (he : ∀ p, Reach toks base lo p → pos ≤ p → E0 p → E p) : Ab toks base lo pos (m >>= f) W E := by
  show Ab toks base lo pos (P.bnd m f) W E
  unfold Ab P.bnd
  unfold Aq Ab at h
  cases hm : m toks pos with
  | ok a p => rw [hm] at h; exact hf a p (hr.trans h.1) h.1.le h.1.floor h.2
  | err e p => rw [hm] at h; exact ⟨hr.trans h.1, he p (hr.trans h.1) h.1.le h.2⟩
  | panic q => rw [hm] at h; exact h
  | oof => trivial

theorem Ab.bindT {m : P α} {f : α → P β} {W : β → Nat → Prop}
    (h : At0 toks pos m) (hr : Reach toks base lo pos)
    (hf : ∀ a p, Reach toks base lo p → pos ≤ p → dep toks pos ≤ dep toks p → Ab toks base lo p (f a) W (fun _ => True)) :
    Ab toks base lo pos (m >>= f) W (fun _ => True) :=
  Ab.bind h hr (fun a p h1 h2 h3 _ => hf a p h1 h2 h3) fun _ _ _ _ => trivial

theorem Ab.tail {m : P α} {V : α → Nat → Prop} {E : Nat → Prop} (hr : Reach toks base lo pos) (h : Aq toks pos m V E) :
    Ab toks base lo pos m V E := by
  unfold Ab
  unfold Aq Ab at h
  cases hm : m toks pos with
  | ok a p => rw [hm] at h; exact ⟨hr.trans h.1, h.2⟩
  | err e p => rw [hm] at h; exact ⟨hr.trans h.1, h.2⟩
  | panic q => rw [hm] at h; exact h
  | oof => trivial

theorem Ab.weak {m : P α} {V W : α → Nat → Prop} {E E' : Nat → Prop} (h : Ab toks base lo pos m V E)
    (hv : ∀ a p, Reach toks base lo p → V a p → W a p) (he : ∀ p, Reach toks base lo p → E p → E' p) :
    Ab toks base lo pos m W E' := by
  unfold Ab at h ⊢
  cases hm : m toks pos with
  | ok a p => rw [hm] at h; exact ⟨h.1, hv a p h.1 h.2⟩
  | err e p => rw [hm] at h; exact ⟨h.1, he p h.1 h.2⟩
  | panic q => rw [hm] at h; exact h
  | oof => trivial

theorem Ab.any {m : P α} {V : α → Nat → Prop} {E : Nat → Prop} (h : Ab toks base lo pos m V E) :
    Ab toks base lo pos m (fun _ _ => True) (fun _ => True) := h.weak (fun _ _ _ _ => trivial) fun _ _ _ => trivial

theorem Ab.ret {a : α} {V : α → Nat → Prop} {E : Nat → Prop} (hr : Reach toks base lo pos) (h : V a pos) :
    Ab toks base lo pos (P.ret a) V E := ⟨hr, h⟩

theorem Ab.pure {a : α} {V : α → Nat → Prop} {E : Nat → Prop} (hr : Reach toks base lo pos) (h : V a pos) :
    Ab toks base lo pos (Pure.pure a : P α) V E := ⟨hr, h⟩

theorem Ab.pureBind {a : α} {f : α → P β} {V : β → Nat → Prop} {E : Nat → Prop} (h : Ab toks base lo pos (f a) V E) :
    Ab toks base lo pos ((Pure.pure a : P α) >>= f) V E := h

theorem Ab.fail {e : PErr} {V : α → Nat → Prop} {E : Nat → Prop} (hr : Reach toks base lo pos) (h : E pos) :
    Ab toks base lo pos (P.fail e : P α) V E := ⟨hr, h⟩

theorem Ab.err {ts : List Token} {V : α → Nat → Prop} {E : Nat → Prop} (hr : Reach toks base lo pos) (h : E pos) :
    Ab toks base lo pos (P.errHere ts : P α) V E := ⟨hr, h⟩

theorem Ab.unpack {o : Option PErr} {V : α → Nat → Prop} {E : Nat → Prop} (hr : Reach toks base lo pos) (h : E pos) :
    Ab toks base lo pos (deepestUnpack o : P α) V E := by
  unfold deepestUnpack
  cases o with
  | none => exact ⟨hr, h⟩
  | some x => exact ⟨hr, h⟩

theorem Ab.abort {q : Panic} {V : α → Nat → Prop} {E : Nat → Prop} (h : Fault toks q) :
    Ab toks base lo pos (P.abort q : P α) V E := h

theorem Ab.cause {q : Panic} {V : α → Nat → Prop} {E : Nat → Prop} (h : Cause (kinds toks) q) :
    Ab toks base lo pos (P.abort q : P α) V E := .inl h

theorem Ab.attempt {m : P α} {f : Except PErr α → P β} {V : α → Nat → Prop} {W : β → Nat → Prop} {E E0 : Nat → Prop}
    (h : Aq toks pos m V E0) (hr : Reach toks base lo pos)
    (hok : ∀ a p, Reach toks base lo p → pos ≤ p → dep toks pos ≤ dep toks p → V a p → Ab toks base lo p (f (.ok a)) W E)
    (herr : ∀ e p, Reach toks base lo p → pos ≤ p → dep toks pos ≤ dep toks p → E0 p → Ab toks base lo p (f (.error e)) W E) :
    Ab toks base lo pos (P.attempt m >>= f) W E := by
  show Ab toks base lo pos (P.bnd _ f) W E
  unfold Ab P.bnd P.attempt
  unfold Aq Ab at h
  cases hm : m toks pos with
  | ok a p => rw [hm] at h; exact hok a p (hr.trans h.1) h.1.le h.1.floor h.2
  | err e p => rw [hm] at h; exact herr e p (hr.trans h.1) h.1.le h.1.floor h.2
  | panic q => rw [hm] at h; exact h
  | oof => trivial

theorem Ab.attemptT {m : P α} {f : Except PErr α → P β} {W : β → Nat → Prop} {E : Nat → Prop}
    (h : At0 toks pos m) (hr : Reach toks base lo pos)
    (hok : ∀ a p, Reach toks base lo p → pos ≤ p → dep toks pos ≤ dep toks p → Ab toks base lo p (f (.ok a)) W E)
    (herr : ∀ e p, Reach toks base lo p → pos ≤ p → dep toks pos ≤ dep toks p → Ab toks base lo p (f (.error e)) W E) :
    Ab toks base lo pos (P.attempt m >>= f) W E :=
  Ab.attempt h hr (fun a p h1 h2 h3 _ => hok a p h1 h2 h3) fun e p h1 h2 h3 _ => herr e p h1 h2 h3

/-- A loop, with an invariant for its state. -/
theorem Ab.loop {f : σ → P (σ ⊕ α)} {x : σ} {V : α → Nat → Prop} {E : Nat → Prop} (I : σ → Nat → Prop)
    (hr : Reach toks base lo pos) (h0 : I x pos)
    (h : ∀ x p, Reach toks base lo p → I x p →
      Ab toks base lo p (f x) (fun y q => (∀ x', y = .inl x' → I x' q) ∧ ∀ a, y = .inr a → V a q) E) :
    Ab toks base lo pos (P.loop f x) V E := by
  have key : ∀ n x pos, Reach toks base lo pos → I x pos → Ab toks base lo pos (P.loopN f n x) V E := by
    intro n
    induction n with
    | zero => intro x pos _ _; exact trivial
    | succ n ih =>
      intro x pos hr hi
      have hh := h x pos hr hi
      show Ab toks base lo pos (P.bnd (f x) _) V E
      unfold Ab P.bnd
      unfold Ab at hh
      cases hm : f x toks pos with
      | ok y p =>
        rw [hm] at hh
        cases y with
        | inl x' => exact ih x' p hh.1 (hh.2.1 x' rfl)
        | inr a => exact ⟨hh.1, hh.2.2 a rfl⟩
      | err e p => rw [hm] at hh; exact hh
      | panic q => rw [hm] at hh; exact hh
      | oof => trivial
  exact key _ x pos hr h0

theorem Ab.loopT {f : σ → P (σ ⊕ α)} {x : σ} (hr : Reach toks base lo pos)
    (h : ∀ x p, Reach toks base lo p → base ≤ dep toks p → Ab toks base lo p (f x) (fun _ _ => True) (fun _ => True)) :
    Ab toks base lo pos (P.loop f x) (fun _ _ => True) (fun _ => True) :=
  Ab.loop (fun _ _ => True) hr trivial fun x p hp _ => (h x p hp hp.floor).weak (fun _ _ _ _ => ⟨fun _ _ => trivial, fun _ _ => trivial⟩) fun _ _ _ => trivial

theorem Ab.ite {c : Prop} [Decidable c] {m n : P α} {V : α → Nat → Prop} {E : Nat → Prop} (h : c → Ab toks base lo pos m V E)
    (h' : ¬c → Ab toks base lo pos n V E) : Ab toks base lo pos (if c then m else n) V E := by
  by_cases hc : c
  · rw [if_pos hc]; exact h hc
  · rw [if_neg hc]; exact h' hc

theorem Ab.iteTrue {m n : P α} {V : α → Nat → Prop} {E : Nat → Prop} (h : Ab toks base lo pos m V E) :
    Ab toks base lo pos (if true = true then m else n) V E := h

theorem Ab.iteFalse {m n : P α} {V : α → Nat → Prop} {E : Nat → Prop} (h : Ab toks base lo pos n V E) :
    Ab toks base lo pos (if false = true then m else n) V E := h

theorem Ab.getPos {f : Nat → P β} {W : β → Nat → Prop} {E : Nat → Prop} (h : Ab toks base lo pos (f pos) W E) :
    Ab toks base lo pos (P.getPos >>= f) W E := h

/-- Going to another position. -/
theorem Ab.setPos {q : Nat} {f : Unit → P β} {W : β → Nat → Prop} {E : Nat → Prop} (h : Ab toks base lo q (f ()) W E) :
    Ab toks base lo pos (P.setPos q >>= f) W E := h

theorem Ab.peek {f : Option TokSpan → P β} {W : β → Nat → Prop} {E : Nat → Prop}
    (h : ∀ o, toks[pos]? = o → Ab toks base lo pos (f o) W E) : Ab toks base lo pos (P.peek >>= f) W E := h _ rfl

theorem Ab.peekTok {f : Option Token → P β} {W : β → Nat → Prop} {E : Nat → Prop}
    (h : ∀ o, toks[pos]?.map TokSpan.tok = o → Ab toks base lo pos (f o) W E) : Ab toks base lo pos (P.peekTok >>= f) W E := h _ rfl

theorem Ab.tokCount {f : Nat → P β} {W : β → Nat → Prop} {E : Nat → Prop}
    (h : Ab toks base lo pos (f toks.length) W E) : Ab toks base lo pos (P.tokCount >>= f) W E := h

theorem Ab.nextIs {k : Kw} {f : Bool → P β} {W : β → Nat → Prop} {E : Nat → Prop}
    (ht : ∀ t, toks[pos]? = some t → t.tok = .k k → Ab toks base lo pos (f true) W E)
    (hf : (∀ u, toks[pos]? = some u → u.tok ≠ .k k) → Ab toks base lo pos (f false) W E) :
    Ab toks base lo pos (P.nextIs k >>= f) W E := by
  show Ab toks base lo pos (P.bnd (P.nextIs k) f) W E
  unfold Ab P.bnd P.nextIs
  cases h : (toks[pos]?.map TokSpan.tok == some (.k k)) with
  | true =>
    cases hu : toks[pos]? with
    | none => rw [hu] at h; cases h
    | some u => rw [hu] at h; exact ht u hu (by simpa using h)
  | false =>
    refine hf fun u hu hk => ?_
    rw [hu] at h
    simp [hk] at h

theorem Ab.eatAny {k : Kw} {f : Option TokSpan → P β} {W : β → Nat → Prop} {E : Nat → Prop}
    (hs : ∀ t, toks[pos]? = some t → t.tok = .k k → Ab toks base lo (pos + 1) (f (some t)) W E)
    (hn : (∀ u, toks[pos]? = some u → u.tok ≠ .k k) → Ab toks base lo pos (f none) W E) :
    Ab toks base lo pos (P.eat k >>= f) W E := by
  show Ab toks base lo pos (P.bnd (P.eat k) f) W E
  unfold Ab P.bnd P.eat
  cases ht : toks[pos]? with
  | none => exact hn (by rw [ht]; exact nofun)
  | some u =>
    dsimp only
    by_cases hu : u.tok = .k k
    · rw [if_pos hu]; exact hs u ht hu
    · rw [if_neg hu]; exact hn (by rw [ht]; intro v hv; cases hv; exact hu)

theorem Ab.eatsAny {k : Kw} {f : Bool → P β} {W : β → Nat → Prop} {E : Nat → Prop}
    (hs : ∀ t, toks[pos]? = some t → t.tok = .k k → Ab toks base lo (pos + 1) (f true) W E)
    (hn : (∀ u, toks[pos]? = some u → u.tok ≠ .k k) → Ab toks base lo pos (f false) W E) :
    Ab toks base lo pos (P.eats k >>= f) W E := by
  have : Ab toks base lo pos (P.eat k >>= fun t => f t.isSome) W E := Ab.eatAny hs hn
  have h2 : (P.eats k >>= f) toks pos = (P.eat k >>= fun t => f t.isSome) toks pos := by
    show P.bnd (P.bnd (P.eat k) _) f toks pos = P.bnd (P.eat k) _ toks pos
    unfold P.bnd
    cases P.eat k toks pos <;> rfl
  unfold Ab
  rw [h2]
  exact this

theorem Ab.eatOther {k : Kw} {f : Option TokSpan → P β} {W : β → Nat → Prop} {E : Nat → Prop}
    (hr : Reach toks base lo pos) (hk : k ≠ .ParenthesesOpen ∧ k ≠ .ParenthesesClose)
    (hs : ∀ t, toks[pos]? = some t → t.tok = .k k → Reach toks base lo (pos + 1) → dep toks (pos + 1) = dep toks pos →
      Ab toks base lo (pos + 1) (f (some t)) W E)
    (hn : (∀ u, toks[pos]? = some u → u.tok ≠ .k k) → Ab toks base lo pos (f none) W E) :
    Ab toks base lo pos (P.eat k >>= f) W E :=
  Ab.eatAny (fun t ht hk' =>
    have e : dep toks (pos + 1) = dep toks pos := dep_other ht (by rw [hk']; intro h; cases h; exact hk.1 rfl) (by rw [hk']; intro h; cases h; exact hk.2 rfl)
    hs t ht hk' (hr.step ht (by rw [e]; exact hr.floor)) e) hn

theorem Ab.eatOpen {f : Option TokSpan → P β} {W : β → Nat → Prop} {E : Nat → Prop}
    (hr : Reach toks base lo pos)
    (hs : ∀ t, toks[pos]? = some t → t.tok = .k .ParenthesesOpen → Reach toks base lo (pos + 1) →
      dep toks (pos + 1) = dep toks pos + 1 → Ab toks base lo (pos + 1) (f (some t)) W E)
    (hn : (∀ u, toks[pos]? = some u → u.tok ≠ .k .ParenthesesOpen) → Ab toks base lo pos (f none) W E) :
    Ab toks base lo pos (P.eat .ParenthesesOpen >>= f) W E :=
  Ab.eatAny (fun t ht hk' =>
    have e := dep_open ht hk'
    hs t ht hk' (hr.step ht (by rw [e]; have := hr.floor; omega)) e) hn

theorem Ab.eatClose {f : Option TokSpan → P β} {W : β → Nat → Prop} {E : Nat → Prop}
    (hr : Reach toks base lo pos) (hd : base < dep toks pos)
    (hs : ∀ t, toks[pos]? = some t → t.tok = .k .ParenthesesClose → Reach toks base lo (pos + 1) →
      dep toks (pos + 1) = dep toks pos - 1 → Ab toks base lo (pos + 1) (f (some t)) W E)
    (hn : (∀ u, toks[pos]? = some u → u.tok ≠ .k .ParenthesesClose) → Ab toks base lo pos (f none) W E) :
    Ab toks base lo pos (P.eat .ParenthesesClose >>= f) W E :=
  Ab.eatAny (fun t ht hk' =>
    have e := dep_close ht hk'
    hs t ht hk' (hr.step ht (by rw [e]; omega)) e) hn

theorem Ab.eatsOther {k : Kw} {f : Bool → P β} {W : β → Nat → Prop} {E : Nat → Prop}
    (hr : Reach toks base lo pos) (hk : k ≠ .ParenthesesOpen ∧ k ≠ .ParenthesesClose)
    (hs : ∀ t, toks[pos]? = some t → t.tok = .k k → Reach toks base lo (pos + 1) → dep toks (pos + 1) = dep toks pos →
      Ab toks base lo (pos + 1) (f true) W E)
    (hn : (∀ u, toks[pos]? = some u → u.tok ≠ .k k) → Ab toks base lo pos (f false) W E) :
    Ab toks base lo pos (P.eats k >>= f) W E :=
  Ab.eatsAny (fun t ht hk' =>
    have e : dep toks (pos + 1) = dep toks pos := dep_other ht (by rw [hk']; intro h; cases h; exact hk.1 rfl) (by rw [hk']; intro h; cases h; exact hk.2 rfl)
    hs t ht hk' (hr.step ht (by rw [e]; exact hr.floor)) e) hn

theorem Ab.eatsOpen {f : Bool → P β} {W : β → Nat → Prop} {E : Nat → Prop}
    (hr : Reach toks base lo pos)
    (hs : ∀ t, toks[pos]? = some t → t.tok = .k .ParenthesesOpen → Reach toks base lo (pos + 1) →
      dep toks (pos + 1) = dep toks pos + 1 → Ab toks base lo (pos + 1) (f true) W E)
    (hn : (∀ u, toks[pos]? = some u → u.tok ≠ .k .ParenthesesOpen) → Ab toks base lo pos (f false) W E) :
    Ab toks base lo pos (P.eats .ParenthesesOpen >>= f) W E :=
  Ab.eatsAny (fun t ht hk' =>
    have e := dep_open ht hk'
    hs t ht hk' (hr.step ht (by rw [e]; have := hr.floor; omega)) e) hn

theorem Ab.eatsClose {f : Bool → P β} {W : β → Nat → Prop} {E : Nat → Prop}
    (hr : Reach toks base lo pos) (hd : base < dep toks pos)
    (hs : ∀ t, toks[pos]? = some t → t.tok = .k .ParenthesesClose → Reach toks base lo (pos + 1) →
      dep toks (pos + 1) = dep toks pos - 1 → Ab toks base lo (pos + 1) (f true) W E)
    (hn : (∀ u, toks[pos]? = some u → u.tok ≠ .k .ParenthesesClose) → Ab toks base lo pos (f false) W E) :
    Ab toks base lo pos (P.eats .ParenthesesClose >>= f) W E :=
  Ab.eatsAny (fun t ht hk' =>
    have e := dep_close ht hk'
    hs t ht hk' (hr.step ht (by rw [e]; omega)) e) hn

theorem Ab.expectAny {k : Kw} {f : TokSpan → P β} {W : β → Nat → Prop} {E : Nat → Prop}
    (hr : Reach toks base lo pos) (he : E pos)
    (hs : ∀ t, toks[pos]? = some t → t.tok = .k k → Ab toks base lo (pos + 1) (f t) W E) :
    Ab toks base lo pos (P.expect k >>= f) W E := by
  have : Ab toks base lo pos (P.eat k >>= fun t => (match t with | some ts => Pure.pure ts | none => P.errHere [.k k]) >>= f) W E :=
    Ab.eatAny hs fun _ => ⟨hr, he⟩
  have h2 : (P.expect k >>= f) toks pos = (P.eat k >>= fun t => (match t with | some ts => Pure.pure ts | none => P.errHere [.k k]) >>= f) toks pos := by
    show P.bnd (P.bnd (P.eat k) _) f toks pos = P.bnd (P.eat k) _ toks pos
    unfold P.bnd
    cases P.eat k toks pos <;> rfl
  unfold Ab
  rw [h2]
  exact this

theorem Ab.expectOther {k : Kw} {f : TokSpan → P β} {W : β → Nat → Prop} {E : Nat → Prop}
    (hr : Reach toks base lo pos) (hk : k ≠ .ParenthesesOpen ∧ k ≠ .ParenthesesClose) (he : E pos)
    (hs : ∀ t, toks[pos]? = some t → t.tok = .k k → Reach toks base lo (pos + 1) → dep toks (pos + 1) = dep toks pos →
      Ab toks base lo (pos + 1) (f t) W E) :
    Ab toks base lo pos (P.expect k >>= f) W E :=
  Ab.expectAny hr he (fun t ht hk' =>
    have e : dep toks (pos + 1) = dep toks pos := dep_other ht (by rw [hk']; intro h; cases h; exact hk.1 rfl) (by rw [hk']; intro h; cases h; exact hk.2 rfl)
    hs t ht hk' (hr.step ht (by rw [e]; exact hr.floor)) e)

theorem Ab.expectOpen {f : TokSpan → P β} {W : β → Nat → Prop} {E : Nat → Prop}
    (hr : Reach toks base lo pos) (he : E pos)
    (hs : ∀ t, toks[pos]? = some t → t.tok = .k .ParenthesesOpen → Reach toks base lo (pos + 1) →
      dep toks (pos + 1) = dep toks pos + 1 → Ab toks base lo (pos + 1) (f t) W E) :
    Ab toks base lo pos (P.expect .ParenthesesOpen >>= f) W E :=
  Ab.expectAny hr he (fun t ht hk' =>
    have e := dep_open ht hk'
    hs t ht hk' (hr.step ht (by rw [e]; have := hr.floor; omega)) e)

/-- The same, with what is known when it fails. -/
theorem Ab.expectOpenN {f : TokSpan → P β} {W : β → Nat → Prop} {E : Nat → Prop}
    (hr : Reach toks base lo pos) (he : (∀ u, toks[pos]? = some u → u.tok ≠ .k .ParenthesesOpen) → E pos)
    (hs : ∀ t, toks[pos]? = some t → t.tok = .k .ParenthesesOpen → Reach toks base lo (pos + 1) →
      dep toks (pos + 1) = dep toks pos + 1 → Ab toks base lo (pos + 1) (f t) W E) :
    Ab toks base lo pos (P.expect .ParenthesesOpen >>= f) W E := by
  have : Ab toks base lo pos (P.eat .ParenthesesOpen >>= fun t =>
      (match t with | some ts => Pure.pure ts | none => P.errHere [.k .ParenthesesOpen]) >>= f) W E :=
    Ab.eatOpen hr hs fun h => ⟨hr, he h⟩
  have h2 : (P.expect .ParenthesesOpen >>= f) toks pos = (P.eat .ParenthesesOpen >>= fun t =>
      (match t with | some ts => Pure.pure ts | none => P.errHere [.k .ParenthesesOpen]) >>= f) toks pos := by
    show P.bnd (P.bnd (P.eat _) _) f toks pos = P.bnd (P.eat _) _ toks pos
    unfold P.bnd
    cases P.eat _ toks pos <;> rfl
  unfold Ab
  rw [h2]
  exact this

theorem Ab.expectClose {f : TokSpan → P β} {W : β → Nat → Prop} {E : Nat → Prop}
    (hr : Reach toks base lo pos) (hd : base < dep toks pos) (he : E pos)
    (hs : ∀ t, toks[pos]? = some t → t.tok = .k .ParenthesesClose → Reach toks base lo (pos + 1) →
      dep toks (pos + 1) = dep toks pos - 1 → Ab toks base lo (pos + 1) (f t) W E) :
    Ab toks base lo pos (P.expect .ParenthesesClose >>= f) W E :=
  Ab.expectAny hr he (fun t ht hk' =>
    have e := dep_close ht hk'
    hs t ht hk' (hr.step ht (by rw [e]; omega)) e)

theorem Ab.expectOrOther {k : Kw} {o : Option PErr} {f : TokSpan → P β} {W : β → Nat → Prop} {E : Nat → Prop}
    (hr : Reach toks base lo pos) (hk : k ≠ .ParenthesesOpen ∧ k ≠ .ParenthesesClose) (he : E pos)
    (hs : ∀ t, toks[pos]? = some t → t.tok = .k k → Reach toks base lo (pos + 1) → dep toks (pos + 1) = dep toks pos →
      Ab toks base lo (pos + 1) (f t) W E) :
    Ab toks base lo pos (Pico.expectOr k o >>= f) W E := by
  cases o with
  | none => exact Ab.expectOther hr hk he hs
  | some e =>
    have h1 : Ab toks base lo pos (P.eat k >>= fun t => (match t with | some ts => Pure.pure ts | none => P.fail e) >>= f) W E :=
      Ab.eatOther hr hk hs fun _ => ⟨hr, he⟩
    have h2 : (Pico.expectOr k (some e) >>= f) toks pos =
        (P.eat k >>= fun t => (match t with | some ts => Pure.pure ts | none => P.fail e) >>= f) toks pos := by
      show P.bnd (P.bnd (P.eat k) _) f toks pos = P.bnd (P.eat k) _ toks pos
      unfold P.bnd
      cases P.eat k toks pos with
      | ok a p => cases a <;> rfl
      | _ => rfl
    unfold Ab
    rw [h2]
    exact h1

theorem Ab.eatString {f : Option (Text × Span) → P β} {W : β → Nat → Prop} {E : Nat → Prop}
    (hr : Reach toks base lo pos)
    (hs : ∀ s sp, toks[pos]? = some ⟨.string s, sp⟩ → Reach toks base lo (pos + 1) → dep toks (pos + 1) = dep toks pos →
      Ab toks base lo (pos + 1) (f (some (s, sp))) W E)
    (hn : (∀ s sp, toks[pos]? ≠ some ⟨.string s, sp⟩) → Ab toks base lo pos (f none) W E) :
    Ab toks base lo pos (P.eatString >>= f) W E := by
  show Ab toks base lo pos (P.bnd P.eatString f) W E
  unfold Ab P.bnd P.eatString
  cases ht : toks[pos]? with
  | none => exact hn (by rw [ht]; nofun)
  | some u =>
    obtain ⟨tok, sp⟩ := u
    cases tok with
    | string s =>
      have e : dep toks (pos + 1) = dep toks pos := dep_other ht nofun nofun
      exact hs s sp ht (hr.step ht (by rw [e]; exact hr.floor)) e
    | _ => exact hn (by rw [ht]; nofun)

theorem Ab.eatVariable {f : Option (Text × Span) → P β} {W : β → Nat → Prop} {E : Nat → Prop}
    (hr : Reach toks base lo pos)
    (hs : ∀ s sp, toks[pos]? = some ⟨.variable s, sp⟩ → Reach toks base lo (pos + 1) → dep toks (pos + 1) = dep toks pos →
      Ab toks base lo (pos + 1) (f (some (s, sp))) W E)
    (hn : (∀ s sp, toks[pos]? ≠ some ⟨.variable s, sp⟩) → Ab toks base lo pos (f none) W E) :
    Ab toks base lo pos (P.eatVariable >>= f) W E := by
  show Ab toks base lo pos (P.bnd P.eatVariable f) W E
  unfold Ab P.bnd P.eatVariable
  cases ht : toks[pos]? with
  | none => exact hn (by rw [ht]; nofun)
  | some u =>
    obtain ⟨tok, sp⟩ := u
    cases tok with
    | «variable» s =>
      have e : dep toks (pos + 1) = dep toks pos := dep_other ht nofun nofun
      exact hs s sp ht (hr.step ht (by rw [e]; exact hr.floor)) e
    | _ => exact hn (by rw [ht]; nofun)

theorem Ab.eatEncaps {f : Option (Text × Span) → P β} {W : β → Nat → Prop} {E : Nat → Prop}
    (hr : Reach toks base lo pos)
    (hs : ∀ s sp, toks[pos]? = some ⟨.encaps s, sp⟩ → Reach toks base lo (pos + 1) → dep toks (pos + 1) = dep toks pos →
      Ab toks base lo (pos + 1) (f (some (s, sp))) W E)
    (hn : (∀ s sp, toks[pos]? ≠ some ⟨.encaps s, sp⟩) → Ab toks base lo pos (f none) W E) :
    Ab toks base lo pos (P.eatEncaps >>= f) W E := by
  show Ab toks base lo pos (P.bnd P.eatEncaps f) W E
  unfold Ab P.bnd P.eatEncaps
  cases ht : toks[pos]? with
  | none => exact hn (by rw [ht]; nofun)
  | some u =>
    obtain ⟨tok, sp⟩ := u
    cases tok with
    | encaps s =>
      have e : dep toks (pos + 1) = dep toks pos := dep_other ht nofun nofun
      exact hs s sp ht (hr.step ht (by rw [e]; exact hr.floor)) e
    | _ => exact hn (by rw [ht]; nofun)

theorem Ab.expectString {f : Text × Span → P β} {W : β → Nat → Prop} {E : Nat → Prop}
    (hr : Reach toks base lo pos) (he : E pos)
    (hs : ∀ s sp, toks[pos]? = some ⟨.string s, sp⟩ → Reach toks base lo (pos + 1) → dep toks (pos + 1) = dep toks pos →
      Ab toks base lo (pos + 1) (f (s, sp)) W E) :
    Ab toks base lo pos (P.expectString >>= f) W E := by
  have h1 : Ab toks base lo pos (P.eatString >>= fun t => (match t with | some x => Pure.pure x | none => P.errHere [.string []]) >>= f) W E :=
    Ab.eatString hr hs fun _ => ⟨hr, he⟩
  have h2 : (P.expectString >>= f) toks pos = (P.eatString >>= fun t => (match t with | some x => Pure.pure x | none => P.errHere [.string []]) >>= f) toks pos := by
    show P.bnd (P.bnd P.eatString _) f toks pos = P.bnd P.eatString _ toks pos
    unfold P.bnd
    cases P.eatString toks pos <;> rfl
  unfold Ab
  rw [h2]
  exact h1

theorem Ab.expectVariable {f : Text × Span → P β} {W : β → Nat → Prop} {E : Nat → Prop}
    (hr : Reach toks base lo pos) (he : E pos)
    (hs : ∀ s sp, toks[pos]? = some ⟨.variable s, sp⟩ → Reach toks base lo (pos + 1) → dep toks (pos + 1) = dep toks pos →
      Ab toks base lo (pos + 1) (f (s, sp)) W E) :
    Ab toks base lo pos (P.expectVariable >>= f) W E := by
  have h1 : Ab toks base lo pos (P.eatVariable >>= fun t => (match t with | some x => Pure.pure x | none => P.errHere [.variable []]) >>= f) W E :=
    Ab.eatVariable hr hs fun _ => ⟨hr, he⟩
  have h2 : (P.expectVariable >>= f) toks pos = (P.eatVariable >>= fun t => (match t with | some x => Pure.pure x | none => P.errHere [.variable []]) >>= f) toks pos := by
    show P.bnd (P.bnd P.eatVariable _) f toks pos = P.bnd P.eatVariable _ toks pos
    unfold P.bnd
    cases P.eatVariable toks pos <;> rfl
  unfold Ab
  rw [h2]
  exact h1

/-- The token before exists, unless the parser is behind the end. -/
theorem Ab.tokBack {n : Nat} {f : TokSpan → P β} {W : β → Nat → Prop} {E : Nat → Prop} (hr : Reach toks base lo pos) (hn : n < pos)
    (hs : ∀ t, toks[pos - 1 - n]? = some t → Ab toks base lo pos (f t) W E) : Ab toks base lo pos (P.tokBack n >>= f) W E := by
  show Ab toks base lo pos (P.bnd (P.tokBack n) f) W E
  unfold Ab P.bnd P.tokBack
  rw [if_neg (by omega)]
  cases ht : toks[pos - 1 - n]? with
  | some t => exact hs t ht
  | none =>
    rcases hr.fits with h | h
    · rw [List.getElem?_eq_none_iff] at ht; omega
    · obtain ⟨i, hi⟩ := h
      exact .inl (.unclosed i (by rw [kinds_length]; exact hi))

theorem Ab.lastEnd {f : Nat → P β} {W : β → Nat → Prop} {E : Nat → Prop} (hr : Reach toks base lo pos) (hn : 0 < pos)
    (hs : ∀ t, Ab toks base lo pos (f t) W E) : Ab toks base lo pos (P.lastEnd >>= f) W E := by
  have h1 : Ab toks base lo pos (P.tokBack 0 >>= fun t => f t.span.stop) W E := Ab.tokBack hr hn fun t _ => hs _
  have h2 : (P.lastEnd >>= f) toks pos = (P.tokBack 0 >>= fun t => f t.span.stop) toks pos := by
    show P.bnd (P.bnd (P.tokBack 0) _) f toks pos = P.bnd (P.tokBack 0) _ toks pos
    unfold P.bnd
    cases P.tokBack 0 toks pos <;> rfl
  unfold Ab
  rw [h2]
  exact h1

theorem Ab.subP {a b : Nat} {f : Nat → P β} {W : β → Nat → Prop} {E : Nat → Prop} (hf : a < b → Fault toks .subOverflow)
    (hs : b ≤ a → Ab toks base lo pos (f (a - b)) W E) : Ab toks base lo pos (P.subP a b >>= f) W E := by
  show Ab toks base lo pos (P.bnd (P.subP a b) f) W E
  unfold P.subP
  by_cases h : b ≤ a
  · rw [if_pos h]; exact hs h
  · rw [if_neg h]; exact hf (by omega)

end
end Pico
