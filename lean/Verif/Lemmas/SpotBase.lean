import Verif.Spec.Ranges
import Verif.Lemmas.ReadBase
/-!
# Rules for "the tree with its ranges is a reading of the tokens"
-/
namespace Pico
open P

theorem ReadAt.le {toks : List TokSpan} {s : Spot} {a b : Nat} (h : ReadAt toks s a b) : a ≤ b := by
  cases h with
  | item hm hn ht =>
    rename_i us i
    have := List.length_pos_iff.2 hn
    omega
  | _ => exact Nat.le_refl _

theorem Located.le {toks : List TokSpan} {ss : List Spot} : ∀ {a b : Nat}, Located toks a ss b → a ≤ b := by
  induction ss with
  | nil => intro a b h; exact h
  | cons s ss ih =>
    intro a b h
    obtain ⟨c, d, h1, h2, h3⟩ := h
    have := h2.le
    have := ih h3
    omega

theorem Located.mono {toks : List TokSpan} {ss : List Spot} : ∀ {a b a' b' : Nat}, Located toks a ss b → a' ≤ a → b ≤ b' →
    Located toks a' ss b' := by
  induction ss with
  | nil => intro a b a' b' h h1 h2; have h : a ≤ b := h; show a' ≤ b'; omega
  | cons s ss ih =>
    intro a b a' b' h h1 h2
    obtain ⟨c, d, h3, h4, h5⟩ := h
    exact ⟨c, d, by omega, h4, ih h5 (Nat.le_refl _) h2⟩

theorem Located.app {toks : List TokSpan} {ss tt : List Spot} : ∀ {a b : Nat}, Located toks a (ss ++ tt) b ↔
    ∃ c, Located toks a ss c ∧ Located toks c tt b := by
  induction ss with
  | nil =>
    intro a b
    constructor
    · intro h; exact ⟨a, Nat.le_refl a, h⟩
    · rintro ⟨c, h1, h2⟩; exact h2.mono h1 (Nat.le_refl _)
  | cons s ss ih =>
    intro a b
    constructor
    · rintro ⟨c, d, h1, h2, h3⟩
      obtain ⟨e, h4, h5⟩ := ih.1 h3
      exact ⟨e, ⟨c, d, h1, h2, h4⟩, h5⟩
    · rintro ⟨e, ⟨c, d, h1, h2, h4⟩, h5⟩
      exact ⟨c, d, h1, h2, ih.2 ⟨e, h4, h5⟩⟩

theorem Located.add {toks : List TokSpan} {ss : List Spot} {a b c d : Nat} {s : Spot} (h : Located toks a ss b) (hb : b ≤ c)
    (hs : ReadAt toks s c d) : Located toks a (ss ++ [s]) d :=
  Located.app.2 ⟨b, h, c, d, hb, hs, Nat.le_refl d⟩

/-- What can be found where `b` can be found. -/
def Cov (a b : List Spot) : Prop := ∀ toks i j, Located toks i b j → Located toks i a j

/-- One spot is found wherever another one is. -/
def Cov1 (s t : Spot) : Prop := ∀ toks c d, ReadAt toks t c d → ReadAt toks s c d

theorem Cov.refl (a : List Spot) : Cov a a := fun _ _ _ h => h

theorem Cov.trans {a b c : List Spot} (h : Cov a b) (h' : Cov b c) : Cov a c := fun _ _ _ x => h _ _ _ (h' _ _ _ x)

theorem Cov.app {a b : List Spot} (x : List Spot) (h : Cov a b) : Cov (x ++ a) (x ++ b) := by
  intro toks i j hl
  obtain ⟨c, h1, h2⟩ := Located.app.1 hl
  exact Located.app.2 ⟨c, h1, h _ _ _ h2⟩

theorem Cov.both {a b a' b' : List Spot} (h : Cov a b) (h' : Cov a' b') : Cov (a ++ a') (b ++ b') := by
  intro toks i j hl
  obtain ⟨c, h1, h2⟩ := Located.app.1 hl
  exact Located.app.2 ⟨c, h _ _ _ h1, h' _ _ _ h2⟩

theorem Cov.keep1 {s t : Spot} {a b : List Spot} (hs : Cov1 s t) (h : Cov a b) : Cov (s :: a) (t :: b) := by
  intro toks i j hl
  obtain ⟨c, d, h1, h2, h3⟩ := hl
  exact ⟨c, d, h1, hs _ _ _ h2, h _ _ _ h3⟩

theorem Cov.keep {s : Spot} {a b : List Spot} (h : Cov a b) : Cov (s :: a) (s :: b) := .keep1 (fun _ _ _ h => h) h

theorem Cov.drop {s : Spot} {a b : List Spot} (h : Cov a b) : Cov a (s :: b) := by
  intro toks i j hl
  obtain ⟨c, d, h1, h2, h3⟩ := hl
  have := h2.le
  exact (h _ _ _ h3).mono (by omega) (Nat.le_refl _)

theorem Cov.skip {a b : List Spot} (x : List Spot) (h : Cov a b) : Cov a (x ++ b) := by
  intro toks i j hl
  obtain ⟨c, h1, h2⟩ := Located.app.1 hl
  exact (h _ _ _ h2).mono h1.le (Nat.le_refl _)

theorem Cov.nil (b : List Spot) : Cov [] b := by
  have := Cov.skip b (Cov.refl [])
  rwa [List.append_nil] at this

theorem Cov.of_sub {a b : List Spot} (h : a.Sublist b) : Cov a b := by
  induction h with
  | slnil => exact .refl _
  | cons x _ ih => exact .drop ih
  | cons_cons x _ ih => exact .keep ih

/-- Not a piece. -/
def Spot.isEdge : Spot → Bool
  | .item _ => false
  | _ => true

theorem ReadAt.edge {toks : List TokSpan} {s : Spot} {a b : Nat} (h : ReadAt toks s a b) (hs : s.isEdge = true) : a = b := by
  cases h <;> first | rfl | cases hs

theorem Cov.dup {s : Spot} {a b : List Spot} (hs : s.isEdge = true) (h : Cov (s :: a) b) : Cov (s :: s :: a) b := by
  intro toks i j hl
  obtain ⟨c, d, h1, h2, h3⟩ := h _ _ _ hl
  cases h2.edge hs
  exact ⟨c, c, h1, h2, c, c, Nat.le_refl c, h2, h3⟩

theorem Cov.dupStart {x : Nat} {a b : List Spot} (h : Cov (.start x :: a) b) : Cov (.start x :: .start x :: a) b := .dup rfl h

theorem Cov.dupStop {x : Nat} {a b : List Spot} (h : Cov (.stop x :: a) b) : Cov (.stop x :: .stop x :: a) b := .dup rfl h

theorem Cov1.start_edge (x : Nat) : Cov1 (.edge x) (.start x) := by
  intro toks c d h
  cases h with
  | start h => exact .edgeStart h

theorem Cov1.stop_edge (x : Nat) : Cov1 (.edge x) (.stop x) := by
  intro toks c d h
  cases h with
  | stop h => exact .edgeStop h

/-- A range may begin where another one ends. -/
theorem Cov.again {x : Nat} {a b : List Spot} (h : Cov (.stop x :: a) b) : Cov (.stop x :: .edge x :: a) b := by
  intro toks i j hl
  obtain ⟨c, d, h1, h2, h3⟩ := h _ _ _ hl
  cases h2.edge rfl
  exact ⟨c, c, h1, h2, c, c, Nat.le_refl c, Cov1.stop_edge x _ _ _ h2, h3⟩

theorem Cov1.item {m m' : Mark} (h : ∀ us, Fits m us → Fits m' us) : Cov1 (.item m') (.item m) := by
  intro toks c d hr
  cases hr with
  | item hm hn ht => exact .item (h _ hm) hn ht
  | none hm => exact .none (h _ hm)

theorem Cov1.piece (k : ExprK) (x : Nat) : Cov1 (k.pieceStart x) (.start x) := by
  unfold ExprK.pieceStart
  split
  · exact .start_edge x
  · exact .start_edge x
  · exact fun _ _ _ h => h

theorem Cov1.piece_edge (k : ExprK) (x : Nat) : Cov1 (.edge x) (k.pieceStart x) := by
  unfold ExprK.pieceStart
  split
  · exact fun _ _ _ h => h
  · exact fun _ _ _ h => h
  · exact .start_edge x

/-- The excluded tokens. The range of `clone $a` is that of the keyword only, and text behind `${a}` has the begin of the
text before it (see `C44_fails`, `C44_fails_dollar`). -/
def Straight (toks : List TokSpan) : Prop := ∀ t ∈ toks, t.tok ≠ .k .Clone ∧ t.tok ≠ .k .DollarCurlyBracesOpen

/-- When the spots `X` have been read before `p`. -/
def Lz {α : Type} (toks : List TokSpan) (lo : Nat) (X : List Spot) (p : Nat) (m : P α) (Q : α → Nat → Prop) : Prop :=
  Straight toks → Located toks 0 X (2 * p) → lo ≤ p → Wr toks lo p m Q

/-- What `m` returns is read from the tokens it takes (and from `cur`, which has been read before). -/
def Yz {α : Type} (cur : List Spot) (m : P α) (f : α → List Spot) : Prop :=
  ∀ toks pre p, Lz toks p (pre ++ cur) p m (fun a q => Located toks 0 (pre ++ f a) (2 * q))

/-- The spots of one token. -/
def tokSpots (sp : Span) (m : Mark) : List Spot := [.start sp.start, .item m, .stop sp.stop]

theorem tok_read {toks : List TokSpan} {X : List Spot} {p : Nat} {t : TokSpan} {m : Mark} (h : Located toks 0 X (2 * p))
    (ht : toks[p]? = some t) (hk : t.tok ≠ .k .NsSeparator) (hm : Fits m [t.tok]) :
    Located toks 0 (X ++ [.start t.span.start, .item m, .stop t.span.stop]) (2 * (p + 1)) := by
  have h1 := h.add (c := 2 * p + 1) (by omega) (.start ⟨t, ht, .inl ⟨hk, rfl⟩⟩)
  have h2 := h1.add (Nat.le_refl _) (.item (us := [t.tok]) (i := p) hm nofun (by
    have := List.getElem?_eq_some_iff.1 ht
    obtain ⟨hlt, rfl⟩ := this
    rw [List.drop_eq_getElem_cons hlt]
    rfl))
  have h3 := h2.add (Nat.le_refl _) (.stop ⟨p, t, rfl, ht, .inl rfl⟩)
  simpa [List.append_assoc] using h3

variable {toks : List TokSpan} {lo p : Nat} {X : List Spot}

theorem Lz.bind {α β : Type} {m : P α} {f : α → P β} {Q : β → Nat → Prop}
    (h : Lz toks lo X p m (fun a q => Wr toks lo q (f a) Q)) : Lz toks lo X p (m >>= f) Q :=
  fun h0 h1 h2 => Wr.bind (h h0 h1 h2)

theorem Lz.pure {α : Type} {a : α} {Q : α → Nat → Prop} (h : Located toks 0 X (2 * p) → lo ≤ p → Q a p) :
    Lz toks lo X p (Pure.pure a) Q := fun _ h1 h2 => ⟨h2, h h1 h2⟩

theorem Lz.ret {α : Type} {a : α} {Q : α → Nat → Prop} (h : Located toks 0 X (2 * p) → lo ≤ p → Q a p) :
    Lz toks lo X p (P.ret a) Q := fun _ h1 h2 => ⟨h2, h h1 h2⟩

/-- Values carried on. -/
theorem Lz.pureB {α β : Type} {a : α} {f : α → P β} {Q : β → Nat → Prop} (h : Lz toks lo X p (f a) Q) :
    Lz toks lo X p (Pure.pure a) (fun a q => Wr toks lo q (f a) Q) := fun h0 h1 h2 => ⟨h2, h h0 h1 h2⟩

theorem Lz.retB {α β : Type} {a : α} {f : α → P β} {Q : β → Nat → Prop} (h : Lz toks lo X p (f a) Q) :
    Lz toks lo X p (P.ret a) (fun a q => Wr toks lo q (f a) Q) := fun h0 h1 h2 => ⟨h2, h h0 h1 h2⟩

theorem Lz.errHere {α : Type} {Q : α → Nat → Prop} (ts : List Token) : Lz toks lo X p (P.errHere ts : P α) Q :=
  fun _ _ h2 => h2

theorem Lz.fail {α : Type} {Q : α → Nat → Prop} (e : PErr) : Lz toks lo X p (P.fail e : P α) Q := fun _ _ h2 => h2

theorem Lz.abort {α : Type} {Q : α → Nat → Prop} (e : Panic) : Lz toks lo X p (P.abort e : P α) Q := fun _ _ _ => trivial

theorem Lz.noFuel {α : Type} {Q : α → Nat → Prop} : Lz toks lo X p (P.noFuel : P α) Q := fun _ _ _ => trivial

theorem Lz.call1B {α β : Type} {m : P α} {cur : List Spot} {f : α → List Spot} (hm : Yz cur m f) {k : α → P β}
    {Q : β → Nat → Prop} (h : ∀ a q, Lz toks lo (X ++ f a) q (k a) Q) :
    Lz toks lo (X ++ cur) p m (fun a q => Wr toks lo q (k a) Q) := by
  intro h0 h1 h2
  exact (hm toks X p h0 h1 (Nat.le_refl p)).imp h2 fun a q hq hr => h a q h0 hr (by omega)

theorem Lz.call1 {α : Type} {m : P α} {cur : List Spot} {f : α → List Spot} (hm : Yz cur m f) {Q : α → Nat → Prop}
    (h : ∀ a q, Located toks 0 (X ++ f a) (2 * q) → lo ≤ q → Q a q) : Lz toks lo (X ++ cur) p m Q := by
  intro h0 h1 h2
  exact (hm toks X p h0 h1 (Nat.le_refl p)).imp h2 fun a q hq hr => h a q hr (by omega)

theorem Lz.call {α : Type} {m : P α} {f : α → List Spot} (hm : Yz [] m f) {Q : α → Nat → Prop}
    (h : ∀ a q, Located toks 0 (X ++ f a) (2 * q) → lo ≤ q → Q a q) : Lz toks lo X p m Q := by
  have := Lz.call1 (toks := toks) (lo := lo) (p := p) (X := X) hm h
  rwa [List.append_nil] at this

theorem Lz.callB {α β : Type} {m : P α} {f : α → List Spot} (hm : Yz [] m f) {k : α → P β} {Q : β → Nat → Prop}
    (h : ∀ a q, Lz toks lo (X ++ f a) q (k a) Q) : Lz toks lo X p m (fun a q => Wr toks lo q (k a) Q) := by
  have := Lz.call1B (toks := toks) (lo := lo) (p := p) (X := X) hm h
  rwa [List.append_nil] at this

/-- An attempt to extend what has been read just before. -/
theorem Lz.attempt1B {α β : Type} {m : P α} {cur : List Spot} {f : α → List Spot} (hm : Yz cur m f) {k : Except PErr α → P β}
    {Q : β → Nat → Prop} (h : ∀ a q, Lz toks lo (X ++ f a) q (k (.ok a)) Q)
    (he : ∀ e q, Lz toks lo (X ++ cur) q (k (.error e)) Q) :
    Lz toks lo (X ++ cur) p (P.attempt m) (fun a q => Wr toks lo q (k a) Q) := by
  intro h0 h1 h2
  have := hm toks X p h0 h1 (Nat.le_refl p)
  unfold Wr at this ⊢
  unfold P.attempt
  cases e : m toks p with
  | ok a q => rw [e] at this; exact ⟨by have := this.1; omega, h _ _ h0 this.2 (by have := this.1; omega)⟩
  | err er q =>
    rw [e] at this
    have h3 : p ≤ q := this
    exact ⟨by omega, he _ _ h0 (h1.mono (Nat.le_refl _) (by omega)) (by omega)⟩
  | panic _ => trivial
  | oof => trivial

theorem Lz.attemptB {α β : Type} {m : P α} {f : α → List Spot} (hm : Yz [] m f) {k : Except PErr α → P β} {Q : β → Nat → Prop}
    (h : ∀ a q, Lz toks lo (X ++ f a) q (k (.ok a)) Q)
    (he : ∀ e q, Lz toks lo X q (k (.error e)) Q) : Lz toks lo X p (P.attempt m) (fun a q => Wr toks lo q (k a) Q) := by
  have := Lz.attempt1B (toks := toks) (lo := lo) (p := p) (X := X) hm h (by rwa [List.append_nil])
  rwa [List.append_nil] at this

theorem Lz.getPosB {β : Type} {k : Nat → P β} {Q : β → Nat → Prop}
    (h : Located toks 0 X (2 * p) → lo ≤ p → Lz toks lo X p (k p) Q) : Lz toks lo X p getPos (fun a q => Wr toks lo q (k a) Q) :=
  fun h0 h1 h2 => ⟨h2, h h1 h2 h0 h1 h2⟩

/-- Going back. -/
theorem Lz.backB {β : Type} {old : Nat} {X0 : List Spot} {k : Unit → P β} {Q : β → Nat → Prop}
    (h1 : Located toks 0 X0 (2 * old)) (h2 : lo ≤ old) (h : Lz toks lo X0 old (k ()) Q) :
    Lz toks lo X p (P.setPos old) (fun a q => Wr toks lo q (k a) Q) :=
  fun h0 _ _ => ⟨h2, h h0 h1 h2⟩

/-- Taking the next token. -/
theorem Lz.takeB {β : Type} {t : TokSpan} {k : Unit → P β} {Q : β → Nat → Prop} (ht : toks[p]? = some t) (m : Mark)
    (hk : t.tok ≠ .k .NsSeparator) (hm : Fits m [t.tok])
    (h : Lz toks lo (X ++ [.start t.span.start, .item m, .stop t.span.stop]) (p + 1) (k ()) Q) :
    Lz toks lo X p (P.setPos (p + 1)) (fun a q => Wr toks lo q (k a) Q) :=
  fun h0 h1 h2 => ⟨by omega, h h0 (tok_read h1 ht hk hm) (by omega)⟩

theorem Lz.dropB {β : Type} {k : Unit → P β} {Q : β → Nat → Prop} (h : Lz toks lo X (p + 1) (k ()) Q) :
    Lz toks lo X p (P.setPos (p + 1)) (fun a q => Wr toks lo q (k a) Q) :=
  fun h0 h1 h2 => ⟨by omega, h h0 (h1.mono (Nat.le_refl _) (by omega)) (by omega)⟩

theorem Lz.peekB {β : Type} {k : Option TokSpan → P β} {Q : β → Nat → Prop}
    (h : ∀ x, toks[p]? = x → Lz toks lo X p (k x) Q) : Lz toks lo X p peek (fun a q => Wr toks lo q (k a) Q) :=
  fun h0 h1 h2 => ⟨h2, h _ rfl h0 h1 h2⟩

theorem Lz.peekTokB {β : Type} {k : Option Token → P β} {Q : β → Nat → Prop}
    (h : ∀ x, toks[p]?.map TokSpan.tok = x → Lz toks lo X p (k x) Q) :
    Lz toks lo X p peekTok (fun a q => Wr toks lo q (k a) Q) :=
  fun h0 h1 h2 => ⟨h2, h _ rfl h0 h1 h2⟩

theorem Lz.tokCountB {β : Type} {k : Nat → P β} {Q : β → Nat → Prop} (h : ∀ n, Lz toks lo X p (k n) Q) :
    Lz toks lo X p tokCount (fun a q => Wr toks lo q (k a) Q) :=
  fun h0 h1 h2 => ⟨h2, h _ h0 h1 h2⟩

theorem Lz.nextIsB {β : Type} {kw : Kw} {k : Bool → P β} {Q : β → Nat → Prop} (h : ∀ b, Lz toks lo X p (k b) Q) :
    Lz toks lo X p (nextIs kw) (fun a q => Wr toks lo q (k a) Q) :=
  fun h0 h1 h2 => ⟨h2, h _ h0 h1 h2⟩

theorem Lz.subPB {β : Type} {a b : Nat} {k : Nat → P β} {Q : β → Nat → Prop} (h : ∀ n, a = n + b → Lz toks lo X p (k n) Q) :
    Lz toks lo X p (subP a b) (fun a q => Wr toks lo q (k a) Q) := by
  unfold subP
  split
  · exact Lz.retB (h _ (by omega))
  · exact Lz.abort _

theorem Lz.tokBackB {β : Type} {n : Nat} {k : TokSpan → P β} {Q : β → Nat → Prop}
    (h : ∀ t, n + 1 ≤ p → toks[p - 1 - n]? = some t → Lz toks lo X p (k t) Q) :
    Lz toks lo X p (tokBack n) (fun a q => Wr toks lo q (k a) Q) := by
  intro h0 h1 h2
  unfold Wr tokBack
  by_cases hp : p < n + 1
  · simp [hp]
  · simp only [hp, if_false]
    cases hx : toks[p - 1 - n]? with
    | none => trivial
    | some t => exact ⟨h2, h _ (by omega) hx h0 h1 h2⟩

theorem Lz.lastEndB {β : Type} {k : Nat → P β} {Q : β → Nat → Prop} (h : ∀ n, Lz toks lo (X ++ [.stop n]) p (k n) Q) :
    Lz toks lo X p lastEnd (fun a q => Wr toks lo q (k a) Q) := by
  unfold lastEnd
  refine Lz.bind ?_
  refine Lz.tokBackB fun t hp ht => Lz.pureB ?_
  intro h0 h1 h2
  obtain ⟨p', rfl⟩ : ∃ p', p = p' + 1 := ⟨p - 1, by omega⟩
  exact h _ h0 (h1.add (Nat.le_refl _) (.stop ⟨p', t, rfl, by simpa using ht, .inl rfl⟩)) h2

theorem Lz.eatB' {β : Type} {kw : Kw} {k : Option TokSpan → P β} {Q : β → Nat → Prop}
    (h : ∀ t, toks[p]? = some t → t.tok = .k kw → Lz toks lo X (p + 1) (k (some t)) Q) (hn : Lz toks lo X p (k none) Q) :
    Lz toks lo X p (eat kw) (fun a q => Wr toks lo q (k a) Q) := by
  intro h0 h1 h2
  unfold Wr eat
  cases hx : toks[p]? with
  | none => exact ⟨h2, hn h0 h1 h2⟩
  | some t =>
    dsimp only
    by_cases ht : t.tok = .k kw
    · rw [if_pos ht]
      exact ⟨by omega, h t hx ht h0 (h1.mono (Nat.le_refl _) (by omega)) (by omega)⟩
    · rw [if_neg ht]
      exact ⟨h2, hn h0 h1 h2⟩

theorem Lz.eatB {β : Type} {kw : Kw} {k : Option TokSpan → P β} {Q : β → Nat → Prop} (m : Mark) (hm : Fits m [.k kw])
    (hk : kw ≠ .NsSeparator)
    (h : ∀ t, toks[p]? = some t → Lz toks lo (X ++ [.start t.span.start, .item m, .stop t.span.stop]) (p + 1) (k (some t)) Q)
    (hn : Lz toks lo X p (k none) Q) :
    Lz toks lo X p (eat kw) (fun a q => Wr toks lo q (k a) Q) := by
  intro h0 h1 h2
  unfold Wr eat
  cases hx : toks[p]? with
  | none => exact ⟨h2, hn h0 h1 h2⟩
  | some t =>
    dsimp only
    by_cases ht : t.tok = .k kw
    · rw [if_pos ht]
      refine ⟨by omega, h t hx h0 (tok_read h1 hx ?_ (by rw [ht]; exact hm)) (by omega)⟩
      rw [ht]; intro hc; cases hc; exact hk rfl
    · rw [if_neg ht]
      exact ⟨h2, hn h0 h1 h2⟩

theorem Lz.eatsB {β : Type} {kw : Kw} {k : Bool → P β} {Q : β → Nat → Prop} (hk : kw ≠ .NsSeparator)
    (h : ∀ t, toks[p]? = some t →
      Lz toks lo (X ++ [.start t.span.start, .item (.kw [kw]), .stop t.span.stop]) (p + 1) (k true) Q)
    (hn : Lz toks lo X p (k false) Q) : Lz toks lo X p (eats kw) (fun a q => Wr toks lo q (k a) Q) := by
  unfold eats
  refine Lz.bind ?_
  exact Lz.eatB _ (.kw (by simp)) hk (fun t ht => Lz.pureB (h t ht)) (Lz.pureB hn)

theorem Lz.expectB {β : Type} {kw : Kw} {k : TokSpan → P β} {Q : β → Nat → Prop} (hk : kw ≠ .NsSeparator)
    (h : ∀ t, Lz toks lo (X ++ [.start t.span.start, .item (.kw [kw]), .stop t.span.stop]) (p + 1) (k t) Q) :
    Lz toks lo X p (expect kw) (fun a q => Wr toks lo q (k a) Q) := by
  unfold expect
  refine Lz.bind ?_
  exact Lz.eatB _ (.kw (by simp)) hk (fun t _ => Lz.pureB (h t)) (Lz.errHere _)

theorem Lz.eatStringB {β : Type} {k : Option (Text × Span) → P β} {Q : β → Nat → Prop}
    (h : ∀ s sp, toks[p]? = some ⟨.string s, sp⟩ →
      Lz toks lo (X ++ [.start sp.start, .item (.word s), .stop sp.stop]) (p + 1) (k (some (s, sp))) Q)
    (hn : Lz toks lo X p (k none) Q) : Lz toks lo X p eatString (fun a q => Wr toks lo q (k a) Q) := by
  intro h0 h1 h2
  unfold Wr eatString
  split <;> rename_i e
  · split at e
    · rename_i hx
      injection e with e1 e2
      subst e1 e2
      exact ⟨by omega, h _ _ hx h0 (tok_read h1 hx nofun (.word _)) (by omega)⟩
    · injection e with e1 e2
      subst e1 e2
      exact ⟨h2, hn h0 h1 h2⟩
  · split at e <;> cases e
  · trivial

theorem Lz.eatVariableB {β : Type} {k : Option (Text × Span) → P β} {Q : β → Nat → Prop}
    (h : ∀ s sp, Lz toks lo (X ++ [.start sp.start, .item (.var s), .stop sp.stop]) (p + 1) (k (some (s, sp))) Q)
    (hn : Lz toks lo X p (k none) Q) : Lz toks lo X p eatVariable (fun a q => Wr toks lo q (k a) Q) := by
  intro h0 h1 h2
  unfold Wr eatVariable
  split <;> rename_i e
  · split at e
    · rename_i hx
      injection e with e1 e2
      subst e1 e2
      exact ⟨by omega, h _ _ h0 (tok_read h1 hx nofun (.var _)) (by omega)⟩
    · injection e with e1 e2
      subst e1 e2
      exact ⟨h2, hn h0 h1 h2⟩
  · split at e <;> cases e
  · trivial

theorem Lz.eatEncapsB {β : Type} {k : Option (Text × Span) → P β} {Q : β → Nat → Prop}
    (h : ∀ s sp, toks[p]? = some ⟨.encaps s, sp⟩ →
      Lz toks lo (X ++ [.start sp.start, .item (.str s), .stop sp.stop]) (p + 1) (k (some (s, sp))) Q)
    (hn : Lz toks lo X p (k none) Q) : Lz toks lo X p eatEncaps (fun a q => Wr toks lo q (k a) Q) := by
  intro h0 h1 h2
  unfold Wr eatEncaps
  split <;> rename_i e
  · split at e
    · rename_i hx
      injection e with e1 e2
      subst e1 e2
      exact ⟨by omega, h _ _ hx h0 (tok_read h1 hx nofun (Fits.one _)) (by omega)⟩
    · injection e with e1 e2
      subst e1 e2
      exact ⟨h2, hn h0 h1 h2⟩
  · split at e <;> cases e
  · trivial

theorem Lz.expectStringB {β : Type} {k : Text × Span → P β} {Q : β → Nat → Prop}
    (h : ∀ s sp, Lz toks lo (X ++ [.start sp.start, .item (.word s), .stop sp.stop]) (p + 1) (k (s, sp)) Q) :
    Lz toks lo X p expectString (fun a q => Wr toks lo q (k a) Q) := by
  unfold expectString
  refine Lz.bind ?_
  exact Lz.eatStringB (fun s sp _ => Lz.pureB (h s sp)) (Lz.errHere _)

theorem Lz.expectVariableB {β : Type} {k : Text × Span → P β} {Q : β → Nat → Prop}
    (h : ∀ s sp, Lz toks lo (X ++ [.start sp.start, .item (.var s), .stop sp.stop]) (p + 1) (k (s, sp)) Q) :
    Lz toks lo X p expectVariable (fun a q => Wr toks lo q (k a) Q) := by
  unfold expectVariable
  refine Lz.bind ?_
  exact Lz.eatVariableB (fun s sp => Lz.pureB (h s sp)) (Lz.errHere _)

theorem Lz.deepestUnpack {α : Type} {Q : α → Nat → Prop} (s : Option PErr) : Lz toks lo X p (deepestUnpack s : P α) Q := by
  cases s
  · exact Lz.errHere _
  · exact Lz.fail _

/-- Less may have been read. -/
theorem Lz.weaken {α : Type} {X' : List Spot} {m : P α} {Q : α → Nat → Prop} (h : Lz toks lo X' p m Q) (hs : Cov X' X) :
    Lz toks lo X p m Q := fun h0 h1 h2 => h h0 (hs _ _ _ h1) h2

theorem Lz.ite {α : Type} {c : Prop} [Decidable c] {m n : P α}
    {Q : α → Nat → Prop} (h1 : c → Lz toks lo X p m Q) (h2 : ¬ c → Lz toks lo X p n Q) :
    Lz toks lo X p (if c then m else n) Q := by
  split
  · exact h1 ‹_›
  · exact h2 ‹_›

/-- What has been read may have another meaning. -/
theorem Lz.conv {α : Type} {a b : Mark} {x y : Nat} {m : P α} {Q : α → Nat → Prop}
    (h : Lz toks lo (X ++ [.start x, .item b, .stop y]) p m Q) (hs : ∀ us, Fits a us → Fits b us) :
    Lz toks lo (X ++ [.start x, .item a, .stop y]) p m Q :=
  h.weaken (Cov.app _ (.keep (.keep1 (.item hs) (.refl _))))

theorem Located.cov {toks : List TokSpan} {a b : List Spot} {i j : Nat} (h : Located toks i b j) (hc : Cov a b) : Located toks i a j :=
  hc _ _ _ h

theorem Yz.loopN {σ α : Type} {step : σ → P (σ ⊕ α)} {I : σ → List Spot} {f : α → List Spot}
    (h : ∀ s, Yz (I s) (step s) (Sum.elim I f)) (n : Nat) : ∀ s, Yz (I s) (P.loopN step n s) f := by
  induction n with
  | zero => intro s toks pre p; exact Lz.noFuel
  | succ n ih =>
    intro s toks pre p
    unfold P.loopN
    refine Lz.bind ?_
    refine Lz.call1B (h s) ?_
    intro a q
    cases a with
    | inl s' =>
      dsimp only [Sum.elim_inl]
      exact Lz.call1 (ih s') fun a q h1 _ => h1
    | inr a => exact Lz.pure fun h1 _ => h1

theorem Yz.loop {σ α : Type} {step : σ → P (σ ⊕ α)} {I : σ → List Spot} {f : α → List Spot}
    (h : ∀ s, Yz (I s) (step s) (Sum.elim I f)) (s : σ) : Yz (I s) (P.loop step s) f := by
  intro toks pre p
  exact Yz.loopN h (toks.length + 2) s toks pre p

/-- A loop starting with nothing. -/
theorem Yz.loop0 {σ α : Type} {step : σ → P (σ ⊕ α)} {I : σ → List Spot} {f : α → List Spot} {s : σ}
    (h : ∀ s, Yz (I s) (step s) (Sum.elim I f)) (hs : I s = []) : Yz [] (P.loop step s) f := by
  have := Yz.loop h s
  rwa [hs] at this

/-- The recursive calls. -/
structure RecZ (r : Rec) : Prop where
  expr : ∀ p, Yz [] (r.expr p) Expr.spots
  stmt : Yz [] r.stmt Stmt.spots

end Pico
