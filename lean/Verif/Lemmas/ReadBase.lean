import Verif.Spec.Reading
import Verif.Model.Parser
/-!
# Rules for "the tree is a reading of the tokens"
-/
namespace Pico
open P

theorem ReadOff.sub {ms : List Mark} {ts : List Token} (h : ReadOff ms ts) : ∀ {ms' : List Mark}, ms'.Sublist ms → ReadOff ms' ts := by
  induction h with
  | nil => intro ms' hs; cases List.sublist_nil.1 hs; exact .nil
  | skip _ t ih => intro ms' hs; exact .skip (ih hs) t
  | @read ms ts us m h hm ih =>
    intro ms' hs
    obtain ⟨a, b, rfl, ha, hb⟩ := List.sublist_append_iff.1 hs
    have : b = [] ∨ b = [m] := by
      cases hb with
      | cons _ h => left; exact List.sublist_nil.1 h
      | cons_cons _ h => right; rw [List.sublist_nil.1 h]
    rcases this with rfl | rfl
    · rw [List.append_nil]
      clear hm hb hs
      revert h ha
      intro h ha
      have := ih ha
      clear ih h
      induction us generalizing ts with
      | nil => simpa using this
      | cons u us ihu =>
        have h2 := ihu (this.skip u)
        simpa using h2
    · exact .read (ih ha) hm

theorem ReadOff.skips {ms : List Mark} {ts : List Token} (h : ReadOff ms ts) (us : List Token) : ReadOff ms (ts ++ us) := by
  induction us generalizing ts with
  | nil => simpa using h
  | cons u us ih => simpa using ih (h.skip u)

/-- The tokens before a position. -/
def upto (toks : List TokSpan) (p : Nat) : List Token := (toks.take p).map TokSpan.tok

theorem upto_le (toks : List TokSpan) {p q : Nat} (h : p ≤ q) : ∃ us, upto toks q = upto toks p ++ us := by
  refine ⟨((toks.take q).drop p).map TokSpan.tok, ?_⟩
  have : toks.take p = (toks.take q).take p := by rw [List.take_take]; congr 1; omega
  unfold upto
  rw [this, ← List.map_append, List.take_append_drop]

theorem upto_succ {toks : List TokSpan} {p : Nat} {t : TokSpan} (h : toks[p]? = some t) :
    upto toks (p + 1) = upto toks p ++ [t.tok] := by
  unfold upto
  rw [List.take_add_one, h]
  simp

theorem ReadOff.mono {ms : List Mark} {toks : List TokSpan} {p q : Nat} (h : ReadOff ms (upto toks p)) (hq : p ≤ q) :
    ReadOff ms (upto toks q) := by
  obtain ⟨us, hu⟩ := upto_le toks hq
  rw [hu]
  exact h.skips us

theorem ReadOff.tok {ms : List Mark} {toks : List TokSpan} {p : Nat} (h : ReadOff ms (upto toks p)) {t : TokSpan}
    (ht : toks[p]? = some t) {m : Mark} (hm : Fits m [t.tok]) : ReadOff (ms ++ [m]) (upto toks (p + 1)) := by
  rw [upto_succ ht]
  exact .read h hm

/-- A run of `m` from `p` does not end before `lo`, and a result satisfies `Q`. -/
def Wr {α : Type} (toks : List TokSpan) (lo p : Nat) (m : P α) (Q : α → Nat → Prop) : Prop :=
  match m toks p with
  | .ok a q => lo ≤ q ∧ Q a q
  | .err _ q => lo ≤ q
  | _ => True

/-- The same, when the marks `X` have been read before `p`. -/
def Tr {α : Type} (toks : List TokSpan) (lo : Nat) (X : List Mark) (p : Nat) (m : P α) (Q : α → Nat → Prop) : Prop :=
  ReadOff X (upto toks p) → lo ≤ p → Wr toks lo p m Q

/-- What `m` returns is read from the tokens it takes (and from `cur`, which has been read before). -/
def Y {α : Type} (cur : List Mark) (m : P α) (f : α → List Mark) : Prop :=
  ∀ toks pre p, Tr toks p (pre ++ cur) p m (fun a q => ReadOff (pre ++ f a) (upto toks q))

variable {toks : List TokSpan} {lo p : Nat} {X : List Mark}

theorem Wr.bind {α β : Type} {m : P α} {f : α → P β} {Q : β → Nat → Prop}
    (h : Wr toks lo p m (fun a q => Wr toks lo q (f a) Q)) : Wr toks lo p (m >>= f) Q := by
  unfold Wr at h ⊢
  show match P.bnd m f toks p with | .ok a q => lo ≤ q ∧ Q a q | .err _ q => lo ≤ q | _ => True
  unfold P.bnd
  cases e : m toks p with
  | ok a q => rw [e] at h; exact h.2
  | err er q => rw [e] at h; exact h
  | panic _ => trivial
  | oof => trivial

theorem Wr.imp {α : Type} {m : P α} {Q Q' : α → Nat → Prop} {lo' : Nat} (h : Wr toks lo p m Q) (hlo : lo' ≤ lo)
    (hQ : ∀ a q, lo ≤ q → Q a q → Q' a q) : Wr toks lo' p m Q' := by
  unfold Wr at h ⊢
  split at h
  · exact ⟨by omega, hQ _ _ h.1 h.2⟩
  · omega
  · trivial

theorem Tr.bind {α β : Type} {m : P α} {f : α → P β} {Q : β → Nat → Prop}
    (h : Tr toks lo X p m (fun a q => Wr toks lo q (f a) Q)) : Tr toks lo X p (m >>= f) Q :=
  fun h1 h2 => Wr.bind (h h1 h2)

theorem Tr.pure {α : Type} {a : α} {Q : α → Nat → Prop} (h : ReadOff X (upto toks p) → lo ≤ p → Q a p) :
    Tr toks lo X p (Pure.pure a) Q := fun h1 h2 => ⟨h2, h h1 h2⟩

theorem Tr.ret {α : Type} {a : α} {Q : α → Nat → Prop} (h : ReadOff X (upto toks p) → lo ≤ p → Q a p) :
    Tr toks lo X p (P.ret a) Q := fun h1 h2 => ⟨h2, h h1 h2⟩

/-- Values carried on. -/
theorem Tr.pureB {α β : Type} {a : α} {f : α → P β} {Q : β → Nat → Prop} (h : Tr toks lo X p (f a) Q) :
    Tr toks lo X p (Pure.pure a) (fun a q => Wr toks lo q (f a) Q) := Tr.pure h

theorem Tr.retB {α β : Type} {a : α} {f : α → P β} {Q : β → Nat → Prop} (h : Tr toks lo X p (f a) Q) :
    Tr toks lo X p (P.ret a) (fun a q => Wr toks lo q (f a) Q) := Tr.ret h

theorem Tr.errHere {α : Type} {Q : α → Nat → Prop} (ts : List Token) : Tr toks lo X p (P.errHere ts : P α) Q :=
  fun _ h2 => h2

theorem Tr.fail {α : Type} {Q : α → Nat → Prop} (e : PErr) : Tr toks lo X p (P.fail e : P α) Q := fun _ h2 => h2

theorem Tr.abort {α : Type} {Q : α → Nat → Prop} (e : Panic) : Tr toks lo X p (P.abort e : P α) Q := fun _ _ => trivial

theorem Tr.noFuel {α : Type} {Q : α → Nat → Prop} : Tr toks lo X p (P.noFuel : P α) Q := fun _ _ => trivial

theorem Tr.call {α : Type} {m : P α} {f : α → List Mark} (hm : Y [] m f) {Q : α → Nat → Prop}
    (h : ∀ a q, ReadOff (X ++ f a) (upto toks q) → lo ≤ q → Q a q) : Tr toks lo X p m Q := by
  intro h1 h2
  exact (hm toks X p (by simpa using h1) (Nat.le_refl p)).imp h2 fun a q hq hr => h a q hr (by omega)

theorem Tr.callB {α β : Type} {m : P α} {f : α → List Mark} (hm : Y [] m f) {k : α → P β} {Q : β → Nat → Prop}
    (h : ∀ a q, Tr toks lo (X ++ f a) q (k a) Q) : Tr toks lo X p m (fun a q => Wr toks lo q (k a) Q) :=
  Tr.call hm fun a q => h a q

theorem Tr.call1 {α : Type} {m : P α} {cur : List Mark} {f : α → List Mark} (hm : Y cur m f) {Q : α → Nat → Prop}
    (h : ∀ a q, ReadOff (X ++ f a) (upto toks q) → lo ≤ q → Q a q) : Tr toks lo (X ++ cur) p m Q := by
  intro h1 h2
  exact (hm toks X p h1 (Nat.le_refl p)).imp h2 fun a q hq hr => h a q hr (by omega)

theorem Tr.call1B {α β : Type} {m : P α} {cur : List Mark} {f : α → List Mark} (hm : Y cur m f) {k : α → P β}
    {Q : β → Nat → Prop} (h : ∀ a q, Tr toks lo (X ++ f a) q (k a) Q) :
    Tr toks lo (X ++ cur) p m (fun a q => Wr toks lo q (k a) Q) := Tr.call1 hm fun a q => h a q

theorem Tr.attempt {α : Type} {m : P α} {f : α → List Mark} (hm : Y [] m f) {Q : Except PErr α → Nat → Prop}
    (h : ∀ a q, ReadOff (X ++ f a) (upto toks q) → lo ≤ q → Q (.ok a) q)
    (he : ∀ e q, ReadOff X (upto toks q) → lo ≤ q → Q (.error e) q) : Tr toks lo X p (P.attempt m) Q := by
  intro h1 h2
  have := hm toks X p (by simpa using h1) (Nat.le_refl p)
  unfold Wr at this ⊢
  unfold P.attempt
  cases e : m toks p with
  | ok a q => rw [e] at this; exact ⟨by have := this.1; omega, h _ _ this.2 (by have := this.1; omega)⟩
  | err er q =>
    rw [e] at this
    have h3 : p ≤ q := this
    exact ⟨by omega, he _ _ (h1.mono h3) (by omega)⟩
  | panic _ => trivial
  | oof => trivial

theorem Tr.attemptB {α β : Type} {m : P α} {f : α → List Mark} (hm : Y [] m f) {k : Except PErr α → P β} {Q : β → Nat → Prop}
    (h : ∀ a q, Tr toks lo (X ++ f a) q (k (.ok a)) Q)
    (he : ∀ e q, Tr toks lo X q (k (.error e)) Q) : Tr toks lo X p (P.attempt m) (fun a q => Wr toks lo q (k a) Q) :=
  Tr.attempt hm h he

/-- An attempt to extend what has been read just before. -/
theorem Tr.attempt1B {α β : Type} {m : P α} {cur : List Mark} {f : α → List Mark} (hm : Y cur m f) {k : Except PErr α → P β}
    {Q : β → Nat → Prop} (h : ∀ a q, Tr toks lo (X ++ f a) q (k (.ok a)) Q)
    (he : ∀ e q, Tr toks lo (X ++ cur) q (k (.error e)) Q) :
    Tr toks lo (X ++ cur) p (P.attempt m) (fun a q => Wr toks lo q (k a) Q) := by
  intro h1 h2
  have := hm toks X p h1 (Nat.le_refl p)
  unfold Wr at this ⊢
  unfold P.attempt
  cases e : m toks p with
  | ok a q => rw [e] at this; exact ⟨by have := this.1; omega, h _ _ this.2 (by have := this.1; omega)⟩
  | err er q =>
    rw [e] at this
    have h3 : p ≤ q := this
    exact ⟨by omega, he _ _ (h1.mono h3) (by omega)⟩
  | panic _ => trivial
  | oof => trivial

theorem Tr.getPosB {β : Type} {k : Nat → P β} {Q : β → Nat → Prop}
    (h : ReadOff X (upto toks p) → lo ≤ p → Tr toks lo X p (k p) Q) : Tr toks lo X p getPos (fun a q => Wr toks lo q (k a) Q) :=
  fun h1 h2 => ⟨h2, h h1 h2 h1 h2⟩

/-- Going back. -/
theorem Tr.backB {β : Type} {old : Nat} {X0 : List Mark} {k : Unit → P β} {Q : β → Nat → Prop}
    (h1 : ReadOff X0 (upto toks old)) (h2 : lo ≤ old) (h : Tr toks lo X0 old (k ()) Q) :
    Tr toks lo X p (P.setPos old) (fun a q => Wr toks lo q (k a) Q) :=
  fun _ _ => ⟨h2, h h1 h2⟩

/-- Taking the next token. -/
theorem Tr.takeB {β : Type} {t : TokSpan} {k : Unit → P β} {Q : β → Nat → Prop} (ht : toks[p]? = some t) (m : Mark)
    (hm : Fits m [t.tok]) (h : Tr toks lo (X ++ [m]) (p + 1) (k ()) Q) :
    Tr toks lo X p (P.setPos (p + 1)) (fun a q => Wr toks lo q (k a) Q) :=
  fun h1 h2 => ⟨by omega, h (h1.tok ht hm) (by omega)⟩

theorem Tr.dropB {β : Type} {k : Unit → P β} {Q : β → Nat → Prop} (h : Tr toks lo X (p + 1) (k ()) Q) :
    Tr toks lo X p (P.setPos (p + 1)) (fun a q => Wr toks lo q (k a) Q) :=
  fun h1 h2 => ⟨by omega, h (h1.mono (by omega)) (by omega)⟩

theorem Tr.peekB {β : Type} {k : Option TokSpan → P β} {Q : β → Nat → Prop}
    (h : ∀ x, toks[p]? = x → Tr toks lo X p (k x) Q) : Tr toks lo X p peek (fun a q => Wr toks lo q (k a) Q) :=
  fun h1 h2 => ⟨h2, h _ rfl h1 h2⟩

theorem Tr.peekTokB {β : Type} {k : Option Token → P β} {Q : β → Nat → Prop}
    (h : ∀ x, toks[p]?.map TokSpan.tok = x → Tr toks lo X p (k x) Q) :
    Tr toks lo X p peekTok (fun a q => Wr toks lo q (k a) Q) :=
  fun h1 h2 => ⟨h2, h _ rfl h1 h2⟩

theorem Tr.tokCountB {β : Type} {k : Nat → P β} {Q : β → Nat → Prop} (h : ∀ n, Tr toks lo X p (k n) Q) :
    Tr toks lo X p tokCount (fun a q => Wr toks lo q (k a) Q) :=
  fun h1 h2 => ⟨h2, h _ h1 h2⟩

theorem Tr.nextIsB {β : Type} {kw : Kw} {k : Bool → P β} {Q : β → Nat → Prop} (h : ∀ b, Tr toks lo X p (k b) Q) :
    Tr toks lo X p (nextIs kw) (fun a q => Wr toks lo q (k a) Q) :=
  fun h1 h2 => ⟨h2, h _ h1 h2⟩

theorem Tr.subPB {β : Type} {a b : Nat} {k : Nat → P β} {Q : β → Nat → Prop} (h : ∀ n, Tr toks lo X p (k n) Q) :
    Tr toks lo X p (subP a b) (fun a q => Wr toks lo q (k a) Q) := by
  unfold subP
  split
  · exact Tr.retB (h _)
  · exact Tr.abort _

theorem Tr.tokBackB {β : Type} {n : Nat} {k : TokSpan → P β} {Q : β → Nat → Prop} (h : ∀ n, Tr toks lo X p (k n) Q) :
    Tr toks lo X p (tokBack n) (fun a q => Wr toks lo q (k a) Q) := by
  intro h1 h2
  unfold Wr tokBack
  by_cases hp : p < n + 1
  · simp [hp]
  · simp only [hp, if_false]
    cases hx : toks[p - 1 - n]? with
    | none => trivial
    | some t => exact ⟨h2, h _ h1 h2⟩

theorem Tr.lastEndB {β : Type} {k : Nat → P β} {Q : β → Nat → Prop} (h : ∀ n, Tr toks lo X p (k n) Q) :
    Tr toks lo X p lastEnd (fun a q => Wr toks lo q (k a) Q) := by
  unfold lastEnd
  refine Tr.bind ?_
  exact Tr.tokBackB fun n => Tr.pureB (h _)

theorem Tr.eatB {β : Type} {kw : Kw} {k : Option TokSpan → P β} {Q : β → Nat → Prop} (m : Mark) (hm : Fits m [.k kw])
    (h : ∀ t, Tr toks lo (X ++ [m]) (p + 1) (k (some t)) Q) (hn : Tr toks lo X p (k none) Q) :
    Tr toks lo X p (eat kw) (fun a q => Wr toks lo q (k a) Q) := by
  intro h1 h2
  unfold Wr eat
  cases hx : toks[p]? with
  | none => exact ⟨h2, hn h1 h2⟩
  | some t =>
    dsimp only
    by_cases ht : t.tok = .k kw
    · rw [if_pos ht]
      exact ⟨by omega, h t (h1.tok hx (by rw [ht]; exact hm)) (by omega)⟩
    · rw [if_neg ht]
      exact ⟨h2, hn h1 h2⟩

theorem Tr.eatB' {β : Type} {kw : Kw} {k : Option TokSpan → P β} {Q : β → Nat → Prop}
    (h : ∀ t, toks[p]? = some t → t.tok = .k kw → Tr toks lo X (p + 1) (k (some t)) Q) (hn : Tr toks lo X p (k none) Q) :
    Tr toks lo X p (eat kw) (fun a q => Wr toks lo q (k a) Q) := by
  intro h1 h2
  unfold Wr eat
  cases hx : toks[p]? with
  | none => exact ⟨h2, hn h1 h2⟩
  | some t =>
    dsimp only
    by_cases ht : t.tok = .k kw
    · rw [if_pos ht]
      exact ⟨by omega, h t hx ht (h1.mono (by omega)) (by omega)⟩
    · rw [if_neg ht]
      exact ⟨h2, hn h1 h2⟩

theorem Tr.eatsB {β : Type} {kw : Kw} {k : Bool → P β} {Q : β → Nat → Prop}
    (h : Tr toks lo (X ++ [.kw [kw]]) (p + 1) (k true) Q) (hn : Tr toks lo X p (k false) Q) :
    Tr toks lo X p (eats kw) (fun a q => Wr toks lo q (k a) Q) := by
  unfold eats
  refine Tr.bind ?_
  exact Tr.eatB _ (.kw (by simp)) (fun t => Tr.pureB h) (Tr.pureB hn)

theorem Tr.expectB {β : Type} {kw : Kw} {k : TokSpan → P β} {Q : β → Nat → Prop}
    (h : ∀ t, Tr toks lo (X ++ [.kw [kw]]) (p + 1) (k t) Q) :
    Tr toks lo X p (expect kw) (fun a q => Wr toks lo q (k a) Q) := by
  unfold expect
  refine Tr.bind ?_
  exact Tr.eatB _ (.kw (by simp)) (fun t => Tr.pureB (h t)) (Tr.errHere _)

theorem Tr.eatStringB {β : Type} {k : Option (Text × Span) → P β} {Q : β → Nat → Prop}
    (h : ∀ s sp, toks[p]? = some ⟨.string s, sp⟩ → Tr toks lo (X ++ [.word s]) (p + 1) (k (some (s, sp))) Q)
    (hn : Tr toks lo X p (k none) Q) : Tr toks lo X p eatString (fun a q => Wr toks lo q (k a) Q) := by
  intro h1 h2
  unfold Wr eatString
  split <;> rename_i e
  · split at e
    · rename_i hx
      injection e with e1 e2
      subst e1 e2
      exact ⟨by omega, h _ _ hx (h1.tok hx (.word _)) (by omega)⟩
    · injection e with e1 e2
      subst e1 e2
      exact ⟨h2, hn h1 h2⟩
  · split at e <;> cases e
  · trivial

theorem Tr.eatVariableB {β : Type} {k : Option (Text × Span) → P β} {Q : β → Nat → Prop}
    (h : ∀ s sp, Tr toks lo (X ++ [.var s]) (p + 1) (k (some (s, sp))) Q)
    (hn : Tr toks lo X p (k none) Q) : Tr toks lo X p eatVariable (fun a q => Wr toks lo q (k a) Q) := by
  intro h1 h2
  unfold Wr eatVariable
  split <;> rename_i e
  · split at e
    · rename_i hx
      injection e with e1 e2
      subst e1 e2
      exact ⟨by omega, h _ _ (h1.tok hx (.var _)) (by omega)⟩
    · injection e with e1 e2
      subst e1 e2
      exact ⟨h2, hn h1 h2⟩
  · split at e <;> cases e
  · trivial

theorem Fits.one (s : Text) : Fits (.str s) [.encaps s] := by
  have := Fits.str [s]
  simpa using this

theorem Tr.eatEncapsB {β : Type} {k : Option (Text × Span) → P β} {Q : β → Nat → Prop}
    (h : ∀ s sp, toks[p]? = some ⟨.encaps s, sp⟩ → Tr toks lo (X ++ [.str s]) (p + 1) (k (some (s, sp))) Q)
    (hn : Tr toks lo X p (k none) Q) : Tr toks lo X p eatEncaps (fun a q => Wr toks lo q (k a) Q) := by
  intro h1 h2
  unfold Wr eatEncaps
  split <;> rename_i e
  · split at e
    · rename_i hx
      injection e with e1 e2
      subst e1 e2
      exact ⟨by omega, h _ _ hx (h1.tok hx (Fits.one _)) (by omega)⟩
    · injection e with e1 e2
      subst e1 e2
      exact ⟨h2, hn h1 h2⟩
  · split at e <;> cases e
  · trivial

theorem Tr.expectStringB {β : Type} {k : Text × Span → P β} {Q : β → Nat → Prop}
    (h : ∀ s sp, Tr toks lo (X ++ [.word s]) (p + 1) (k (s, sp)) Q) :
    Tr toks lo X p expectString (fun a q => Wr toks lo q (k a) Q) := by
  unfold expectString
  refine Tr.bind ?_
  exact Tr.eatStringB (fun s sp _ => Tr.pureB (h s sp)) (Tr.errHere _)

theorem Tr.expectVariableB {β : Type} {k : Text × Span → P β} {Q : β → Nat → Prop}
    (h : ∀ s sp, Tr toks lo (X ++ [.var s]) (p + 1) (k (s, sp)) Q) :
    Tr toks lo X p expectVariable (fun a q => Wr toks lo q (k a) Q) := by
  unfold expectVariable
  refine Tr.bind ?_
  exact Tr.eatVariableB (fun s sp => Tr.pureB (h s sp)) (Tr.errHere _)

theorem Tr.deepestUnpack {α : Type} {Q : α → Nat → Prop} (s : Option PErr) : Tr toks lo X p (deepestUnpack s : P α) Q := by
  cases s
  · exact Tr.errHere _
  · exact Tr.fail _

/-- Where the marks come from does not matter. -/
theorem Tr.weaken {α : Type} {X' : List Mark} {m : P α} {Q : α → Nat → Prop} (h : Tr toks lo X' p m Q) (hs : X'.Sublist X) :
    Tr toks lo X p m Q := fun h1 h2 => h (h1.sub hs) h2

theorem ReadOff.conv {X : List Mark} {m m' : Mark} {ts : List Token} (h : ReadOff (X ++ [m]) ts)
    (hm : ∀ us, Fits m us → Fits m' us) : ReadOff (X ++ [m']) ts := by
  generalize hY : X ++ [m] = Y at h
  induction h with
  | nil => simp at hY
  | skip _ t ih => exact .skip (ih hY) t
  | read h hf _ =>
    obtain ⟨rfl, e⟩ := List.append_inj' hY rfl
    cases e
    exact .read h (hm _ hf)

/-- The last mark may be taken for another one. -/
theorem Tr.conv {α : Type} {a b : Mark} {m : P α} {Q : α → Nat → Prop} (h : Tr toks lo (X ++ [b]) p m Q)
    (hs : ∀ us, Fits a us → Fits b us) : Tr toks lo (X ++ [a]) p m Q := fun h1 h2 => h (h1.conv hs) h2

theorem Fits.word_path {s : Text} : ∀ us, Fits (.word s) us → Fits (.path ⟨false, none, s⟩) us := by
  intro us h
  cases h
  exact .path (.ident (.word _))

theorem Fits.ident_path {s : Text} : ∀ us, Fits (.ident s) us → Fits (.path ⟨false, none, s⟩) us := by
  intro us h
  cases h with
  | ident h => exact .path (.ident h)

theorem Fits.ident_var {s : Text} : ∀ us, Fits (.ident s) us → Fits (.var s) us := by
  intro us h
  cases h with
  | ident h => exact .varIdent h

theorem Y.loopN {σ α : Type} {step : σ → P (σ ⊕ α)} {I : σ → List Mark} {f : α → List Mark}
    (h : ∀ s, Y (I s) (step s) (Sum.elim I f)) (n : Nat) : ∀ s, Y (I s) (P.loopN step n s) f := by
  induction n with
  | zero => intro s toks pre p; exact Tr.noFuel
  | succ n ih =>
    intro s toks pre p
    unfold P.loopN
    refine Tr.bind ?_
    refine Tr.call1B (h s) ?_
    intro a q
    cases a with
    | inl s' =>
      dsimp only [Sum.elim_inl]
      exact Tr.call1 (ih s') fun a q h1 _ => h1
    | inr a => exact Tr.pure fun h1 _ => h1

theorem Y.loop {σ α : Type} {step : σ → P (σ ⊕ α)} {I : σ → List Mark} {f : α → List Mark}
    (h : ∀ s, Y (I s) (step s) (Sum.elim I f)) (s : σ) : Y (I s) (P.loop step s) f := by
  intro toks pre p
  exact Y.loopN h (toks.length + 2) s toks pre p

/-- A loop starting with nothing. -/
theorem Y.loop0 {σ α : Type} {step : σ → P (σ ⊕ α)} {I : σ → List Mark} {f : α → List Mark} {s : σ}
    (h : ∀ s, Y (I s) (step s) (Sum.elim I f)) (hs : I s = []) : Y [] (P.loop step s) f := by
  have := Y.loop h s
  rwa [hs] at this

/-- The recursive calls. -/
structure RecY (r : Rec) : Prop where
  expr : ∀ p, Y [] (r.expr p) Expr.marks
  stmt : Y [] r.stmt Stmt.marks

end Pico
