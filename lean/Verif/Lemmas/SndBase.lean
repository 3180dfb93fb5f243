import Verif.Lemmas.ReadBase
import Verif.Lemmas.SndNn
/-!
# Rules for "what is accepted is derived by the grammar"
-/
namespace Pico
open P

/-- The tokens from `p` to `q`; they close no bracket they have not opened. -/
def Seg (toks : List TokSpan) (p q : Nat) (ts : List Token) : Prop := p ≤ q ∧ upto toks q = upto toks p ++ ts ∧ Nn ts

variable {toks : List TokSpan}

theorem Seg.nil (p : Nat) : Seg toks p p [] := ⟨Nat.le_refl p, by simp, .nil⟩

theorem Seg.nn {p q : Nat} {ts : List Token} (h : Seg toks p q ts) : Nn ts := h.2.2

theorem Seg.trans {p q q' : Nat} {ts us : List Token} (h : Seg toks p q ts) (h' : Seg toks q q' us) :
    Seg toks p q' (ts ++ us) := ⟨Nat.le_trans h.1 h'.1, by rw [h'.2.1, h.2.1, List.append_assoc], h.nn.app h'.nn⟩

theorem Seg.tok {p q : Nat} {ts : List Token} (h : Seg toks p q ts) {t : TokSpan} (ht : toks[q]? = some t)
    (hn : Nn (ts ++ [t.tok])) : Seg toks p (q + 1) (ts ++ [t.tok]) :=
  ⟨Nat.le_succ_of_le h.1, by rw [upto_succ ht, h.2.1, List.append_assoc], hn⟩

/-- Another token may be taken. -/
macro "nn_tok" : tactic => `(tactic| first
  | (intro h; refine Nn.app h (Nn.one ?_); intro b; cases b <;> with_unfolding_all rfl)
  | (intro _; with_unfolding_all nn))

/-- The next token. -/
def nextTok (toks : List TokSpan) (q : Nat) : Option Token := toks[q]?.map TokSpan.tok

theorem upto_drop (toks : List TokSpan) (p : Nat) : toks.map TokSpan.tok = upto toks p ++ (toks.drop p).map TokSpan.tok := by
  unfold upto
  rw [← List.map_append, List.take_append_drop]

theorem Seg.head {p q : Nat} {t : Token} {ts : List Token} (h : Seg toks p q (t :: ts)) : nextTok toks p = some t := by
  have h1 := upto_drop toks q
  rw [h.2.1, upto_drop toks p, List.append_assoc] at h1
  have h2 := List.append_cancel_left h1
  unfold nextTok
  have h3 : ((toks.drop p).map TokSpan.tok).head? = some t := by rw [h2]; rfl
  rw [List.head?_map, List.head?_drop] at h3
  exact h3

theorem Seg.nil_next {p q : Nat} (h : Seg toks p q []) : nextTok toks p = nextTok toks q := by
  unfold nextTok
  rcases Nat.eq_or_lt_of_le h.1 with rfl | hlt
  · rfl
  · have h2 := congrArg List.length h.2.1
    simp only [upto, List.length_map, List.length_take, List.length_append, List.length_nil] at h2
    rw [List.getElem?_eq_none (by omega), List.getElem?_eq_none (by omega)]

/-- A run of `m` from `p`: what holds of a result and of an error. -/
def GoS {α : Type} (toks : List TokSpan) (p : Nat) (m : P α) (Q : α → Nat → Prop) (E : Nat → Prop) : Prop :=
  match m toks p with
  | .ok a q => Q a q
  | .err _ q => E q
  | _ => True

theorem GoS.bind {α β : Type} {p : Nat} {m : P α} {f : α → P β} {Q : β → Nat → Prop} {E : Nat → Prop}
    (h : GoS toks p m (fun a q => GoS toks q (f a) Q E) E) : GoS toks p (m >>= f) Q E := by
  unfold GoS at h ⊢
  show match P.bnd m f toks p with | .ok a q => Q a q | .err _ q => E q | _ => True
  unfold P.bnd
  cases e : m toks p with
  | ok a q => rw [e] at h; exact h
  | err er q => rw [e] at h; exact h
  | panic _ => trivial
  | oof => trivial

theorem GoS.imp {α : Type} {p : Nat} {m : P α} {Q Q' : α → Nat → Prop} {E E' : Nat → Prop} (h : GoS toks p m Q E)
    (hQ : ∀ a q, Q a q → Q' a q) (hE : ∀ q, E q → E' q) : GoS toks p m Q' E' := by
  unfold GoS at h ⊢
  split at h
  · exact hQ _ _ h
  · exact hE _ h
  · trivial

/-- What `m` takes: `A` of a result, `B` of an error. -/
def PrE {α : Type} (toks : List TokSpan) (m : P α) (A : Nat → List Token → α → Prop) (B : List Token → Prop) : Prop :=
  ∀ p, GoS toks p m (fun a q => ∃ us, Seg toks p q us ∧ A q us a) (fun q => ∃ us, Seg toks p q us ∧ B us)

abbrev Pr {α : Type} (toks : List TokSpan) (m : P α) (A : Nat → List Token → α → Prop) : Prop := PrE toks m A Nn

/-- The same in the middle of a method that has taken `ts` from `p0` on. -/
def TgS {α : Type} (toks : List TokSpan) (p0 : Nat) (ts : List Token) (p : Nat) (m : P α) (Q : α → Nat → Prop)
    (B : List Token → Prop) : Prop :=
  Seg toks p0 p ts → GoS toks p m Q (fun q => ∃ us, Seg toks p0 q us ∧ B us)

/-- The end of a method. -/
def Sg {α : Type} (toks : List TokSpan) (p0 : Nat) (A : Nat → List Token → α → Prop) (a : α) (q : Nat) : Prop :=
  ∃ us, Seg toks p0 q us ∧ A q us a

theorem PrE.intro {α : Type} {m : P α} {A : Nat → List Token → α → Prop} {B : List Token → Prop}
    (h : ∀ p, TgS toks p [] p m (Sg toks p A) B) : PrE toks m A B := fun p => h p (Seg.nil p)

theorem PrE.weaken {α : Type} {m : P α} {A A' : Nat → List Token → α → Prop} {B B' : List Token → Prop} (h : PrE toks m A B)
    (hA : ∀ q us a, A q us a → A' q us a) (hB : ∀ us, B us → B' us) : PrE toks m A' B' := by
  intro p
  refine (h p).imp ?_ ?_
  · rintro a q ⟨us, h1, h2⟩; exact ⟨us, h1, hA _ _ _ h2⟩
  · rintro q ⟨us, h1, h2⟩; exact ⟨us, h1, hB _ h2⟩

section
variable {α β : Type} {p0 p : Nat} {ts : List Token} {B : List Token → Prop}

theorem TgS.bind {m : P α} {f : α → P β} {Q : β → Nat → Prop}
    (h : TgS toks p0 ts p m (fun a q => GoS toks q (f a) Q (fun q => ∃ us, Seg toks p0 q us ∧ B us)) B) :
    TgS toks p0 ts p (m >>= f) Q B := fun h1 => GoS.bind (h h1)

/-- Continue with `f a`. -/
abbrev Ct (toks : List TokSpan) (p0 : Nat) (B : List Token → Prop) (f : α → P β) (Q : β → Nat → Prop) : α → Nat → Prop :=
  fun a q => GoS toks q (f a) Q (fun q => ∃ us, Seg toks p0 q us ∧ B us)

theorem TgS.pure {a : α} {A : Nat → List Token → α → Prop} (h : A p ts a) : TgS toks p0 ts p (Pure.pure a) (Sg toks p0 A) B :=
  fun h1 => ⟨_, h1, h⟩

theorem TgS.ret {a : α} {A : Nat → List Token → α → Prop} (h : A p ts a) : TgS toks p0 ts p (P.ret a) (Sg toks p0 A) B :=
  fun h1 => ⟨_, h1, h⟩

theorem TgS.pureB {a : α} {f : α → P β} {Q : β → Nat → Prop} (h : TgS toks p0 ts p (f a) Q B) :
    TgS toks p0 ts p (Pure.pure a) (Ct toks p0 B f Q) B := h

theorem TgS.retB {a : α} {f : α → P β} {Q : β → Nat → Prop} (h : TgS toks p0 ts p (f a) Q B) :
    TgS toks p0 ts p (P.ret a) (Ct toks p0 B f Q) B := h

theorem TgS.errHere {Q : α → Nat → Prop} (es : List Token) (h : Nn ts → B ts) : TgS toks p0 ts p (P.errHere es : P α) Q B :=
  fun h1 => ⟨_, h1, h h1.nn⟩

theorem TgS.fail {Q : α → Nat → Prop} (e : PErr) (h : Nn ts → B ts) : TgS toks p0 ts p (P.fail e : P α) Q B :=
  fun h1 => ⟨_, h1, h h1.nn⟩

theorem TgS.deepestUnpack {Q : α → Nat → Prop} (s : Option PErr) (h : Nn ts → B ts) :
    TgS toks p0 ts p (Pico.deepestUnpack s : P α) Q B := by
  cases s
  · exact TgS.errHere _ h
  · exact TgS.fail _ h

theorem TgS.abort {Q : α → Nat → Prop} (e : Panic) : TgS toks p0 ts p (P.abort e : P α) Q B := fun _ => trivial

theorem TgS.noFuel {Q : α → Nat → Prop} : TgS toks p0 ts p (P.noFuel : P α) Q B := fun _ => trivial

/-- What has been read may be looked at. -/
theorem TgS.seg {m : P α} {Q : α → Nat → Prop} (h : Seg toks p0 p ts → TgS toks p0 ts p m Q B) : TgS toks p0 ts p m Q B :=
  fun h1 => h h1 h1

theorem TgS.call {m : P α} {A : Nat → List Token → α → Prop} {B' : List Token → Prop} (hm : PrE toks m A B') {Q : α → Nat → Prop}
    (hB : ∀ us, B' us → Nn (ts ++ us) → B (ts ++ us)) (h : ∀ a q us, A q us a → Seg toks p0 q (ts ++ us) → Q a q) : TgS toks p0 ts p m Q B := by
  intro h1
  refine (hm p).imp ?_ ?_
  · rintro a q ⟨us, h2, h3⟩; exact h a q us h3 (h1.trans h2)
  · rintro q ⟨us, h2, h3⟩; exact ⟨_, h1.trans h2, hB _ h3 (h1.trans h2).nn⟩

theorem TgS.callE {m : P α} {A A' : Nat → List Token → α → Prop} {B' : List Token → Prop} (hm : PrE toks m A B')
    (hB : ∀ us, B' us → Nn (ts ++ us) → B (ts ++ us)) (h : ∀ a q us, A q us a → A' q (ts ++ us) a) : TgS toks p0 ts p m (Sg toks p0 A') B :=
  TgS.call hm hB fun a q us h1 h2 => ⟨_, h2, h a q us h1⟩

theorem TgS.callB {m : P α} {A : Nat → List Token → α → Prop} {B' : List Token → Prop} (hm : PrE toks m A B') {f : α → P β}
    {Q : β → Nat → Prop} (hB : ∀ us, B' us → Nn (ts ++ us) → B (ts ++ us))
    (h : ∀ a q us, A q us a → TgS toks p0 (ts ++ us) q (f a) Q B) : TgS toks p0 ts p m (Ct toks p0 B f Q) B :=
  TgS.call hm hB fun a q us h1 h2 => h a q us h1 h2

theorem TgS.callSB {m : P α} {A : Nat → List Token → α → Prop} {B' : List Token → Prop} (hm : PrE toks m A B') {f : α → P β}
    {Q : β → Nat → Prop} (hB : ∀ us, B' us → Nn (ts ++ us) → B (ts ++ us))
    (h : ∀ a q us, A q us a → Seg toks p q us → TgS toks p0 (ts ++ us) q (f a) Q B) : TgS toks p0 ts p m (Ct toks p0 B f Q) B := by
  intro h1
  refine (hm p).imp ?_ ?_
  · rintro a q ⟨us, h2, h3⟩; exact h a q us h3 h2 (h1.trans h2)
  · rintro q ⟨us, h2, h3⟩; exact ⟨_, h1.trans h2, hB _ h3 (h1.trans h2).nn⟩

/-- The claim about `m` may depend on where it starts. -/
theorem TgS.attemptAtB {m : P α} {A : Nat → List Token → α → Prop} {B' : List Token → Prop}
    (hm : TgS toks p [] p m (Sg toks p A) B')
    {f : Except PErr α → P β} {Q : β → Nat → Prop} (h : ∀ a q us, A q us a → TgS toks p0 (ts ++ us) q (f (.ok a)) Q B)
    (he : ∀ e q us, B' us → Seg toks p q us → TgS toks p0 (ts ++ us) q (f (.error e)) Q B) :
    TgS toks p0 ts p (P.attempt m) (Ct toks p0 B f Q) B := by
  intro h1
  have := hm (Seg.nil p)
  unfold GoS at this ⊢
  unfold P.attempt
  cases e : m toks p with
  | ok a q => rw [e] at this; obtain ⟨us, h2, h3⟩ := this; exact h a q us h3 (h1.trans h2)
  | err er q => rw [e] at this; obtain ⟨us, h2, h3⟩ := this; exact he er q us h3 h2 (h1.trans h2)
  | panic _ => trivial
  | oof => trivial

theorem TgS.callAtB {m : P α} {A : Nat → List Token → α → Prop} {B' : List Token → Prop}
    (hm : TgS toks p [] p m (Sg toks p A) B') {f : α → P β}
    {Q : β → Nat → Prop} (hB : ∀ us, B' us → Nn (ts ++ us) → B (ts ++ us))
    (h : ∀ a q us, A q us a → TgS toks p0 (ts ++ us) q (f a) Q B) : TgS toks p0 ts p m (Ct toks p0 B f Q) B := by
  intro h1
  refine (hm (Seg.nil p)).imp ?_ ?_
  · rintro a q ⟨us, h2, h3⟩; exact h a q us h3 (h1.trans h2)
  · rintro q ⟨us, h2, h3⟩; exact ⟨_, h1.trans h2, hB _ h3 (h1.trans h2).nn⟩

theorem TgS.attemptSB {m : P α} {A : Nat → List Token → α → Prop} {B' : List Token → Prop} (hm : PrE toks m A B')
    {f : Except PErr α → P β} {Q : β → Nat → Prop}
    (h : ∀ a q us, A q us a → Seg toks p q us → TgS toks p0 (ts ++ us) q (f (.ok a)) Q B)
    (he : ∀ e q us, B' us → Seg toks p q us → TgS toks p0 (ts ++ us) q (f (.error e)) Q B) :
    TgS toks p0 ts p (P.attempt m) (Ct toks p0 B f Q) B := by
  intro h1
  have := hm p
  unfold GoS at this ⊢
  unfold P.attempt
  cases e : m toks p with
  | ok a q => rw [e] at this; obtain ⟨us, h2, h3⟩ := this; exact h a q us h3 h2 (h1.trans h2)
  | err er q => rw [e] at this; obtain ⟨us, h2, h3⟩ := this; exact he er q us h3 h2 (h1.trans h2)
  | panic _ => trivial
  | oof => trivial

theorem TgS.attempt {m : P α} {A : Nat → List Token → α → Prop} {B' : List Token → Prop} (hm : PrE toks m A B')
    {Q : Except PErr α → Nat → Prop} (h : ∀ a q us, A q us a → Seg toks p0 q (ts ++ us) → Q (.ok a) q)
    (he : ∀ e q us, B' us → Seg toks p0 q (ts ++ us) → Q (.error e) q) : TgS toks p0 ts p (P.attempt m) Q B := by
  intro h1
  have := hm p
  unfold GoS at this ⊢
  unfold P.attempt
  cases e : m toks p with
  | ok a q => rw [e] at this; obtain ⟨us, h2, h3⟩ := this; exact h a q us h3 (h1.trans h2)
  | err er q => rw [e] at this; obtain ⟨us, h2, h3⟩ := this; exact he er q us h3 (h1.trans h2)
  | panic _ => trivial
  | oof => trivial

theorem TgS.attemptB {m : P α} {A : Nat → List Token → α → Prop} {B' : List Token → Prop} (hm : PrE toks m A B')
    {f : Except PErr α → P β} {Q : β → Nat → Prop} (h : ∀ a q us, A q us a → TgS toks p0 (ts ++ us) q (f (.ok a)) Q B)
    (he : ∀ e q us, B' us → TgS toks p0 (ts ++ us) q (f (.error e)) Q B) :
    TgS toks p0 ts p (P.attempt m) (Ct toks p0 B f Q) B :=
  TgS.attempt hm (fun a q us h1 h2 => h a q us h1 h2) (fun e q us h1 h2 => he e q us h1 h2)

theorem TgS.getPosB {f : Nat → P β} {Q : β → Nat → Prop} (h : Seg toks p0 p ts → TgS toks p0 ts p (f p) Q B) :
    TgS toks p0 ts p getPos (Ct toks p0 B f Q) B := fun h1 => h h1 h1

theorem TgS.backB {old : Nat} {us : List Token} {f : Unit → P β} {Q : β → Nat → Prop} (h1 : Seg toks p0 old us)
    (h : TgS toks p0 us old (f ()) Q B) : TgS toks p0 ts p (P.setPos old) (Ct toks p0 B f Q) B := fun _ => h h1

theorem TgS.takeB {t : TokSpan} {f : Unit → P β} {Q : β → Nat → Prop} (ht : toks[p]? = some t)
    (h : TgS toks p0 (ts ++ [t.tok]) (p + 1) (f ()) Q B) (hc : Nn ts → Nn (ts ++ [t.tok]) := by nn_tok) :
    TgS toks p0 ts p (P.setPos (p + 1)) (Ct toks p0 B f Q) B :=
  fun h1 => h (h1.tok ht (hc h1.nn))

theorem TgS.peekB {f : Option TokSpan → P β} {Q : β → Nat → Prop} (h : ∀ x, toks[p]? = x → TgS toks p0 ts p (f x) Q B) :
    TgS toks p0 ts p peek (Ct toks p0 B f Q) B := fun h1 => h _ rfl h1

theorem TgS.peekTokB {f : Option Token → P β} {Q : β → Nat → Prop} (h : ∀ x, nextTok toks p = x → TgS toks p0 ts p (f x) Q B) :
    TgS toks p0 ts p peekTok (Ct toks p0 B f Q) B := fun h1 => h _ rfl h1

theorem TgS.tokCountB {f : Nat → P β} {Q : β → Nat → Prop} (h : TgS toks p0 ts p (f toks.length) Q B) :
    TgS toks p0 ts p tokCount (Ct toks p0 B f Q) B := fun h1 => h h1

theorem TgS.nextIsB {kw : Kw} {f : Bool → P β} {Q : β → Nat → Prop}
    (h : nextTok toks p = some (.k kw) → TgS toks p0 ts p (f true) Q B)
    (hn : nextTok toks p ≠ some (.k kw) → TgS toks p0 ts p (f false) Q B) :
    TgS toks p0 ts p (nextIs kw) (Ct toks p0 B f Q) B := by
  intro h1
  show GoS toks p (f (toks[p]?.map TokSpan.tok == some (.k kw))) Q _
  cases hx : (toks[p]?.map TokSpan.tok == some (.k kw)) with
  | true => exact h (by unfold nextTok; simpa using hx) h1
  | false => exact hn (by unfold nextTok; simpa using hx) h1

theorem TgS.subPB {a b : Nat} {f : Nat → P β} {Q : β → Nat → Prop} (h : b ≤ a → TgS toks p0 ts p (f (a - b)) Q B) :
    TgS toks p0 ts p (subP a b) (Ct toks p0 B f Q) B := by
  unfold subP
  split
  · rename_i hle; exact TgS.retB (h hle)
  · exact TgS.abort _

theorem TgS.tokBackB {n : Nat} {f : TokSpan → P β} {Q : β → Nat → Prop} (h : ∀ n, TgS toks p0 ts p (f n) Q B) :
    TgS toks p0 ts p (tokBack n) (Ct toks p0 B f Q) B := by
  intro h1
  unfold GoS tokBack
  by_cases hp : p < n + 1
  · simp [hp]
  · simp only [hp, if_false]
    cases hx : toks[p - 1 - n]? with
    | none => trivial
    | some t => exact h _ h1

theorem TgS.lastEndB {f : Nat → P β} {Q : β → Nat → Prop} (h : ∀ n, TgS toks p0 ts p (f n) Q B) :
    TgS toks p0 ts p lastEnd (Ct toks p0 B f Q) B := by
  unfold lastEnd
  refine TgS.bind ?_
  exact TgS.tokBackB fun n => TgS.pureB (h _)

theorem TgS.eatB {kw : Kw} {f : Option TokSpan → P β} {Q : β → Nat → Prop}
    (h : ∀ t, TgS toks p0 (ts ++ [.k kw]) (p + 1) (f (some t)) Q B)
    (hn : nextTok toks p ≠ some (.k kw) → TgS toks p0 ts p (f none) Q B) (hc : Nn ts → Nn (ts ++ [.k kw]) := by nn_tok) :
    TgS toks p0 ts p (eat kw) (Ct toks p0 B f Q) B := by
  intro h1
  unfold GoS eat
  unfold nextTok at hn
  cases hx : toks[p]? with
  | none => exact hn (by simp [hx]) h1
  | some t =>
    dsimp only
    by_cases ht : t.tok = .k kw
    · rw [if_pos ht]
      exact h t (ht ▸ h1.tok hx (ht ▸ hc h1.nn))
    · rw [if_neg ht]
      exact hn (by simp [hx, ht]) h1

theorem TgS.eatsB {kw : Kw} {f : Bool → P β} {Q : β → Nat → Prop} (h : TgS toks p0 (ts ++ [.k kw]) (p + 1) (f true) Q B)
    (hn : nextTok toks p ≠ some (.k kw) → TgS toks p0 ts p (f false) Q B) (hc : Nn ts → Nn (ts ++ [.k kw]) := by nn_tok) :
    TgS toks p0 ts p (eats kw) (Ct toks p0 B f Q) B := by
  unfold eats
  refine TgS.bind ?_
  exact TgS.eatB (fun t => TgS.pureB h) (fun h0 => TgS.pureB (hn h0)) hc

theorem TgS.expectB {kw : Kw} {f : TokSpan → P β} {Q : β → Nat → Prop}
    (h : ∀ t, TgS toks p0 (ts ++ [.k kw]) (p + 1) (f t) Q B) (hB : Nn ts → B ts) (hc : Nn ts → Nn (ts ++ [.k kw]) := by nn_tok) :
    TgS toks p0 ts p (expect kw) (Ct toks p0 B f Q) B := by
  unfold expect
  refine TgS.bind ?_
  exact TgS.eatB (fun t => TgS.pureB (h t)) (fun _ => TgS.errHere _ hB) hc

theorem TgS.expectOrB {kw : Kw} {er : Option PErr} {f : TokSpan → P β} {Q : β → Nat → Prop}
    (h : ∀ t, TgS toks p0 (ts ++ [.k kw]) (p + 1) (f t) Q B) (hB : Nn ts → B ts) (hc : Nn ts → Nn (ts ++ [.k kw]) := by nn_tok) :
    TgS toks p0 ts p (expectOr kw er) (Ct toks p0 B f Q) B := by
  unfold expectOr
  refine TgS.bind ?_
  refine TgS.eatB (fun t => TgS.pureB (h t)) (fun _ => ?_) hc
  cases er with
  | none => exact TgS.errHere _ hB
  | some e => exact TgS.fail _ hB

theorem TgS.eatStringB {f : Option (Text × Span) → P β} {Q : β → Nat → Prop}
    (h : ∀ s sp, TgS toks p0 (ts ++ [.string s]) (p + 1) (f (some (s, sp))) Q B)
    (hn : (∀ s, nextTok toks p ≠ some (.string s)) → TgS toks p0 ts p (f none) Q B) :
    TgS toks p0 ts p eatString (Ct toks p0 B f Q) B := by
  intro h1
  show GoS toks p eatString _ _
  unfold GoS
  by_cases hx : ∃ s sp, toks[p]? = some ⟨.string s, sp⟩
  · obtain ⟨s, sp, hx⟩ := hx
    simp only [eatString, hx]
    exact h s sp (h1.tok hx (h1.nn.app (.one fun b => by cases b <;> rfl)))
  · have he : eatString toks p = .ok none p := by
      unfold eatString
      split
      · rename_i h2; exact absurd ⟨_, _, h2⟩ hx
      · rfl
    simp only [he]
    refine hn ?_ h1
    intro s hs
    unfold nextTok at hs
    cases h3 : toks[p]? with
    | none => rw [h3] at hs; cases hs
    | some t =>
      rw [h3] at hs
      obtain ⟨tok, sp⟩ := t
      cases hs
      exact hx ⟨_, _, h3⟩

theorem TgS.eatVariableB {f : Option (Text × Span) → P β} {Q : β → Nat → Prop}
    (h : ∀ s sp, TgS toks p0 (ts ++ [.variable s]) (p + 1) (f (some (s, sp))) Q B)
    (hn : (∀ s, nextTok toks p ≠ some (.variable s)) → TgS toks p0 ts p (f none) Q B) :
    TgS toks p0 ts p eatVariable (Ct toks p0 B f Q) B := by
  intro h1
  show GoS toks p eatVariable _ _
  unfold GoS
  by_cases hx : ∃ s sp, toks[p]? = some ⟨.variable s, sp⟩
  · obtain ⟨s, sp, hx⟩ := hx
    simp only [eatVariable, hx]
    exact h s sp (h1.tok hx (h1.nn.app (.one fun b => by cases b <;> rfl)))
  · have he : eatVariable toks p = .ok none p := by
      unfold eatVariable
      split
      · rename_i h2; exact absurd ⟨_, _, h2⟩ hx
      · rfl
    simp only [he]
    refine hn ?_ h1
    intro s hs
    unfold nextTok at hs
    cases h3 : toks[p]? with
    | none => rw [h3] at hs; cases hs
    | some t =>
      rw [h3] at hs
      obtain ⟨tok, sp⟩ := t
      cases hs
      exact hx ⟨_, _, h3⟩

theorem TgS.eatEncapsB {f : Option (Text × Span) → P β} {Q : β → Nat → Prop}
    (h : ∀ s sp, TgS toks p0 (ts ++ [.encaps s]) (p + 1) (f (some (s, sp))) Q B)
    (hn : TgS toks p0 ts p (f none) Q B) :
    TgS toks p0 ts p eatEncaps (Ct toks p0 B f Q) B := by
  intro h1
  show GoS toks p eatEncaps _ _
  unfold GoS
  by_cases hx : ∃ s sp, toks[p]? = some ⟨.encaps s, sp⟩
  · obtain ⟨s, sp, hx⟩ := hx
    simp only [eatEncaps, hx]
    exact h s sp (h1.tok hx (h1.nn.app (.one fun b => by cases b <;> rfl)))
  · have he : eatEncaps toks p = .ok none p := by
      unfold eatEncaps
      split
      · rename_i h2; exact absurd ⟨_, _, h2⟩ hx
      · rfl
    simp only [he]
    exact hn h1

theorem TgS.expectStringB {f : Text × Span → P β} {Q : β → Nat → Prop}
    (h : ∀ s sp, TgS toks p0 (ts ++ [.string s]) (p + 1) (f (s, sp)) Q B) (hB : Nn ts → B ts) :
    TgS toks p0 ts p expectString (Ct toks p0 B f Q) B := by
  unfold expectString
  refine TgS.bind ?_
  exact TgS.eatStringB (fun s sp => TgS.pureB (h s sp)) (fun _ => TgS.errHere _ hB)

theorem TgS.expectVariableB {f : Text × Span → P β} {Q : β → Nat → Prop}
    (h : ∀ s sp, TgS toks p0 (ts ++ [.variable s]) (p + 1) (f (s, sp)) Q B) (hB : Nn ts → B ts) :
    TgS toks p0 ts p expectVariable (Ct toks p0 B f Q) B := by
  unfold expectVariable
  refine TgS.bind ?_
  exact TgS.eatVariableB (fun s sp => TgS.pureB (h s sp)) (fun _ => TgS.errHere _ hB)

end

/-- Loops: `I` holds of the state and of what has been taken since the start. -/
theorem loopN_go {σ α : Type} {step : σ → P (σ ⊕ α)} {p0 : Nat} {I : Nat → List Token → σ → Prop}
    {A : Nat → List Token → α → Prop} {B : List Token → Prop}
    (h : ∀ s ts p, I p ts s → TgS toks p0 ts p (step s)
      (Sg toks p0 fun q us x => match x with | .inl s' => I q us s' | .inr a => A q us a) B) (n : Nat) :
    ∀ s ts p, I p ts s → TgS toks p0 ts p (P.loopN step n s) (Sg toks p0 A) B := by
  induction n with
  | zero => intro s ts p _; exact TgS.noFuel
  | succ n ih =>
    intro s ts p hI
    unfold P.loopN
    intro h1
    refine GoS.bind ((h s ts p hI h1).imp ?_ (fun _ h => h))
    rintro x q ⟨us, h2, h3⟩
    cases x with
    | inl s' => exact ih s' us q h3 h2
    | inr a => exact ⟨us, h2, h3⟩

theorem TgS.loop {σ α : Type} {step : σ → P (σ ⊕ α)} {p0 p : Nat} {ts : List Token} (I : Nat → List Token → σ → Prop)
    {A : Nat → List Token → α → Prop} {B : List Token → Prop} {s : σ} (hs : I p ts s)
    (h : ∀ s ts p, I p ts s → TgS toks p0 ts p (step s)
      (Sg toks p0 fun q us x => match x with | .inl s' => I q us s' | .inr a => A q us a) B) :
    TgS toks p0 ts p (P.loop step s) (Sg toks p0 A) B := by
  intro h1
  exact loopN_go h (toks.length + 2) s ts p hs h1

/-! ## Automation -/

/-- The methods known so far. -/
syntax "sd_call" : tactic
macro_rules | `(tactic| sd_call) => `(tactic| fail "no method")

/-- Errors. -/
syntax "sd_b" : tactic
macro_rules | `(tactic| sd_b) => `(tactic| first | trivial | (intros; trivial) | (intros; assumption))

/-- One step of a method. -/
syntax "sd1" : tactic
macro_rules | `(tactic| sd1) => `(tactic| first
  | with_reducible refine TgS.bind ?_
  | with_reducible refine TgS.pure ?_
  | with_reducible refine TgS.pureB ?_
  | with_reducible refine TgS.retB ?_
  | (with_reducible refine TgS.eatsB ?_ ?_; rotate_left; intro _; rotate_right)
  | (with_reducible refine TgS.expectB ?_ (by sd_b); intro _)
  | (with_reducible refine TgS.expectOrB ?_ (by sd_b); intro _)
  | (with_reducible refine TgS.eatB ?_ ?_; intro _; rotate_left; intro _; rotate_right)
  | (with_reducible refine TgS.eatVariableB ?_ ?_; intro _ _; rotate_left; intro _; rotate_right)
  | (with_reducible refine TgS.eatStringB ?_ ?_; intro _ _; rotate_left; intro _; rotate_right)
  | (with_reducible refine TgS.eatEncapsB ?_ ?_; intro _ _)
  | (with_reducible refine TgS.expectStringB ?_ (by sd_b); intro _ _)
  | (with_reducible refine TgS.expectVariableB ?_ (by sd_b); intro _ _)
  | (with_reducible refine TgS.getPosB ?_; intro _)
  | (with_reducible refine TgS.lastEndB ?_; intro _)
  | (with_reducible refine TgS.tokBackB ?_; intro _)
  | (with_reducible refine TgS.tokCountB ?_)
  | (with_reducible refine TgS.nextIsB ?_ ?_; intro _; rotate_left; intro _; rotate_right)
  | (with_reducible refine TgS.subPB ?_; intro _)
  | (with_reducible refine TgS.backB (by assumption) ?_)
  | with_reducible exact TgS.errHere _ (by sd_b)
  | with_reducible exact TgS.fail _ (by sd_b)
  | with_reducible exact TgS.abort _
  | with_reducible exact TgS.noFuel
  | with_reducible exact TgS.deepestUnpack _ (by sd_b)
  | (with_reducible refine TgS.callB (by sd_call) (by sd_b) ?_; intro _ _ _ _)
  | (with_reducible refine TgS.attemptB (by sd_call) ?_ ?_; intro _ _ _ _; rotate_left; intro _ _ _ _; rotate_right)
  | simp only [reduceIte, Bool.false_eq_true, Bool.not_true, Bool.not_false]
  | dsimp only)

/-- The end of a method. -/
syntax "sd_end" : tactic
macro_rules | `(tactic| sd_end) => `(tactic| first
  | with_reducible refine TgS.pure ?_
  | with_reducible refine TgS.ret ?_
  | (with_reducible refine TgS.callE (by sd_call) (by sd_b) ?_; intro _ _ _ _))

/-- Everything but case distinctions. -/
syntax "sd" : tactic
macro_rules | `(tactic| sd) => `(tactic| ((repeat' (with_reducible show TgS _ _ _ _ _ _ _; first | sd1 | sd_end)) <;> (try dsimp only) <;>
  (try simp only [List.append_assoc, List.cons_append, List.nil_append, List.append_nil])))

end Pico
