import Verif.Spec.Expected
/-!
# Errors of the parser are truthful

`Tf s toks m V`: when `m` fails on `toks`, it does not do so behind the position of the error, and the error is `Good`;
when it succeeds, `V` holds for the result. It never moves backwards.
-/
namespace Pico
open P

/-- The list of the error is one of the known ones, none of its entries stands at the position of the error, and
(for methods whose errors are not thrown away by their callers, `s`) it is empty only behind the last token. -/
structure Good (s : Prop) (toks : List TokSpan) (e : PErr) : Prop where
  known : e.tokens ∈ expectations
  absent : ∀ t ∈ e.tokens, ∀ u, toks[e.pos]? = some u → Token.like t u.tok = false
  some : s → e.tokens = [] → toks.length ≤ e.pos

/-- An error that is kept for later. -/
def Held (s : Prop) (toks : List TokSpan) (o : Option PErr) (p : Nat) : Prop := ∀ x, o = .some x → p ≤ x.pos ∧ Good s toks x

section
variable {α β σ : Type} {s : Prop} {toks : List TokSpan} {lo pos : Nat}

/-- At one position, without going back behind `lo`. -/
def Tg (s : Prop) (toks : List TokSpan) (lo pos : Nat) (m : P α) (V : α → Nat → Prop) : Prop :=
  (∀ a p, m toks pos = .ok a p → lo ≤ p ∧ V a p) ∧ ∀ e p, m toks pos = .err e p → lo ≤ p ∧ p ≤ e.pos ∧ Good s toks e

def Tf (s : Prop) (toks : List TokSpan) (m : P α) (V : α → Nat → Prop) : Prop :=
  ∀ lo pos, lo ≤ pos → Tg s toks lo pos m V

theorem Tg.any {m : P α} {V : α → Nat → Prop} (h : Tg s toks lo pos m V) : Tg s toks lo pos m (fun _ _ => True) :=
  ⟨fun a p ha => ⟨(h.1 a p ha).1, trivial⟩, h.2⟩

theorem Good.weak {e : PErr} (h : Good s toks e) : Good False toks e := ⟨h.known, h.absent, nofun⟩

theorem Tg.bind {m : P α} {f : α → P β} {V : α → Nat → Prop} {W : β → Nat → Prop} (h : Tg s toks lo pos m V)
    (hf : ∀ a p, lo ≤ p → V a p → Tg s toks lo p (f a) W) : Tg s toks lo pos (m >>= f) W := by
  show Tg s toks lo pos (P.bnd m f) W
  unfold Tg P.bnd
  unfold Tg at h
  cases hm : m toks pos with
  | ok a p => exact hf a p (h.1 a p hm).1 (h.1 a p hm).2
  | err e p => exact ⟨nofun, fun e' p' h' => by cases h'; exact h.2 e p hm⟩
  | panic p => exact ⟨nofun, nofun⟩
  | oof => exact ⟨nofun, nofun⟩

theorem Tg.bindT {m : P α} {f : α → P β} {W : β → Nat → Prop} (h : Tg s toks lo pos m (fun _ _ => True))
    (hf : ∀ a p, lo ≤ p → Tg s toks lo p (f a) W) : Tg s toks lo pos (m >>= f) W := h.bind fun a p hp _ => hf a p hp

theorem Tg.ret {a : α} {V : α → Nat → Prop} (hl : lo ≤ pos) (h : V a pos) : Tg s toks lo pos (P.ret a) V :=
  ⟨fun _ _ h' => by cases h'; exact ⟨hl, h⟩, nofun⟩

theorem Tg.pure {a : α} {V : α → Nat → Prop} (hl : lo ≤ pos) (h : V a pos) : Tg s toks lo pos (Pure.pure a : P α) V :=
  Tg.ret hl h

theorem Tg.retT {a : α} (hl : lo ≤ pos) : Tg s toks lo pos (P.ret a) (fun _ _ => True) := Tg.ret hl trivial
theorem Tg.pureT {a : α} (hl : lo ≤ pos) : Tg s toks lo pos (Pure.pure a : P α) (fun _ _ => True) := Tg.ret hl trivial

theorem Tg.fail {e : PErr} {V : α → Nat → Prop} (hl : lo ≤ pos) (hp : pos ≤ e.pos) (h : Good s toks e) :
    Tg s toks lo pos (P.fail e : P α) V :=
  ⟨nofun, fun _ _ h' => by cases h'; exact ⟨hl, hp, h⟩⟩

theorem Tg.abort {p : Panic} {V : α → Nat → Prop} : Tg s toks lo pos (P.abort p : P α) V := ⟨nofun, nofun⟩

theorem Tg.noFuel {V : α → Nat → Prop} : Tg s toks lo pos (P.noFuel : P α) V := ⟨nofun, nofun⟩

theorem Tg.attemptBind {m : P α} {f : Except PErr α → P β} {W : β → Nat → Prop} (h : Tg s toks lo pos m (fun _ _ => True))
    (hok : ∀ a p, lo ≤ p → Tg s toks lo p (f (.ok a)) W)
    (herr : ∀ e p, lo ≤ p → p ≤ e.pos → Good s toks e → Tg s toks lo p (f (.error e)) W) :
    Tg s toks lo pos (P.attempt m >>= f) W := by
  show Tg s toks lo pos (P.bnd _ f) W
  unfold Tg P.bnd P.attempt
  unfold Tg at h
  cases hm : m toks pos with
  | ok a p => exact hok a p (h.1 a p hm).1
  | err e p => exact herr e p (h.2 e p hm).1 (h.2 e p hm).2.1 (h.2 e p hm).2.2
  | panic p => exact ⟨nofun, nofun⟩
  | oof => exact ⟨nofun, nofun⟩

/-- The error is thrown away. -/
theorem Tg.attemptDrop {m : P α} {f : Except PErr α → P β} {W : β → Nat → Prop} (h : Tg False toks lo pos m (fun _ _ => True))
    (hok : ∀ a p, lo ≤ p → Tg s toks lo p (f (.ok a)) W)
    (herr : ∀ e p, lo ≤ p → Tg s toks lo p (f (.error e)) W) :
    Tg s toks lo pos (P.attempt m >>= f) W := by
  show Tg s toks lo pos (P.bnd _ f) W
  unfold Tg P.bnd P.attempt
  unfold Tg at h
  cases hm : m toks pos with
  | ok a p => exact hok a p (h.1 a p hm).1
  | err e p => exact herr e p (h.2 e p hm).1
  | panic p => exact ⟨nofun, nofun⟩
  | oof => exact ⟨nofun, nofun⟩

theorem Tg.loop {f : σ → P (σ ⊕ α)} {x : σ} {V : α → Nat → Prop} (hl : lo ≤ pos)
    (h : ∀ x p, lo ≤ p → Tg s toks lo p (f x) (fun y q => ∀ a, y = .inr a → V a q)) :
    Tg s toks lo pos (P.loop f x) V := by
  have key : ∀ n x pos, lo ≤ pos → Tg s toks lo pos (P.loopN f n x) V := by
    intro n
    induction n with
    | zero => intro x pos _; exact Tg.noFuel
    | succ n ih =>
      intro x pos hl
      refine (h x pos hl).bind ?_
      intro y p hp hy
      cases y with
      | inl x' => exact ih x' p hp
      | inr a => exact Tg.ret hp (hy a rfl)
  exact key _ x pos hl

theorem Tg.loopT {f : σ → P (σ ⊕ α)} {x : σ} (hl : lo ≤ pos) (h : ∀ x p, lo ≤ p → Tg s toks lo p (f x) (fun _ _ => True)) :
    Tg s toks lo pos (P.loop f x) (fun _ _ => True) :=
  Tg.loop hl fun x p hp => ⟨fun a q ha => ⟨((h x p hp).1 a q ha).1, fun _ _ => trivial⟩, (h x p hp).2⟩

theorem Tg.ite {c : Prop} [Decidable c] {m n : P α} {V : α → Nat → Prop} (h : c → Tg s toks lo pos m V)
    (h' : ¬c → Tg s toks lo pos n V) : Tg s toks lo pos (if c then m else n) V := by
  by_cases hc : c
  · rw [if_pos hc]; exact h hc
  · rw [if_neg hc]; exact h' hc

theorem Tg.iteTrue {m n : P α} {V : α → Nat → Prop} (h : Tg s toks lo pos m V) :
    Tg s toks lo pos (if true = true then m else n) V := h

theorem Tg.iteFalse {m n : P α} {V : α → Nat → Prop} (h : Tg s toks lo pos n V) :
    Tg s toks lo pos (if false = true then m else n) V := h

theorem Tg.lower {m : P α} {V : α → Nat → Prop} {lo' : Nat} (hl : lo ≤ lo') (h : Tg s toks lo' pos m V) : Tg s toks lo pos m V :=
  ⟨fun a p ha => ⟨Nat.le_trans hl (h.1 a p ha).1, (h.1 a p ha).2⟩, fun e p he => ⟨Nat.le_trans hl (h.2 e p he).1, (h.2 e p he).2⟩⟩

theorem Tg.getPosBind {f : Nat → P β} {W : β → Nat → Prop} (h : Tg s toks lo pos (f pos) W) :
    Tg s toks lo pos (P.getPos >>= f) W := h

theorem Tg.setPosBind {q : Nat} {f : Unit → P β} {W : β → Nat → Prop} (h : Tg s toks lo q (f ()) W) :
    Tg s toks lo pos (P.setPos q >>= f) W := h

theorem Tg.peekBind {f : Option TokSpan → P β} {W : β → Nat → Prop}
    (h : ∀ o, toks[pos]? = o → Tg s toks lo pos (f o) W) : Tg s toks lo pos (P.peek >>= f) W := h _ rfl

theorem Tg.peekTokBind {f : Option Token → P β} {W : β → Nat → Prop}
    (h : ∀ o, Tg s toks lo pos (f o) W) : Tg s toks lo pos (P.peekTok >>= f) W := h _

theorem Tg.tokCountBind {f : Nat → P β} {W : β → Nat → Prop}
    (h : ∀ o, Tg s toks lo pos (f o) W) : Tg s toks lo pos (P.tokCount >>= f) W := h _

theorem Tg.nextIsBind {k : Kw} {f : Bool → P β} {W : β → Nat → Prop} (ht : Tg s toks lo pos (f true) W)
    (hf : (∀ u, toks[pos]? = .some u → u.tok ≠ .k k) → Tg s toks lo pos (f false) W) :
    Tg s toks lo pos (P.nextIs k >>= f) W := by
  show Tg s toks lo pos (P.bnd (P.nextIs k) f) W
  unfold Tg P.bnd P.nextIs
  cases h : (toks[pos]?.map TokSpan.tok == .some (.k k)) with
  | true => exact ht
  | false =>
    refine hf fun u hu hk => ?_
    rw [hu] at h
    simp [hk] at h

theorem Tg.subP {a b : Nat} (hl : lo ≤ pos) : Tg s toks lo pos (P.subP a b) (fun _ _ => True) := by
  unfold P.subP
  exact Tg.ite (fun _ => Tg.retT hl) fun _ => Tg.abort
theorem Tg.tokBack {n : Nat} (hl : lo ≤ pos) : Tg s toks lo pos (P.tokBack n) (fun _ _ => True) := by
  unfold P.tokBack Tg
  dsimp only
  split
  · exact ⟨nofun, nofun⟩
  · split
    · exact ⟨fun _ _ h => by cases h; exact ⟨hl, trivial⟩, nofun⟩
    · exact ⟨nofun, nofun⟩
theorem Tg.lastEnd (hl : lo ≤ pos) : Tg s toks lo pos P.lastEnd (fun _ _ => True) :=
  Tg.bindT (Tg.tokBack hl) fun _ _ hp => Tg.retT hp

/-- After `eat`: the token has been there, or it is not there and the position is the same. -/
theorem Tg.eatBind {k : Kw} {f : Option TokSpan → P β} {W : β → Nat → Prop} (hs : ∀ t, Tg s toks lo (pos + 1) (f (.some t)) W)
    (hn : (∀ u, toks[pos]? = .some u → u.tok ≠ .k k) → Tg s toks lo pos (f none) W) :
    Tg s toks lo pos (P.eat k >>= f) W := by
  show Tg s toks lo pos (P.bnd (P.eat k) f) W
  unfold Tg P.bnd P.eat
  cases ht : toks[pos]? with
  | none => exact hn (by rw [ht]; exact nofun)
  | some u =>
    dsimp only
    by_cases hu : u.tok = .k k
    · rw [if_pos hu]; exact hs u
    · rw [if_neg hu]; exact hn (by rw [ht]; intro v hv; cases hv; exact hu)

theorem Tg.eatsBind {k : Kw} {f : Bool → P β} {W : β → Nat → Prop} (ht : Tg s toks lo (pos + 1) (f true) W)
    (hf : (∀ u, toks[pos]? = .some u → u.tok ≠ .k k) → Tg s toks lo pos (f false) W) :
    Tg s toks lo pos (P.eats k >>= f) W := by
  have : Tg s toks lo pos (P.eat k >>= fun t => f t.isSome) W := Tg.eatBind (fun _ => ht) hf
  have h2 : (P.eats k >>= f) toks pos = (P.eat k >>= fun t => f t.isSome) toks pos := by
    show P.bnd (P.bnd (P.eat k) _) f toks pos = P.bnd (P.eat k) _ toks pos
    unfold P.bnd
    cases P.eat k toks pos <;> rfl
  unfold Tg
  rw [h2]
  exact this

theorem Tg.eat {k : Kw} (hl : lo ≤ pos) : Tg s toks lo pos (P.eat k) (fun _ _ => True) := by
  unfold P.eat Tg
  dsimp only
  split
  · split
    · exact ⟨fun _ _ h => by cases h; exact ⟨Nat.le_succ_of_le hl, trivial⟩, nofun⟩
    · exact ⟨fun _ _ h => by cases h; exact ⟨hl, trivial⟩, nofun⟩
  · exact ⟨fun _ _ h => by cases h; exact ⟨hl, trivial⟩, nofun⟩

theorem Tg.eats {k : Kw} (hl : lo ≤ pos) : Tg s toks lo pos (P.eats k) (fun _ _ => True) :=
  Tg.bindT (Tg.eat hl) fun _ _ hp => Tg.retT hp

theorem Tg.eatStringBind {f : Option (Text × Span) → P β} {W : β → Nat → Prop} (hs : ∀ t, Tg s toks lo (pos + 1) (f (.some t)) W)
    (hn : (∀ u, toks[pos]? = .some u → Token.like (.string []) u.tok = false) → Tg s toks lo pos (f none) W) :
    Tg s toks lo pos (P.eatString >>= f) W := by
  show Tg s toks lo pos (P.bnd P.eatString f) W
  unfold Tg P.bnd P.eatString
  cases ht : toks[pos]? with
  | none => exact hn (by rw [ht]; exact nofun)
  | some u =>
    obtain ⟨tok, sp⟩ := u
    cases tok with
    | string s => exact hs _
    | _ => exact hn (by rw [ht]; intro v hv; cases hv; rfl)

theorem Tg.eatVariableBind {f : Option (Text × Span) → P β} {W : β → Nat → Prop} (hs : ∀ t, Tg s toks lo (pos + 1) (f (.some t)) W)
    (hn : (∀ u, toks[pos]? = .some u → Token.like (.variable []) u.tok = false) → Tg s toks lo pos (f none) W) :
    Tg s toks lo pos (P.eatVariable >>= f) W := by
  show Tg s toks lo pos (P.bnd P.eatVariable f) W
  unfold Tg P.bnd P.eatVariable
  cases ht : toks[pos]? with
  | none => exact hn (by rw [ht]; exact nofun)
  | some u =>
    obtain ⟨tok, sp⟩ := u
    cases tok with
    | «variable» s => exact hs _
    | _ => exact hn (by rw [ht]; intro v hv; cases hv; rfl)

theorem Tg.eatEncapsBind {f : Option (Text × Span) → P β} {W : β → Nat → Prop} (hs : ∀ t, Tg s toks lo (pos + 1) (f (.some t)) W)
    (hn : (∀ u, toks[pos]? = .some u → Token.like (.encaps []) u.tok = false) → Tg s toks lo pos (f none) W) :
    Tg s toks lo pos (P.eatEncaps >>= f) W := by
  show Tg s toks lo pos (P.bnd P.eatEncaps f) W
  unfold Tg P.bnd P.eatEncaps
  cases ht : toks[pos]? with
  | none => exact hn (by rw [ht]; exact nofun)
  | some u =>
    obtain ⟨tok, sp⟩ := u
    cases tok with
    | encaps s => exact hs _
    | _ => exact hn (by rw [ht]; intro v hv; cases hv; rfl)

theorem like_k {k : Kw} {t : Token} (h : t ≠ .k k) : Token.like (.k k) t = false := by
  cases t with
  | k k' => unfold Token.like; exact decide_eq_false fun h' => h (by rw [h'])
  | _ => rfl

theorem Good.of {ts : List Token} (h : ts ∈ expectations) (h0 : ts ≠ [])
    (h' : ∀ t ∈ ts, ∀ u, toks[pos]? = .some u → Token.like t u.tok = false) : Good s toks ⟨ts, pos⟩ :=
  ⟨h, h', fun _ he => absurd he h0⟩

theorem Good.kw {k : Kw} (h : [Token.k k] ∈ expectations) (hn : ∀ u, toks[pos]? = .some u → u.tok ≠ .k k) :
    Good s toks ⟨[.k k], pos⟩ :=
  Good.of h nofun (by intro t ht u hu; simp only [List.mem_singleton] at ht; subst ht; exact like_k (hn u hu))

theorem Good.one {t : Token} (h : [t] ∈ expectations) (hn : ∀ u, toks[pos]? = .some u → Token.like t u.tok = false) :
    Good s toks ⟨[t], pos⟩ :=
  Good.of h nofun (by intro t' ht u hu; simp only [List.mem_singleton] at ht; subst ht; exact hn u hu)

/-- Nothing can be there. -/
theorem Good.nothing (h : s → toks.length ≤ pos) : Good s toks ⟨[], pos⟩ :=
  ⟨show [] ∈ expectations by decide, nofun, fun hs _ => h hs⟩

theorem Tg.err {ts : List Token} {V : α → Nat → Prop} (hl : lo ≤ pos) (h : Good s toks ⟨ts, pos⟩) :
    Tg s toks lo pos (P.errHere ts : P α) V :=
  ⟨nofun, fun _ _ he => by cases he; exact ⟨hl, Nat.le_refl _, h⟩⟩

theorem Tg.expectOf {k : Kw} (h : [Token.k k] ∈ expectations) (hl : lo ≤ pos) :
    Tg s toks lo pos (P.expect k) (fun _ _ => True) := by
  unfold P.expect
  exact Tg.eatBind (fun t => Tg.retT (Nat.le_succ_of_le hl)) fun hn => Tg.err hl (Good.kw h hn)

theorem Tg.expectString (hl : lo ≤ pos) : Tg s toks lo pos P.expectString (fun _ _ => True) := by
  unfold P.expectString
  exact Tg.eatStringBind (fun t => Tg.retT (Nat.le_succ_of_le hl)) fun hn => Tg.err hl (Good.one (by decide) hn)

theorem Tg.expectVariable (hl : lo ≤ pos) : Tg s toks lo pos P.expectVariable (fun _ _ => True) := by
  unfold P.expectVariable
  exact Tg.eatVariableBind (fun t => Tg.retT (Nat.le_succ_of_le hl)) fun hn => Tg.err hl (Good.one (by decide) hn)

theorem Held.none {p : Nat} : Held s toks none p := nofun

theorem Held.deepest {o : Option PErr} {e : PErr} {q p : Nat} (h : Held s toks o q) (hp : p ≤ e.pos) (h' : Good s toks e) :
    Held s toks (deepest o e) p := by
  unfold Pico.deepest
  cases o with
  | none => intro x hx; cases hx; exact ⟨hp, h'⟩
  | some x =>
    dsimp only
    split
    · intro x hx; cases hx; exact ⟨hp, h'⟩
    · intro y hy; cases hy; exact ⟨by omega, (h x rfl).2⟩

theorem deepest_some (o : Option PErr) (e : PErr) : ∃ x, deepest o e = some x := by
  unfold deepest
  cases o with
  | none => exact ⟨e, rfl⟩
  | some x =>
    dsimp only
    split
    · exact ⟨e, rfl⟩
    · exact ⟨x, rfl⟩

theorem Tg.unpack {o : Option PErr} {e : PErr} {q : Nat} {V : α → Nat → Prop} (h : Held s toks o q) (hl : lo ≤ pos)
    (hp : pos ≤ e.pos) (h' : Good s toks e) : Tg s toks lo pos (deepestUnpack (deepest o e) : P α) V := by
  have hh := Held.deepest h hp h'
  obtain ⟨x, hx⟩ := deepest_some o e
  rw [hx] at hh ⊢
  exact Tg.fail hl (hh x rfl).1 (hh x rfl).2

theorem Tg.expectOr {k : Kw} {o : Option PErr} (h : [Token.k k] ∈ expectations) (hl : lo ≤ pos) (ho : Held s toks o pos) :
    Tg s toks lo pos (expectOr k o) (fun _ _ => True) := by
  unfold Pico.expectOr
  refine Tg.eatBind (fun t => Tg.retT (Nat.le_succ_of_le hl)) fun hn => ?_
  cases o with
  | none => exact Tg.err hl (Good.kw h hn)
  | some e => exact Tg.fail hl (ho e rfl).1 (ho e rfl).2

end

theorem exp_po : [Token.k .ParenthesesOpen] ∈ expectations := by decide
theorem exp_pc : [Token.k .ParenthesesClose] ∈ expectations := by decide
theorem exp_co : [Token.k .CurlyBracesOpen] ∈ expectations := by decide
theorem exp_cc : [Token.k .CurlyBracesClose] ∈ expectations := by decide
theorem exp_sc : [Token.k .SquareBracketClose] ∈ expectations := by decide
theorem exp_semi : [Token.k .SemiColon] ∈ expectations := by decide
theorem exp_colon : [Token.k .Colon] ∈ expectations := by decide
theorem exp_equal : [Token.k .Equal] ∈ expectations := by decide
theorem exp_as : [Token.k .As] ∈ expectations := by decide
theorem exp_while : [Token.k .While] ∈ expectations := by decide
theorem exp_class : [Token.k .Class] ∈ expectations := by decide
theorem exp_scope : [Token.k .ScopeOp] ∈ expectations := by decide
theorem exp_dq : [Token.k .DoubleQuote] ∈ expectations := by decide
theorem exp_here : [Token.k .HereDocEnd] ∈ expectations := by decide

syntax "exp_known" : tactic
macro_rules | `(tactic| exp_known) => `(tactic| first
  | with_reducible exact exp_po | with_reducible exact exp_pc | with_reducible exact exp_co | with_reducible exact exp_cc
  | with_reducible exact exp_sc | with_reducible exact exp_semi | with_reducible exact exp_colon
  | with_reducible exact exp_equal | with_reducible exact exp_as | with_reducible exact exp_while
  | with_reducible exact exp_class | with_reducible exact exp_scope | with_reducible exact exp_dq
  | with_reducible exact exp_here)

/-- Positions. -/
macro "le_pos" : tactic => `(tactic| first
  | with_reducible assumption
  | with_reducible exact Nat.le_refl _
  | with_reducible exact Nat.le_succ_of_le (by assumption)
  | omega)

syntax "tf_call" : tactic
syntax "tf1" : tactic
macro_rules | `(tactic| tf1) => `(tactic| first
  | with_reducible refine Tg.getPosBind ?_
  | with_reducible refine Tg.setPosBind ?_
  | with_reducible refine Tg.attemptBind ?_ ?_ ?_
  | with_reducible refine Tg.eatsBind ?_ ?_
  | with_reducible refine Tg.eatBind ?_ ?_
  | with_reducible refine Tg.peekBind ?_
  | with_reducible refine Tg.peekTokBind ?_
  | with_reducible refine Tg.nextIsBind ?_ ?_
  | with_reducible refine Tg.tokCountBind ?_
  | with_reducible refine Tg.eatStringBind ?_ ?_
  | with_reducible refine Tg.eatVariableBind ?_ ?_
  | with_reducible refine Tg.eatEncapsBind ?_ ?_
  | with_reducible refine Tg.bindT ?_ ?_
  | with_reducible refine Tg.loopT (by le_pos) ?_
  | with_reducible refine Tg.iteTrue ?_
  | with_reducible refine Tg.iteFalse ?_
  | with_reducible refine Tg.ite ?_ ?_
  | with_reducible intro _
  | with_reducible exact Tg.pureT (by le_pos)
  | with_reducible exact Tg.retT (by le_pos)
  | with_reducible exact Tg.abort
  | with_reducible exact Tg.eats (by le_pos)
  | with_reducible exact Tg.eat (by le_pos)
  | with_reducible exact Tg.subP (by le_pos)
  | with_reducible exact Tg.tokBack (by le_pos)
  | with_reducible exact Tg.lastEnd (by le_pos)
  | with_reducible exact Tg.expectString (by le_pos)
  | with_reducible exact Tg.expectVariable (by le_pos)
  | with_reducible exact Held.none
  | with_reducible refine Tg.expectOf (by exp_known) (by le_pos)
  | with_reducible refine Tg.expectOr (by exp_known) (by le_pos) ?_
  | with_reducible refine Tg.unpack ?_ (by le_pos) (by le_pos) (by assumption)
  | with_reducible refine Tg.fail (by le_pos) (by le_pos) (by assumption)
  | with_reducible refine Held.deepest ?_ (by le_pos) (by assumption)
  | with_reducible assumption
  | tf_call
  | dsimp only
  | split)
/-- Errors of a method come from the methods it calls. -/
macro "tf" : tactic => `(tactic| repeat' tf1)

/-- Both recursive calls are truthful. -/
def RecT (toks : List TokSpan) (r : Rec) : Prop :=
  (∀ s prec, Tf s toks (r.expr prec) (fun _ _ => True)) ∧ ∀ s, Tf s toks r.stmt (fun _ _ => True)

theorem RecT.expr {toks : List TokSpan} {r : Rec} {s : Prop} {lo pos : Nat} {prec : Prec} (h : RecT toks r) (hl : lo ≤ pos) :
    Tg s toks lo pos (r.expr prec) (fun _ _ => True) := h.1 s prec lo pos hl
theorem RecT.stmt {toks : List TokSpan} {r : Rec} {s : Prop} {lo pos : Nat} (h : RecT toks r) (hl : lo ≤ pos) :
    Tg s toks lo pos r.stmt (fun _ _ => True) := h.2 s lo pos hl
macro_rules | `(tactic| tf_call) => `(tactic| with_reducible exact RecT.expr (by assumption) (by le_pos))
macro_rules | `(tactic| tf_call) => `(tactic| with_reducible exact RecT.stmt (by assumption) (by le_pos))

variable {toks : List TokSpan} {r : Rec} {s : Prop} {lo pos : Nat}

theorem parseOptExpression_tf {prec : Prec} (hr : RecT toks r) (hl : lo ≤ pos) :
    Tg s toks lo pos (parseOptExpression r prec) (fun _ _ => True) := by
  unfold parseOptExpression
  tf
macro_rules | `(tactic| tf_call) => `(tactic| with_reducible exact parseOptExpression_tf (by assumption) (by le_pos))

theorem parseSimpleVariable_tf (hl : lo ≤ pos) :
    Tg s toks lo pos (parseSimpleVariable) (fun _ _ => True) := by
  unfold parseSimpleVariable
  refine Tg.eatBind (fun t => Tg.abort) fun h1 => ?_
  refine Tg.eatVariableBind (fun t => Tg.pureT (by le_pos)) fun h2 => ?_
  refine Tg.err hl (Good.of (by decide) nofun ?_)
  intro t ht u hu
  simp only [List.mem_cons, List.not_mem_nil, or_false] at ht
  rcases ht with rfl | rfl
  · exact like_k (h1 u hu)
  · exact h2 u hu
macro_rules | `(tactic| tf_call) => `(tactic| with_reducible exact parseSimpleVariable_tf (by le_pos))

theorem parseSimpleVariableExpr_tf (hl : lo ≤ pos) :
    Tg s toks lo pos (parseSimpleVariableExpr) (fun _ _ => True) := by
  unfold parseSimpleVariableExpr
  tf
macro_rules | `(tactic| tf_call) => `(tactic| with_reducible exact parseSimpleVariableExpr_tf (by le_pos))

theorem parseExpressionList_tf (hr : RecT toks r) (hl : lo ≤ pos) :
    Tg s toks lo pos (parseExpressionList r) (fun _ _ => True) := by
  unfold parseExpressionList
  tf
macro_rules | `(tactic| tf_call) => `(tactic| with_reducible exact parseExpressionList_tf (by assumption) (by le_pos))

theorem parseArgumentList_tf (hr : RecT toks r) (hl : lo ≤ pos) :
    Tg s toks lo pos (parseArgumentList r) (fun _ _ => True) := by
  unfold parseArgumentList
  tf
macro_rules | `(tactic| tf_call) => `(tactic| with_reducible exact parseArgumentList_tf (by assumption) (by le_pos))

theorem parsePropertyName_tf (hr : RecT toks r) (hl : lo ≤ pos) :
    Tg False toks lo pos (parsePropertyName r) (fun _ _ => True) := by
  unfold parsePropertyName
  tf
  all_goals exact Tg.err (by le_pos) (Good.nothing nofun)

theorem namespaceFragments_tf (hl : lo ≤ pos) :
    Tg s toks lo pos (namespaceFragments) (fun _ _ => True) := by
  unfold namespaceFragments
  refine Tg.loopT hl fun x p hp => ?_
  refine Tg.eatStringBind (fun t => ?_) fun h => ?_
  · tf
  · exact Tg.err hp (Good.one (by decide) h)
macro_rules | `(tactic| tf_call) => `(tactic| with_reducible exact namespaceFragments_tf (by le_pos))

theorem parseNamespaceName_tf (hl : lo ≤ pos) :
    Tg s toks lo pos (parseNamespaceName) (fun _ _ => True) := by
  unfold parseNamespaceName
  tf
macro_rules | `(tactic| tf_call) => `(tactic| with_reducible exact parseNamespaceName_tf (by le_pos))

theorem parseName_tf (hl : lo ≤ pos) :
    Tg s toks lo pos (parseName) (fun _ _ => True) := by
  unfold parseName
  tf
macro_rules | `(tactic| tf_call) => `(tactic| with_reducible exact parseName_tf (by le_pos))

theorem parseNameAsExpr_tf (hl : lo ≤ pos) :
    Tg s toks lo pos (parseNameAsExpr) (fun _ _ => True) := by
  unfold parseNameAsExpr
  tf
macro_rules | `(tactic| tf_call) => `(tactic| with_reducible exact parseNameAsExpr_tf (by le_pos))

theorem parseNameList_tf (hl : lo ≤ pos) :
    Tg s toks lo pos (parseNameList) (fun _ _ => True) := by
  unfold parseNameList
  tf
macro_rules | `(tactic| tf_call) => `(tactic| with_reducible exact parseNameList_tf (by le_pos))

theorem parseClassName_tf (hl : lo ≤ pos) :
    Tg s toks lo pos (parseClassName) (fun _ _ => True) := by
  unfold parseClassName
  tf
macro_rules | `(tactic| tf_call) => `(tactic| with_reducible exact parseClassName_tf (by le_pos))

theorem parseIdentifier_tf (hl : lo ≤ pos) :
    Tg s toks lo pos (parseIdentifier) (fun _ _ => True) := by
  unfold parseIdentifier
  refine Tg.peekBind fun o ho => ?_
  split
  · tf
  · refine Tg.ite (fun _ => by tf) fun _ => ?_
    refine Tg.err hl (Good.one (by decide) fun u hu => ?_)
    rw [ho] at hu
    cases hu
    rfl
  · rename_i h1 h2
    refine Tg.err hl (Good.one (by decide) fun u hu => ?_)
    rw [ho] at hu
    subst hu
    obtain ⟨tok, sp⟩ := u
    cases tok with
    | string x => exact absurd rfl (h1 x sp)
    | _ => rfl
macro_rules | `(tactic| tf_call) => `(tactic| with_reducible exact parseIdentifier_tf (by le_pos))

theorem parseIdentifierAsExpr_tf (hl : lo ≤ pos) :
    Tg s toks lo pos (parseIdentifierAsExpr) (fun _ _ => True) := by
  unfold parseIdentifierAsExpr
  tf
macro_rules | `(tactic| tf_call) => `(tactic| with_reducible exact parseIdentifierAsExpr_tf (by le_pos))

theorem parseConstant_tf (hl : lo ≤ pos) :
    Tg s toks lo pos (parseConstant) (fun _ _ => True) := by
  unfold parseConstant
  tf
macro_rules | `(tactic| tf_call) => `(tactic| with_reducible exact parseConstant_tf (by le_pos))

theorem parseArrayPairList_tf (hr : RecT toks r) (hl : lo ≤ pos) :
    Tg s toks lo pos (parseArrayPairList r) (fun _ _ => True) := by
  unfold parseArrayPairList
  tf
macro_rules | `(tactic| tf_call) => `(tactic| with_reducible exact parseArrayPairList_tf (by assumption) (by le_pos))

theorem parseDereferencableScalar_tf (hr : RecT toks r) (hl : lo ≤ pos) :
    Tg s toks lo pos (parseDereferencableScalar r) (fun _ _ => True) := by
  unfold parseDereferencableScalar
  refine Tg.eatBind (fun t => ?_) fun h1 => ?_
  · tf
  refine Tg.eatBind (fun t => ?_) fun h2 => ?_
  · tf
  refine Tg.eatEncapsBind (fun t => Tg.pureT (by le_pos)) fun h3 => ?_
  refine Tg.err hl (Good.of (by decide) nofun ?_)
  intro t ht u hu
  simp only [List.mem_cons, List.not_mem_nil, or_false] at ht
  rcases ht with rfl | rfl | rfl
  · exact like_k (h1 u hu)
  · exact like_k (h2 u hu)
  · exact h3 u hu
macro_rules | `(tactic| tf_call) => `(tactic| with_reducible exact parseDereferencableScalar_tf (by assumption) (by le_pos))

theorem parseBaseVariable_tf {simpleOnly : Bool} (hr : RecT toks r) (hl : lo ≤ pos) :
    Tg s toks lo pos (parseBaseVariable r simpleOnly) (fun _ _ => True) := by
  unfold parseBaseVariable
  refine Tg.bindT ?_ fun o q hq => ?_
  · refine Tg.ite (fun _ => by tf) fun _ => ?_
    exact Tg.eat hl
  split
  · tf
  · refine Tg.attemptBind (by tf) (fun _ _ _ => by tf) fun e1 p hp h1 h2 => ?_
    refine Tg.ite (fun _ => Tg.unpack (q := 0) Held.none hp h1 h2) fun _ => ?_
    refine Tg.attemptBind (by tf) (fun _ _ _ => by tf) fun e2 p' hp' h3 h4 => ?_
    exact Tg.unpack (Held.deepest (q := 0) Held.none h1 h2) hp' h3 h4
macro_rules | `(tactic| tf_call) => `(tactic| with_reducible exact parseBaseVariable_tf (by assumption) (by le_pos))

theorem constScopedTail_tf {simpleOnly : Bool} {cls : Expr} (hl : lo ≤ pos) :
    Tg s toks lo pos (constScopedTail simpleOnly cls) (fun _ _ => True) := by
  unfold constScopedTail
  tf
macro_rules | `(tactic| tf_call) => `(tactic| with_reducible exact constScopedTail_tf (by le_pos))

theorem parseConstScoped_tf {simpleOnly : Bool} (hl : lo ≤ pos) :
    Tg False toks lo pos (parseConstScoped simpleOnly) (fun _ _ => True) := by
  unfold parseConstScoped
  tf
  all_goals exact Tg.err (by le_pos) (Good.nothing nofun)

theorem parseFnCallBaseItem_tf {simpleOnly : Bool} (hl : lo ≤ pos) :
    Tg False toks lo pos (parseFnCallBaseItem simpleOnly) (fun _ _ => True) := by
  unfold parseFnCallBaseItem
  tf
  all_goals exact Tg.err (by le_pos) (Good.nothing nofun)

theorem parseVariableBase_tf {simpleOnly : Bool} (hr : RecT toks r) (hl : lo ≤ pos) :
    Tg s toks lo pos (parseVariableBase r simpleOnly) (fun _ _ => True) := by
  unfold parseVariableBase
  refine Tg.getPosBind ?_
  refine Tg.lower hl ?_
  refine Tg.attemptDrop (parseConstScoped_tf (Nat.le_refl _)) (fun _ _ _ => by tf) fun _ p hp => ?_
  refine Tg.attemptDrop (parseFnCallBaseItem_tf hp) (fun _ _ _ => by tf) fun _ q hq => ?_
  refine Tg.attemptBind (parseBaseVariable_tf hr hq) (fun _ _ _ => by tf) fun e p' hp' h1 h2 => ?_
  exact Tg.setPosBind (Tg.fail (Nat.le_refl _) (Nat.le_trans hp' h1) h2)
macro_rules | `(tactic| tf_call) => `(tactic| with_reducible exact parseVariableBase_tf (by assumption) (by le_pos))

theorem appendixIndex_tf {e : Expr} (hr : RecT toks r) (hl : lo ≤ pos) :
    Tg s toks lo pos (appendixIndex r e) (fun _ _ => True) := by
  unfold appendixIndex
  tf
macro_rules | `(tactic| tf_call) => `(tactic| with_reducible exact appendixIndex_tf (by assumption) (by le_pos))

theorem appendixMember_tf {e : Expr} (hr : RecT toks r) (hl : lo ≤ pos) :
    Tg s toks lo pos (appendixMember r e) (fun _ _ => True) := by
  unfold appendixMember
  refine Tg.eatsBind (Tg.iteTrue ?_) fun _ => Tg.iteFalse (by tf)
  exact Tg.attemptDrop (parsePropertyName_tf hr (by le_pos)) (fun _ _ _ => by tf) fun _ p hp => by tf
macro_rules | `(tactic| tf_call) => `(tactic| with_reducible exact appendixMember_tf (by assumption) (by le_pos))

theorem appendixStatic_tf {e : Expr} (hl : lo ≤ pos) :
    Tg s toks lo pos (appendixStatic e) (fun _ _ => True) := by
  unfold appendixStatic
  tf
macro_rules | `(tactic| tf_call) => `(tactic| with_reducible exact appendixStatic_tf (by le_pos))

theorem appendixCall_tf {simpleOnly : Bool} {e : Expr} (hr : RecT toks r) (hl : lo ≤ pos) :
    Tg s toks lo pos (appendixCall r simpleOnly e) (fun _ _ => True) := by
  unfold appendixCall
  tf
macro_rules | `(tactic| tf_call) => `(tactic| with_reducible exact appendixCall_tf (by assumption) (by le_pos))

theorem appendixStep_tf {simpleOnly : Bool} {e : Expr} (hr : RecT toks r) (hl : lo ≤ pos) :
    Tg s toks lo pos (appendixStep r simpleOnly e) (fun _ _ => True) := by
  unfold appendixStep
  tf
macro_rules | `(tactic| tf_call) => `(tactic| with_reducible exact appendixStep_tf (by assumption) (by le_pos))

theorem parseVariable_tf {simpleOnly : Bool} {base : Option Expr} (hr : RecT toks r) (hl : lo ≤ pos) :
    Tg s toks lo pos (parseVariable r simpleOnly base) (fun _ _ => True) := by
  unfold parseVariable
  tf
macro_rules | `(tactic| tf_call) => `(tactic| with_reducible exact parseVariable_tf (by assumption) (by le_pos))

theorem parseClassNameReference_tf (hr : RecT toks r) (hl : lo ≤ pos) :
    Tg s toks lo pos (parseClassNameReference r) (fun _ _ => True) := by
  unfold parseClassNameReference
  tf
macro_rules | `(tactic| tf_call) => `(tactic| with_reducible exact parseClassNameReference_tf (by assumption) (by le_pos))

theorem Encaps.flush_tf {x : Encaps} (hl : lo ≤ pos) :
    Tg s toks lo pos (Encaps.flush x) (fun _ _ => True) := by
  unfold Encaps.flush
  tf
macro_rules | `(tactic| tf_call) => `(tactic| with_reducible exact Encaps.flush_tf (by le_pos))

theorem encapsDollar_tf {x : Encaps} {t : TokSpan} (hr : RecT toks r) (hl : lo ≤ pos) :
    Tg s toks lo pos (encapsDollar r x t) (fun _ _ => True) := by
  unfold encapsDollar
  tf
macro_rules | `(tactic| tf_call) => `(tactic| with_reducible exact encapsDollar_tf (by assumption) (by le_pos))

theorem encapsStep_tf {x : Encaps} (hr : RecT toks r) (hl : lo ≤ pos) :
    Tg s toks lo pos (encapsStep r x) (fun _ _ => True) := by
  unfold encapsStep
  tf
macro_rules | `(tactic| tf_call) => `(tactic| with_reducible exact encapsStep_tf (by assumption) (by le_pos))

theorem parseEncapsList_tf (hr : RecT toks r) (hl : lo ≤ pos) :
    Tg s toks lo pos (parseEncapsList r) (fun _ _ => True) := by
  unfold parseEncapsList
  refine Tg.bindT (by tf) fun x p hp => ?_
  split
  · split
    · tf
    · exact Tg.eatEncapsBind (fun t => Tg.abort) fun h => Tg.err hp (Good.one (by decide) h)
  · tf
macro_rules | `(tactic| tf_call) => `(tactic| with_reducible exact parseEncapsList_tf (by assumption) (by le_pos))

theorem parseScalar_tf (hr : RecT toks r) (hl : lo ≤ pos) :
    Tg s toks lo pos (parseScalar r) (fun _ _ => True) := by
  unfold parseScalar
  refine Tg.peekBind fun o ho => ?_
  refine Tg.getPosBind (Tg.setPosBind ?_)
  split
  · refine Tg.err (by le_pos) (Good.nothing fun _ => ?_)
    have := List.getElem?_eq_none_iff.1 ho
    omega
  · tf
macro_rules | `(tactic| tf_call) => `(tactic| with_reducible exact parseScalar_tf (by assumption) (by le_pos))

theorem parseTypeHint_tf (hl : lo ≤ pos) :
    Tg s toks lo pos (parseTypeHint) (fun x p => match x with | .ok _ => True | .error e => p ≤ e.pos ∧ Good s toks e) := by
  unfold parseTypeHint
  refine Tg.bindT (by tf) fun nullable _ h1 => ?_
  refine Tg.bindT (by tf) fun _ _ h2 => ?_
  refine Tg.ite (fun _ => Tg.pure h2 trivial) fun _ => ?_
  refine Tg.bindT (by tf) fun _ _ h3 => ?_
  refine Tg.ite (fun _ => Tg.pure h3 trivial) fun _ => ?_
  refine Tg.attemptBind (by tf) (fun a p hp => Tg.pure hp trivial) fun e p hp hq he => ?_
  exact Tg.ite (fun _ => Tg.pure hp ⟨hq, he⟩) fun _ => Tg.pure hp trivial
macro_rules | `(tactic| tf_call) => `(tactic| with_reducible exact Tg.any (parseTypeHint_tf (by le_pos)))

theorem parseDefault_tf (hr : RecT toks r) (hl : lo ≤ pos) :
    Tg s toks lo pos (parseDefault r) (fun x p => match x with | .ok _ => True | .error e => p ≤ e.pos ∧ Good s toks e) := by
  unfold parseDefault
  refine Tg.bindT (by tf) fun _ _ h1 => ?_
  refine Tg.ite (fun _ => ?_) fun _ => Tg.pure h1 trivial
  exact Tg.attemptBind (by tf) (fun a p hp => Tg.pure hp trivial) fun e p hp hq he => Tg.pure hp ⟨hq, he⟩
macro_rules | `(tactic| tf_call) => `(tactic| with_reducible exact Tg.any (parseDefault_tf (by assumption) (by le_pos)))

theorem parseParameterList_tf (hr : RecT toks r) (hl : lo ≤ pos) :
    Tg s toks lo pos (parseParameterList r) (fun x p => Held s toks x.2 p) := by
  unfold parseParameterList
  refine Tg.loop hl fun params p hp => ?_
  refine Tg.bind (parseTypeHint_tf hp) fun x q hq hx => ?_
  cases x with
  | error e => exact Tg.pure hq (by intro a ha; cases ha; intro y hy; cases hy; exact hx)
  | ok ty =>
    refine Tg.bindT (by tf) fun _ _ h1 => ?_
    refine Tg.bindT (by tf) fun _ _ h2 => ?_
    refine Tg.eatVariableBind (fun t => ?_) fun h => ?_
    · refine Tg.bind (parseDefault_tf hr (Nat.le_succ_of_le h2)) fun x q hq hx => ?_
      cases x with
      | error e => exact Tg.pure hq (by intro a ha; cases ha; intro y hy; cases hy; exact hx)
      | ok d =>
        refine Tg.bindT (by tf) fun _ _ h3 => ?_
        exact Tg.ite (fun _ => Tg.pure h3 nofun) (fun _ => Tg.pure h3 (by intro a ha; cases ha; exact nofun))
    · refine Tg.getPosBind (Tg.pure h2 ?_)
      intro x hx
      cases hx
      intro y hy
      cases hy
      exact ⟨Nat.le_refl _, Good.one (by decide) h⟩
macro_rules | `(tactic| tf_call) => `(tactic| with_reducible exact Tg.any (parseParameterList_tf (by assumption) (by le_pos)))

theorem parseInnerStatementList_tf (hr : RecT toks r) (hl : lo ≤ pos) :
    Tg s toks lo pos (parseInnerStatementList r) (fun x p => Held s toks x.2 p) := by
  unfold parseInnerStatementList
  refine Tg.tokCountBind fun _ => ?_
  refine Tg.bindT (by tf) fun _ _ h2 => ?_
  refine Tg.loop h2 fun stmts p h3 => ?_
  refine Tg.getPosBind ?_
  refine Tg.ite (fun _ => ?_) fun _ => Tg.pure h3 (by intro a ha; cases ha; exact nofun)
  refine Tg.attemptBind (RecT.stmt hr h3) (fun _ _ h4 => Tg.pure h4 nofun) fun e q hq h4 he => Tg.pure hq ?_
  intro a ha
  cases ha
  intro y hy
  cases hy
  exact ⟨h4, he⟩
macro_rules | `(tactic| tf_call) => `(tactic| with_reducible exact Tg.any (parseInnerStatementList_tf (by assumption) (by le_pos)))

theorem parseBraced_tf (hr : RecT toks r) (hl : lo ≤ pos) :
    Tg s toks lo pos (parseBraced r) (fun _ _ => True) := by
  unfold parseBraced
  refine Tg.bindT (by tf) fun _ _ h1 => ?_
  refine Tg.bind (parseInnerStatementList_tf hr h1) fun x p hp hx => ?_
  tf
macro_rules | `(tactic| tf_call) => `(tactic| with_reducible exact parseBraced_tf (by assumption) (by le_pos))

theorem parseUseVars_tf (hl : lo ≤ pos) :
    Tg s toks lo pos (parseUseVars) (fun _ _ => True) := by
  unfold parseUseVars
  tf
macro_rules | `(tactic| tf_call) => `(tactic| with_reducible exact parseUseVars_tf (by le_pos))

theorem parseFunctionTail_tf {closure : Bool} {allowAbstract : Bool} {returnsRef : Bool} (hr : RecT toks r) (hl : lo ≤ pos) :
    Tg s toks lo pos (parseFunctionTail r closure allowAbstract returnsRef) (fun _ _ => True) := by
  unfold parseFunctionTail
  refine Tg.bindT (by tf) fun _ _ h1 => ?_
  refine Tg.bind (parseParameterList_tf hr h1) fun x p hp hx => ?_
  obtain ⟨params, perr⟩ := x
  dsimp only at hx ⊢
  refine Tg.eatBind (fun t => ?_) fun _ => ?_
  · tf
  · cases perr with
    | none => exact Tg.abort
    | some e => exact Tg.fail hp (hx e rfl).1 (hx e rfl).2
macro_rules | `(tactic| tf_call) => `(tactic| with_reducible exact parseFunctionTail_tf (by assumption) (by le_pos))

theorem parseFunctionNamed_tf {start : Span} {allowAbstract : Bool} (hr : RecT toks r) (hl : lo ≤ pos) :
    Tg s toks lo pos (parseFunctionNamed r start allowAbstract) (fun _ _ => True) := by
  unfold parseFunctionNamed
  tf
macro_rules | `(tactic| tf_call) => `(tactic| with_reducible exact parseFunctionNamed_tf (by assumption) (by le_pos))

theorem parseClosure_tf {start : Span} (hr : RecT toks r) (hl : lo ≤ pos) :
    Tg s toks lo pos (parseClosure r start) (fun _ _ => True) := by
  unfold parseClosure
  tf
macro_rules | `(tactic| tf_call) => `(tactic| with_reducible exact parseClosure_tf (by assumption) (by le_pos))

theorem parseNew_tf {t : TokSpan} (hr : RecT toks r) (hl : lo ≤ pos) :
    Tg s toks lo pos (parseNew r t) (fun _ _ => True) := by
  unfold parseNew
  tf
macro_rules | `(tactic| tf_call) => `(tactic| with_reducible exact parseNew_tf (by assumption) (by le_pos))

theorem parseExit_tf {t : TokSpan} (hr : RecT toks r) (hl : lo ≤ pos) :
    Tg s toks lo pos (parseExit r t) (fun _ _ => True) := by
  unfold parseExit
  tf
macro_rules | `(tactic| tf_call) => `(tactic| with_reducible exact parseExit_tf (by assumption) (by le_pos))

theorem parseYield_tf {t : TokSpan} (hr : RecT toks r) (hl : lo ≤ pos) :
    Tg s toks lo pos (parseYield r t) (fun _ _ => True) := by
  unfold parseYield
  tf
macro_rules | `(tactic| tf_call) => `(tactic| with_reducible exact parseYield_tf (by assumption) (by le_pos))

theorem parseIsset_tf {sp : Span} (hr : RecT toks r) (hl : lo ≤ pos) :
    Tg s toks lo pos (parseIsset r sp) (fun _ _ => True) := by
  unfold parseIsset
  tf
macro_rules | `(tactic| tf_call) => `(tactic| with_reducible exact parseIsset_tf (by assumption) (by le_pos))

theorem parseEmpty_tf {sp : Span} (hr : RecT toks r) (hl : lo ≤ pos) :
    Tg s toks lo pos (parseEmpty r sp) (fun _ _ => True) := by
  unfold parseEmpty
  tf
macro_rules | `(tactic| tf_call) => `(tactic| with_reducible exact parseEmpty_tf (by assumption) (by le_pos))

theorem parseListTarget_tf {t : TokSpan} (hr : RecT toks r) (hl : lo ≤ pos) :
    Tg s toks lo pos (parseListTarget r t) (fun _ _ => True) := by
  unfold parseListTarget
  refine Tg.bindT (by tf) fun _ _ _ => ?_
  refine Tg.bindT (by tf) fun _ _ _ => ?_
  refine Tg.bindT (by tf) fun c p hp => ?_
  exact Tg.nextIsBind (Tg.pureT hp) fun h => Tg.err hp (Good.kw (by decide) h)
macro_rules | `(tactic| tf_call) => `(tactic| with_reducible exact parseListTarget_tf (by assumption) (by le_pos))

theorem parseAssign_tf {target : Expr} (hr : RecT toks r) (hl : lo ≤ pos) :
    Tg s toks lo pos (parseAssign r target) (fun _ _ => True) := by
  unfold parseAssign
  tf
macro_rules | `(tactic| tf_call) => `(tactic| with_reducible exact parseAssign_tf (by assumption) (by le_pos))

theorem parseNonVariable_tf {err : PErr} (hr : RecT toks r) {q : Nat} (he : q ≤ err.pos) (hg : Good s toks err) (hl : lo ≤ pos) :
    Tg s toks lo pos (parseNonVariable r err) (fun _ _ => True) := by
  unfold parseNonVariable
  have h0 : Held s toks (deepest none err) q := Held.deepest (q := 0) Held.none he hg
  tf
  exact Tg.unpack h0 (by assumption) (by assumption) (by assumption)
macro_rules | `(tactic| tf_call) => `(tactic| with_reducible exact parseNonVariable_tf (by assumption) (by assumption) (by assumption) (by le_pos))

theorem parseVariableOrScalar_tf (hr : RecT toks r) (hl : lo ≤ pos) :
    Tg s toks lo pos (parseVariableOrScalar r) (fun _ _ => True) := by
  unfold parseVariableOrScalar
  tf
macro_rules | `(tactic| tf_call) => `(tactic| with_reducible exact parseVariableOrScalar_tf (by assumption) (by le_pos))

theorem parseInternal_tf {k : Kw} {sp : Span} {m : P Expr} (hr : RecT toks r) (hl : lo ≤ pos) (h : parseInternal r k sp = some m) :
    Tg s toks lo pos m (fun _ _ => True) := by
  unfold parseInternal at h
  repeat' split at h
  all_goals first
    | cases h; tf
    | cases h

theorem parseOtherExpression_tf (hr : RecT toks r) (hl : lo ≤ pos) :
    Tg s toks lo pos (parseOtherExpression r) (fun _ _ => True) := by
  unfold parseOtherExpression
  refine Tg.peekBind fun o ho => ?_
  split
  · refine Tg.getPosBind ?_
    rename_i k sp
    cases hi : parseInternal r k sp with
    | none => tf
    | some m =>
      have := parseInternal_tf (s := s) hr (Nat.le_succ_of_le hl) hi
      tf
  · tf
macro_rules | `(tactic| tf_call) => `(tactic| with_reducible exact parseOtherExpression_tf (by assumption) (by le_pos))

theorem parsePostfixExpression_tf (hr : RecT toks r) (hl : lo ≤ pos) :
    Tg s toks lo pos (parsePostfixExpression r) (fun _ _ => True) := by
  unfold parsePostfixExpression
  tf
macro_rules | `(tactic| tf_call) => `(tactic| with_reducible exact parsePostfixExpression_tf (by assumption) (by le_pos))

theorem parseTernary_tf {left : Expr} {prec : Prec} (hr : RecT toks r) (hl : lo ≤ pos) :
    Tg s toks lo pos (parseTernary r left prec) (fun _ _ => True) := by
  unfold parseTernary
  tf
macro_rules | `(tactic| tf_call) => `(tactic| with_reducible exact parseTernary_tf (by assumption) (by le_pos))

theorem parseInstanceOf_tf {left : Expr} (hr : RecT toks r) (hl : lo ≤ pos) :
    Tg s toks lo pos (parseInstanceOf r left) (fun _ _ => True) := by
  unfold parseInstanceOf
  tf
macro_rules | `(tactic| tf_call) => `(tactic| with_reducible exact parseInstanceOf_tf (by assumption) (by le_pos))

theorem parseBinaryRest_tf {left : Expr} {k : Kw} {prec : Prec} (hr : RecT toks r) (hl : lo ≤ pos) :
    Tg s toks lo pos (parseBinaryRest r left k prec) (fun _ _ => True) := by
  unfold parseBinaryRest
  tf
macro_rules | `(tactic| tf_call) => `(tactic| with_reducible exact parseBinaryRest_tf (by assumption) (by le_pos))

theorem parseBinaryExpression_tf {left : Expr} {prec : Prec} (hr : RecT toks r) (hl : lo ≤ pos) :
    Tg s toks lo pos (parseBinaryExpression r left prec) (fun _ _ => True) := by
  unfold parseBinaryExpression
  tf
macro_rules | `(tactic| tf_call) => `(tactic| with_reducible exact parseBinaryExpression_tf (by assumption) (by le_pos))

theorem parseOperand_tf (hr : RecT toks r) (hl : lo ≤ pos) :
    Tg s toks lo pos (parseOperand r) (fun _ _ => True) := by
  unfold parseOperand
  refine Tg.peekBind fun o ho => ?_
  split
  · exact Tg.err hl (Good.nothing fun _ => List.getElem?_eq_none_iff.1 ho)
  · tf
macro_rules | `(tactic| tf_call) => `(tactic| with_reducible exact parseOperand_tf (by assumption) (by le_pos))

theorem parseExpression_tf {prec : Prec} (hr : RecT toks r) (hl : lo ≤ pos) :
    Tg s toks lo pos (parseExpression r prec) (fun _ _ => True) := by
  unfold parseExpression
  tf
macro_rules | `(tactic| tf_call) => `(tactic| with_reducible exact parseExpression_tf (by assumption) (by le_pos))

theorem parseForeachVariable_tf (hr : RecT toks r) (hl : lo ≤ pos) :
    Tg s toks lo pos (parseForeachVariable r) (fun _ _ => True) := by
  unfold parseForeachVariable
  tf
macro_rules | `(tactic| tf_call) => `(tactic| with_reducible exact parseForeachVariable_tf (by assumption) (by le_pos))

theorem parseStatementExtractBlock_tf (hr : RecT toks r) (hl : lo ≤ pos) :
    Tg s toks lo pos (parseStatementExtractBlock r) (fun _ _ => True) := by
  unfold parseStatementExtractBlock
  tf
macro_rules | `(tactic| tf_call) => `(tactic| with_reducible exact parseStatementExtractBlock_tf (by assumption) (by le_pos))

theorem parseStaticVarDecl_tf {start : Span} (hr : RecT toks r) (hl : lo ≤ pos) :
    Tg s toks lo pos (parseStaticVarDecl r start) (fun _ _ => True) := by
  unfold parseStaticVarDecl
  tf
macro_rules | `(tactic| tf_call) => `(tactic| with_reducible exact parseStaticVarDecl_tf (by assumption) (by le_pos))

theorem parseGlobalVarDecl_tf {start : Span} (hl : lo ≤ pos) :
    Tg s toks lo pos (parseGlobalVarDecl start) (fun _ _ => True) := by
  unfold parseGlobalVarDecl
  tf
macro_rules | `(tactic| tf_call) => `(tactic| with_reducible exact parseGlobalVarDecl_tf (by le_pos))

theorem parseMemberModifiers_tf (hl : lo ≤ pos) :
    Tg s toks lo pos (parseMemberModifiers) (fun _ _ => True) := by
  unfold parseMemberModifiers
  tf
macro_rules | `(tactic| tf_call) => `(tactic| with_reducible exact parseMemberModifiers_tf (by le_pos))

theorem parseAbsoluteTraitMethodReference_tf (hl : lo ≤ pos) :
    Tg s toks lo pos (parseAbsoluteTraitMethodReference) (fun _ _ => True) := by
  unfold parseAbsoluteTraitMethodReference
  tf
macro_rules | `(tactic| tf_call) => `(tactic| with_reducible exact parseAbsoluteTraitMethodReference_tf (by le_pos))

theorem parseTraitMethod_tf (hl : lo ≤ pos) :
    Tg s toks lo pos (parseTraitMethod) (fun _ _ => True) := by
  unfold parseTraitMethod
  tf
macro_rules | `(tactic| tf_call) => `(tactic| with_reducible exact parseTraitMethod_tf (by le_pos))

theorem traitAdaptStep_tf {x : Bool × List TraitUse} (hl : lo ≤ pos) :
    Tg s toks lo pos (traitAdaptStep x) (fun _ _ => True) := by
  unfold traitAdaptStep
  tf
macro_rules | `(tactic| tf_call) => `(tactic| with_reducible exact traitAdaptStep_tf (by le_pos))

theorem parseTraitUse_tf (hl : lo ≤ pos) :
    Tg s toks lo pos (parseTraitUse) (fun _ _ => True) := by
  unfold parseTraitUse
  tf
macro_rules | `(tactic| tf_call) => `(tactic| with_reducible exact parseTraitUse_tf (by le_pos))

theorem parseClassConsts_tf {ms : MemberModifiers} (hr : RecT toks r) (hl : lo ≤ pos) :
    Tg s toks lo pos (parseClassConsts r ms) (fun _ _ => True) := by
  unfold parseClassConsts
  tf
macro_rules | `(tactic| tf_call) => `(tactic| with_reducible exact parseClassConsts_tf (by assumption) (by le_pos))

theorem parseProperties_tf {ms : MemberModifiers} (hr : RecT toks r) (hl : lo ≤ pos) :
    Tg s toks lo pos (parseProperties r ms) (fun _ _ => True) := by
  unfold parseProperties
  tf
macro_rules | `(tactic| tf_call) => `(tactic| with_reducible exact parseProperties_tf (by assumption) (by le_pos))

theorem parseClassStatement_tf (hr : RecT toks r) (hl : lo ≤ pos) :
    Tg s toks lo pos (parseClassStatement r) (fun _ _ => True) := by
  unfold parseClassStatement
  tf
macro_rules | `(tactic| tf_call) => `(tactic| with_reducible exact parseClassStatement_tf (by assumption) (by le_pos))

theorem parseClassStatementList_tf (hr : RecT toks r) (hl : lo ≤ pos) :
    Tg s toks lo pos (parseClassStatementList r) (fun x p => Held s toks x.2 p) := by
  unfold parseClassStatementList
  refine Tg.tokCountBind fun _ => ?_
  refine Tg.bindT (by tf) fun _ _ h2 => ?_
  refine Tg.loop h2 fun members p h3 => ?_
  refine Tg.getPosBind ?_
  refine Tg.ite (fun _ => ?_) fun _ => Tg.pure h3 (by intro a ha; cases ha; exact nofun)
  refine Tg.attemptBind (parseClassStatement_tf hr h3) (fun _ _ h4 => Tg.pure h4 nofun) fun e q hq h4 he => Tg.pure hq ?_
  intro a ha
  cases ha
  intro y hy
  cases hy
  exact ⟨h4, he⟩
macro_rules | `(tactic| tf_call) => `(tactic| with_reducible exact Tg.any (parseClassStatementList_tf (by assumption) (by le_pos)))

theorem parseClassModifiers_tf (hl : lo ≤ pos) :
    Tg s toks lo pos (parseClassModifiers) (fun _ _ => True) := by
  unfold parseClassModifiers
  tf
macro_rules | `(tactic| tf_call) => `(tactic| with_reducible exact parseClassModifiers_tf (by le_pos))

theorem parseMembers_tf (hr : RecT toks r) (hl : lo ≤ pos) :
    Tg s toks lo pos (parseMembers r) (fun _ _ => True) := by
  unfold parseMembers
  refine Tg.bindT (by tf) fun _ _ h1 => ?_
  refine Tg.bind (parseClassStatementList_tf hr h1) fun x p hp hx => ?_
  tf
macro_rules | `(tactic| tf_call) => `(tactic| with_reducible exact parseMembers_tf (by assumption) (by le_pos))

theorem parseOptNames_tf {k : Kw} (hl : lo ≤ pos) :
    Tg s toks lo pos (parseOptNames k) (fun _ _ => True) := by
  unfold parseOptNames
  tf
macro_rules | `(tactic| tf_call) => `(tactic| with_reducible exact parseOptNames_tf (by le_pos))

theorem parseOoDeclaration_tf (hr : RecT toks r) (hl : lo ≤ pos) :
    Tg s toks lo pos (parseOoDeclaration r) (fun _ _ => True) := by
  unfold parseOoDeclaration
  tf
macro_rules | `(tactic| tf_call) => `(tactic| with_reducible exact parseOoDeclaration_tf (by assumption) (by le_pos))

theorem parseCatches_tf (hr : RecT toks r) (hl : lo ≤ pos) :
    Tg s toks lo pos (parseCatches r) (fun _ _ => True) := by
  unfold parseCatches
  tf
macro_rules | `(tactic| tf_call) => `(tactic| with_reducible exact parseCatches_tf (by assumption) (by le_pos))

theorem parseTry_tf {t : TokSpan} (hr : RecT toks r) (hl : lo ≤ pos) :
    Tg s toks lo pos (parseTry r t) (fun _ _ => True) := by
  unfold parseTry
  tf
macro_rules | `(tactic| tf_call) => `(tactic| with_reducible exact parseTry_tf (by assumption) (by le_pos))

theorem parseUnset_tf {t : TokSpan} (hr : RecT toks r) (hl : lo ≤ pos) :
    Tg s toks lo pos (parseUnset r t) (fun _ _ => True) := by
  unfold parseUnset
  tf
macro_rules | `(tactic| tf_call) => `(tactic| with_reducible exact parseUnset_tf (by assumption) (by le_pos))

theorem parseForeach_tf {t : TokSpan} (hr : RecT toks r) (hl : lo ≤ pos) :
    Tg s toks lo pos (parseForeach r t) (fun _ _ => True) := by
  unfold parseForeach
  tf
macro_rules | `(tactic| tf_call) => `(tactic| with_reducible exact parseForeach_tf (by assumption) (by le_pos))

theorem parseFor_tf {t : TokSpan} (hr : RecT toks r) (hl : lo ≤ pos) :
    Tg s toks lo pos (parseFor r t) (fun _ _ => True) := by
  unfold parseFor
  tf
macro_rules | `(tactic| tf_call) => `(tactic| with_reducible exact parseFor_tf (by assumption) (by le_pos))

theorem parseCaseHead_tf (hr : RecT toks r) (hl : lo ≤ pos) :
    Tg s toks lo pos (parseCaseHead r) (fun _ _ => True) := by
  unfold parseCaseHead
  tf
macro_rules | `(tactic| tf_call) => `(tactic| with_reducible exact parseCaseHead_tf (by assumption) (by le_pos))

theorem switchStep_tf {x : List Case × List Expr} (hr : RecT toks r) (hl : lo ≤ pos) :
    Tg s toks lo pos (switchStep r x) (fun _ _ => True) := by
  unfold switchStep
  refine Tg.bindT (by tf) fun o q hq => ?_
  split
  · tf
  · refine Tg.bind (V := fun b p => b = false → ∀ u, toks[p]? = some u → u.tok ≠ .k .Colon ∧ u.tok ≠ .k .SemiColon) ?_ ?_
    · refine Tg.eatsBind (Tg.pure (by le_pos) nofun) fun h1 => ?_
      show Tg s toks lo q (eats .SemiColon) _
      have : Tg s toks lo q (eats .SemiColon >>= fun b => (pure b : P Bool))
          (fun b p => b = false → ∀ u, toks[p]? = some u → u.tok ≠ .k .Colon ∧ u.tok ≠ .k .SemiColon) :=
        Tg.eatsBind (Tg.pure (by le_pos) nofun) fun h2 => Tg.pure hq fun _ u hu => ⟨h1 u hu, h2 u hu⟩
      have h3 : (eats .SemiColon >>= fun b => (pure b : P Bool)) toks q = eats .SemiColon toks q := by
        show P.bnd (eats .SemiColon) P.ret toks q = _
        unfold P.bnd
        cases eats .SemiColon toks q <;> rfl
      unfold Tg at this ⊢
      rw [← h3]
      exact this
    · intro b p hp hb
      cases b with
      | false =>
        refine Tg.err hp (Good.of (by decide) nofun ?_)
        intro t ht u hu
        simp only [List.mem_cons, List.not_mem_nil, or_false] at ht
        rcases ht with rfl | rfl
        · exact like_k (hb rfl u hu).1
        · exact like_k (hb rfl u hu).2
      | true =>
        show Tg s toks lo p (if (!true) = true then _ else _) _
        rw [if_neg (by decide)]
        tf
macro_rules | `(tactic| tf_call) => `(tactic| with_reducible exact switchStep_tf (by assumption) (by le_pos))

theorem parseSwitch_tf {t : TokSpan} (hr : RecT toks r) (hl : lo ≤ pos) :
    Tg s toks lo pos (parseSwitch r t) (fun _ _ => True) := by
  unfold parseSwitch
  tf
macro_rules | `(tactic| tf_call) => `(tactic| with_reducible exact parseSwitch_tf (by assumption) (by le_pos))

theorem parseParenExpr_tf (hr : RecT toks r) (hl : lo ≤ pos) :
    Tg s toks lo pos (parseParenExpr r) (fun _ _ => True) := by
  unfold parseParenExpr
  tf
macro_rules | `(tactic| tf_call) => `(tactic| with_reducible exact parseParenExpr_tf (by assumption) (by le_pos))

theorem parseDo_tf {t : TokSpan} (hr : RecT toks r) (hl : lo ≤ pos) :
    Tg s toks lo pos (parseDo r t) (fun _ _ => True) := by
  unfold parseDo
  tf
macro_rules | `(tactic| tf_call) => `(tactic| with_reducible exact parseDo_tf (by assumption) (by le_pos))

theorem parseWhile_tf {t : TokSpan} (hr : RecT toks r) (hl : lo ≤ pos) :
    Tg s toks lo pos (parseWhile r t) (fun _ _ => True) := by
  unfold parseWhile
  tf
macro_rules | `(tactic| tf_call) => `(tactic| with_reducible exact parseWhile_tf (by assumption) (by le_pos))

theorem parseIfBranch_tf {start : Nat} (hr : RecT toks r) (hl : lo ≤ pos) :
    Tg s toks lo pos (parseIfBranch r start) (fun _ _ => True) := by
  unfold parseIfBranch
  tf
macro_rules | `(tactic| tf_call) => `(tactic| with_reducible exact parseIfBranch_tf (by assumption) (by le_pos))

theorem ifStep_tf {stmts : List Stmt} (hr : RecT toks r) (hl : lo ≤ pos) :
    Tg s toks lo pos (ifStep r stmts) (fun _ _ => True) := by
  unfold ifStep
  tf
macro_rules | `(tactic| tf_call) => `(tactic| with_reducible exact ifStep_tf (by assumption) (by le_pos))

theorem parseIf_tf {t : TokSpan} (hr : RecT toks r) (hl : lo ≤ pos) :
    Tg s toks lo pos (parseIf r t) (fun _ _ => True) := by
  unfold parseIf
  tf
macro_rules | `(tactic| tf_call) => `(tactic| with_reducible exact parseIf_tf (by assumption) (by le_pos))

theorem parseBlock_tf {t : TokSpan} (hr : RecT toks r) (hl : lo ≤ pos) :
    Tg s toks lo pos (parseBlock r t) (fun _ _ => True) := by
  unfold parseBlock
  refine Tg.bind (parseInnerStatementList_tf hr hl) fun x p hp hx => ?_
  tf
macro_rules | `(tactic| tf_call) => `(tactic| with_reducible exact parseBlock_tf (by assumption) (by le_pos))

theorem simpleStmt_tf {t : TokSpan} {m : P StmtK} (hr : RecT toks r) (hl : lo ≤ pos) (h : simpleStmt r t = some m) :
    Tg s toks lo pos m (fun _ _ => True) := by
  unfold simpleStmt at h
  split at h
  all_goals first
    | cases h; tf
    | cases h

theorem parseExprStmt_tf {store : Option PErr} (hr : RecT toks r) {q : Nat} (hs : Held s toks store q) (hl : lo ≤ pos) :
    Tg s toks lo pos (parseExprStmt r store) (fun _ _ => True) := by
  unfold parseExprStmt
  refine Tg.attemptBind (by tf) (fun _ _ _ => by tf) fun e p hp h1 h2 => ?_
  exact Tg.unpack hs hp h1 h2
macro_rules | `(tactic| tf_call) => `(tactic| with_reducible exact parseExprStmt_tf (by assumption) (Held.none (p := 0)) (by le_pos))

theorem parseOtherStmt_tf {store : Option PErr} (hr : RecT toks r) {q : Nat} (hs : Held s toks store q) (hl : lo ≤ pos) :
    Tg s toks lo pos (parseOtherStmt r store) (fun _ _ => True) := by
  unfold parseOtherStmt
  refine Tg.attemptBind (by tf) (fun _ _ _ => by tf) fun e p hp hq he => ?_
  refine Tg.peekBind fun o ho => ?_
  split
  · exact Tg.err hp (Good.nothing fun _ => List.getElem?_eq_none_iff.1 ho)
  rename_i t
  cases hm : simpleStmt r t with
  | some m =>
    have := simpleStmt_tf (s := s) hr (Nat.le_succ_of_le hp) hm
    dsimp only
    tf
  | none =>
    dsimp only
    refine Tg.getPosBind ?_
    have hh : Held s toks (deepest store e) p := Held.deepest hs hq he
    obtain ⟨x, hx⟩ := deepest_some store e
    have h1 : deepest (deepest store e) ⟨[], p⟩ = deepest store e := by
      rw [hx] at hh ⊢
      unfold deepest
      exact if_neg (Nat.not_lt.2 (hh x rfl).1)
    rw [h1]
    exact parseExprStmt_tf hr hh hp
macro_rules | `(tactic| tf_call) => `(tactic| with_reducible exact parseOtherStmt_tf (by assumption) (Held.none (p := 0)) (by le_pos))

theorem tryDecl_tf {m : P Stmt} (hr : RecT toks r) (hm : ∀ p, lo ≤ p → Tg s toks lo p m (fun _ _ => True)) (hl : lo ≤ pos) :
    Tg s toks lo pos (tryDecl r m) (fun _ _ => True) := by
  unfold tryDecl
  refine Tg.getPosBind (Tg.setPosBind ?_)
  refine Tg.attemptBind (hm _ (Nat.le_succ_of_le hl)) (fun _ _ _ => by tf) fun e p hp hq he => ?_
  exact Tg.setPosBind (parseOtherStmt_tf hr (Held.deepest (q := 0) Held.none hq he) hl)

theorem parseStatement_tf (hr : RecT toks r) (hl : lo ≤ pos) :
    Tg s toks lo pos (parseStatement r) (fun _ _ => True) := by
  unfold parseStatement
  tf
  all_goals
    refine tryDecl_tf hr ?_ (by le_pos)
    tf
macro_rules | `(tactic| tf_call) => `(tactic| with_reducible exact parseStatement_tf (by assumption) (by le_pos))

theorem parseTopUse_tf {t : TokSpan} (hl : lo ≤ pos) :
    Tg s toks lo pos (parseTopUse t) (fun _ _ => True) := by
  unfold parseTopUse
  tf
macro_rules | `(tactic| tf_call) => `(tactic| with_reducible exact parseTopUse_tf (by le_pos))

theorem parseTopStatement_tf (hr : RecT toks r) (hl : lo ≤ pos) :
    Tg s toks lo pos (parseTopStatement r) (fun _ _ => True) := by
  unfold parseTopStatement
  tf
macro_rules | `(tactic| tf_call) => `(tactic| with_reducible exact parseTopStatement_tf (by assumption) (by le_pos))

theorem parseTopStatementList_tf (hr : RecT toks r) (hl : lo ≤ pos) :
    Tg s toks lo pos (parseTopStatementList r) (fun _ _ => True) := by
  unfold parseTopStatementList
  tf
macro_rules | `(tactic| tf_call) => `(tactic| with_reducible exact parseTopStatementList_tf (by assumption) (by le_pos))

theorem recN_tf (n : Nat) : RecT toks (recN n) := by
  induction n with
  | zero => exact ⟨fun _ _ _ _ _ => Tg.noFuel, fun _ _ _ _ => Tg.noFuel⟩
  | succ n ih => exact ⟨fun _ prec _ _ hl => parseExpression_tf ih hl, fun _ _ _ hl => parseStatement_tf ih hl⟩

end Pico
