import Verif.Lemmas.ParserTotal
import Verif.Lemmas.ParserMono
import Verif.Lemmas.PrinterSafe
/-!
# Running the parser on a known token sequence

`theRec` is the parser with enough fuel for every token list. `Step toks m l a r`: run where the remaining
tokens are `l`, the method `m` returns `a` and the remaining tokens are `r`.
-/
namespace Pico
open P

/-- The parser with as much fuel as the tokens can need. -/
def theRec : Rec where
  expr prec toks pos := (recN (2 * toks.length + 2)).expr prec toks pos
  stmt toks pos := (recN (2 * toks.length + 2)).stmt toks pos

theorem Eats_noOof {α : Type} {m : P α} {toks : List TokSpan} {pos : Nat} {Q : α → Prop}
    (h : Eats m toks pos Q) : m toks pos ≠ .oof := by
  intro ho
  have := h (fun _ _ => True) (fun _ _ => True) (by intros; trivial) (by intros; trivial)
  unfold Wp at this
  rw [ho] at this
  exact this

theorem recN_theRec (n : Nat) : RLe (recN n) theRec := by
  constructor
  · intro prec toks pos
    have hne := Eats_noOof ((recN_ok toks (2 * toks.length + 2) pos).1 (by omega) prec)
    rcases Nat.le_total n (2 * toks.length + 2) with h | h
    · exact (recN_le h).1 prec toks pos
    · rcases (recN_le h).1 prec toks pos with h' | h'
      · exact absurd h' hne
      · exact .inr h'.symm
  · intro toks pos
    have hne := Eats_noOof ((recN_ok toks (2 * toks.length + 2) pos).2 (by omega))
    rcases Nat.le_total n (2 * toks.length + 2) with h | h
    · exact (recN_le h).2 toks pos
    · rcases (recN_le h).2 toks pos with h' | h'
      · exact absurd h' hne
      · exact .inr h'.symm

theorem theRec_expr (prec : Prec) : theRec.expr prec = parseExpression theRec prec := by
  funext toks pos
  have hne := Eats_noOof ((recN_ok toks (2 * toks.length + 2) pos).1 (by omega) prec)
  rcases recN_mono (2 * toks.length + 2) |>.1 prec toks pos with h | h
  · exact absurd h hne
  · show (recN (2 * toks.length + 2)).expr prec toks pos = _
    have hm := parseExpression_mono (prec := prec) (recN_theRec (2 * toks.length + 2)) toks pos
    rw [h] at hne ⊢
    rcases hm with h' | h'
    · exact absurd h' hne
    · exact h'

theorem theRec_stmt : theRec.stmt = parseStatement theRec := by
  funext toks pos
  have hne := Eats_noOof ((recN_ok toks (2 * toks.length + 2) pos).2 (by omega))
  rcases recN_mono (2 * toks.length + 2) |>.2 toks pos with h | h
  · exact absurd h hne
  · show (recN (2 * toks.length + 2)).stmt toks pos = _
    have hm := parseStatement_mono (recN_theRec (2 * toks.length + 2)) toks pos
    rw [h] at hne ⊢
    rcases hm with h' | h'
    · exact absurd h' hne
    · exact h'

/-- A method run with the limit parser gives what it gives with enough fuel. -/
theorem top_theRec (n : Nat) (toks : List TokSpan) (hn : 2 * toks.length + 2 ≤ n) :
    parseTopStatementList (recN n) toks 0 = parseTopStatementList theRec toks 0 := by
  rcases parseTopStatementList_mono (recN_theRec n) toks 0 with h | h
  · have hk := parseTop_ok n toks hn (fun _ _ => True) (fun _ _ => True)
      (fun _ _ _ _ => trivial) (fun _ _ _ => trivial)
    unfold Wp at hk
    rw [h] at hk
    exact hk.elim
  · exact h

section
variable {α β σ : Type} {toks : List TokSpan}

/-- `l` is what remains of the tokens at some position. -/
def Tail (toks : List TokSpan) (l : List Token) : Prop := ∃ pre, toks.map TokSpan.tok = pre ++ l

/-- The position where `l` remains. -/
def posOf (toks : List TokSpan) (l : List Token) : Nat := toks.length - l.length

/-- The range of the token in front of which `l` is what remains after it. -/
def spanBefore (toks : List TokSpan) (l : List Token) : Span :=
  (toks[posOf toks l - 1]?.map TokSpan.span).getD Span.new

theorem Tail.drop {t : Token} {l : List Token} (h : Tail toks (t :: l)) : Tail toks l := by
  obtain ⟨pre, h⟩ := h
  exact ⟨pre ++ [t], by simp [h]⟩

theorem Tail.len {l : List Token} (h : Tail toks l) : l.length ≤ toks.length := by
  obtain ⟨pre, h⟩ := h
  have := congrArg List.length h
  simp at this
  omega

theorem Tail.pos_cons {t : Token} {l : List Token} (h : Tail toks (t :: l)) :
    posOf toks l = posOf toks (t :: l) + 1 := by
  have := h.len
  simp at this
  simp [posOf]
  omega

theorem Tail.get {t : Token} {l : List Token} (h : Tail toks (t :: l)) :
    toks[posOf toks (t :: l)]? = some ⟨t, spanBefore toks l⟩ := by
  have hp := h.pos_cons
  have hl := h.len
  obtain ⟨pre, h⟩ := h
  have hlen := congrArg List.length h
  simp at hlen hl
  have hpos : posOf toks (t :: l) = pre.length := by simp [posOf]; omega
  have hg : (toks.map TokSpan.tok)[pre.length]? = some t := by rw [h]; simp
  rw [List.getElem?_map] at hg
  unfold spanBefore
  rw [hp, Nat.add_sub_cancel, hpos]
  cases hq : toks[pre.length]? with
  | none => rw [hq] at hg; simp at hg
  | some ts =>
    rw [hq] at hg
    simp at hg
    subst hg
    rfl

theorem Tail.get_nil (h : Tail toks []) : toks[posOf toks []]? = none := by
  simp [posOf]

def Step (toks : List TokSpan) (m : P α) (l : List Token) (a : α) (r : List Token) : Prop :=
  Tail toks l → m toks (posOf toks l) = .ok a (posOf toks r) ∧ Tail toks r

/-- `m` reports an error and leaves the remaining tokens `r`. -/
def Fails (toks : List TokSpan) (m : P α) (l r : List Token) : Prop :=
  Tail toks l → (∃ e, m toks (posOf toks l) = .err e (posOf toks r)) ∧ Tail toks r

theorem Step.bind {m : P α} {f : α → P β} {l l' r : List Token} {a : α} {b : β}
    (h : Step toks m l a l') (h' : Step toks (f a) l' b r) : Step toks (m >>= f) l b r := by
  intro ht
  obtain ⟨h1, ht'⟩ := h ht
  obtain ⟨h2, ht''⟩ := h' ht'
  refine ⟨?_, ht''⟩
  show P.bnd m f toks _ = _
  unfold P.bnd
  rw [h1]
  exact h2

theorem Fails.bind {m : P α} {f : α → P β} {l l' r : List Token} {a : α}
    (h : Step toks m l a l') (h' : Fails toks (f a) l' r) : Fails toks (m >>= f) l r := by
  intro ht
  obtain ⟨h1, ht'⟩ := h ht
  obtain ⟨⟨e, h2⟩, ht''⟩ := h' ht'
  refine ⟨⟨e, ?_⟩, ht''⟩
  show P.bnd m f toks _ = _
  unfold P.bnd
  rw [h1]
  exact h2

theorem Fails.bind_left {m : P α} {f : α → P β} {l r : List Token}
    (h : Fails toks m l r) : Fails toks (m >>= f) l r := by
  intro ht
  obtain ⟨⟨e, h1⟩, ht'⟩ := h ht
  refine ⟨⟨e, ?_⟩, ht'⟩
  show P.bnd m f toks _ = _
  unfold P.bnd
  rw [h1]

theorem Step.pure {a : α} {l : List Token} : Step toks (pure a) l a l := fun h => ⟨rfl, h⟩
theorem Step.ret {a : α} {l : List Token} : Step toks (P.ret a) l a l := fun h => ⟨rfl, h⟩

theorem Step.pure' {a b : α} {l : List Token} (h : a = b) : Step toks (Pure.pure a) l b l := h ▸ Step.pure

theorem Step.attempt {m : P α} {l r : List Token} {a : α} (h : Step toks m l a r) :
    Step toks (P.attempt m) l (.ok a) r := by
  intro ht
  obtain ⟨h1, ht'⟩ := h ht
  exact ⟨by unfold P.attempt; rw [h1], ht'⟩

/-- The error of a failing method. -/
noncomputable def errOf (toks : List TokSpan) (m : P α) (l : List Token) : PErr :=
  match m toks (posOf toks l) with
  | .err e _ => e
  | _ => ⟨[], 0⟩

theorem Fails.attempt {m : P α} {l r : List Token} (h : Fails toks m l r) :
    Step toks (P.attempt m) l (.error (errOf toks m l)) r := by
  intro ht
  obtain ⟨⟨e, h1⟩, ht'⟩ := h ht
  exact ⟨by unfold P.attempt errOf; rw [h1], ht'⟩

theorem Fails.errHere {ts : List Token} {l : List Token} : Fails toks (P.errHere (α := α) ts) l l :=
  fun h => ⟨⟨_, rfl⟩, h⟩

theorem Fails.fail {e : PErr} {l : List Token} : Fails toks (P.fail (α := α) e) l l :=
  fun h => ⟨⟨_, rfl⟩, h⟩

theorem Fails.unpack {s : Option PErr} {l : List Token} : Fails toks (deepestUnpack (α := α) s) l l := by
  cases s
  · exact Fails.errHere
  · exact Fails.fail

/-- Use that `l` is a tail. -/
theorem Step.with {m : P α} {l r : List Token} {a : α} (h : Tail toks l → Step toks m l a r) :
    Step toks m l a r := fun ht => h ht ht

theorem Fails.with {m : P α} {l r : List Token} (h : Tail toks l → Fails toks m l r) :
    Fails toks m l r := fun ht => h ht ht

/-! ## Primitives -/

/-- The next token is not `k`. -/
def NoKw (k : Kw) (l : List Token) : Prop := l.head? ≠ some (.k k)

theorem peek_step {t : Token} {l : List Token} :
    Step toks P.peek (t :: l) (some ⟨t, spanBefore toks l⟩) (t :: l) :=
  fun h => ⟨by unfold P.peek; rw [h.get], h⟩

theorem peek_nil : Step toks P.peek [] none [] :=
  fun h => ⟨by unfold P.peek; rw [h.get_nil], h⟩

theorem peekTok_step {l : List Token} : Step toks P.peekTok l l.head? l := by
  intro h
  refine ⟨?_, h⟩
  unfold P.peekTok
  cases l with
  | nil => rw [h.get_nil]; rfl
  | cons t l => rw [h.get]; rfl

theorem getPos_step {l : List Token} : Step toks P.getPos l (posOf toks l) l := fun h => ⟨rfl, h⟩

theorem setPos_next {t : Token} {l : List Token} :
    Step toks (P.setPos (posOf toks (t :: l) + 1)) (t :: l) () l :=
  fun h => ⟨by unfold P.setPos; rw [h.pos_cons], h.drop⟩

theorem rewind_step {l l' : List Token} (h : Tail toks l) : Step toks (P.setPos (posOf toks l)) l' () l :=
  fun _ => ⟨rfl, h⟩

theorem setPos_prev {t : Token} {l : List Token} (h : Tail toks (t :: l)) :
    Step toks (P.setPos (posOf toks l - 1)) l () (t :: l) :=
  fun _ => ⟨by unfold P.setPos; rw [h.pos_cons]; rfl, h⟩

theorem eat_hit {k : Kw} {l : List Token} :
    Step toks (P.eat k) (.k k :: l) (some ⟨.k k, spanBefore toks l⟩) l :=
  fun h => ⟨by unfold P.eat; rw [h.get, h.pos_cons]; simp, h.drop⟩

theorem eat_miss {k : Kw} {l : List Token} (hn : NoKw k l) : Step toks (P.eat k) l none l := by
  intro h
  refine ⟨?_, h⟩
  unfold P.eat
  cases l with
  | nil => rw [h.get_nil]
  | cons t l =>
    rw [h.get]
    simp only [NoKw, List.head?_cons, ne_eq, Option.some.injEq] at hn
    simp [hn]

theorem eats_hit {k : Kw} {l : List Token} : Step toks (P.eats k) (.k k :: l) true l := by
  unfold P.eats
  exact Step.bind eat_hit Step.pure

theorem eats_miss {k : Kw} {l : List Token} (hn : NoKw k l) : Step toks (P.eats k) l false l := by
  unfold P.eats
  exact Step.bind (eat_miss hn) Step.pure

theorem nextIs_hit {k : Kw} {l : List Token} : Step toks (P.nextIs k) (.k k :: l) true (.k k :: l) :=
  fun h => ⟨by unfold P.nextIs; rw [h.get]; simp, h⟩

theorem nextIs_miss {k : Kw} {l : List Token} (hn : NoKw k l) : Step toks (P.nextIs k) l false l := by
  intro h
  refine ⟨?_, h⟩
  unfold P.nextIs
  cases l with
  | nil => rw [h.get_nil]; rfl
  | cons t l =>
    rw [h.get]
    simp only [NoKw, List.head?_cons, ne_eq, Option.some.injEq] at hn
    simp [hn]

theorem expect_hit {k : Kw} {l : List Token} :
    Step toks (P.expect k) (.k k :: l) ⟨.k k, spanBefore toks l⟩ l := by
  unfold P.expect
  exact Step.bind eat_hit Step.pure

theorem expect_miss {k : Kw} {l : List Token} (hn : NoKw k l) : Fails toks (P.expect k) l l := by
  unfold P.expect
  exact Fails.bind (eat_miss hn) Fails.errHere

theorem expectOr_hit {k : Kw} {l : List Token} {e : Option PErr} :
    Step toks (expectOr k e) (.k k :: l) ⟨.k k, spanBefore toks l⟩ l := by
  unfold expectOr
  exact Step.bind eat_hit Step.pure

theorem eatString_hit {s : Text} {l : List Token} :
    Step toks P.eatString (.string s :: l) (some (s, spanBefore toks l)) l :=
  fun h => ⟨by unfold P.eatString; rw [h.get, h.pos_cons], h.drop⟩

theorem eatString_miss {l : List Token} (hn : ∀ s, l.head? ≠ some (.string s)) :
    Step toks P.eatString l none l := by
  intro h
  refine ⟨?_, h⟩
  unfold P.eatString
  cases l with
  | nil => rw [h.get_nil]
  | cons t l =>
    rw [h.get]
    cases t <;> simp_all

theorem eatVariable_hit {s : Text} {l : List Token} :
    Step toks P.eatVariable (.variable s :: l) (some (s, spanBefore toks l)) l :=
  fun h => ⟨by unfold P.eatVariable; rw [h.get, h.pos_cons], h.drop⟩

theorem eatVariable_miss {l : List Token} (hn : ∀ s, l.head? ≠ some (.variable s)) :
    Step toks P.eatVariable l none l := by
  intro h
  refine ⟨?_, h⟩
  unfold P.eatVariable
  cases l with
  | nil => rw [h.get_nil]
  | cons t l =>
    rw [h.get]
    cases t <;> simp_all

theorem eatEncaps_hit {s : Text} {l : List Token} :
    Step toks P.eatEncaps (.encaps s :: l) (some (s, spanBefore toks l)) l :=
  fun h => ⟨by unfold P.eatEncaps; rw [h.get, h.pos_cons], h.drop⟩

theorem eatEncaps_miss {l : List Token} (hn : ∀ s, l.head? ≠ some (.encaps s)) :
    Step toks P.eatEncaps l none l := by
  intro h
  refine ⟨?_, h⟩
  unfold P.eatEncaps
  cases l with
  | nil => rw [h.get_nil]
  | cons t l =>
    rw [h.get]
    cases t <;> simp_all

theorem expectString_hit {s : Text} {l : List Token} :
    Step toks P.expectString (.string s :: l) (s, spanBefore toks l) l := by
  unfold P.expectString
  exact Step.bind eatString_hit Step.pure

theorem expectString_miss {l : List Token} (hn : ∀ s, l.head? ≠ some (.string s)) :
    Fails toks P.expectString l l := by
  unfold P.expectString
  exact Fails.bind (eatString_miss hn) Fails.errHere

theorem expectVariable_hit {s : Text} {l : List Token} :
    Step toks P.expectVariable (.variable s :: l) (s, spanBefore toks l) l := by
  unfold P.expectVariable
  exact Step.bind eatVariable_hit Step.pure

theorem expectVariable_miss {l : List Token} (hn : ∀ s, l.head? ≠ some (.variable s)) :
    Fails toks P.expectVariable l l := by
  unfold P.expectVariable
  exact Fails.bind (eatVariable_miss hn) Fails.errHere

/-- The end of the last consumed token; `l₀` is what remained when the method was called. -/
theorem lastEnd_step {l l₀ : List Token} (h : Tail toks l₀) (hl : l.length < l₀.length) :
    Step toks P.lastEnd l (spanBefore toks l).stop l := by
  intro ht
  refine ⟨?_, ht⟩
  show P.bnd (P.tokBack 0) _ toks _ = _
  have h1 := h.len
  have hp : 1 ≤ posOf toks l := by unfold posOf; omega
  have hp2 : posOf toks l - 1 < toks.length := by
    have : posOf toks l ≤ toks.length := by unfold posOf; omega
    omega
  unfold P.bnd P.tokBack
  rw [if_neg (by omega)]
  simp only [Nat.sub_zero]
  unfold spanBefore
  rw [List.getElem?_eq_getElem hp2]
  rfl

theorem tokBack_step {l : List Token} (n : Nat) (h : ∃ l₀ : List Token, Tail toks l₀ ∧ l.length + n < l₀.length) :
    ∃ t, Step toks (P.tokBack n) l t l := by
  obtain ⟨l₀, h, hl⟩ := h
  have h1 := h.len
  have hp : n + 1 ≤ posOf toks l := by unfold posOf; omega
  have hp2 : posOf toks l - 1 - n < toks.length := by
    have : posOf toks l ≤ toks.length := by unfold posOf; omega
    omega
  refine ⟨toks[posOf toks l - 1 - n], fun ht => ⟨?_, ht⟩⟩
  unfold P.tokBack
  rw [if_neg (by omega), List.getElem?_eq_getElem hp2]

theorem tokCount_step {l : List Token} : Step toks P.tokCount l toks.length l := fun h => ⟨rfl, h⟩

theorem subP_step {a b : Nat} {l : List Token} (h : b ≤ a) : Step toks (P.subP a b) l (a - b) l := by
  unfold P.subP
  rw [if_pos h]
  exact Step.ret

/-! ## Loops -/

def Loops (toks : List TokSpan) (step : σ → P (σ ⊕ α)) (s : σ) (l : List Token) (a : α) (r : List Token) :
    Prop :=
  ∀ k, l.length + 1 ≤ k → Step toks (P.loopN step k s) l a r

theorem Loops.done {step : σ → P (σ ⊕ α)} {s : σ} {l r : List Token} {a : α}
    (h : Step toks (step s) l (.inr a) r) : Loops toks step s l a r := by
  intro k hk
  obtain ⟨k, rfl⟩ : ∃ j, k = j + 1 := ⟨k - 1, by omega⟩
  exact Step.bind h Step.pure

theorem Loops.more {step : σ → P (σ ⊕ α)} {s s' : σ} {l l' r : List Token} {a : α}
    (h : Step toks (step s) l (.inl s') l') (hl : l'.length < l.length) (h' : Loops toks step s' l' a r) :
    Loops toks step s l a r := by
  intro k hk
  obtain ⟨k, rfl⟩ : ∃ j, k = j + 1 := ⟨k - 1, by omega⟩
  exact Step.bind h (h' k (by omega))

theorem Loops.loop {step : σ → P (σ ⊕ α)} {s : σ} {l r : List Token} {a : α}
    (h : Loops toks step s l a r) : Step toks (P.loop step s) l a r := by
  intro ht
  have := ht.len
  exact h (toks.length + 2) (by omega) ht

theorem Loops.fails {step : σ → P (σ ⊕ α)} {s : σ} {l r : List Token}
    (h : Fails toks (step s) l r) : Fails toks (P.loop step s) l r := by
  intro ht
  exact Fails.bind_left h ht

end

end Pico
