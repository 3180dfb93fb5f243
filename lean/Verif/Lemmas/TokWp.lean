import Verif.Lemmas.LexWord
import Verif.Lemmas.LexStr
import Verif.Spec.Scan
/-!
# Weakest preconditions of tokenizer methods

`Twp U B m t Q E`: running `m` in state `t` ends in `Q` (a value and a state), or in `E` (an error and a state),
or aborts — by `unreachable!()` only if `U` —, or runs out of fuel only if `B`.
-/
namespace Pico
open T

def Twp {α : Type} (U B : Prop) (m : T α) (t : Tz) (Q : α → Tz → Prop) (E : SyntaxErr → Tz → Prop) : Prop :=
  match m t with
  | .ok a t' => Q a t'
  | .err e t' => E e t'
  | .panic p => p = .unreachable → U
  | .oof => B

section
variable {α β : Type} {U B : Prop} {t : Tz} {Q : α → Tz → Prop} {E : SyntaxErr → Tz → Prop}

theorem Twp.of_ok {m : T α} {a : α} {t' : Tz} (h : m t = .ok a t') (hq : Q a t') : Twp U B m t Q E := by
  unfold Twp; rw [h]; exact hq

theorem Twp.of_err {m : T α} {e : SyntaxErr} {t' : Tz} (h : m t = .err e t') (hq : E e t') : Twp U B m t Q E := by
  unfold Twp; rw [h]; exact hq

theorem Twp.of_panic {m : T α} {p : Panic} (h : m t = .panic p) (hq : p = .unreachable → U) : Twp U B m t Q E := by
  unfold Twp; rw [h]; exact hq

theorem Twp.bind {m : T β} {f : β → T α} (h : Twp U B m t (fun b t' => Twp U B (f b) t' Q E) E) :
    Twp U B (m >>= f) t Q E := by
  unfold Twp at h ⊢
  rw [bind_apply]
  unfold T.bnd
  cases hm : m t with
  | ok a t' => rw [hm] at h; exact h
  | err e t' => rw [hm] at h; exact h
  | panic p => rw [hm] at h; exact h
  | oof => rw [hm] at h; exact h

theorem Twp.pure {a : α} (h : Q a t) : Twp U B (pure a : T α) t Q E := h

theorem Twp.fail {e : SyntaxErr} (h : E e t) : Twp U B (fail e : T α) t Q E := h

theorem Twp.abort {p : Panic} (h : p = .unreachable → U) : Twp U B (abort p : T α) t Q E := h

theorem Twp.mono {m : T α} {Q' : α → Tz → Prop} {E' : SyntaxErr → Tz → Prop} {U' B' : Prop}
    (h : Twp U' B' m t Q' E') (hU : U' → U) (hB : B' → B) (hQ : ∀ a t', Q' a t' → Q a t')
    (hE : ∀ e t', E' e t' → E e t') : Twp U B m t Q E := by
  unfold Twp at h ⊢
  cases hm : m t with
  | ok a t' => rw [hm] at h; exact hQ _ _ h
  | err e t' => rw [hm] at h; exact hE _ _ h
  | panic p => rw [hm] at h; exact fun hp => hU (h hp)
  | oof => rw [hm] at h; exact hB h

theorem Twp.cons {m : T α} {Q' : α → Tz → Prop} {E' : SyntaxErr → Tz → Prop}
    (h : Twp U B m t Q' E') (hQ : ∀ a t', Q' a t' → Q a t')
    (hE : ∀ e t', E' e t' → E e t') : Twp U B m t Q E := h.mono id id hQ hE

theorem Twp.orElse {m n : T α}
    (h : Twp U B m t Q (fun e t' => (e = .none → Twp U B n t' Q E) ∧ (e ≠ .none → E e t'))) :
    Twp U B (m <||> n) t Q E := by
  unfold Twp at h ⊢
  unfold T.orElse
  cases hm : m t with
  | ok a t' => rw [hm] at h; exact h
  | err e t' =>
    rw [hm] at h
    cases e with
    | none => exact h.1 rfl
    | unterminated w s => exact h.2 nofun
    | unknownCharacter s => exact h.2 nofun
  | panic p => rw [hm] at h; exact h
  | oof => rw [hm] at h; exact h

theorem Twp.ite {c : Prop} [Decidable c] {m n : T α} (h1 : c → Twp U B m t Q E) (h2 : ¬c → Twp U B n t Q E) :
    Twp U B (if c then m else n) t Q E := by
  by_cases hc : c
  · rw [if_pos hc]; exact h1 hc
  · rw [if_neg hc]; exact h2 hc

end

section
variable {α β : Type} {U B : Prop} {t : Tz} {E : SyntaxErr → Tz → Prop}

theorem tw_input {Q : Text → Tz → Prop} (h : ∀ i, At t i → Q i t) : Twp U B input t Q E := by
  unfold Twp input
  cases hd : dropBytes t.code t.st.srcPos with
  | none => exact nofun
  | some i => exact h i hd

theorem tw_inputPos {Q : Nat → Tz → Prop} (h : Q t.st.srcPos t) : Twp U B inputPos t Q E := h

theorem tw_subT {a b : Nat} {Q : Nat → Tz → Prop} (h : b ≤ a → Q (a - b) t) : Twp U B (subT a b) t Q E := by
  unfold subT
  refine Twp.ite (fun hc => h hc) (fun _ => ?_)
  exact nofun

theorem At.total {i : Text} (h : At t i) : t.st.srcPos + byteLen i = byteLen t.code := dropBytes_le h

theorem tw_advBytes {a b : Text} {n : Nat} {Q : Text → Tz → Prop} (h : At t (a ++ b)) (hn : n = byteLen a)
    (hq : At (t.adv (byteLen a)) b → Q a (t.adv (byteLen a))) : Twp U B (advanceBytes n) t Q E := by
  subst hn
  exact Twp.of_ok (advanceBytes_at h) (hq h.adv)

/-- Advancing by any number of bytes. -/
theorem tw_advBytes' {i : Text} {n : Nat} {Q : Text → Tz → Prop} (h : At t i)
    (hq : ∀ a b, i = a ++ b → byteLen a = n → At (t.adv n) b → Q a (t.adv n)) : Twp U B (advanceBytes n) t Q E := by
  unfold advanceBytes
  refine Twp.bind (Twp.of_ok (input_at h) ?_)
  cases hd : takeBytes i n with
  | none => exact nofun
  | some a =>
    obtain ⟨b, rfl, rfl⟩ := takeBytes_split hd
    exact hq a b rfl rfl h.adv

theorem tw_advChars {i : Text} {n : Nat} {Q : Text → Tz → Prop} (h : At t i)
    (hq : At (t.adv (byteLen (i.take n))) (i.drop n) → Q (i.take n) (t.adv (byteLen (i.take n)))) :
    Twp U B (advanceChars n) t Q E := by
  unfold advanceChars
  refine Twp.bind (Twp.of_ok (input_at h) ?_)
  have h' : At t (i.take n ++ i.drop n) := by rw [List.take_append_drop]; exact h
  exact tw_advBytes h' rfl hq

end

/-! ## Positions -/

/-- The state moved to another position. -/
def Tz.to (t : Tz) (p : Nat) : Tz := { t with st := { t.st with srcPos := p } }

theorem Tz.adv_to (t : Tz) (n : Nat) : t.adv n = t.to (t.st.srcPos + n) := rfl
@[simp] theorem Tz.to_to (t : Tz) (p q : Nat) : (t.to p).to q = t.to q := rfl
theorem Tz.to_self (t : Tz) : t.to t.st.srcPos = t := rfl
@[simp] theorem Tz.to_pos (t : Tz) (p : Nat) : (t.to p).st.srcPos = p := rfl
@[simp] theorem Tz.to_code (t : Tz) (p : Nat) : (t.to p).code = t.code := rfl
@[simp] theorem Tz.to_queue (t : Tz) (p : Nat) : (t.to p).queue = t.queue := rfl
@[simp] theorem Tz.to_state (t : Tz) (p : Nat) : (t.to p).st.state = t.st.state := rfl
@[simp] theorem Tz.to_stack (t : Tz) (p : Nat) : (t.to p).st.stack = t.st.stack := rfl
@[simp] theorem Tz.to_lineMap (t : Tz) (p : Nat) : (t.to p).st.lineMap = t.st.lineMap := rfl
@[simp] theorem Tz.adv_pos (t : Tz) (p : Nat) : (t.adv p).st.srcPos = t.st.srcPos + p := rfl
@[simp] theorem Tz.adv_code (t : Tz) (p : Nat) : (t.adv p).code = t.code := rfl
@[simp] theorem Tz.adv_queue (t : Tz) (p : Nat) : (t.adv p).queue = t.queue := rfl
@[simp] theorem Tz.adv_state (t : Tz) (p : Nat) : (t.adv p).st.state = t.st.state := rfl
@[simp] theorem Tz.adv_stack (t : Tz) (p : Nat) : (t.adv p).st.stack = t.st.stack := rfl
@[simp] theorem Tz.adv_lineMap (t : Tz) (p : Nat) : (t.adv p).st.lineMap = t.st.lineMap := rfl

/-- Further on, less input is left. -/
theorem At.shorter {t t' : Tz} {i j : Text} (h : At t i) (h' : At t' j) (hc : t'.code = t.code)
    (hp : t.st.srcPos < t'.st.srcPos) : j.length < i.length := by
  obtain ⟨p, e1, l1⟩ := dropBytes_split h
  obtain ⟨q, e2, l2⟩ := dropBytes_split h'
  rw [hc, e1] at e2
  rcases Nat.lt_or_ge p.length q.length with hl | hl
  · have := congrArg List.length e2
    simp only [List.length_append] at this
    omega
  · have hq : q = p.take q.length := by
      have h1 := congrArg (List.take q.length) e2
      rw [List.take_append_of_le_length hl, List.take_left] at h1
      exact h1.symm
    have hb : byteLen p = byteLen q + byteLen (p.drop q.length) := by
      conv => lhs; rw [← List.take_append_drop q.length p]
      rw [byteLen_append, ← hq]
    omega

theorem At.notLonger {t t' : Tz} {i j : Text} (h : At t i) (h' : At t' j) (hc : t'.code = t.code)
    (hp : t.st.srcPos ≤ t'.st.srcPos) : j.length ≤ i.length := by
  rcases Nat.lt_or_ge t.st.srcPos t'.st.srcPos with hl | hl
  · exact Nat.le_of_lt (h.shorter h' hc hl)
  · have e : t.st.srcPos = t'.st.srcPos := Nat.le_antisymm hp hl
    unfold At at h h'
    rw [hc, ← e, h] at h'
    cases h'
    exact Nat.le_refl _

/-- There is enough fuel for the rest of the input. -/
def Fuel (t : Tz) (fuel : Nat) : Prop := 0 < fuel ∧ ∀ i, At t i → i.length < fuel

theorem Fuel.next {t t' : Tz} {fuel : Nat} {i j : Text} (h : Fuel t (fuel + 1)) (hi : At t i) (hj : At t' j) (hne : j ≠ [])
    (hc' : t'.code = t.code) (hle : t.st.srcPos ≤ t'.st.srcPos)
    {t'' : Tz} (hc : t''.code = t.code) (hp : t.st.srcPos < t''.st.srcPos) : Fuel t'' fuel := by
  have h1 := h.2 i hi
  have h2 := hi.notLonger hj hc' hle
  have h3 : 0 < j.length := List.length_pos_iff.2 hne
  refine ⟨by omega, fun k hk => ?_⟩
  have := hi.shorter hk hc hp
  omega

/-! ## The line table -/

theorem LinesOk.mono {m : LineMap} {p q : Nat} (h : LinesOk m p) (hpq : p ≤ q) : LinesOk m q :=
  ⟨h.head, h.sorted, fun x hx => Nat.le_trans (h.upto x hx) hpq⟩

theorem LinesOk.push {m : LineMap} {p q : Nat} (h : LinesOk m p) (hpq : p ≤ q) : LinesOk (m.push q) q := by
  refine ⟨?_, ?_, ?_⟩
  · have := h.head
    unfold LineMap.push
    cases hd : m.data with
    | nil => rw [hd] at this; cases this
    | cons a as => rw [hd] at this; exact this
  · unfold LineMap.push
    rw [List.pairwise_append]
    refine ⟨h.sorted, List.pairwise_singleton _ _, ?_⟩
    intro a ha b hb
    rw [List.mem_singleton] at hb
    subst hb
    exact Nat.le_trans (h.upto a ha) hpq
  · intro x hx
    unfold LineMap.push at hx
    rw [List.mem_append, List.mem_singleton] at hx
    rcases hx with hx | rfl
    · exact Nat.le_trans (h.upto x hx) hpq
    · exact Nat.le_refl _

/-- What a scan of blanks does to the state. -/
theorem wsGo_lines (i : Text) (s : TState) (h : LinesOk s.lineMap s.srcPos) :
    LinesOk (wsGo i s).lineMap (wsGo i s).srcPos ∧ s.srcPos ≤ (wsGo i s).srcPos ∧
      (wsGo i s).lineMap.endPos = s.lineMap.endPos := by
  induction i generalizing s with
  | nil => exact ⟨h, Nat.le_refl _, rfl⟩
  | cons c i ih =>
    simp only [wsGo]
    split
    · obtain ⟨h1, h2, h3⟩ := ih { s with srcPos := s.srcPos + 1 } (h.mono (Nat.le_succ _))
      exact ⟨h1, by dsimp only at h2; omega, h3⟩
    · split
      · obtain ⟨h1, h2, h3⟩ := ih ({ s with srcPos := s.srcPos + 1 } : TState).nextLine (h.push (Nat.le_succ _))
        exact ⟨h1, Nat.le_trans (Nat.le_succ _) h2, h3⟩
      · exact ⟨h, Nat.le_refl _, rfl⟩

theorem blank_split (i : Text) : ∃ w r, i = w ++ r ∧ w.all isBlank = true ∧ (r.head?.map isBlank).getD false = false := by
  induction i with
  | nil => exact ⟨[], [], rfl, rfl, rfl⟩
  | cons c i ih =>
    cases hc : isBlank c with
    | true =>
      obtain ⟨w, r, rfl, hw, hr⟩ := ih
      exact ⟨c :: w, r, rfl, by simp [hc, hw], hr⟩
    | false => exact ⟨[], c :: i, rfl, rfl, by simp [hc]⟩

end Pico
