import Verif.Lemmas.LexItem
import Verif.Spec.Command
/-!
# Commands between back quotes that are reported as unfinished
-/
namespace Pico
open T
variable {t : Tz}

theorem stopsCommand.head {w : Text} (h : stopsCommand w) :
    ∃ c r, w = c :: r ∧ c ≠ '\n' ∧ c ≠ '`' ∧ c ≠ '$' ∧ c ≠ '{' ∧ (isDqStop c = true ∨ (isDqStop c = false ∧ r = [])) := by
  rcases h with h | h | ⟨c, rfl, h⟩
  · cases w with
    | nil => cases h
    | cons c r => cases h; exact ⟨_, _, rfl, by decide, by decide, by decide, by decide, .inl (by decide)⟩
  · cases w with
    | nil => cases h
    | cons c r => cases h; exact ⟨_, _, rfl, by decide, by decide, by decide, by decide, .inl (by decide)⟩
  · simp only [List.mem_cons, List.not_mem_nil, or_false, not_or] at h
    exact ⟨c, [], rfl, h.2.2.2.2.1, h.2.2.2.2.2, h.2.2.1, h.2.2.2.1, .inr ⟨by simp [isDqStop, h], rfl⟩⟩

theorem position_skip {p : Char → Bool} {x r : Text} (hx : ∀ c ∈ x, p c = false) :
    position p (x ++ r) = (position p r).map (· + x.length) := by
  induction x with
  | nil => simp
  | cons d x ih =>
    have : position p (d :: x ++ r) = (position p (x ++ r)).map (· + 1) := by
      rw [List.cons_append]
      conv => lhs; unfold position
      rw [hx d (by simp), if_neg Bool.false_ne_true]
    rw [this, ih (fun c hc => hx c (by simp [hc]))]
    cases position p r with
    | none => rfl
    | some k => simp [Nat.add_assoc]

theorem dqAdvance_command {x w : Text} (hx : ∀ c ∈ x, isDqStop c = false) (hw : stopsCommand w) (h : At t (x ++ w)) :
    dqAdvance t = .ok x (t.adv (byteLen x)) := by
  obtain ⟨c, r, rfl, -, -, -, -, hc⟩ := hw.head
  unfold dqAdvance
  rw [bind_ok (input_at h), position_skip hx]
  rcases hc with hc | ⟨hc, rfl⟩
  · have : position isDqStop (c :: r) = some 0 := by unfold position; rw [hc]; rfl
    rw [this]
    exact advanceChars_at h (by simp)
  · have : position isDqStop [c] = none := by unfold position; rw [hc]; rfl
    rw [this]
    refine (bind_ok (show subT (x ++ [c]).length 1 t = .ok x.length t from ?_)).trans (advanceChars_at h rfl)
    unfold subT
    simp
    rfl

theorem backquote_command (next : T TokSpan) (bf : Nat) {x w : Text} (hx : ∀ c ∈ x, isDqStop c = false) (hw : stopsCommand w)
    (h : At t ('`' :: (x ++ w))) : ∃ sp t', matchBackquote next bf t = .err (.unterminated "Backquote" sp) t' := by
  have h1 : At t (c!"`" ++ (x ++ w)) := h
  have h2 := (Moved.adv h1).at'
  have hd := dqAdvance_command hx hw h2
  have h3 := (Moved.adv h2).at'
  obtain ⟨c, r, rfl, c1, c2, c3, c4, hc⟩ := hw.head
  obtain ⟨sp, t', hl⟩ : ∃ sp t', bqLoop next bf t.st (('`' :: (x ++ c :: r)).length + 1) [] [] (t.adv (byteLen c!"`")) =
      .err (.unterminated "Backquote" sp) t' := by
    refine ⟨mkSpan t.st.srcPos ((t.adv (byteLen c!"`")).adv (byteLen x)).st.srcPos, { (t.adv (byteLen c!"`")).adv (byteLen x) with st := t.st }, ?_⟩
    unfold bqLoop
    rw [bind_ok hd, bind_ok (input_at h3)]
    rw [List.head?_cons]
    generalize ho : some c = o
    split
    · exact absurd (Option.some.inj ho) c1
    · exact absurd (Option.some.inj ho) c2
    · exact absurd (Option.some.inj ho) c3
    · exact absurd (Option.some.inj ho) c4
    · rfl
  refine ⟨sp, t', ?_⟩
  unfold matchBackquote
  rw [bind_ok (input_at h)]
  rw [if_neg (by
    simp only [byteLen, byteLen_append]
    have h1 : ('`' : Char).utf8Size = 1 := by decide
    have h2 := Char.utf8Size_pos c
    omega), if_pos (by simp [startsWith])]
  tstep (t.st) t
  refine (bind_ok (advanceBytes_at' h1 rfl)).trans ?_
  exact bind_err hl

variable {d : Nat} {g : Text}

theorem step_command {x w : Text} {prop : Bool} (hx : ∀ c ∈ x, isDqStop c = false) (hw : stopsCommand w) (hg : Blank g)
    (hat : At t (g ++ ('`' :: (x ++ w)))) (hm : Mode t prop d) (n : Nat) :
    ∃ sp t', nextToken (n + 2) t = .err (.unterminated "Backquote" sp) t' := by
  have main : ∀ (t : Tz) (g : Text) (n : Nat), Blank g → At t (g ++ ('`' :: (x ++ w))) → Mode t false d →
      ∃ sp t', nextToken (n + 1) t = .err (.unterminated "Backquote" sp) t' := by
    intro t g n hg hat hm
    have hmv := Moved.ws hat hg.all
    have h := hmv.at'
    obtain ⟨sp, t', e⟩ := backquote_command (nextToken n) n hx hw h
    refine ⟨sp, t', ?_⟩
    have hs : inScriptingToken (nextToken n) n t = .err (.unterminated "Backquote" sp) t' := by
      refine (scripting_start _ _ hat hg.all rfl (by simp)).trans ?_
      rw [orElse_none (hereNowDoc_none _ _ h rfl rfl), orElse_none (show bnum _ = _ from prefixedNum_none _ _ _ h rfl),
        orElse_none (show hnum _ = _ from prefixedNum_none _ _ _ h rfl),
        orElse_none (onum_none h (by simp) (by intro c hc; cases hc; decide) rfl), orElse_none (dqString_none _ _ h rfl rfl),
        orElse_none (variable_none h rfl), orElse_none (sqString_none h rfl rfl), orElse_none (comments_none h rfl rfl rfl)]
      unfold T.orElse
      rw [e]
    unfold nextToken
    rw [hm.state]
    simp only [Bool.false_eq_true, if_false]
    rw [hs]
  cases prop with
  | false => exact main t g (n + 1) hg hat hm
  | true =>
    obtain ⟨t', ht, hat', hm', -⟩ := lexProp_other hg hat hm rfl (by intro c hc; cases hc; exact .inl (by decide)) rfl (n + 1)
    obtain ⟨sp, u, h1⟩ := main t' [] n nofun hat' hm'
    exact ⟨sp, u, ht.trans h1⟩

end Pico
