import Verif.Lemmas.ParserMono
/-!
# More fuel never changes what the tokenizer does

`TLe m m'`: whenever `m` does not run out of fuel, `m'` gives the same result.
-/
namespace Pico
open T

section
variable {α β : Type}

def TLe (m m' : T α) : Prop := ∀ t, m t = .oof ∨ m t = m' t

theorem TLe.refl (m : T α) : TLe m m := fun _ => .inr rfl

theorem TLe.trans {m m' m'' : T α} (h : TLe m m') (h' : TLe m' m'') : TLe m m'' := by
  intro t
  rcases h t with e | e
  · exact .inl e
  · rcases h' t with e' | e'
    · exact .inl (e.trans e')
    · exact .inr (e.trans e')

theorem TLe.noFuel (m : T α) : TLe T.noFuel m := fun _ => .inl rfl

theorem TLe.bind {m m' : T α} {f f' : α → T β} (h : TLe m m') (hf : ∀ a, TLe (f a) (f' a)) :
    TLe (m >>= f) (m' >>= f') := by
  intro t
  show T.bnd m f t = .oof ∨ T.bnd m f t = T.bnd m' f' t
  unfold T.bnd
  rcases h t with h | h
  · rw [h]; exact .inl rfl
  · rw [← h]
    cases m t with
    | ok a p => exact hf a p
    | err e p => exact .inr rfl
    | panic p => exact .inr rfl
    | oof => exact .inl rfl

theorem TLe.orElse {m m' n n' : T α} (h : TLe m m') (h' : TLe n n') : TLe (m <||> n) (m' <||> n') := by
  intro t
  unfold T.orElse
  rcases h t with h | h
  · rw [h]; exact .inl rfl
  · rw [← h]
    cases m t with
    | ok a p => exact .inr rfl
    | err e p =>
      cases e with
      | none => exact h' p
      | unterminated w s => exact .inr rfl
      | unknownCharacter s => exact .inr rfl
    | panic p => exact .inr rfl
    | oof => exact .inl rfl

theorem TLe.ite {c : Prop} [Decidable c] {m m' n n' : T α} (h : TLe m m') (h' : TLe n n') :
    TLe (if c then m else n) (if c then m' else n') := by
  by_cases hc : c
  · rw [if_pos hc, if_pos hc]; exact h
  · rw [if_neg hc, if_neg hc]; exact h'

end

syntax "tmono_call" : tactic
syntax "tmono1" : tactic
macro_rules | `(tactic| tmono1) => `(tactic| first
  | with_reducible exact TLe.refl _
  | assumption
  | with_reducible refine TLe.bind ?_ ?_
  | with_reducible refine TLe.orElse ?_ ?_
  | with_reducible refine TLe.ite ?_ ?_
  | with_reducible intro _
  | tmono_call
  | dsimp only
  | split)
/-- Compare two runs of the same method. -/
macro "tmono" : tactic => `(tactic| repeat' tmono1)

variable {next next' : T TokSpan} {b b' : Nat}

theorem blockLoop_mono (h : TLe next next') (hb : b ≤ b') (acc : List TokSpan) :
    TLe (blockLoop next b acc) (blockLoop next' b' acc) := by
  induction b generalizing b' acc with
  | zero => exact TLe.noFuel _
  | succ b ih =>
    cases b' with
    | zero => omega
    | succ b' =>
      intro t
      unfold blockLoop
      rcases h t with h1 | h1
      · rw [h1]; exact .inl rfl
      · rw [← h1]
        cases next t with
        | ok tok t' => exact ih (by omega) _ t'
        | err e t' => exact .inr rfl
        | panic p => exact .inr rfl
        | oof => exact .inl rfl
macro_rules | `(tactic| tmono_call) => `(tactic| with_reducible exact blockLoop_mono (by assumption) (by assumption) _)

theorem strBlock_mono (h : TLe next next') (hb : b ≤ b') (bytes : List Byte) (parts : List TokSpan)
    (rd : Bool) : TLe (strBlock next b bytes parts rd) (strBlock next' b' bytes parts rd) := by
  unfold strBlock
  tmono
macro_rules | `(tactic| tmono_call) => `(tactic| with_reducible exact strBlock_mono (by assumption) (by assumption) _ _ _)

theorem strVariable_mono (h : TLe next next') (hb : b ≤ b') (bytes : List Byte) (parts : List TokSpan) :
    TLe (strVariable next b bytes parts) (strVariable next' b' bytes parts) := by
  unfold strVariable
  tmono
macro_rules | `(tactic| tmono_call) => `(tactic| with_reducible exact strVariable_mono (by assumption) (by assumption) _ _)

theorem dqLoop_mono (h : TLe next next') (hb : b ≤ b') (bak : TState) (n : Nat) (bytes : List Byte)
    (parts : List TokSpan) : TLe (dqLoop next b bak n bytes parts) (dqLoop next' b' bak n bytes parts) := by
  induction n generalizing bytes parts with
  | zero => exact TLe.noFuel _
  | succ n ih =>
    unfold dqLoop
    tmono <;> apply ih

theorem bqLoop_mono (h : TLe next next') (hb : b ≤ b') (bak : TState) (n : Nat) (bytes : List Byte)
    (parts : List TokSpan) : TLe (bqLoop next b bak n bytes parts) (bqLoop next' b' bak n bytes parts) := by
  induction n generalizing bytes parts with
  | zero => exact TLe.noFuel _
  | succ n ih =>
    unfold bqLoop
    tmono <;> apply ih

theorem docLoop_mono (h : TLe next next') (hb : b ≤ b') (bak : TState) (nd : Bool) (tag : Text) (n : Nat)
    (bytes : List Byte) (parts : List TokSpan) :
    TLe (docLoop next b bak nd tag n bytes parts) (docLoop next' b' bak nd tag n bytes parts) := by
  induction n generalizing bytes parts with
  | zero => exact TLe.noFuel _
  | succ n ih =>
    unfold docLoop
    tmono <;> apply ih
macro_rules | `(tactic| tmono_call) => `(tactic| with_reducible exact dqLoop_mono (by assumption) (by assumption) _ _ _ _)
macro_rules | `(tactic| tmono_call) => `(tactic| with_reducible exact bqLoop_mono (by assumption) (by assumption) _ _ _ _)
macro_rules | `(tactic| tmono_call) => `(tactic| with_reducible exact docLoop_mono (by assumption) (by assumption) _ _ _ _ _ _)

theorem matchDqString_mono (h : TLe next next') (hb : b ≤ b') :
    TLe (matchDqString next b) (matchDqString next' b') := by
  unfold matchDqString
  tmono
macro_rules | `(tactic| tmono_call) => `(tactic| with_reducible exact matchDqString_mono (by assumption) (by assumption))

theorem matchBackquote_mono (h : TLe next next') (hb : b ≤ b') :
    TLe (matchBackquote next b) (matchBackquote next' b') := by
  unfold matchBackquote
  tmono
macro_rules | `(tactic| tmono_call) => `(tactic| with_reducible exact matchBackquote_mono (by assumption) (by assumption))

theorem docBody_mono (h : TLe next next') (hb : b ≤ b') (bak : TState) (nd : Bool) (tag : Text) :
    TLe (docBody next b bak nd tag) (docBody next' b' bak nd tag) := by
  unfold docBody
  tmono
macro_rules | `(tactic| tmono_call) => `(tactic| with_reducible exact docBody_mono (by assumption) (by assumption) _ _ _)

theorem docHeader_mono (h : TLe next next') (hb : b ≤ b') (bak : TState) :
    TLe (docHeader next b bak) (docHeader next' b' bak) := by
  unfold docHeader
  tmono
macro_rules | `(tactic| tmono_call) => `(tactic| with_reducible exact docHeader_mono (by assumption) (by assumption) _)

theorem matchHereNowDoc_mono (h : TLe next next') (hb : b ≤ b') :
    TLe (matchHereNowDoc next b) (matchHereNowDoc next' b') := by
  unfold matchHereNowDoc
  tmono
macro_rules | `(tactic| tmono_call) => `(tactic| with_reducible exact matchHereNowDoc_mono (by assumption) (by assumption))

theorem inScriptingToken_mono (h : TLe next next') (hb : b ≤ b') :
    TLe (inScriptingToken next b) (inScriptingToken next' b') := by
  unfold inScriptingToken
  tmono

theorem nextToken_succ (n : Nat) : TLe (nextToken n) (nextToken (n + 1)) := by
  induction n with
  | zero => exact TLe.noFuel _
  | succ n ih =>
    intro t
    unfold nextToken
    dsimp only
    cases hst : t.st.state with
    | done =>
      dsimp only [fail]
      split
      · exact ih _
      · exact .inr rfl
    | doNothing =>
      dsimp only [fail]
      split
      · exact ih _
      · exact .inr rfl
    | initial =>
      dsimp only
      cases hi : initialToken t with
      | err e t' =>
        cases e with
        | none =>
          dsimp only
          split
          · exact ih _
          · exact .inr rfl
        | _ => exact .inr rfl
      | _ => exact .inr rfl
    | lookingForProperty =>
      dsimp only
      cases hi : lookingForPropertyToken t with
      | err e t' =>
        cases e with
        | none =>
          dsimp only
          split
          · exact ih _
          · exact .inr rfl
        | _ => exact .inr rfl
      | _ => exact .inr rfl
    | inScripting =>
      dsimp only
      rcases inScriptingToken_mono ih (Nat.le_succ n) t with h1 | h1
      · rw [h1]; exact .inl rfl
      · rw [← h1]
        cases hi : inScriptingToken (nextToken n) n t with
        | err e t' =>
          cases e with
          | none =>
            dsimp only
            split
            · exact ih _
            · exact .inr rfl
          | _ => exact .inr rfl
        | oof => exact .inl rfl
        | _ => exact .inr rfl
    | emitQueue =>
      dsimp only
      cases t.queue with
      | cons x q => exact .inr rfl
      | nil =>
        dsimp only
        exact TLe.bind (TLe.refl _) (fun _ => TLe.bind (TLe.refl _) (fun _ => ih)) t

theorem nextToken_mono {n n' : Nat} (h : n ≤ n') : TLe (nextToken n) (nextToken n') := by
  induction h with
  | refl => exact TLe.refl _
  | step _ ih => exact ih.trans (nextToken_succ _)

theorem lexAll_mono {f f' : Nat} (hf : f ≤ f') {n n' : Nat} (hn : n ≤ n') (t : Tz) (acc : List TokSpan) :
    lexAll f n t acc = .oof ∨ lexAll f n t acc = lexAll f' n' t acc := by
  induction n generalizing n' t acc with
  | zero => exact .inl rfl
  | succ n ih =>
    cases n' with
    | zero => omega
    | succ n' =>
      unfold lexAll
      rcases nextToken_mono hf t with h1 | h1
      · rw [h1]; exact .inl rfl
      · rw [← h1]
        cases nextToken f t with
        | ok tok t' =>
          dsimp only
          split
          · exact .inr rfl
          · exact ih (by omega) t' _
        | err e t' => exact .inr rfl
        | panic p => exact .inr rfl
        | oof => exact .inl rfl

/-- More fuel does not change a result of `parse_str`. -/
theorem parseStrN_le {n n' : Nat} (h : n ≤ n') (src : Text) (hn : parseStrN n src ≠ .oof) :
    parseStrN n' src = parseStrN n src := by
  unfold parseStrN at hn ⊢
  rcases lexAll_mono h h (Tz.new src) [] with h1 | h1
  · rw [h1] at hn; exact absurd rfl hn
  · rw [← h1]
    rw [← h1] at h1
    cases hl : lexAll n n (Tz.new src) [] with
    | ok x =>
      obtain ⟨toks, t⟩ := x
      rw [hl] at hn
      exact parseTokensN_le h _ _ hn
    | err x => rfl
    | panic p => rfl
    | oof => rfl

end Pico
