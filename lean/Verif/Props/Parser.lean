import Verif.Lemmas.ParserTotal
import Verif.Lemmas.ParserMono
import Verif.Lemmas.PrinterSafe
import Verif.Lemmas.PrinterSeq
/-!
# The parser terminates; what it builds can be printed (C09, C17)
-/
namespace Pico

/-- A token becomes at most three tokens for the parser. -/
theorem stripTokens_length (toks : List TokSpan) : (stripTokens toks).length ≤ 3 * toks.length := by
  induction toks with
  | nil => exact Nat.le_refl _
  | cons t ts ih =>
    have h : (stripToken t).length ≤ 3 := by unfold stripToken; split <;> simp
    simp only [stripTokens, List.length_append, List.length_cons]
    omega

/-- C09: on every token sequence the parser stops, after recursing at most six times per token (and with loops
of at most one round per token, see `P.loop`). -/
theorem C09_terminates (m : LineMap) (toks : List TokSpan) (n : Nat)
    (hn : 6 * toks.length + 2 ≤ n) : parseTokensN n m toks ≠ .oof := by
  have hl := stripTokens_length toks
  replace hn : 2 * (stripTokens toks).length + 2 ≤ n := by omega
  have h := parseTop_ok n (stripTokens toks) hn (fun _ _ => True) (fun _ _ => True)
    (fun _ _ _ _ => trivial) (fun _ _ _ => trivial)
  unfold Wp at h
  unfold parseTokensN
  cases hp : parseTopStatementList (recN n) (stripTokens toks) 0 with
  | ok ss p => simp [hp]
  | panic p => simp [hp]
  | oof => rw [hp] at h; exact h.elim
  | err e p =>
    simp only [hp]
    have hs : ∀ a b e s, spannedErr m a b e s ≠ .oof := by
      intro a b e s
      unfold spannedErr
      split
      · simp
      · split <;> simp
    split
    · split
      · exact hs _ _ _ _
      · simp
    · split
      · exact hs _ _ _ _
      · simp

/-- C09: the result does not depend on how much fuel is given, as soon as it suffices. -/
theorem C09_fuel (m : LineMap) (toks : List TokSpan) (n n' : Nat) (h : n ≤ n')
    (hn : parseTokensN n m toks ≠ .oof) : parseTokensN n' m toks = parseTokensN n m toks :=
  parseTokensN_le h m toks hn

/-- C17: whatever the parser returns, the printer prints it to any target without aborting. -/
theorem C17_printable {σ : Type} (tg : Target σ) (t : σ) (n : Nat) (m : LineMap) (toks : List TokSpan)
    (stmts : List Stmt) (h : parseTokensN n m toks = .ok stmts) (p : Panic) :
    printStatements tg t stmts ≠ .panic p := by
  have hall : PSs stmts := by
    have h' := parseTokensN_le (Nat.le_max_left n (2 * (stripTokens toks).length + 2)) m toks (by simp [h])
    have hok := parseTop_ok (max n (2 * (stripTokens toks).length + 2)) (stripTokens toks)
      (Nat.le_max_right _ _) (fun ss _ => PSs ss) (fun _ _ => True) (fun _ _ _ h => h) (fun _ _ _ => trivial)
    rw [h] at h'
    generalize max n (2 * (stripTokens toks).length + 2) = N at h' hok
    unfold parseTokensN at h'
    unfold Wp at hok
    cases hp : parseTopStatementList (recN N) (stripTokens toks) 0 with
    | ok ss p =>
      rw [hp] at hok
      simp only [hp] at h'
      cases h'
      exact hok
    | panic p => simp [hp] at h'
    | oof => simp [hp] at h'
    | err e p =>
      simp only [hp] at h'
      have hs : ∀ a b e s, spannedErr m a b e s ≠ .ok stmts := by
        intro a b e s
        unfold spannedErr
        split
        · simp
        · split <;> simp
      split at h'
      · split at h'
        · exact absurd h' (hs _ _ _ _)
        · simp at h'
      · split at h'
        · exact absurd h' (hs _ _ _ _)
        · simp at h'
  intro hp
  have hr := runs_stmts tg stmts 0 t
  have hb : ∀ (cs : List Chunk), NB cs → ∀ (t : σ) q, feed tg cs t ≠ .panic q := by
    intro cs
    induction cs with
    | nil => intro _ t q; simp [feed]
    | cons c cs ih =>
      intro hnb t q
      cases c with
      | boom r => exact absurd (List.mem_cons_self) (hnb r)
      | text x =>
        unfold feed
        rcases tg.write t x with ⟨t', _ | _⟩
        · simp
        · exact ih (fun r hr => hnb r (List.mem_cons_of_mem _ hr)) t' q
  unfold printStatements WSt.new at hp
  cases hf : feed tg (cStmts tg.dbl 0 stmts) t with
  | ok s => simp only [hf] at hr; rw [hr] at hp; cases hp
  | err s => simp only [hf] at hr; obtain ⟨j, hr⟩ := hr; rw [hr] at hp; cases hp
  | panic q => exact hb _ (nb_stmts tg.dbl stmts hall 0) t q hf

/-- The tokens of `echo 1 + $a;`. -/
def sampleTokens : List TokSpan :=
  [⟨.k .OpenTag, mkSpan 0 5⟩, ⟨.k .Echo, mkSpan 6 10⟩, ⟨.int 1, mkSpan 11 12⟩, ⟨.k .Plus, mkSpan 13 14⟩,
   ⟨.variable c!"a", mkSpan 15 17⟩, ⟨.k .SemiColon, mkSpan 17 18⟩]

/-- The parser succeeds on the sample with the fuel of `C09_terminates`, and the result has one statement. -/
example : (match parseTokensN 12 LineMap.new sampleTokens with
    | .ok ss => ss.length
    | _ => 0) = 1 := by decide +kernel

/-- Without enough fuel the model says so: the hypothesis of `C09_terminates` is needed. -/
example : (match parseTokensN 0 LineMap.new sampleTokens with
    | .oof => true
    | _ => false) = true := by decide +kernel

end Pico
