import Verif.Lemmas.ParserOkStmt
import Verif.Model.Api
/-!
# The recursion of the parser is well-founded
-/
namespace Pico
open P

variable {r : Rec} {toks : List TokSpan} {pos lo los : Nat}

/-- Past the end nothing is called recursively. -/
theorem parseExpression_end {prec : Prec} (he : toks.length ≤ pos) :
    Eats (parseExpression r prec) toks pos PE := by
  intro Q E h1 h2
  unfold parseExpression parseOperand
  refine Wp.bind (Wp.bind (Wp.peek ?_ ?_))
  · intro t _ h; omega
  · intro _; exact h2 _ _ (by omega)

theorem parseOoDeclaration_end (he : toks.length ≤ pos) :
    Eats (parseOoDeclaration r) toks pos PS := by
  intro Q E h1 h2
  unfold parseOoDeclaration
  refine Wp.bind (Wp.eats (fun h => by omega) ?_)
  refine Wp.iteFalse (Wp.bind (Wp.eats (fun h => by omega) ?_))
  refine Wp.iteFalse (Wp.bind (Keeps.use parseClassModifiers_ok ?_ ?_))
  · intro a p hp _
    refine Wp.bind (Wp.expect (fun _ h => by omega) ?_)
    intro e
    exact h2 _ _ hp
  · exact h2

theorem parseStatement_end (he : toks.length ≤ pos) : Eats (parseStatement r) toks pos PS := by
  intro Q E h1 h2
  unfold parseStatement
  refine Wp.bind (Wp.peek ?_ ?_)
  · intro t _ h; omega
  intro _
  unfold parseOtherStmt
  refine Wp.bind (Wp.attempt (Eats.use (parseOoDeclaration_end he) ?_ ?_))
  · intro a p h; omega
  intro e p hp
  refine Wp.bind (Wp.peek ?_ ?_)
  · intro t _ h; omega
  · intro _; exact h2 _ _ hp

/-- Enough fuel for the nesting depth: two levels per remaining token. -/
theorem recN_ok (toks : List TokSpan) : ∀ (n pos : Nat),
    (2 * (toks.length - pos) + 1 ≤ n → ∀ prec, Eats ((recN n).expr prec) toks pos PE) ∧
    (2 * (toks.length - pos) + 2 ≤ n → Eats (recN n).stmt toks pos PS) := by
  intro n
  induction n with
  | zero => intro pos; constructor <;> intro h <;> omega
  | succ n ih =>
    intro pos
    constructor
    · intro h prec
      by_cases hp : toks.length ≤ pos
      · exact parseExpression_end hp
      · refine parseExpression_ok (lo := pos + 1) (los := pos + 1) ?_ (by omega) ?_ (by omega)
        · intro q hq prec; exact (ih q).1 (by omega) prec
        · intro q hq; exact (ih q).2 (by omega)
    · intro h
      by_cases hp : toks.length ≤ pos
      · exact parseStatement_end hp
      · refine parseStatement_ok (lo := pos) (los := pos + 1) ?_ (by omega) ?_ (by omega)
        · intro q hq prec; exact (ih q).1 (by omega) prec
        · intro q hq; exact (ih q).2 (by omega)

theorem parseTopUse_ok {t : TokSpan} : Eats (parseTopUse t) toks pos PS := by
  intro Q E h1 h2
  unfold parseTopUse
  wp
  refine Wp.loop (fun s q => pos ≤ q ∧ True) ⟨by omega, trivial⟩ ?_
  rintro s q ⟨hq, hs⟩
  wp <;> pr
macro_rules | `(tactic| wp_call) => `(tactic|
  with_reducible refine Eats.use parseTopUse_ok ?_ ?_)

theorem parseTopStatement_ok (hE : RecE r toks lo) (hl : lo ≤ pos) (hS : RecS r toks los)
    (hs : los ≤ pos + 1) : Eats (parseTopStatement r) toks pos PS := by
  intro Q E h1 h2
  unfold parseTopStatement
  wp <;> pr
macro_rules | `(tactic| wp_call) => `(tactic|
  with_reducible
    refine Eats.use (parseTopStatement_ok (by assumption) (by omega) (by assumption) (by omega)) ?_ ?_)

theorem parseTopStatementList_ok (hE : RecE r toks lo) (hl : lo ≤ pos) (hS : RecS r toks los)
    (hs : los ≤ pos + 1) : Keeps (parseTopStatementList r) toks pos PSs := by
  intro Q E h1 h2
  unfold parseTopStatementList
  wp
  refine Wp.loop (fun s q => pos ≤ q ∧ PSs s) ⟨by omega, trivial⟩ ?_
  rintro s q ⟨hq, hs⟩
  wp <;> pr

/-- The whole parser, with enough fuel. -/
theorem parseTop_ok (n : Nat) (toks : List TokSpan) (hn : 2 * toks.length + 2 ≤ n) :
    Keeps (parseTopStatementList (recN n)) toks 0 PSs := by
  refine parseTopStatementList_ok (lo := 0) (los := 0) ?_ (by omega) ?_ (by omega)
  · intro q _ prec; exact (recN_ok toks n q).1 (by omega) prec
  · intro q _; exact (recN_ok toks n q).2 (by omega)

end Pico
