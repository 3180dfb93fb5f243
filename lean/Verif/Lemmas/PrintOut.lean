import Verif.Lemmas.Printer
/-! # The text of a sequence of writes -/
namespace Pico

/-- The text written, unless the printer aborts. -/
def chunkText : List Chunk → Option Text
  | [] => some []
  | .boom _ :: _ => none
  | .text t :: cs => (chunkText cs).map (t ++ ·)

theorem chunkText_append (a b : List Chunk) :
    chunkText (a ++ b) = (chunkText a).bind fun x => (chunkText b).map (x ++ ·) := by
  induction a with
  | nil => cases h : chunkText b <;> simp [chunkText, h]
  | cons c a ih =>
    cases c with
    | boom p => rfl
    | text t =>
      simp only [List.cons_append, chunkText, ih]
      cases h : chunkText a with
      | none => rfl
      | some x => cases h' : chunkText b <;> simp

theorem feed_string (dbl : Text → Text) (cs : List Chunk) (s : Text) :
    (∃ p, feed (stringTarget dbl) cs s = .panic p ∧ chunkText cs = none) ∨
      (∃ x, feed (stringTarget dbl) cs s = .ok (s ++ x) ∧ chunkText cs = some x) := by
  induction cs generalizing s with
  | nil => exact .inr ⟨[], by simp [feed], rfl⟩
  | cons c cs ih =>
    cases c with
    | boom p => exact .inl ⟨p, rfl, rfl⟩
    | text t =>
      rcases ih (s ++ t) with ⟨p, h1, h2⟩ | ⟨x, h1, h2⟩
      · exact .inl ⟨p, by simpa [feed, stringTarget] using h1, by simp [chunkText, h2]⟩
      · exact .inr ⟨t ++ x, by simpa [feed, stringTarget] using h1, by simp [chunkText, h2]⟩

theorem runs_string {dbl : Text → Text} {m : W Text} {cs : List Chunk} (h : Runs (stringTarget dbl) m 0 cs) :
    (match m (WSt.new []) with
      | .ok s => some s.target
      | _ => none) = chunkText cs := by
  have := h []
  unfold WSt.new
  rcases feed_string dbl cs [] with ⟨p, h1, h2⟩ | ⟨x, h1, h2⟩
  · rw [h1] at this
    simp only [this, h2]
  · rw [h1] at this
    simp only [this, h2]
    simp

theorem printToString_eq (dbl : Text → Text) (ss : List Stmt) :
    printToString dbl ss = chunkText (cStmts dbl 0 ss) := runs_string (runs_stmts (stringTarget dbl) ss 0)

theorem printExprToString_eq (dbl : Text → Text) (e : Expr) :
    printExprToString dbl e = chunkText (cExpr dbl 0 e) := runs_string (runs_expr (stringTarget dbl) e 0)

end Pico
