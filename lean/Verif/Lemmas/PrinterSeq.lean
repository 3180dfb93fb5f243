import Verif.Lemmas.Printer
import Verif.Spec.Printing
/-!
# Helper lemmas for the printing theorems
-/
namespace Pico

theorem pStmts_append {σ : Type} (tg : Target σ) (a b : List Stmt) :
    pStmts tg (a ++ b) = (pStmts tg a ;; pStmts tg b) := by
  induction a with
  | nil => rfl
  | cons s a ih =>
    funext st
    simp only [List.cons_append, pStmts, ih, W.seq]
    cases pStmt tg s st <;> rfl

theorem Runs.indent {σ : Type} {tg : Target σ} {m : W σ} {cs : List Chunk} {i : Nat} {t : σ} {st : WSt σ}
    (h : Runs tg m i cs) (hm : m ⟨i, t⟩ = .ok st) : st.indent = i := by
  have h := h t
  cases hf : feed tg cs t with
  | ok s' =>
    simp only [hf] at h
    rw [h] at hm
    cases hm
    rfl
  | err s' =>
    simp only [hf] at h
    obtain ⟨j, h⟩ := h
    rw [h] at hm
    cases hm
  | panic p =>
    simp only [hf] at h
    rw [h] at hm
    cases hm

/-- The pieces of text in front of the first abort, and the abort. -/
def splitChunks : List Chunk → List Text × Option Panic
  | [] => ([], none)
  | .boom p :: _ => ([], some p)
  | .text t :: cs => (t :: (splitChunks cs).1, (splitChunks cs).2)

theorem feed_split {σ : Type} (tg : Target σ) (cs : List Chunk) (s : σ) :
    feed tg cs s = (match writeAll tg.write s (splitChunks cs).1, (splitChunks cs).2 with
      | (s', false), _ => .err s'
      | (s', true), none => .ok s'
      | (_, true), some p => .panic p) := by
  induction cs generalizing s with
  | nil => rfl
  | cons c cs ih =>
    cases c with
    | boom p => rfl
    | text t =>
      simp only [feed, splitChunks, writeAll]
      rcases tg.write s t with ⟨s', _ | _⟩
      · rfl
      · exact ih s'

end Pico
