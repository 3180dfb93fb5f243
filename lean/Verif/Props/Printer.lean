import Verif.Spec.Printing
import Verif.Lemmas.PrinterSeq
/-!
# Printing: composition, indentation, sinks (C18, C35)
-/
namespace Pico

/-- C18: printing a list of statements is printing its parts one after the other, on every target. -/
theorem C18_concat {σ : Type} (tg : Target σ) (t : σ) (a b : List Stmt) :
    printStatements tg t (a ++ b) = thenPrint tg (printStatements tg t a) b := by
  unfold printStatements thenPrint
  rw [pStmts_append]
  unfold W.seq
  cases h : pStmts tg a (WSt.new t) with
  | ok s =>
    have hi := Runs.indent (runs_stmts tg a 0) h
    obtain ⟨i, t'⟩ := s
    simp only at hi
    subst hi
    rfl
  | err s => rfl
  | panic p => rfl

/-- C18: the printed text of a list is the concatenation of the printed texts of the parts. -/
theorem C18_text (dbl : Text → Text) (a b : List Stmt) (ta tb : Text)
    (ha : printToString dbl a = some ta) (hb : printToString dbl b = some tb) :
    printToString dbl (a ++ b) = some (ta ++ tb) := by
  have key : ∀ (cs : List Chunk) (x y : Text), feed (stringTarget dbl) cs x = .ok y →
      ∀ z, feed (stringTarget dbl) cs z = .ok (z ++ y.drop x.length) ∧ x ++ y.drop x.length = y := by
    intro cs
    induction cs with
    | nil =>
      intro x y h z
      simp only [feed, FR.ok.injEq] at h ⊢
      subst h
      simp
    | cons c cs ih =>
      intro x y h z
      cases c with
      | boom p => simp [feed] at h
      | text t =>
        simp only [feed, stringTarget] at h ⊢
        obtain ⟨h1, h2⟩ := ih _ _ h (z ++ t)
        have h3 : y = x ++ (t ++ y.drop (x.length + t.length)) := by
          rw [List.length_append, List.append_assoc] at h2
          exact h2.symm
        constructor
        · show feed (stringTarget dbl) cs (z ++ t) = _
          rw [h1]
          congr 1
          rw [List.length_append, List.append_assoc]
          congr 1
          conv => rhs; rw [h3]
          simp
        · conv => rhs; rw [h3]
          rw [List.append_cancel_left_eq]
          conv => lhs; rw [h3]
          simp
  have run : ∀ (ss : List Stmt) (x : Text), printStatements (stringTarget dbl) x ss =
      match feed (stringTarget dbl) (cStmts dbl 0 ss) x with
      | .ok s' => .ok ⟨0, s'⟩
      | .err s' => .err ⟨0, s'⟩
      | .panic p => .panic p := by
    intro ss x
    have h := runs_stmts (stringTarget dbl) ss 0 x
    have hne : ∀ (cs : List Chunk) (x s' : Text), feed (stringTarget dbl) cs x ≠ .err s' := by
      intro cs
      induction cs with
      | nil => intro x s' h; simp [feed] at h
      | cons c cs ih =>
        intro x s' h
        cases c with
        | boom p => simp [feed] at h
        | text t => exact ih _ _ h
    cases hf : feed (stringTarget dbl) (cStmts dbl 0 ss) x with
    | ok s' => simp only [stringTarget] at h hf; simp only [hf] at h; exact h
    | err s' => exact absurd hf (hne _ _ _)
    | panic p => simp only [stringTarget] at h hf; simp only [hf] at h; exact h
  unfold printToString at ha hb ⊢
  rw [C18_concat]
  rw [run] at ha hb ⊢
  cases hfa : feed (stringTarget dbl) (cStmts dbl 0 a) [] with
  | ok x =>
    simp only [hfa, Option.some.injEq] at ha
    subst ha
    simp only [thenPrint]
    rw [run]
    cases hfb : feed (stringTarget dbl) (cStmts dbl 0 b) [] with
    | ok y =>
      simp only [hfb, Option.some.injEq] at hb
      subst hb
      have := (key _ _ _ hfb x).1
      simp only [List.length_nil, List.drop_zero] at this
      simp only [this]
    | err y => simp [hfb] at hb
    | panic p => simp [hfb] at hb
  | err y => simp [hfa] at ha
  | panic p => simp [hfa] at ha

/-- C18: after printing a statement at any nesting depth the indentation is what it was. -/
theorem C18_indentation {σ : Type} (tg : Target σ) (s : Stmt) (i : Nat) (t : σ) (st : WSt σ)
    (h : pStmt tg s ⟨i, t⟩ = .ok st) : st.indent = i :=
  Runs.indent (runs_stmt tg s i) h

/-- C35: what is written does not depend on the sink. For every list of statements there is one sequence of
pieces of text (and possibly an abort after them) such that printing to any sink hands it exactly these
pieces, stops at the first one the sink refuses and reports that as the error, and otherwise succeeds (or
aborts). -/
theorem C35_sink (dbl : Text → Text) (stmts : List Stmt) :
    ∃ (pieces : List Text) (stop : Option Panic),
      ∀ (σ : Type) (write : σ → Text → σ × Bool) (s : σ),
        match writeAll write s pieces, stop with
        | (s', false), _ => ∃ j, printStatements ⟨write, dbl⟩ s stmts = .err ⟨j, s'⟩
        | (s', true), none => printStatements ⟨write, dbl⟩ s stmts = .ok ⟨0, s'⟩
        | (_, true), some p => printStatements ⟨write, dbl⟩ s stmts = .panic p := by
  refine ⟨(splitChunks (cStmts dbl 0 stmts)).1, (splitChunks (cStmts dbl 0 stmts)).2, ?_⟩
  intro σ write s
  have h := runs_stmts (⟨write, dbl⟩ : Target σ) stmts 0 s
  rw [feed_split] at h
  simp only at h
  generalize writeAll write s (splitChunks (cStmts dbl 0 stmts)).1 = r at h ⊢
  generalize (splitChunks (cStmts dbl 0 stmts)).2 = q at h ⊢
  rcases r with ⟨s', _ | _⟩ <;> cases q <;> exact h

/-- A list with nested statements for which C18 and C35 say something: `if ($a) { echo 'x'; }`. -/
def sampleStmts : List Stmt :=
  [.mk (.ite (.mk (.var (.name c!"a")) (mkSpan 0 0))
    [.mk (.echo [.mk (.str c!"x") (mkSpan 0 0)]) (mkSpan 0 0)] []) (mkSpan 0 0)]

example : printToString id sampleStmts = some c!"if ($a) {\n    echo 'x';\n}\n" := by decide

example : printToString id (sampleStmts ++ sampleStmts) =
    some (c!"if ($a) {\n    echo 'x';\n}\n" ++ c!"if ($a) {\n    echo 'x';\n}\n") :=
  C18_text id _ _ _ _ (by decide) (by decide)

/-- A sink that accepts only three writes: the printer stops with an error after "if (", "$", "a". -/
example : (match printStatements
    (⟨fun s t => (s ++ [t], decide (s.length < 3)), id⟩ : Target (List Text)) [] sampleStmts with
    | .err s => s.target
    | _ => []) = [c!"if (", c!"$", c!"a", c!") "] := by decide

end Pico
