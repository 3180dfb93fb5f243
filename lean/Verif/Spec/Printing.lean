import Verif.Model.Api
/-!
# What printing to a sink means
-/
namespace Pico

/-- Hand the pieces of text to a sink in order; stop at the first one it refuses. -/
def writeAll {σ : Type} (write : σ → Text → σ × Bool) : σ → List Text → σ × Bool
  | s, [] => (s, true)
  | s, t :: ts =>
    match write s t with
    | (s', true) => writeAll write s' ts
    | (s', false) => (s', false)

/-- Printing `a ++ b` is printing `a` and then `b` to the target `a` left behind (starting over with no
indentation); errors and aborts of the first part end it. -/
def thenPrint {σ : Type} (tg : Target σ) (r : WR σ) (b : List Stmt) : WR σ :=
  match r with
  | .ok s => printStatements tg s.target b
  | .err s => .err s
  | .panic p => .panic p

end Pico
