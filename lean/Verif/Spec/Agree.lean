import Verif.Spec.Erase
import Verif.Spec.Outcome
/-!
# Outcomes compared up to positions
-/
namespace Pico

/-- Two calls of `parse_str` end in the same way: statements that differ in positions (and the doc comments kept
with them) only, the same error message apart from the place, or the same panic. -/
inductive Agree : Outcome SpannedErr (List Stmt) → Outcome SpannedErr (List Stmt) → Prop
  | ok {ss ss' : List Stmt} (h : eraseStmts ss = eraseStmts ss') : Agree (.ok ss) (.ok ss')
  | err {e e' : SpannedErr} (h : e.error = e'.error) (h' : e.syntaxErr = e'.syntaxErr) : Agree (.err e) (.err e')
  | panic (p : Panic) : Agree (.panic p) (.panic p)

end Pico
