import Verif.Model.Api
/-!
# Symbolic execution of tokenizer methods
-/
namespace Pico
open T

section
variable {α β : Type}

theorem bind_apply (m : T α) (f : α → T β) (t : Tz) : (m >>= f) t = T.bnd m f t := rfl
theorem pure_apply (a : α) (t : Tz) : (pure a : T α) t = .ok a t := rfl
theorem map_apply (f : α → β) (m : T α) (t : Tz) : (f <$> m) t = (m >>= fun a => pure (f a)) t := rfl

theorem bind_ok {m : T α} {f : α → T β} {t t' : Tz} {a : α} (h : m t = .ok a t') : (m >>= f) t = f a t' := by
  rw [bind_apply]; unfold T.bnd; rw [h]

theorem bind_err {m : T α} {f : α → T β} {t t' : Tz} {e : SyntaxErr} (h : m t = .err e t') :
    (m >>= f) t = .err e t' := by
  rw [bind_apply]; unfold T.bnd; rw [h]

theorem bind_oof {m : T α} {f : α → T β} {t : Tz} (h : m t = .oof) : (m >>= f) t = .oof := by
  rw [bind_apply]; unfold T.bnd; rw [h]

theorem bind_panic {m : T α} {f : α → T β} {t : Tz} {p : Panic} (h : m t = .panic p) :
    (m >>= f) t = .panic p := by
  rw [bind_apply]; unfold T.bnd; rw [h]

theorem orElse_ok {m n : T α} {t t' : Tz} {a : α} (h : m t = .ok a t') : (m <||> n) t = .ok a t' := by
  unfold T.orElse; rw [h]

theorem orElse_none {m n : T α} {t t' : Tz} (h : m t = .err .none t') : (m <||> n) t = n t' := by
  unfold T.orElse; rw [h]

theorem orElse_oof {m n : T α} {t : Tz} (h : m t = .oof) : (m <||> n) t = .oof := by
  unfold T.orElse; rw [h]

end

/-- Run the first method of a sequence: it returns `a` and leaves the state `t'`. -/
macro "tstep " a:term:max t:term:max : tactic =>
  `(tactic| refine (bind_ok (a := $a) (t' := $t) (by rfl)).trans ?_)

/-- The first alternative does not apply and leaves the state `t'`. -/
macro "tskip " t:term:max : tactic => `(tactic| refine (orElse_none (t' := $t) (by rfl)).trans ?_)

end Pico
