import Verif.Model.Api
/-!
# Reading off outcomes

Small readers used in the statements about concrete sources.
-/
namespace Pico

/-- `parse_str` on `src` comes to an end, with this result. (By `parseStrN_le` the result does not depend on
the fuel that was enough.) -/
def Ends (src : Text) (r : Outcome SpannedErr (List Stmt)) : Prop :=
  ∃ n, parseStrN n src = r ∧ r ≠ .oof

/-- The tokens of a source (without positions), if it can be tokenized with fuel `n`. -/
def tokensOf (n : Nat) (src : Text) : Option (List Token) :=
  match lexAll n n (Tz.new src) [] with
  | .ok (toks, _) => some (toks.map TokSpan.tok)
  | _ => none

/-- The tokens of a source with their positions. -/
def spansOf (n : Nat) (src : Text) : Option (List TokSpan) :=
  match lexAll n n (Tz.new src) [] with
  | .ok (toks, _) => some toks
  | _ => none

def Outcome.isPanic {ε α : Type} : Outcome ε α → Bool
  | .panic _ => true
  | _ => false

def Outcome.isOk {ε α : Type} : Outcome ε α → Bool
  | .ok _ => true
  | _ => false

def Outcome.isErr {ε α : Type} : Outcome ε α → Bool
  | .err _ => true
  | _ => false

theorem Outcome.exists_panic {ε α : Type} {o : Outcome ε α} (h : o.isPanic = true) : ∃ p, o = .panic p := by
  cases o with
  | panic p => exact ⟨p, rfl⟩
  | ok a => cases h
  | err e => cases h
  | oof => cases h

theorem Outcome.exists_ok {ε α : Type} {o : Outcome ε α} (h : o.isOk = true) : ∃ a, o = .ok a := by
  cases o with
  | ok a => exact ⟨a, rfl⟩
  | panic p => cases h
  | err e => cases h
  | oof => cases h

theorem Outcome.exists_err {ε α : Type} {o : Outcome ε α} (h : o.isErr = true) : ∃ a, o = .err a := by
  cases o with
  | err a => exact ⟨a, rfl⟩
  | panic p => cases h
  | ok e => cases h
  | oof => cases h

end Pico
