import Verif.Model.Basic
/-!
# Commands between back quotes
-/
namespace Pico

/-- What comes behind a command, up to a character the tokenizer does not understand in one: text that begins with a double quote or a
backslash, or the last character of the source. -/
def stopsCommand (w : Text) : Prop :=
  w.head? = some '"' ∨ w.head? = some '\\' ∨ ∃ c, w = [c] ∧ c ∉ c!"\\\"${\n`"

end Pico
