import Verif.Spec.Layout
/-!
# Here documents and now documents (C58)

`<<<TAG` in a line, lines of text, and the label `TAG` at the begin of a line. The document stands for the lines between them,
without the last line end. In a here document escapes and variables are replaced like between double quotes.
-/
namespace Pico

/-- The script that returns a document with this body. `q` are the quotation marks around the label, `nl` the line end behind it. -/
def docScript (b q tag nl body : Text) : Text :=
  c!"<?php return <<<" ++ b ++ q ++ tag ++ q ++ nl ++ body ++ c!"\n" ++ tag ++ c!";\n"

/-- The building block is what it says when `rest` follows inside a here document. A quotation mark needs no escape there. -/
def DqItem.HereOk (tag : Text) (it : DqItem) (rest : Text) : Prop :=
  match it with
  | .plain c => c ≠ '\\' ∧ c ≠ '$' ∧ c ≠ '{' ∧ (c = '\n' → ¬ tag <+: rest)
  | .esc c v => (c, v) ∈ dqEscapes ∧ c ≠ '"'
  | it => it.Ok rest

/-- All of them, when `rest` follows. -/
def HereOk (tag : Text) : List DqItem → Text → Prop
  | [], _ => True
  | it :: its, rest => it.HereOk tag (dqSrc its ++ rest) ∧ HereOk tag its rest

end Pico
