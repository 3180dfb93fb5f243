import Verif.Spec.Document
/-!
# Escapes in now documents as the code reads them (C58)
-/
namespace Pico

/-- The text a body of a now document is turned into by the code: two backslashes are one, and a backslash in front of a quotation mark disappears. None if a
backslash is left over at the end. PHP has no escapes in now documents: the text should be the body itself. -/
def nowText : Text → Option Text
  | [] => some []
  | [c] => if c = '\\' then none else some [c]
  | c :: d :: t =>
    if c = '\\' then
      if d = '\\' ∨ d = '\'' then (nowText t).map (d :: ·) else (nowText t).map (fun s => c :: d :: s)
    else (nowText (d :: t)).map (c :: ·)

end Pico
