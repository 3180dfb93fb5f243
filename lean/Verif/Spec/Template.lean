import Verif.Spec.Source
import Verif.Spec.Grammar
/-!
# Templates: scripts with text outside of the tags

PHP sends what stands outside of the tags to the output, in its place between the statements of the script. A text thus
means the statement `echo` with this text.
-/
namespace Pico

/-- A template whose parts stand for these tokens; `d` braces are open in front of it. Blocks may extend over several
pairs of tags. -/
inductive Template : Nat → Text → List Token → Prop
  | nil (d : Nat) : Template d [] []
  /-- Text outside of the tags. -/
  | text {d : Nat} {rest : Text} {ts : List Token} (s : Text) (hne : s ≠ []) (hs : ¬ c!"<?" <:+: s)
      (hr : rest = [] ∨ c!"<?" <+: rest) (h : Template d rest ts) :
      Template d (s ++ rest) (.k .Echo :: .encaps s :: .k .SemiColon :: ts)
  /-- `<?php .. ?>` -/
  | code {d e : Nat} {rest : Text} {ts : List Token} (is : List Item) (ha : Apart false is (c!"?>" ++ rest))
      (hb : braces d is = some e) (h : Template e rest ts) :
      Template d (c!"<?php" ++ render is ++ c!"?>" ++ rest) (codeToks is ++ ts)
  /-- `<?= .. ?>` -/
  | echo {d e : Nat} {rest : Text} {ts : List Token} (is : List Item) (ha : Apart false is (c!"?>" ++ rest))
      (hb : braces d is = some e) (h : Template e rest ts) :
      Template d (c!"<?=" ++ render is ++ c!"?>" ++ rest) (.k .Echo :: codeToks is ++ ts)
  /-- `<?php ..` at the end. -/
  | last {d e : Nat} (is : List Item) (ha : Apart false is []) (hb : braces d is = some e) :
      Template d (c!"<?php" ++ render is) (codeToks is)

/-- A template in which every pair of tags encloses whole statements, and the statements it means. -/
inductive Page : Text → List Stmt → Prop
  | nil : Page [] []
  | text {rest : Text} {ss : List Stmt} (s : Text) (hne : s ≠ []) (hs : ¬ c!"<?" <:+: s)
      (hr : rest = [] ∨ c!"<?" <+: rest) (h : Page rest ss) : Page (s ++ rest) (bareS (.echo [bare (.str s)]) :: ss)
  | code {rest : Text} {ss us : List Stmt} (is : List Item) (ha : Apart false is (c!"?>" ++ rest))
      (hb : braces 0 is = some 0) (hd : Derives .tops (codeToks is) us) (h : Page rest ss) :
      Page (c!"<?php" ++ render is ++ c!"?>" ++ rest) (us ++ ss)
  | echo {rest : Text} {ts : List Token} {es : List Expr} {ss : List Stmt} (is : List Item)
      (ha : Apart false is (c!"?>" ++ rest)) (hb : braces 0 is = some 0) (hc : codeToks is = ts ++ [.k .SemiColon])
      (hd : Derives .exprs ts es) (h : Page rest ss) :
      Page (c!"<?=" ++ render is ++ c!"?>" ++ rest) (bareS (.echo es) :: ss)

end Pico
