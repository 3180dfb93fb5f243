import Verif.Model.Api
import Verif.Spec.Erase
import Verif.Spec.Grammar
/-!
# Vocabulary of the statements about whole token sequences
-/
namespace Pico

/-- What the grammar sees of a token: comments and tags are nothing, text outside of tags and `<?=` are an `echo`. -/
def seenAs : Token → List Token
  | .comment _ => []
  | .k .OpenTag => []
  | .k .CloseTag => []
  | .inlineHtml s => [.k .Echo, .encaps s, .k .SemiColon]
  | .k .OpenTagWithEcho => [.k .Echo]
  | t => [t]

/-- The tokens the grammar sees. -/
def visible (toks : List TokSpan) : List Token := toks.flatMap fun t => seenAs t.tok

/-- `parse_tokens` accepts `toks` and returns the statements `ss` up to positions, for every fuel from
`6 * tokens + 2` on (and by `C09_fuel` the result is the same for all of them). -/
def ParsesTo (m : LineMap) (toks : List TokSpan) (ss : List Stmt) : Prop :=
  ∃ ss', eraseStmts ss' = ss ∧
    ∀ n, 6 * toks.length + 2 ≤ n → parseTokensN n m toks = .ok ss'

/-- The tokens as they come from a source that begins with an open tag: words and variables do not stand at
the first byte. -/
def Sourced (toks : List TokSpan) : Prop := Placed toks

/-! ## Operators and operands (C19) -/

/-- An operand with its meaning. -/
structure Operand where
  toks : List Token
  tree : Expr

/-- An infix operator: a binary one, `? m :` with its middle operand, or `?:`. -/
inductive Infix
  | bin (k : Kw)
  | cond (m : Operand)
  | elvis

/-- Complete operands: expressions in which no infix operator (other than `instanceof`, which binds tightest
and takes a class name on its right) stands outside of parentheses or below a prefix operator, and which do
not extend to the right indefinitely as an assignment does. -/
def Operand.ok (x : Operand) : Prop := Derives (.expr 15 prefixLevel) x.toks x.tree

/-- The binary operators, and `? m :` where in `m` only operators that bind tighter than `?:` stand outside
of parentheses. -/
def Infix.ok : Infix → Prop
  | .bin k => (leftOp k).isSome = true ∨ k = .Pow
  | .cond m => ∃ s, Derives (.expr 4 s) m.toks m.tree
  | .elvis => True

def Infix.level : Infix → Nat
  | .bin k => (infixLevel k).getD 0
  | .cond _ => 4
  | .elvis => 4

/-- Everything associates to the left but `**`. -/
def Infix.leftAssoc : Infix → Bool
  | .bin .Pow => false
  | _ => true

def Infix.toks : Infix → List Token
  | .bin k => [.k k]
  | .cond m => .k .QuestionMark :: (m.toks ++ [.k .Colon])
  | .elvis => [.k .QuestionMark, .k .Colon]

def Infix.apply : Infix → Expr → Expr → Expr
  | .bin .Pow, l, r => bare (.binary .Pow l r)
  | .bin k, l, r => bare (.binary ((leftOp k).getD .Pow) l r)
  | .cond m, l, r => bare (.ternary l (some m.tree) r)
  | .elvis, l, r => bare (.ternary l none r)

/-- Operand, operator, operand, ..., operand. -/
structure OpSeq where
  first : Operand
  rest : List (Infix × Operand)

def OpSeq.ok (q : OpSeq) : Prop := q.first.ok ∧ ∀ y ∈ q.rest, y.1.ok ∧ y.2.ok

def OpSeq.toks (q : OpSeq) : List Token := q.first.toks ++ q.rest.flatMap fun y => y.1.toks ++ y.2.toks

/-- A way to group such a sequence. -/
inductive OpTree
  | leaf (x : Operand)
  | node (l : OpTree) (o : Infix) (r : OpTree)

def OpTree.seq : OpTree → OpSeq
  | .leaf x => ⟨x, []⟩
  | .node l o r => ⟨l.seq.first, l.seq.rest ++ (o, r.seq.first) :: r.seq.rest⟩

def OpTree.top : OpTree → Option Infix
  | .leaf _ => none
  | .node _ o _ => some o

def OpTree.tree : OpTree → Expr
  | .leaf x => x.tree
  | .node l o r => o.apply l.tree r.tree

/-- The grouping follows the table: the operator at the top of a left operand binds tighter, or equally tight
and it associates to the left; the operator at the top of a right operand binds tighter, or equally tight and it
associates to the right. -/
def OpTree.byTable : OpTree → Prop
  | .leaf _ => True
  | .node l o r =>
    l.byTable ∧ r.byTable ∧
    (∀ ol, l.top = some ol → o.level < ol.level ∨ o.level = ol.level ∧ o.leftAssoc = true) ∧
    (∀ or, r.top = some or → o.level < or.level ∨ o.level = or.level ∧ o.leftAssoc = false)

/-! ## Conditionals (C24) -/

/-- One branch `(c) b` with the tokens of its condition and its body; `open_`: the body ends in an `if` that
would draw in a following `else`. -/
structure Branch where
  condToks : List Token
  cond : Expr
  bodyToks : List Token
  body : List Stmt
  open_ : Bool

def Branch.ok (b : Branch) : Prop :=
  (∃ s, Derives (.expr 0 s) b.condToks b.cond) ∧ Derives (.body b.open_) b.bodyToks b.body

/-- The tokens of `(c) b`. -/
def Branch.toks (b : Branch) : List Token :=
  .k .ParenthesesOpen :: (b.condToks ++ .k .ParenthesesClose :: b.bodyToks)

/-- An `else` branch. -/
structure ElseBranch where
  toks : List Token
  body : List Stmt
  open_ : Bool

def ElseBranch.ok (b : ElseBranch) : Prop := Derives (.body b.open_) b.toks b.body

/-- The tokens of what follows the first branch. The flag tells `else if` from `elseif`. -/
def chainToks : List (Bool × Branch) → Option ElseBranch → List Token
  | [], none => []
  | [], some e => .k .Else :: e.toks
  | (sep, b) :: bs, e =>
    (if sep then [.k .Else, .k .If] else [.k .ElseIf]) ++ (b.toks ++ chainToks bs e)

/-- What the chain means: each condition guards its own body, the rest of the chain is its `else`. -/
def chainTree : List (Bool × Branch) → Option ElseBranch → List Stmt
  | [], none => []
  | [], some e => e.body
  | (_, b) :: bs, e => [bareS (.ite b.cond b.body (chainTree bs e))]

/-- A body that ends in an open `if` may only stand last. -/
def chainOk : Branch → List (Bool × Branch) → Option ElseBranch → Prop
  | b, [], none => b.ok
  | b, [], some e => b.ok ∧ b.open_ = false ∧ e.ok
  | b, (_, b') :: bs, e => b.ok ∧ b.open_ = false ∧ chainOk b' bs e

/-! ## Arrays (C32) -/

/-- An element: optional key and value. -/
structure Element where
  key : Option Operand
  value : Operand

/-- Any expression. -/
def Operand.isExpr (x : Operand) : Prop := ∃ s, Derives (.expr 0 s) x.toks x.tree

def Element.ok (x : Element) : Prop := (∀ y, x.key = some y → y.isExpr) ∧ x.value.isExpr

def Element.toks (x : Element) : List Token :=
  match x.key with
  | some y => y.toks ++ .k .DoubleArrow :: x.value.toks
  | none => x.value.toks

def Element.item (x : Element) : Option Expr × Expr := (x.key.map Operand.tree, x.value.tree)

/-- The elements separated by commas, with or without a trailing one. -/
def elementToks (trailing : Bool) : List Element → List Token
  | [] => []
  | [x] => x.toks ++ (if trailing then [.k .Comma] else [])
  | x :: xs => x.toks ++ .k .Comma :: elementToks trailing xs

/-! ## Interpolated strings (C25) -/

/-- A literal fragment or a simple variable. -/
inductive Frag
  | text (s : Text)
  | var (n : Text)

def Frag.tok : Frag → Token
  | .text s => .encaps s
  | .var n => .variable n

def Frag.tree : Frag → Expr
  | .text s => bare (.str s)
  | .var n => bare (.var (.name n))

/-- Fragments are non-empty and no two of them are adjacent (together they would be one). -/
def properFrags : List Frag → Bool
  | [] => true
  | .text [] :: _ => false
  | .text _ :: .text _ :: _ => false
  | _ :: fs => properFrags fs

/-- The leaves of a concatenation, read left to right. -/
def concatLeaves : Expr → List Expr
  | .mk (.binary .Concat l r) _ => concatLeaves l ++ concatLeaves r
  | e => [e]

/-! ## Names (C26) -/

/-- How a name is written. -/
def nameText (abs : Bool) (ns : List Text) (id : Text) : Text :=
  (if abs then ['\\'] else []) ++ List.intercalate ['\\'] (ns ++ [id])

end Pico
