import Verif.Spec.Scan
/-!
# What makes the parser panic

The panics of the syntax stage (`unimplemented!()`, `unreachable!()`, `unwrap()` on `None`, indices and subtractions out of
range) and the tokens without which they cannot happen. `ts` are the tokens the parser sees.
-/
namespace Pico

/-- The number of opening parentheses minus the number of closing ones. -/
def parens : List Token → Int
  | [] => 0
  | t :: ts => (if t = .k .ParenthesesOpen then 1 else if t = .k .ParenthesesClose then -1 else 0) + parens ts

/-- How many parentheses are open before token number `p`. -/
def depthAt (ts : List Token) (p : Nat) : Int := parens (ts.take p)

/-- Token number `i` is an opening parenthesis, and it has not been closed before token number `j`. -/
def OpenTo (ts : List Token) (i j : Nat) : Prop :=
  ts[i]? = some (.k .ParenthesesOpen) ∧ ∀ c, i < c → c ≤ j → depthAt ts i < depthAt ts c

/-- A part of a list of names. -/
def Token.inNames : Token → Bool
  | .string _ => true
  | .k .NsSeparator => true
  | .k .Comma => true
  | _ => false

/-- Token number `i` is inside of the braces of `use A, B { .. }`. -/
def InUse (ts : List Token) (i : Nat) : Prop :=
  ∃ u o, u < o ∧ o < i ∧ ts[u]? = some (.k .Use) ∧ (∀ k t, u < k → k < o → ts[k]? = some t → t.inNames = true) ∧
    ts[o]? = some (.k .CurlyBracesOpen) ∧ ∀ k, o < k → k < i → ts[k]? ≠ some (.k .CurlyBracesClose)

/-- Token number `i` stands where a name is read for which reserved words are allowed, too: behind `::`, `${` or `const`,
in a list of constants, inside of the braces of `use A { .. }`. -/
def NameSpot (ts : List Token) (i : Nat) : Prop :=
  (∃ j, i = j + 1 ∧ (ts[j]? = some (.k .ScopeOp) ∨ ts[j]? = some (.k .DollarCurlyBracesOpen) ∨ ts[j]? = some (.k .Const) ∨
    ts[j]? = some (.k .Comma) ∧ ∃ c, c < j ∧ ts[c]? = some (.k .Const))) ∨ InUse ts i

/-- The reasons for the parser to panic. -/
inductive Cause (ts : List Token) : Panic → Prop
  /-- There is nothing but tags and comments. -/
  | nothing : ts = [] → Cause ts .subOverflow
  /-- A `$` that does not belong to a variable: `$$a`, `${..}` outside of strings. -/
  | dollar (i : Nat) : ts[i]? = some (.k .Dollar) → Cause ts .unimplemented
  /-- The cast `(unset)`. -/
  | unset (i : Nat) : ts[i]? = some (.k .CastUnset) → Cause ts .unimplemented
  /-- `yield` as a name. -/
  | yield (i : Nat) : ts[i]? = some (.k .Yield) → NameSpot ts i → Cause ts .unimplemented
  /-- `use A { f as protected g; }`. -/
  | alias (i : Nat) : ts[i]? = some (.k .As) → InUse ts i → (∀ s, ts[i + 1]? ≠ some (.string s)) → Cause ts .unimplemented
  /-- A parameter, with or without a default value, that is not followed by `,` or `)` in the parentheses behind
  `function`. -/
  | param (i o j p : Nat) (v : Text) : ts[i]? = some (.k .Function) → i < o →
      (∀ k t, i < k → k < o → ts[k]? = some t → t = .k .Ampersand ∨ ∃ s, t = .string s) → OpenTo ts o p → o < j → j < p →
      ts[j]? = some (.variable v) → p = j + 1 ∨ ts[j + 1]? = some (.k .Equal) →
      ts[p]? ≠ some (.k .Comma) → ts[p]? ≠ some (.k .ParenthesesClose) → Cause ts .unwrap
  /-- `$a instanceof B instanceof C`. -/
  | instanceOf (i j : Nat) : i < j → ts[i]? = some (.k .InstanceOf) → ts[j]? = some (.k .InstanceOf) → Cause ts .unreachable
  /-- `if (a) b; else c; else d;`. -/
  | elses (i j : Nat) : i < j → ts[i]? = some (.k .Else) → ts[j]? = some (.k .Else) ∨ ts[j]? = some (.k .ElseIf) →
      Cause ts .unreachable
  /-- A string in a list of arguments that is not closed before it, somewhere behind a quotation mark. -/
  | quoted (q i j : Nat) (s : Text) : ts[q]? = some (.k .DoubleQuote) ∨ ts[q]? = some (.k .HereDocStart) → q < i →
      OpenTo ts i j → i < j → ts[j]? = some (.encaps s) → Cause ts .unreachable
  /-- A parenthesis that is never closed. -/
  | unclosed (i : Nat) : OpenTo ts i ts.length → Cause ts .index

/-- Neither a number nor `echo`. -/
def Solid (t : Token) : Prop := isNumber t = false ∧ t ≠ .k .Echo

/-- Behind a `\` or a `&` there is a token that is said to begin at 0 or 1. (This is possible for tokens of any origin, but not
for the tokens of a source.) -/
def BadStart (toks : List TokSpan) : Prop :=
  ∃ (j : Nat) (u : TokSpan) (i : Nat) (t : TokSpan), toks[j]? = some u ∧ (u.tok = .k .NsSeparator ∨ u.tok = .k .Ampersand) ∧ j < i ∧
    toks[i]? = some t ∧ Solid t.tok ∧ t.span.start < 2

end Pico
