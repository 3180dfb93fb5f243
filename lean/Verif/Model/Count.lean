import Verif.Model.Api
/-!
# The parser with a counter of calls (src/parser.rs)

The same functions as in `Verif.Model.Parser`, with the number of calls of `parse_expression` (src/parser.rs:641-644) beside
the outcome. Only the functions that lead from `parse_tokens` to a parenthesised expression are written out with the
counter; the calls made by all other functions are not counted (`Q.of`). The number is therefore never larger than the
number of calls the program makes. That the outcome is the one of `Verif.Model.Parser` is proved (`counted_outcome`).
-/
namespace Pico
open P

/-- A method of `Parser` with the number of calls it makes. -/
abbrev Q (α : Type) := List TokSpan → Nat → PR α × Nat

namespace Q

/-- A method whose calls are not counted. -/
def of {α : Type} (m : P α) : Q α := fun toks pos => (m toks pos, 0)

/-- Sequencing, as `P.bnd`; the calls add up. -/
def bnd {α β : Type} (m : Q α) (f : α → Q β) : Q β := fun toks pos =>
  match (m toks pos).1 with
  | .ok a pos' => ((f a toks pos').1, (m toks pos).2 + (f a toks pos').2)
  | .err e pos' => (.err e pos', (m toks pos).2)
  | .panic p => (.panic p, (m toks pos).2)
  | .oof => (.oof, (m toks pos).2)

instance : Monad Q where
  pure a := of (P.ret a)
  bind := bnd

/-- The `Result` of a call as a value, as `P.attempt`. -/
def attempt {α : Type} (m : Q α) : Q (Except PErr α) := fun toks pos =>
  match (m toks pos).1 with
  | .ok a pos' => (.ok (.ok a) pos', (m toks pos).2)
  | .err e pos' => (.ok (.error e) pos', (m toks pos).2)
  | .panic p => (.panic p, (m toks pos).2)
  | .oof => (.oof, (m toks pos).2)

/-- As `P.loopN`. -/
def loopN {σ α : Type} (step : σ → Q (σ ⊕ α)) : Nat → σ → Q α
  | 0, _ => of noFuel
  | n + 1, s => do
    match ← step s with
    | .inl s' => loopN step n s'
    | .inr a => return a

/-- As `P.loop`. -/
def loop {σ α : Type} (step : σ → Q (σ ⊕ α)) (s : σ) : Q α := fun toks pos =>
  loopN step (toks.length + 2) s toks pos

/-- One call more. -/
def call {α : Type} (m : Q α) : Q α := fun toks pos => ((m toks pos).1, (m toks pos).2 + 1)

end Q

/-- src/parser.rs:490-508 `parse_base_variable`; `c` is `parse_expression` with the counter. -/
def parseBaseVariableQ (c : Prec → Q Expr) (r : Rec) (simpleOnly : Bool) : Q Expr := do
  let paren : Option TokSpan ← Q.of (if simpleOnly then return none else eat .ParenthesesOpen)
  match paren with
  | some t =>
    let e ← c .None
    let p ← Q.of (expect .ParenthesesClose)
    return .mk e.kind (mkSpan t.span.start p.span.stop)
  | none => Q.of (do
    match ← attempt parseSimpleVariableExpr with
    | .ok e => return e
    | .error e1 =>
      let store := deepest none e1
      if simpleOnly then deepestUnpack store
      else
        match ← attempt (parseDereferencableScalar r) with
        | .ok e => return e
        | .error e2 => deepestUnpack (deepest store e2))

/-- src/parser.rs:553-570: the base item of `parse_variable(simple_only, None)`. -/
def parseVariableBaseQ (c : Prec → Q Expr) (r : Rec) (simpleOnly : Bool) : Q Expr := do
  let old ← Q.of getPos
  match ← Q.of (attempt (parseConstScoped simpleOnly)) with
  | .ok (cls, prop, span) => return .mk (.staticMember cls [prop]) span
  | .error _ =>
    match ← Q.of (attempt (parseFnCallBaseItem simpleOnly)) with
    | .ok e => return e
    | .error _ =>
      match ← Q.attempt (parseBaseVariableQ c r simpleOnly) with
      | .ok e => return e
      | .error e => Q.of (do
        P.setPos old
        P.fail e)

/-- src/parser.rs:485-639 `parse_variable` without a base. -/
def parseVariableQ (c : Prec → Q Expr) (r : Rec) (simpleOnly : Bool) : Q Expr := do
  let e ← parseVariableBaseQ c r simpleOnly
  Q.of (loop (appendixStep r simpleOnly) e)

/-- src/parser.rs:1030-1039: what is left when there is no assignment target. -/
def parseNonVariableQ (c : Prec → Q Expr) (r : Rec) (err : PErr) : Q Expr := do
  match ← Q.of (eat .ParenthesesOpen) with
  | some t =>
    let e ← c .None
    let p ← Q.of (expect .ParenthesesClose)
    return .mk e.kind (mkSpan t.span.start p.span.stop)
  | none => Q.of (do
    match ← attempt (parseScalar r) with
    | .ok e => return e
    | .error e2 => deepestUnpack (deepest (deepest none err) e2))

/-- src/parser.rs:956-1039: variables, assignments, parentheses, scalars. -/
def parseVariableOrScalarQ (c : Prec → Q Expr) (r : Rec) : Q Expr := do
  match ← Q.attempt (parseVariableQ c r false) with
  | .ok e => Q.of (parseAssign r e)
  | .error err =>
    match ← Q.of (eat .List) with
    | some t => Q.of (do
      let target ← parseListTarget r t
      parseAssign r target)
    | none => parseNonVariableQ c r err

/-- src/parser.rs:852-1040 `parse_other_expression`. -/
def parseOtherExpressionQ (c : Prec → Q Expr) (r : Rec) : Q Expr := do
  match ← Q.of peek with
  | some ⟨.k k, sp⟩ =>
    let p ← Q.of getPos
    if k = .New then Q.of (do
      P.setPos (p + 1)
      parseNew r ⟨.k k, sp⟩)
    else if k = .Clone then Q.of (do
      P.setPos (p + 1)
      let e ← r.expr .None
      return .mk (.clone e) sp)
    else if k = .Exit then Q.of (do
      P.setPos (p + 1)
      parseExit r ⟨.k k, sp⟩)
    else if k = .Yield then Q.of (do
      P.setPos (p + 1)
      parseYield r ⟨.k k, sp⟩)
    else if k = .Function then Q.of (do
      P.setPos (p + 1)
      parseClosure r sp)
    else
      match parseInternal r k sp with
      | some m => Q.of (do
        P.setPos (p + 1)
        m)
      | none => parseVariableOrScalarQ c r
  | _ => parseVariableOrScalarQ c r

/-- src/parser.rs:655-665 `parse_postfix_expression`. -/
def parsePostfixExpressionQ (c : Prec → Q Expr) (r : Rec) : Q Expr := do
  let e ← parseOtherExpressionQ c r
  Q.of (do
    match ← eat .Increment with
    | some t => return .mk (.unary .PostInc e) (mkSpan e.span.start t.span.stop)
    | none =>
      match ← eat .Decrement with
      | some t => return .mk (.unary .PostDec e) (mkSpan e.span.start t.span.stop)
      | none => return e)

/-- src/parser.rs:280-316: the operand in front of the infix operators. -/
def parseOperandQ (c : Prec → Q Expr) (r : Rec) : Q Expr := do
  match ← Q.of peek with
  | none => Q.of (errHere [])
  | some ⟨tok, sp⟩ =>
    match tok.kw?.bind Kw.prefixOp with
    | some op =>
      let p ← Q.of getPos
      Q.of (P.setPos (p + 1))
      let e ← c .Unary
      return .mk (.unary op e) (mkSpan sp.start e.span.stop)
    | none => parsePostfixExpressionQ c r

/-- src/parser.rs:398-410: the rest of an ordinary binary operation. -/
def parseBinaryRestQ (c : Prec → Q Expr) (left : Expr) (k : Kw) (prec : Prec) : Q Expr :=
  match k.binaryOp with
  | none => Q.of (abort .unwrap)
  | some op =>
    match k.associativity with
    | none => Q.of (abort .unimplemented)
    | some assoc =>
      let np : Option Prec :=
        match assoc with
        | .right => Prec.fromNat? (prec.toNat - 1)
        | .left => some prec
      match np with
      | none => Q.of (abort .unreachable)
      | some np => do
        let right ← c np
        return .mk (.binary op left right) (mkSpan left.span.start right.span.stop)

/-- src/parser.rs:318-411 `parse_binary_expression`; the operands of `?:` and `instanceof` are not counted. -/
def parseBinaryExpressionQ (c : Prec → Q Expr) (r : Rec) (left : Expr) (prec : Prec) : Q (Option Expr) := do
  let t ← Q.of peekTok
  match t.bind Token.kw? with
  | none => return none
  | some k =>
    match k.precedence with
    | none => return none
    | some np =>
      if prec.toNat ≥ np.toNat then return none
      else
        let p ← Q.of getPos
        Q.of (P.setPos (p + 1))
        let e ← (if k = .QuestionMark then Q.of (parseTernary r left np)
          else if k = .InstanceOf then Q.of (parseInstanceOf r left)
          else parseBinaryRestQ c left k np)
        return some e

/-- src/parser.rs:280-316 `parse_unary_expression`, which is all of `parse_expression` (641-644). -/
def parseExpressionQ (c : Prec → Q Expr) (r : Rec) (prec : Prec) : Q Expr := do
  let left ← parseOperandQ c r
  Q.loop (fun (left : Expr) => do
    match ← Q.attempt (parseBinaryExpressionQ c r left prec) with
    | .ok (some l) => return .inl l
    | .ok none => return .inr left
    | .error _ => return .inr left) left

/-- `parse_expression` with the counter: every call counts one, plus the calls made on the way. -/
def exprQ : Nat → Prec → Q Expr
  | 0 => fun _ => Q.of noFuel
  | n + 1 => fun prec => Q.call (parseExpressionQ (exprQ n) (recN n) prec)

/-- src/parser.rs:1646-1657: an expression statement. -/
def parseExprStmtQ (c : Prec → Q Expr) (store : Option PErr) : Q Stmt := do
  match ← Q.attempt (c .None) with
  | .error e => Q.of (deepestUnpack (deepest store e))
  | .ok e =>
    let p ← Q.of (expect .SemiColon)
    return .mk (.expr e) (mkSpan e.span.start p.span.stop)

/-- src/parser.rs:1617-1657: class-like declarations, simple statements, expression statements. -/
def parseOtherStmtQ (c : Prec → Q Expr) (r : Rec) (store : Option PErr) : Q Stmt := do
  match ← Q.of (attempt (parseOoDeclaration r)) with
  | .ok s => return s
  | .error e =>
    let store := deepest store e
    match ← Q.of peek with
    | none => Q.of (errHere [])
    | some t =>
      match simpleStmt r t with
      | some m => Q.of (do
        let p ← getPos
        P.setPos (p + 1)
        let k ← m
        let _ ← expect .SemiColon
        let stop ← lastEnd
        return .mk k (mkSpan t.span.start stop))
      | none =>
        let p ← Q.of getPos
        parseExprStmtQ c (deepest store ⟨[], p⟩)

/-- The tokens with which `parse_statement` (src/parser.rs:1399-1616) does not go on to the other statements at once. -/
def heads : List Kw := [.SemiColon, .CurlyBracesOpen, .Try, .Unset, .Foreach, .For, .Switch, .If, .While, .Do, .Static, .Global,
  .Function]

/-- src/parser.rs:1399-1658 `parse_statement`; the statements with a token of their own are not counted. -/
def parseStatementQ (c : Prec → Q Expr) (r : Rec) : Q Stmt := do
  match ← Q.of peek with
  | some ⟨.k k, _⟩ => if k ∈ heads then Q.of (parseStatement r) else parseOtherStmtQ c r none
  | _ => parseOtherStmtQ c r none

/-- src/parser.rs:1808-1838 `parse_top_statement`. -/
def parseTopStatementQ (c : Prec → Q Expr) (r : Rec) : Q Stmt := do
  match ← Q.of (eat .Namespace) with
  | some t => Q.of (do
    let (name, _) ← parseNamespaceName
    let c ← expect .SemiColon
    return .mk (.decl (.namespace name)) (mkSpan t.span.start c.span.start))
  | none =>
    match ← Q.of (eat .Use) with
    | some t => Q.of (parseTopUse t)
    | none => parseStatementQ c r

/-- src/parser.rs:1840-1847 `parse_top_statement_list`. -/
def parseTopStatementListQ (c : Prec → Q Expr) (r : Rec) : Q (List Stmt) := do
  let n ← Q.of tokCount
  let last ← Q.of (subP n 1)
  Q.loop (fun (stmts : List Stmt) => do
    let p ← Q.of getPos
    if p ≤ last then
      let s ← parseTopStatementQ c r
      return .inl (stmts ++ [s])
    else return .inr stmts) []

/-- The calls of `parse_expression` that `parse_tokens` (src/parser.rs:1849-1899) makes, as far as they are counted. -/
def exprCalls (n : Nat) (toks : List TokSpan) : Nat :=
  (parseTopStatementListQ (exprQ n) (recN n) (stripTokens toks) 0).2

end Pico
