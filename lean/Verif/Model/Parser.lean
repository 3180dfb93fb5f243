import Verif.Model.Ast
/-!
# Parser (src/parser.rs)

One Lean definition per Rust function. `parse_expression` and `parse_statement` are mutually recursive
through every other function; the model passes them as an argument `r : Rec` ("open recursion") and ties
the knot with fuel in `recN`. All `loop`s go through the combinator `loop`, whose iteration budget is the
number of tokens plus two (every iteration consumes a token; that the budget is enough is proved).
-/
namespace Pico

/-- src/parser.rs:23-31 `ParserError`, as built by `ParserError::new` (`message` is always `None`; the
`syntax` field is only set in `parse_str`, see `Verif.Model.Api`). -/
structure PErr where
  tokens : List Token
  pos : Nat
  deriving DecidableEq, Repr

/-- Outcome of a parser method: `Ok`/`Err` with the token position left behind, abort, or out of fuel. -/
inductive PR (α : Type)
  | ok (a : α) (pos : Nat)
  | err (e : PErr) (pos : Nat)
  | panic (p : Panic)
  | oof

/-- A method of `Parser` taking `&mut self`: a function of the tokens and the position. -/
abbrev P (α : Type) := List TokSpan → Nat → PR α

namespace P

/-- Returning a value. -/
def ret {α : Type} (a : α) : P α := fun _ pos => .ok a pos

/-- Sequencing; errors propagate as with `try!`. -/
def bnd {α β : Type} (m : P α) (f : α → P β) : P β := fun toks pos =>
  match m toks pos with
  | .ok a pos' => f a toks pos'
  | .err e pos' => .err e pos'
  | .panic p => .panic p
  | .oof => .oof

instance : Monad P where
  pure := ret
  bind := bnd

/-- `return Err(e)`. -/
def fail {α : Type} (e : PErr) : P α := fun _ pos => .err e pos

/-- Abort. -/
def abort {α : Type} (p : Panic) : P α := fun _ _ => .panic p

/-- Out of fuel. -/
def noFuel {α : Type} : P α := fun _ _ => .oof

/-- The `Result` of a call as a value; the position stays where the call left it. -/
def attempt {α : Type} (m : P α) : P (Except PErr α) := fun toks pos =>
  match m toks pos with
  | .ok a pos' => .ok (.ok a) pos'
  | .err e pos' => .ok (.error e) pos'
  | .panic p => .panic p
  | .oof => .oof

/-- `self.pos`. -/
def getPos : P Nat := fun _ pos => .ok pos pos

/-- `self.pos = p`. -/
def setPos (p : Nat) : P Unit := fun _ _ => .ok () p

/-- src/parser.rs:110-112 `next_token`. -/
def peek : P (Option TokSpan) := fun toks pos => .ok toks[pos]? pos

/-- `self.next_token().map(|x| x.0)`. -/
def peekTok : P (Option Token) := fun toks pos => .ok (toks[pos]?.map TokSpan.tok) pos

/-- `self.tokens.len()`. -/
def tokCount : P Nat := fun toks pos => .ok toks.length pos

/-- `Err(ParserError::new(tokens, self.pos))`. -/
def errHere {α : Type} (tokens : List Token) : P α := fun _ pos => .err ⟨tokens, pos⟩ pos

/-- src/parser.rs:247-258 `if_lookahead!` for a token without payload. -/
def eat (k : Kw) : P (Option TokSpan) := fun toks pos =>
  match toks[pos]? with
  | some ts => if ts.tok = .k k then .ok (some ts) (pos + 1) else .ok none pos
  | none => .ok none pos

/-- `if_lookahead!` used as a boolean. -/
def eats (k : Kw) : P Bool := do
  let t ← eat k
  return t.isSome

/-- Is the next token `k`? (`if let Some(&TokenSpan(Token::k, _)) = self.next_token()`) -/
def nextIs (k : Kw) : P Bool := fun toks pos => .ok (toks[pos]?.map TokSpan.tok == some (.k k)) pos

/-- src/parser.rs:266-275 `if_lookahead_expect!` for a token without payload. -/
def expect (k : Kw) : P TokSpan := do
  match ← eat k with
  | some ts => return ts
  | none => errHere [.k k]

/-- `if_lookahead!(self, Token::String(_), ..)`. -/
def eatString : P (Option (Text × Span)) := fun toks pos =>
  match toks[pos]? with
  | some ⟨.string s, sp⟩ => .ok (some (s, sp)) (pos + 1)
  | _ => .ok none pos

/-- `if_lookahead!(self, Token::Variable(_), ..)`. -/
def eatVariable : P (Option (Text × Span)) := fun toks pos =>
  match toks[pos]? with
  | some ⟨.variable s, sp⟩ => .ok (some (s, sp)) (pos + 1)
  | _ => .ok none pos

/-- `if_lookahead!(self, Token::ConstantEncapsedString(_), ..)`. -/
def eatEncaps : P (Option (Text × Span)) := fun toks pos =>
  match toks[pos]? with
  | some ⟨.encaps s, sp⟩ => .ok (some (s, sp)) (pos + 1)
  | _ => .ok none pos

/-- `if_lookahead_expect!(self, Token::String(_), ..)`. -/
def expectString : P (Text × Span) := do
  match ← eatString with
  | some x => return x
  | none => errHere [.string []]

/-- `if_lookahead_expect!(self, Token::Variable(_), ..)`. -/
def expectVariable : P (Text × Span) := do
  match ← eatVariable with
  | some x => return x
  | none => errHere [.variable []]

/-- `self.tokens[self.pos - 1 - n]`. -/
def tokBack (n : Nat) : P TokSpan := fun toks pos =>
  if pos < n + 1 then .panic .subOverflow
  else
    match toks[pos - 1 - n]? with
    | some ts => .ok ts pos
    | none => .panic .index

/-- `self.tokens[self.pos - 1].1.end`. -/
def lastEnd : P Nat := do
  let ts ← tokBack 0
  return ts.span.stop

/-- Checked subtraction of unsigned numbers. -/
def subP (a b : Nat) : P Nat := if b ≤ a then ret (a - b) else abort .subOverflow

/-- `loop { .. }` with an explicit state: `.inl` continues, `.inr` breaks. -/
def loopN {σ α : Type} (step : σ → P (σ ⊕ α)) : Nat → σ → P α
  | 0, _ => noFuel
  | n + 1, s => do
    match ← step s with
    | .inl s' => loopN step n s'
    | .inr a => return a

/-- A loop with the iteration budget `tokens.len() + 2`. -/
def loop {σ α : Type} (step : σ → P (σ ⊕ α)) (s : σ) : P α := fun toks pos =>
  loopN step (toks.length + 2) s toks pos

end P

open P

/-- src/parser.rs:121-141 `Precedence`. -/
inductive Prec
  | None | LogicalIncOr2 | LogicalExcOr2 | LogicalAnd2 | Conditional | LogicalIncOr1 | LogicalAnd1
  | BitwiseIncOr | BitwiseExcOr | BitwiseAnd | Equality | Relational | Shift | Add | Mul | Pow
  | InstanceOf | Unary
  deriving DecidableEq, Repr

/-- `precedence as usize`. -/
def Prec.toNat : Prec → Nat
  | .None => 0 | .LogicalIncOr2 => 1 | .LogicalExcOr2 => 2 | .LogicalAnd2 => 3 | .Conditional => 4
  | .LogicalIncOr1 => 5 | .LogicalAnd1 => 6 | .BitwiseIncOr => 7 | .BitwiseExcOr => 8
  | .BitwiseAnd => 9 | .Equality => 10 | .Relational => 11 | .Shift => 12 | .Add => 13 | .Mul => 14
  | .Pow => 15 | .InstanceOf => 16 | .Unary => 17

/-- src/parser.rs:143-173 `from_usize`; `none` is `unreachable!()` (`InstanceOf` is not in its list). -/
def Prec.fromNat? : Nat → Option Prec
  | 0 => some .None | 1 => some .LogicalIncOr2 | 2 => some .LogicalExcOr2 | 3 => some .LogicalAnd2
  | 4 => some .Conditional | 5 => some .LogicalIncOr1 | 6 => some .LogicalAnd1
  | 7 => some .BitwiseIncOr | 8 => some .BitwiseExcOr | 9 => some .BitwiseAnd | 10 => some .Equality
  | 11 => some .Relational | 12 => some .Shift | 13 => some .Add | 14 => some .Mul | 15 => some .Pow
  | 17 => some .Unary
  | _ => none

/-- src/parser.rs:176-199 `Token::precedence`. -/
def Kw.precedence : Kw → Option Prec
  | .LogicalOr => some .LogicalIncOr2
  | .LogicalXor => some .LogicalExcOr2
  | .LogicalAnd => some .LogicalAnd2
  | .BoolOr => some .LogicalIncOr1
  | .BoolAnd => some .LogicalAnd1
  | .BwOr => some .BitwiseIncOr
  | .BwXor => some .BitwiseExcOr
  | .Ampersand => some .BitwiseAnd
  | .IsIdentical | .IsNotIdentical | .IsEqual | .IsNotEqual => some .Equality
  | .SpaceShip | .Lt | .Gt | .IsSmallerOrEqual | .IsGreaterOrEqual => some .Relational
  | .Sl | .Sr => some .Shift
  | .Plus | .Minus | .Dot => some .Add
  | .Mul | .Div | .Mod => some .Mul
  | .Pow => some .Pow
  | .QuestionMark => some .Conditional
  | .InstanceOf => some .InstanceOf
  | _ => none

/-- src/parser.rs:115-118 `Associativity`. -/
inductive Assoc
  | left | right
  deriving DecidableEq, Repr

/-- src/parser.rs:201-212 `Token::associativity`; `none` is `unimplemented!()`. -/
def Kw.associativity : Kw → Option Assoc
  | .LogicalOr | .LogicalXor | .LogicalAnd | .BoolOr | .BoolAnd | .BwOr | .BwXor | .Ampersand
  | .IsIdentical | .IsNotIdentical | .IsEqual | .IsNotEqual | .SpaceShip | .Lt | .Gt
  | .IsSmallerOrEqual | .IsGreaterOrEqual | .Sl | .Sr | .Plus | .Minus | .Dot | .Mul | .Div
  | .Mod => some .left
  | .Pow => some .right
  | _ => none

/-- src/parser.rs:325-353: the operator of a token. -/
def Kw.binaryOp : Kw → Option Op
  | .LogicalOr => some .Or
  | .LogicalXor => some .BitwiseExclOr
  | .LogicalAnd => some .And
  | .BoolOr => some .Or
  | .BoolAnd => some .And
  | .BwOr => some .BitwiseInclOr
  | .BwXor => some .BitwiseExclOr
  | .Ampersand => some .BitwiseAnd
  | .IsIdentical => some .Identical
  | .IsNotIdentical => some .NotIdentical
  | .IsEqual => some .Eq
  | .IsNotEqual => some .Neq
  | .SpaceShip => some .Spaceship
  | .Lt => some .Lt
  | .Gt => some .Gt
  | .IsSmallerOrEqual => some .Le
  | .IsGreaterOrEqual => some .Ge
  | .Sl => some .Sl
  | .Sr => some .Sr
  | .Plus => some .Add
  | .Minus => some .Sub
  | .Dot => some .Concat
  | .Mul => some .Mul
  | .Div => some .Div
  | .Mod => some .Mod
  | .Pow => some .Pow
  | _ => none

/-- src/parser.rs:287-298: the prefix operators. -/
def Kw.prefixOp : Kw → Option UnaryOp
  | .Plus => some .Positive
  | .Minus => some .Negative
  | .BwNot => some .BitwiseNot
  | .BoolNot => some .Not
  | .Silence => some .SilenceErrors
  | .Increment => some .PreInc
  | .Decrement => some .PreDec
  | _ => none

/-- src/parser.rs:987-1003: the assignment operators. -/
def Kw.assignOp : Kw → Option Op
  | .Equal => some .Eq
  | .PlusEqual => some .Add
  | .MinusEqual => some .Sub
  | .MulEqual => some .Mul
  | .PowEqual => some .Pow
  | .DivEqual => some .Div
  | .ConcatEqual => some .Concat
  | .ModEqual => some .Mod
  | .AndEqual => some .And
  | .XorEqual => some .BitwiseExclOr
  | .SlEqual => some .Sl
  | .SrEqual => some .Sr
  | _ => none

/-- The keyword of a token, if it has no payload. -/
def Token.kw? : Token → Option Kw
  | .k kw => some kw
  | _ => none

/-- The two functions through which the parser recurses: `parse_expression` and `parse_statement`. -/
structure Rec where
  expr : Prec → P Expr
  stmt : P Stmt

/-- src/parser.rs:223-237 `deepest!`: remember the error that is furthest in the input. -/
def deepest (store : Option PErr) (e : PErr) : Option PErr :=
  match store with
  | some s => if e.pos > s.pos then some e else some s
  | none => some e

/-- src/parser.rs:239-244 `deepest_unpack!`. -/
def deepestUnpack {α : Type} (store : Option PErr) : P α :=
  match store with
  | some e => P.fail e
  | none => errHere []

/-- src/parser.rs:646-652 `parse_opt_expression`. -/
def parseOptExpression (r : Rec) (prec : Prec) : P (Option Expr) := do
  match ← attempt (r.expr prec) with
  | .ok e => return some e
  | .error _ => return none

/-- src/parser.rs:413-424 `parse_simple_variable`. -/
def parseSimpleVariable : P (Variable × Span) := do
  match ← eat .Dollar with
  | some _ => abort .unimplemented
  | none =>
    match ← eatVariable with
    | some (n, sp) => return (.name n, sp)
    | none => errHere [.k .Dollar, .variable []]

/-- src/parser.rs:426-429 `parse_simple_variable_expr`. -/
def parseSimpleVariableExpr : P Expr := do
  let (v, sp) ← parseSimpleVariable
  return .mk (.var v) sp

/-- src/parser.rs:432-439 `parse_expression_list`. -/
def parseExpressionList (r : Rec) : P (List Expr) :=
  loop (fun (args : List Expr) => do
    let e ← r.expr .None
    if ← eats .Comma then return .inl (args ++ [e]) else return .inr (args ++ [e])) []

/-- src/parser.rs:441-462 `parse_argument_list`. -/
def parseArgumentList (r : Rec) : P (List Expr) := do
  let _ ← expect .ParenthesesOpen
  if ← eats .ParenthesesClose then return []
  else
    let args ← loop (fun (args : List Expr) => do
      let start ← eat .Ellipsis
      let arg ← r.expr .None
      let arg : Expr :=
        match start with
        | some t => .mk (.unpack arg) { arg.span with start := t.span.start }
        | none => arg
      if ← eats .Comma then return .inl (args ++ [arg]) else return .inr (args ++ [arg])) []
    let _ ← expect .ParenthesesClose
    return args

/-- A path with no namespace, src/ast.rs:27-33 `Path::identifier`. -/
def Path.identifier (absolute : Bool) (name : Text) : Path := ⟨absolute, none, name⟩

/-- src/parser.rs:464-481 `parse_property_name`. -/
def parsePropertyName (r : Rec) : P Expr := do
  let old ← getPos
  match ← attempt parseSimpleVariableExpr with
  | .ok e => return e
  | .error _ =>
    P.setPos old
    match ← eatString with
    | some (s, sp) => return .mk (.path (Path.identifier false s)) sp
    | none =>
      match ← eat .CurlyBracesOpen with
      | some _ =>
        let e ← r.expr .None
        let _ ← expect .CurlyBracesClose
        return e
      | none => errHere []

/-- src/parser.rs:1042-1076 `parse_namespace_name`: the loop collecting the fragments. -/
def namespaceFragments : P (List (Text × Span)) :=
  loop (fun (frags : List (Text × Span)) => do
    match ← eatString with
    | none => errHere [.string []]
    | some f =>
      let frags := frags ++ [f]
      let old ← getPos
      match ← eat .NsSeparator with
      | none => return .inr frags
      | some _ =>
        match ← eatString with
        | some _ =>
          let p ← getPos
          P.setPos (p - 1)
          return .inl frags
        | none =>
          P.setPos old
          return .inr frags) []

/-- Join with backslashes, src/parser.rs:1065-1067. -/
def joinNs : List Text → Text
  | [] => []
  | [x] => x
  | x :: xs => x ++ ['\\'] ++ joinNs xs

/-- src/parser.rs:1042-1076 `parse_namespace_name`. -/
def parseNamespaceName : P (Path × Span) := do
  let frags ← namespaceFragments
  match frags.head?, frags.getLast? with
  | some first, some last =>
    let span : Span := mkSpan first.2.start last.2.stop
    let init := frags.dropLast.map Prod.fst
    let path : Path :=
      match init with
      | [] => Path.identifier false last.1
      | _ => ⟨false, some (joinNs init), last.1⟩
    return (path, span)
  | _, _ => abort .unreachable

/-- src/parser.rs:1078-1093 `parse_name`. -/
def parseName : P (Path × Span) := do
  let abs ← eats .NsSeparator
  let (path, span) ← parseNamespaceName
  if abs then
    let s ← subP span.start 1
    return ({ path with isAbsolute := true }, { span with start := s })
  else return (path, span)

/-- src/parser.rs:1096-1099 `parse_name_as_expr`. -/
def parseNameAsExpr : P Expr := do
  let (p, sp) ← parseName
  return .mk (.path p) sp

/-- src/parser.rs:1101-1108 `parse_name_list`. -/
def parseNameList : P (List Path) :=
  loop (fun (names : List Path) => do
    let (p, _) ← parseName
    if ← eats .Comma then return .inl (names ++ [p]) else return .inr (names ++ [p])) []

/-- src/parser.rs:1110-1115 `parse_class_name`. -/
def parseClassName : P Expr := do
  match ← eat .Static with
  | some t => return .mk (.path (Path.identifier false c!"static")) t.span
  | none => parseNameAsExpr

/-- src/parser.rs:1124-1135 `parse_identifier`. -/
def parseIdentifier : P (Text × Span) := do
  match ← peek with
  | some ⟨.string s, sp⟩ =>
    let p ← getPos
    P.setPos (p + 1)
    return (s, sp)
  | some ⟨.k k, sp⟩ =>
    if k.isReservedNonModifier then
      let p ← getPos
      P.setPos (p + 1)
      match k.repr? with
      | some s => return (s, sp)
      | none => abort .unimplemented
    else errHere [.string []]
  | _ => errHere [.string []]

/-- src/parser.rs:1138-1141 `parse_identifier_as_expr`. -/
def parseIdentifierAsExpr : P Expr := do
  let (s, sp) ← parseIdentifier
  return .mk (.path (Path.identifier false s)) sp

/-- src/parser.rs:1152-1157: the builtin constants, compared without case. Only ASCII letters can lower
to the letters of these words. -/
def builtinConst (ident : Text) : Option Const :=
  let l := ident.map lowerAscii
  if l == c!"true" then some .True
  else if l == c!"false" then some .False
  else if l == c!"null" then some .Null
  else none

/-- src/parser.rs:1147-1163: resolve `true`, `false`, `null`. -/
def resolveConst (e : Expr) : Expr :=
  match e with
  | .mk (.path p) sp =>
    if p.ns.isNone then
      match builtinConst p.ident with
      | some c => .mk (.const c) sp
      | none => e
    else e
  | _ => e

/-- src/parser.rs:1143-1174 `parse_constant`. -/
def parseConstant : P Expr := do
  let name ← parseClassName
  let name := resolveConst name
  match ← eat .ScopeOp with
  | some _ =>
    let ident ← parseIdentifierAsExpr
    return .mk (.staticMember name [ident]) (mkSpan name.span.start ident.span.stop)
  | none => return name

/-- src/parser.rs:1338-1349 `parse_array_pair_list`. -/
def parseArrayPairList (r : Rec) : P (List (Option Expr × Expr)) :=
  loop (fun (pairs : List (Option Expr × Expr)) => do
    match ← attempt (r.expr .None) with
    | .error _ => return .inr pairs
    | .ok e =>
      let pair : Option Expr × Expr ← (do
        if ← eats .DoubleArrow then
          let v ← r.expr .None
          return (some e, v)
        else return (none, e))
      if ← eats .Comma then return .inl (pairs ++ [pair]) else return .inr (pairs ++ [pair])) []

/-- src/parser.rs:1270-1291 `parse_dereferencable_scalar`. -/
def parseDereferencableScalar (r : Rec) : P Expr := do
  match ← eat .Array with
  | some t =>
    let _ ← expect .ParenthesesOpen
    let pairs ← parseArrayPairList r
    let c ← expect .ParenthesesClose
    return .mk (.array pairs) (mkSpan t.span.start c.span.stop)
  | none =>
    match ← eat .SquareBracketOpen with
    | some t =>
      let pairs ← parseArrayPairList r
      let c ← expect .SquareBracketClose
      return .mk (.array pairs) (mkSpan t.span.start c.span.stop)
    | none =>
      match ← eatEncaps with
      | some (s, sp) => return .mk (.str s) sp
      | none => errHere [.k .Array, .k .SquareBracketOpen, .encaps []]

/-- src/parser.rs:490-508 `parse_base_variable`. -/
def parseBaseVariable (r : Rec) (simpleOnly : Bool) : P Expr := do
  let paren : Option TokSpan ← (if simpleOnly then return none else eat .ParenthesesOpen)
  match paren with
  | some t =>
    let e ← r.expr .None
    let c ← expect .ParenthesesClose
    return .mk e.kind (mkSpan t.span.start c.span.stop)
  | none =>
    match ← attempt parseSimpleVariableExpr with
    | .ok e => return e
    | .error e1 =>
      let store := deepest none e1
      if simpleOnly then deepestUnpack store
      else
        match ← attempt (parseDereferencableScalar r) with
        | .ok e => return e
        | .error e2 => deepestUnpack (deepest store e2)

/-- src/parser.rs:517-536, after `parse_class_name` and `::` have been recognised. `none` falls through to
the end of the function. -/
def constScopedTail (simpleOnly : Bool) (cls : Expr) : P (Option (Expr × Expr × Span)) := do
  match ← attempt parseSimpleVariableExpr with
  | .ok v => return some (cls, v, mkSpan cls.span.start v.span.stop)
  | .error _ =>
    if simpleOnly then return none
    else
      let ident ← parseIdentifierAsExpr
      if ← nextIs .ParenthesesOpen then
        return some (cls, ident, mkSpan cls.span.start ident.span.stop)
      else return none

/-- src/parser.rs:514-536 `parse_const_scoped`. -/
def parseConstScoped (simpleOnly : Bool) : P (Expr × Expr × Span) := do
  let old ← getPos
  let res : Option (Expr × Expr × Span) ← (do
    match ← attempt parseClassName with
    | .error _ => return none
    | .ok cls =>
      if ← eats .ScopeOp then constScopedTail simpleOnly cls else return none)
  match res with
  | some x => return x
  | none =>
    P.setPos old
    errHere []

/-- src/parser.rs:539-551 `parse_fn_call_base_item`. -/
def parseFnCallBaseItem (simpleOnly : Bool) : P Expr := do
  if simpleOnly then errHere []
  else
    let old ← getPos
    let res : Option Expr ← (do
      match ← attempt parseNameAsExpr with
      | .ok name => if ← nextIs .ParenthesesOpen then return some name else return none
      | .error _ => return none)
    match res with
    | some e => return e
    | none =>
      P.setPos old
      errHere []

/-- src/parser.rs:553-570: the base item of `parse_variable(simple_only, None)`. -/
def parseVariableBase (r : Rec) (simpleOnly : Bool) : P Expr := do
  let old ← getPos
  match ← attempt (parseConstScoped simpleOnly) with
  | .ok (cls, prop, span) => return .mk (.staticMember cls [prop]) span
  | .error _ =>
    match ← attempt (parseFnCallBaseItem simpleOnly) with
    | .ok e => return e
    | .error _ =>
      match ← attempt (parseBaseVariable r simpleOnly) with
      | .ok e => return e
      | .error e =>
        P.setPos old
        P.fail e

/-- src/parser.rs:580-586: add an index to an `ArrayIdx`, or start one. -/
def addArrayIdx (e : Expr) (idx : Option Expr) (stop : Nat) : Expr :=
  match e with
  | .mk (.arrayIdx b idxs) sp => .mk (.arrayIdx b (idxs ++ [idx])) { sp with stop := stop }
  | _ => .mk (.arrayIdx e [idx]) (mkSpan e.span.start stop)

/-- src/parser.rs:593-603: add a member to an `ObjMember`, or start one. -/
def addObjMember (e : Expr) (p : Expr) (stop : Nat) : Expr :=
  match e with
  | .mk (.objMember b ms) sp => .mk (.objMember b (ms ++ [p])) { sp with stop := stop }
  | _ => .mk (.objMember e [p]) (mkSpan e.span.start stop)

/-- src/parser.rs:608-618: add a member to a `StaticMember`, or start one. -/
def addStaticMember (e : Expr) (p : Expr) (stop : Nat) : Expr :=
  match e with
  | .mk (.staticMember b ms) sp => .mk (.staticMember b (ms ++ [p])) { sp with stop := stop }
  | _ => .mk (.staticMember e [p]) (mkSpan e.span.start stop)

/-- src/parser.rs:576-589: `[` index `]`. `none`: no index was added (the position may have moved). -/
def appendixIndex (r : Rec) (e : Expr) : P (Option Expr) := do
  if ← eats .SquareBracketOpen then
    let idx ← parseOptExpression r .None
    if ← eats .SquareBracketClose then
      let stop ← lastEnd
      return some (addArrayIdx e idx stop)
    else return none
  else return none

/-- src/parser.rs:590-604: `->` property. `none`: nothing was added (the position may have moved). -/
def appendixMember (r : Rec) (e : Expr) : P (Option Expr) := do
  if ← eats .ObjectOp then
    match ← attempt (parsePropertyName r) with
    | .error _ => return none
    | .ok p =>
      let stop ← lastEnd
      return some (addObjMember e p stop)
  else return none

/-- src/parser.rs:605-619: `::` variable. `none`: nothing was added (the position may have moved). -/
def appendixStatic (e : Expr) : P (Option Expr) := do
  if ← eats .ScopeOp then
    match ← attempt parseSimpleVariableExpr with
    | .error _ => return none
    | .ok p =>
      let stop ← lastEnd
      return some (addStaticMember e p stop)
  else return none

/-- src/parser.rs:620-628: call arguments. -/
def appendixCall (r : Rec) (simpleOnly : Bool) (e : Expr) : P (Option Expr) := do
  if simpleOnly then return none
  else if ← nextIs .ParenthesesOpen then
    let args ← parseArgumentList r
    let stop ← lastEnd
    return some (.mk (.call e args) (mkSpan e.span.start stop))
  else return none

/-- One round of the loop src/parser.rs:574-630. -/
def appendixStep (r : Rec) (simpleOnly : Bool) (e : Expr) : P (Expr ⊕ Expr) := do
  match ← appendixIndex r e with
  | some e' => return .inl e'
  | none =>
    match ← appendixMember r e with
    | some e' => return .inl e'
    | none =>
      match ← appendixStatic e with
      | some e' => return .inl e'
      | none =>
        match ← appendixCall r simpleOnly e with
        | some e' => return .inl e'
        | none => return .inr e

/-- src/parser.rs:485-639 `parse_variable`. The `requires_appendix` flag is `false` in every call, so the
filter at 632-636 is dead. -/
def parseVariable (r : Rec) (simpleOnly : Bool) (base : Option Expr) : P Expr := do
  let e ← (match base with
    | some e => return e
    | none => parseVariableBase r simpleOnly)
  loop (appendixStep r simpleOnly) e

/-- src/parser.rs:1117-1122 `parse_class_name_reference`. -/
def parseClassNameReference (r : Rec) : P Expr := do
  match ← attempt parseClassName with
  | .ok e => return e
  | .error _ => parseVariable r true none

/-- State of the loop of `parse_encaps_list` (src/parser.rs:1177-1180). -/
structure Encaps where
  str : Text
  parts : List Expr
  startPos : Option Nat
  endPos : Nat

/-- src/parser.rs:1199-1202 and repetitions: push the pending text as a part. -/
def Encaps.flush (s : Encaps) : P Encaps :=
  if s.str.isEmpty then P.ret s
  else
    match s.startPos with
    | none => abort .unwrap
    | some st => P.ret { s with parts := s.parts ++ [.mk (.str s.str) (mkSpan st s.endPos)], str := [] }

/-- src/parser.rs:1203-1215: the inside of `${ .. }`. -/
def encapsDollar (r : Rec) (s : Encaps) (t : TokSpan) : P Encaps := do
  match ← attempt parseIdentifier with
  | .ok (name, span) =>
    let e ← parseVariable r false (some (.mk (.var (.name name)) span))
    let c ← expect .CurlyBracesClose
    return { s with
      parts := s.parts ++ [.mk e.kind { e.span with start := t.span.start, stop := c.span.stop }] }
  | .error _ =>
    let e ← r.expr .None
    let c ← expect .CurlyBracesClose
    return { s with
      parts := s.parts ++ [.mk (.var (.fetch e)) (mkSpan t.span.start c.span.stop)] }

/-- One round of the loop src/parser.rs:1182-1240. -/
def encapsStep (r : Rec) (s : Encaps) : P (Encaps ⊕ Encaps) := do
  match ← eatEncaps with
  | some (x, sp) =>
    return .inl { s with
      startPos := some (s.startPos.getD sp.start)
      endPos := if s.endPos < sp.stop then sp.stop else s.endPos
      str := s.str ++ x }
  | none =>
    match ← eat .DollarCurlyBracesOpen with
    | some t =>
      let s ← s.flush
      let s ← encapsDollar r s t
      return .inl s
    | none =>
      match ← eat .CurlyBracesOpen with
      | some _ =>
        let s ← s.flush
        let e ← r.expr .None
        let c ← expect .CurlyBracesClose
        return .inl { s with
          startPos := some c.span.stop, endPos := c.span.stop, parts := s.parts ++ [e] }
      | none =>
        match ← attempt (parseVariable r false none) with
        | .ok e =>
          let s ← s.flush
          return .inl { s with
            startPos := some e.span.stop, endPos := e.span.stop, parts := s.parts ++ [e] }
        | .error _ => return .inr s

/-- src/parser.rs:1257-1260: concatenate the parts, right-nested. -/
def concatParts (parts : List Expr) (initial : Expr) : Expr :=
  parts.reverse.foldl (fun acc part =>
    .mk (.binary .Concat part acc) (mkSpan part.span.start acc.span.stop)) initial

/-- src/parser.rs:1176-1268 `parse_encaps_list`. -/
def parseEncapsList (r : Rec) : P Expr := do
  let s ← loop (encapsStep r) ⟨[], [], none, 0⟩
  if s.str.isEmpty then
    match s.parts.getLast? with
    | some last => return concatParts s.parts.dropLast last
    | none =>
      match ← eatEncaps with
      | some _ => abort .unreachable
      | none => errHere [.encaps []]
  else
    match s.startPos with
    | none => abort .unwrap
    | some st => return concatParts s.parts (.mk (.str s.str) (mkSpan st s.endPos))

/-- src/parser.rs:1293-1336 `parse_scalar`. -/
def parseScalar (r : Rec) : P Expr := do
  let t ← peek
  let p ← getPos
  P.setPos (p + 1)
  match t with
  | none => errHere []
  | some ⟨tok, sp⟩ =>
    match tok with
    | .int v => return .mk (.int v) sp
    | .double l => return .mk (.double l) sp
    | .k .MagicLine => return .mk (.const .MagicLine) sp
    | .k .MagicFile => return .mk (.const .MagicFile) sp
    | .k .MagicDir => return .mk (.const .MagicDir) sp
    | .k .MagicTrait => return .mk (.const .MagicTrait) sp
    | .k .MagicMethod => return .mk (.const .MagicMethod) sp
    | .k .MagicFunction => return .mk (.const .MagicFunction) sp
    | .k .MagicClass => return .mk (.const .MagicClass) sp
    | .k .DoubleQuote =>
      match ← eat .DoubleQuote with
      | some c => return .mk (.str []) (mkSpan sp.start c.span.stop)
      | none =>
        let e ← parseEncapsList r
        let c ← expect .DoubleQuote
        return .mk e.kind { e.span with start := sp.start, stop := c.span.stop }
    | .k .HereDocStart =>
      let e ← parseEncapsList r
      let c ← expect .HereDocEnd
      return .mk e.kind { e.span with start := sp.start, stop := c.span.stop }
    | _ =>
      P.setPos p
      match ← attempt (parseDereferencableScalar r) with
      | .ok e => return e
      | .error _ => parseConstant

/-- src/parser.rs:677-717 `parse_parameter_list`: the type hint (681-690). -/
def parseTypeHint : P (Except PErr (Option Ty)) := do
  let nullable ← eats .QuestionMark
  if ← eats .Array then return .ok (some .Array)
  else if ← eats .Callable then return .ok (some .Callable)
  else
    match ← attempt parseName with
    | .ok (p, _) => return .ok (some (.Object (some p)))
    | .error e => if nullable then return .error e else return .ok none

/-- src/parser.rs:703-706: optional default value. -/
def parseDefault (r : Rec) : P (Except PErr (Option Expr)) := do
  if ← eats .Equal then
    match ← attempt (r.expr .None) with
    | .ok e => return .ok (some e)
    | .error e => return .error e
  else return .ok none

/-- src/parser.rs:677-717 `parse_parameter_list`. -/
def parseParameterList (r : Rec) : P (List Param × Option PErr) :=
  loop (fun (params : List Param) => do
    match ← parseTypeHint with
    | .error e => return .inr (params, some e)
    | .ok ty =>
      let isRef ← eats .Ampersand
      let isVariadic ← eats .Ellipsis
      match ← eatVariable with
      | none =>
        let p ← getPos
        return .inr (params, some ⟨[.variable []], p⟩)
      | some (name, _) =>
        match ← parseDefault r with
        | .error e => return .inr (params, some e)
        | .ok d =>
          let params := params ++ [.mk name isRef isVariadic ty d]
          if ← eats .Comma then return .inl params else return .inr (params, none)) []

/-- src/parser.rs:1670-1681 `parse_inner_statement_list`. -/
def parseInnerStatementList (r : Rec) : P (List Stmt × Option PErr) := do
  let n ← tokCount
  let last ← subP n 1
  loop (fun (stmts : List Stmt) => do
    let p ← getPos
    if p ≤ last then
      match ← attempt r.stmt with
      | .ok s => return .inl (stmts ++ [s])
      | .error e => return .inr (stmts, some e)
    else return .inr (stmts, none)) []

/-- `if_lookahead_expect!(.., k, .., if let Some(err) = err { return Err(err) })`, e.g.
src/parser.rs:765-769. -/
def expectOr (k : Kw) (err : Option PErr) : P TokSpan := do
  match ← eat k with
  | some ts => return ts
  | none =>
    match err with
    | some e => P.fail e
    | none => errHere [.k k]

/-- `{` statements `}`, e.g. src/parser.rs:1418-1422. -/
def parseBraced (r : Rec) : P (List Stmt) := do
  let _ ← expect .CurlyBracesOpen
  let (body, err) ← parseInnerStatementList r
  let _ ← expectOr .CurlyBracesClose err
  return body

/-- src/parser.rs:739-755: the `use (..)` clause of a closure. -/
def parseUseVars : P (List (Bool × Text)) := do
  if ← eats .Use then
    let _ ← expect .ParenthesesOpen
    let vars ← loop (fun (vars : List (Bool × Text)) => do
      let isRef ← eats .Ampersand
      let (v, _) ← expectVariable
      if ← eats .Comma then return .inl (vars ++ [(isRef, v)])
      else return .inr (vars ++ [(isRef, v)])) []
    let _ ← expect .ParenthesesClose
    return vars
  else return []

/-- src/parser.rs:719-785 `parse_function_declaration`, from the parameter list on: the declaration and
its end position. -/
def parseFunctionTail (r : Rec) (closure allowAbstract returnsRef : Bool) : P (FnDecl × Nat) := do
  let _ ← expect .ParenthesesOpen
  let (params, perr) ← parseParameterList r
  match ← eat .ParenthesesClose with
  | none =>
    match perr with
    | some e => P.fail e
    | none => abort .unwrap
  | some _ =>
    let usev ← (if closure then parseUseVars else return [])
    let noBody ← (if allowAbstract then eats .SemiColon else return false)
    let body : Option (List Stmt) ← (if noBody then return none else do
      let b ← parseBraced r
      return some b)
    let stop ← lastEnd
    return (.mk params body usev returnsRef, stop)

/-- src/parser.rs:719-785 `parse_function_declaration` with `parse_closure = false`: name, declaration,
span. -/
def parseFunctionNamed (r : Rec) (start : Span) (allowAbstract : Bool) : P (Text × FnDecl × Span) := do
  let returnsRef ← eats .Ampersand
  let (name, _) ← expectString
  let (decl, stop) ← parseFunctionTail r false allowAbstract returnsRef
  return (name, decl, mkSpan start.start stop)

/-- src/parser.rs:719-785 `parse_function_declaration` with `parse_closure = true`, as used at 887-889. -/
def parseClosure (r : Rec) (start : Span) : P Expr := do
  let returnsRef ← eats .Ampersand
  let (decl, stop) ← parseFunctionTail r true false returnsRef
  return .mk (.function decl) (mkSpan start.start stop)

/-- src/parser.rs:903-912: the casts. `CastUnset` is handled separately (`unimplemented!()`). -/
def Kw.castTy : Kw → Option Ty
  | .CastInt => some .Int
  | .CastDouble => some .Double
  | .CastString => some .String
  | .CastArray => some .Array
  | .CastObject => some (.Object none)
  | .CastBool => some .Bool
  | _ => none

/-- src/parser.rs:946-952: `include` and its variants. -/
def Kw.includeTy : Kw → Option IncludeTy
  | .Include => some .Include
  | .IncludeOnce => some .IncludeOnce
  | .Require => some .Require
  | .RequireOnce => some .RequireOnce
  | _ => none

/-- src/parser.rs:856-870: `new`, after the keyword. -/
def parseNew (r : Rec) (t : TokSpan) : P Expr := do
  let x ← parseClassNameReference r
  let args ← (do if ← nextIs .ParenthesesOpen then parseArgumentList r else return [])
  let stop ← lastEnd
  return .mk (.new x args) { t.span with stop := stop }

/-- src/parser.rs:874-881: `exit`, after the keyword. -/
def parseExit (r : Rec) (t : TokSpan) : P Expr := do
  if ← eats .ParenthesesOpen then
    let e ← r.expr .None
    let c ← expect .ParenthesesClose
    return .mk (.exit (some e)) { t.span with stop := c.span.stop }
  else return .mk (.exit none) t.span

/-- src/parser.rs:882-885: `yield`, after the keyword. -/
def parseYield (r : Rec) (t : TokSpan) : P Expr := do
  let e ← parseOptExpression r .None
  let stop ← lastEnd
  return .mk (.yield e) (mkSpan t.span.start stop)

/-- src/parser.rs:919-942: `isset(..)` after the keyword. -/
def parseIsset (r : Rec) (sp : Span) : P Expr := do
  let _ ← expect .ParenthesesOpen
  let args ← parseExpressionList r
  let c ← expect .ParenthesesClose
  return .mk (.isset args) { sp with stop := c.span.stop }

/-- src/parser.rs:919-942: `empty(..)` after the keyword (exactly one argument is read). -/
def parseEmpty (r : Rec) (sp : Span) : P Expr := do
  let _ ← expect .ParenthesesOpen
  let e ← r.expr .None
  let c ← expect .ParenthesesClose
  return .mk (.empty e) { sp with stop := c.span.stop }

/-- src/parser.rs:891-955: casts, `isset`, `empty`, `include`, after the keyword has been consumed. `none`
if `k` is none of them (the caller then has not moved). -/
def parseInternal (r : Rec) (k : Kw) (sp : Span) : Option (P Expr) :=
  if k = .CastUnset then some (abort .unimplemented)
  else if k = .Isset then some (parseIsset r sp)
  else if k = .Empty then some (parseEmpty r sp)
  else
    match k.castTy with
    | some ty => some (do
      let e ← r.expr .Unary
      return .mk (.cast ty e) { sp with stop := e.span.stop })
    | none =>
      match k.includeTy with
      | some ity => some (do
        let e ← r.expr .None
        let stop ← lastEnd
        return .mk (.include ity e) (mkSpan sp.start stop))
      | none => none

/-- src/parser.rs:965-980: `list(..)` as an assignment target, after the keyword. -/
def parseListTarget (r : Rec) (t : TokSpan) : P Expr := do
  let _ ← expect .ParenthesesOpen
  let pairs ← parseArrayPairList r
  let c ← expect .ParenthesesClose
  if ← nextIs .Equal then return .mk (.list pairs) (mkSpan t.span.start c.span.stop)
  else errHere [.k .Equal]

/-- src/parser.rs:1017-1021: the node of an assignment. -/
def assignKind (op : Op) (byRef : Bool) (l r : Expr) : ExprK :=
  match op, byRef with
  | .Eq, false => .assign l r
  | .Eq, true => .assignRef l r
  | op, _ => .compoundAssign l op r

/-- src/parser.rs:982-1028: an assignment after its target, or the target itself. -/
def parseAssign (r : Rec) (target : Expr) : P Expr := do
  let op : Option Op := (← peekTok).bind fun t => t.kw?.bind Kw.assignOp
  match op with
  | none => return target
  | some op =>
    let p ← getPos
    P.setPos (p + 1)
    let byRef ← (if op = .Eq then eats .Ampersand else return false)
    let e ← r.expr .None
    let stop ← lastEnd
    return .mk (assignKind op byRef target e) (mkSpan target.span.start stop)

/-- src/parser.rs:1030-1039: what is left when there is no assignment target. `err` is the error of
`parse_variable`. -/
def parseNonVariable (r : Rec) (err : PErr) : P Expr := do
  match ← eat .ParenthesesOpen with
  | some t =>
    let e ← r.expr .None
    let c ← expect .ParenthesesClose
    return .mk e.kind (mkSpan t.span.start c.span.stop)
  | none =>
    match ← attempt (parseScalar r) with
    | .ok e => return e
    | .error e2 => deepestUnpack (deepest (deepest none err) e2)

/-- src/parser.rs:956-1039: variables, assignments, parentheses, scalars. -/
def parseVariableOrScalar (r : Rec) : P Expr := do
  match ← attempt (parseVariable r false none) with
  | .ok e => parseAssign r e
  | .error err =>
    match ← eat .List with
    | some t =>
      let target ← parseListTarget r t
      parseAssign r target
    | none => parseNonVariable r err

/-- src/parser.rs:852-1040 `parse_other_expression`. -/
def parseOtherExpression (r : Rec) : P Expr := do
  match ← peek with
  | some ⟨.k k, sp⟩ =>
    let p ← getPos
    if k = .New then
      P.setPos (p + 1)
      parseNew r ⟨.k k, sp⟩
    else if k = .Clone then
      P.setPos (p + 1)
      let e ← r.expr .None
      return .mk (.clone e) sp
    else if k = .Exit then
      P.setPos (p + 1)
      parseExit r ⟨.k k, sp⟩
    else if k = .Yield then
      P.setPos (p + 1)
      parseYield r ⟨.k k, sp⟩
    else if k = .Function then
      P.setPos (p + 1)
      parseClosure r sp
    else
      match parseInternal r k sp with
      | some m =>
        P.setPos (p + 1)
        m
      | none => parseVariableOrScalar r
  | _ => parseVariableOrScalar r

/-- src/parser.rs:655-665 `parse_postfix_expression`. -/
def parsePostfixExpression (r : Rec) : P Expr := do
  let e ← parseOtherExpression r
  match ← eat .Increment with
  | some t => return .mk (.unary .PostInc e) (mkSpan e.span.start t.span.stop)
  | none =>
    match ← eat .Decrement with
    | some t => return .mk (.unary .PostDec e) (mkSpan e.span.start t.span.stop)
    | none => return e

/-- Is the expression an `instanceof`? (src/parser.rs:387) -/
def Expr.isInstanceOf : Expr → Bool
  | .mk (.instanceOf _ _) _ => true
  | _ => false

/-- src/parser.rs:371-383: the rest of a ternary after `?`. -/
def parseTernary (r : Rec) (left : Expr) (prec : Prec) : P Expr := do
  let t ← parseOptExpression r prec
  let _ ← expect .Colon
  let e ← r.expr prec
  return .mk (.ternary left t e) (mkSpan left.span.start e.span.stop)

/-- src/parser.rs:385-396: the rest of an `instanceof`. -/
def parseInstanceOf (r : Rec) (left : Expr) : P Expr := do
  if left.isInstanceOf then abort .unreachable
  else
    let right ← parseClassNameReference r
    return .mk (.instanceOf left right) (mkSpan left.span.start right.span.stop)

/-- src/parser.rs:398-410: the rest of an ordinary binary operation. -/
def parseBinaryRest (r : Rec) (left : Expr) (k : Kw) (prec : Prec) : P Expr := do
  match k.binaryOp with
  | none => abort .unwrap
  | some op =>
    match k.associativity with
    | none => abort .unimplemented
    | some assoc =>
      let np : Option Prec :=
        match assoc with
        | .right => Prec.fromNat? (prec.toNat - 1)
        | .left => some prec
      match np with
      | none => abort .unreachable
      | some np =>
        let right ← r.expr np
        return .mk (.binary op left right) (mkSpan left.span.start right.span.stop)

/-- src/parser.rs:318-411 `parse_binary_expression`: `some` is the new left operand (`Ok(true)`), `none`
is `Ok(false)`. -/
def parseBinaryExpression (r : Rec) (left : Expr) (prec : Prec) : P (Option Expr) := do
  let k : Option Kw := (← peekTok).bind Token.kw?
  match k with
  | none => return none
  | some k =>
    match k.precedence with
    | none => return none
    | some np =>
      if prec.toNat ≥ np.toNat then return none
      else
        let p ← getPos
        P.setPos (p + 1)
        let e ← (if k = .QuestionMark then parseTernary r left np
          else if k = .InstanceOf then parseInstanceOf r left
          else parseBinaryRest r left k np)
        return some e

/-- src/parser.rs:281-307: the first operand. -/
def parseOperand (r : Rec) : P Expr := do
  match ← peek with
  | none => errHere []
  | some ⟨tok, sp⟩ =>
    match tok.kw?.bind Kw.prefixOp with
    | some op =>
      let p ← getPos
      P.setPos (p + 1)
      let e ← r.expr .Unary
      return .mk (.unary op e) (mkSpan sp.start e.span.stop)
    | none => parsePostfixExpression r

/-- src/parser.rs:280-316 `parse_unary_expression`, which is all of `parse_expression` (641-644). -/
def parseExpression (r : Rec) (prec : Prec) : P Expr := do
  let left ← parseOperand r
  loop (fun (left : Expr) => do
    match ← attempt (parseBinaryExpression r left prec) with
    | .ok (some l) => return .inl l
    | .ok none => return .inr left
    | .error _ => return .inr left) left

/-- src/parser.rs:1351-1359 `parse_foreach_variable`. -/
def parseForeachVariable (r : Rec) : P Expr := do
  let isRef ← eats .Ampersand
  let e ← parseVariable r false none
  if isRef then
    let s ← subP e.span.start 1
    return .mk (.reference e) (mkSpan s e.span.start)
  else return e

/-- src/parser.rs:1362-1367 `parse_statement_extract_block`. -/
def parseStatementExtractBlock (r : Rec) : P (List Stmt × Span) := do
  match ← r.stmt with
  | .mk (.block b) sp => return (b, sp)
  | .mk k sp => return ([.mk k sp], sp)

/-- src/parser.rs:1370-1384 `parse_static_var_decl`. -/
def parseStaticVarDecl (r : Rec) (start : Span) : P Stmt := do
  let vars ← loop (fun (vars : List (Text × Option Expr)) => do
    let (v, _) ← expectVariable
    let value : Option Expr ← (do
      if ← eats .Equal then
        let e ← r.expr .None
        return some e
      else return none)
    if ← eats .Comma then return .inl (vars ++ [(v, value)])
    else return .inr (vars ++ [(v, value)])) []
  let _ ← expect .SemiColon
  let stop ← lastEnd
  return .mk (.decl (.staticVars vars)) (mkSpan start.start stop)

/-- src/parser.rs:1387-1397 `parse_global_var_decl`. -/
def parseGlobalVarDecl (start : Span) : P Stmt := do
  let vars ← loop (fun (vars : List Variable) => do
    let (v, _) ← parseSimpleVariable
    if ← eats .Comma then return .inl (vars ++ [v]) else return .inr (vars ++ [v])) []
  let _ ← expect .SemiColon
  let stop ← lastEnd
  return .mk (.decl (.globalVars vars)) (mkSpan start.start stop)

/-- src/parser.rs:1683-1695 `parse_member_modifiers`. -/
def parseMemberModifiers : P (List MemberModifier) :=
  loop (fun (ms : List MemberModifier) => do
    if ← eats .Public then return .inl (ms ++ [.Public])
    else if ← eats .Protected then return .inl (ms ++ [.Protected])
    else if ← eats .Private then return .inl (ms ++ [.Private])
    else if ← eats .Static then return .inl (ms ++ [.Static])
    else if ← eats .Abstract then return .inl (ms ++ [.Abstract])
    else if ← eats .Final then return .inl (ms ++ [.Final])
    else return .inr ms) []

/-- src/parser.rs:1697-1702 `parse_absolute_trait_method_reference`. -/
def parseAbsoluteTraitMethodReference : P (Path × Text) := do
  let (p, _) ← parseName
  let _ ← expect .ScopeOp
  let (i, _) ← parseIdentifier
  return (p, i)

/-- src/parser.rs:1727-1737: what a trait adaptation applies to; `none` breaks the loop. -/
def parseTraitMethod : P (Option (Option Path × Text)) := do
  let old ← getPos
  match ← attempt parseAbsoluteTraitMethodReference with
  | .ok (p, n) => return some (some p, n)
  | .error _ =>
    P.setPos old
    match ← attempt parseIdentifier with
    | .ok (n, _) => return some (none, n)
    | .error _ => return none

/-- One round of the loop src/parser.rs:1722-1751; `first` is `i == 0`. -/
def traitAdaptStep (s : Bool × List TraitUse) : P ((Bool × List TraitUse) ⊕ List TraitUse) := do
  let (first, uses) := s
  if !first then
    let _ ← expect .SemiColon
  match ← parseTraitMethod with
  | none => return .inr uses
  | some (path, name) =>
    let names : Option (List Path) ← (if path.isSome then do
        if ← eats .Insteadof then
          let ns ← parseNameList
          return some ns
        else return none
      else return none)
    match names, path with
    | some ns, some p => return .inl (false, uses ++ [.insteadOf p name ns])
    | _, _ =>
      if ← eats .As then
        match ← eatString with
        | some (a, _) => return .inl (false, uses ++ [.asAlias path name MemberModifiers.none (some a)])
        | none => abort .unimplemented
      else return .inl (false, uses)

/-- src/parser.rs:1711-1754: `use` inside a class, after the keyword. -/
def parseTraitUse : P (List Member) := do
  let names ← parseNameList
  if ← eats .SemiColon then return [.traitUse names []]
  else
    let _ ← expect .CurlyBracesOpen
    if ← eats .CurlyBracesClose then return []
    else
      let uses ← loop traitAdaptStep (true, [])
      let _ ← expect .CurlyBracesClose
      return [.traitUse names uses]

/-- src/parser.rs:1766-1774: class constants, after the keyword. -/
def parseClassConsts (r : Rec) (ms : MemberModifiers) : P (List Member) :=
  loop (fun (members : List Member) => do
    let (id, _) ← parseIdentifier
    let _ ← expect .Equal
    let v ← r.expr .None
    let members := members ++ [.constant ms id v]
    if ← eats .Comma then return .inl members else return .inr members) []

/-- src/parser.rs:1778-1789: properties. -/
def parseProperties (r : Rec) (ms : MemberModifiers) : P (List Member) :=
  loop (fun (members : List Member) => do
    let (v, _) ← expectVariable
    let d : Option Expr ← (do
      if ← eats .Equal then
        let e ← r.expr .None
        return some e
      else return none)
    let members := members ++ [.property ms v d]
    if ← eats .Comma then return .inl members else return .inr members) []

/-- src/parser.rs:1704-1792 `parse_class_statement`. -/
def parseClassStatement (r : Rec) : P (List Member) := do
  if ← eats .Var then
    let members ← parseProperties r (MemberModifiers.new [.Public])
    let _ ← expect .SemiColon
    return members
  else
    let mods ← parseMemberModifiers
    let ms := MemberModifiers.new mods
    if ← eats .Use then parseTraitUse
    else
      match ← eat .Function with
      | some t =>
        let (name, decl, _) ← parseFunctionNamed r t.span true
        return [.method ms name decl]
      | none =>
        let members ← (do
          if ← eats .Const then parseClassConsts r ms else parseProperties r ms)
        let _ ← expect .SemiColon
        return members

/-- src/parser.rs:1795-1806 `parse_class_statement_list`. -/
def parseClassStatementList (r : Rec) : P (List Member × Option PErr) := do
  let n ← tokCount
  let last ← subP n 1
  loop (fun (members : List Member) => do
    let p ← getPos
    if p ≤ last then
      match ← attempt (parseClassStatement r) with
      | .ok ms => return .inl (members ++ ms)
      | .error e => return .inr (members, some e)
    else return .inr (members, none)) []

/-- src/parser.rs:799-803: class modifiers. -/
def parseClassModifiers : P (List ClassModifier) :=
  loop (fun (ms : List ClassModifier) => do
    if ← eats .Abstract then return .inl (ms ++ [.Abstract])
    else if ← eats .Final then return .inl (ms ++ [.Final])
    else return .inr ms) []

/-- `{` members `}` and the end position (src/parser.rs:831-835). -/
def parseMembers (r : Rec) : P (List Member × Nat) := do
  let _ ← expect .CurlyBracesOpen
  let (members, err) ← parseClassStatementList r
  let c ← expectOr .CurlyBracesClose err
  return (members, c.span.stop)

/-- `k` followed by a list of names, or nothing (src/parser.rs:822-830). -/
def parseOptNames (k : Kw) : P (List Path) := do
  if ← eats k then parseNameList else return []

/-- src/parser.rs:788-849 `parse_oo_declaration`. -/
def parseOoDeclaration (r : Rec) : P Stmt := do
  if ← eats .Trait then
    let t ← tokBack 0
    let (name, _) ← expectString
    let (members, stop) ← parseMembers r
    return .mk (.decl (.trait name members)) (mkSpan t.span.start stop)
  else if ← eats .Interface then
    let t ← tokBack 0
    let (name, _) ← expectString
    let exts ← parseOptNames .Extends
    let (members, stop) ← parseMembers r
    return .mk (.decl (.interface name exts members)) (mkSpan t.span.start stop)
  else
    let mods ← parseClassModifiers
    let _ ← expect .Class
    let t ← tokBack mods.length
    let (name, _) ← expectString
    let base : Option Path ← (do
      if ← eats .Extends then
        let (p, _) ← parseName
        return some p
      else return none)
    let impls ← parseOptNames .Implements
    let (members, stop) ← parseMembers r
    return .mk (.decl (.cls (ClassModifiers.new mods) name base impls members))
      (mkSpan t.span.start stop)

/-- src/parser.rs:1424-1442: catch clauses. -/
def parseCatches (r : Rec) : P (List Catch) :=
  loop (fun (cs : List Catch) => do
    if ← eats .Catch then
      let _ ← expect .ParenthesesOpen
      let (ty, _) ← parseName
      let (v, _) ← expectVariable
      let _ ← expect .ParenthesesClose
      let b ← parseBraced r
      return .inl (cs ++ [.mk ty v b])
    else return .inr cs) []

/-- src/parser.rs:1417-1454: `try`, after the keyword. -/
def parseTry (r : Rec) (t : TokSpan) : P Stmt := do
  let body ← parseBraced r
  let cs ← parseCatches r
  let fin : Option (List Stmt) ← (do
    if ← eats .Finally then
      let b ← parseBraced r
      return some b
    else return none)
  let stop ← lastEnd
  return .mk (.try body cs fin) (mkSpan t.span.start stop)

/-- src/parser.rs:1456-1466: `unset`, after the keyword. -/
def parseUnset (r : Rec) (t : TokSpan) : P Stmt := do
  let _ ← expect .ParenthesesOpen
  let vars ← loop (fun (vars : List Expr) => do
    let v ← parseVariable r false none
    if ← eats .Comma then return .inl (vars ++ [v]) else return .inr (vars ++ [v])) []
  let _ ← expect .ParenthesesClose
  let c ← expect .SemiColon
  return .mk (.unset vars) (mkSpan t.span.start c.span.stop)

/-- src/parser.rs:1468-1481: `foreach`, after the keyword. -/
def parseForeach (r : Rec) (t : TokSpan) : P Stmt := do
  let _ ← expect .ParenthesesOpen
  let e ← r.expr .None
  let _ ← expect .As
  let kv ← parseForeachVariable r
  let (key, value) : Option Expr × Expr ← (do
    if ← eats .DoubleArrow then
      let v ← parseForeachVariable r
      return (some kv, v)
    else return (none, kv))
  let _ ← expect .ParenthesesClose
  let (body, bsp) ← parseStatementExtractBlock r
  return .mk (.forEach e key value body) (mkSpan t.span.start bsp.stop)

/-- src/parser.rs:1483-1497: `for`, after the keyword. -/
def parseFor (r : Rec) (t : TokSpan) : P Stmt := do
  let _ ← expect .ParenthesesOpen
  let i ← parseOptExpression r .None
  let _ ← expect .SemiColon
  let c ← parseOptExpression r .None
  let _ ← expect .SemiColon
  let l ← parseOptExpression r .None
  let _ ← expect .ParenthesesClose
  let (body, bsp) ← parseStatementExtractBlock r
  return .mk (.for i c l body) (mkSpan t.span.start bsp.stop)

/-- src/parser.rs:1506-1510: the head of a case; `none` ends the loop, `some none` is `default`. -/
def parseCaseHead (r : Rec) : P (Option (Option Expr)) := do
  if ← eats .Case then
    let e ← r.expr .None
    return some (some e)
  else if ← eats .Default then return some none
  else return none

/-- One round of the loop src/parser.rs:1505-1523; the state is `(cases, conds)`. -/
def switchStep (r : Rec) (s : List Case × List Expr) :
    P ((List Case × List Expr) ⊕ (List Case × List Expr)) := do
  match ← parseCaseHead r with
  | none => return .inr s
  | some ce =>
    let sep ← (do if ← eats .Colon then return true else eats .SemiColon)
    if !sep then errHere [.k .Colon, .k .SemiColon]
    else
      let (body, _) ← parseInnerStatementList r
      let conds : List Expr :=
        match ce with
        | some e => s.2 ++ [e]
        | none => s.2
      if body.isEmpty then return .inl (s.1, conds)
      else return .inl (s.1 ++ [.mk conds ce.isNone body], [])

/-- src/parser.rs:1499-1531: `switch`, after the keyword. -/
def parseSwitch (r : Rec) (t : TokSpan) : P Stmt := do
  let _ ← expect .ParenthesesOpen
  let e ← r.expr .None
  let _ ← expect .ParenthesesClose
  let _ ← expect .CurlyBracesOpen
  let (cases, conds) ← loop (switchStep r) ([], [])
  let cases := cases ++ conds.map fun c => .mk [c] false []
  let c ← expect .CurlyBracesClose
  return .mk (.switch e cases) (mkSpan t.span.start c.span.stop)

/-- `(` expression `)` (src/parser.rs:1559-1562). -/
def parseParenExpr (r : Rec) : P Expr := do
  let _ ← expect .ParenthesesOpen
  let e ← r.expr .None
  let _ ← expect .ParenthesesClose
  return e

/-- src/parser.rs:1540-1571: `do`, after the keyword. -/
def parseDo (r : Rec) (t : TokSpan) : P Stmt := do
  let (body, _) ← parseStatementExtractBlock r
  let _ ← expect .While
  let c ← parseParenExpr r
  let s ← expect .SemiColon
  return .mk (.doWhile body c) (mkSpan t.span.start s.span.stop)

/-- src/parser.rs:1558-1578: `while`, after the keyword. -/
def parseWhile (r : Rec) (t : TokSpan) : P Stmt := do
  let c ← parseParenExpr r
  let (body, bsp) ← parseStatementExtractBlock r
  return .mk (.while c body) (mkSpan t.span.start bsp.stop)

/-- An `if`/`elseif` branch after its keyword (src/parser.rs:1558-1582). -/
def parseIfBranch (r : Rec) (start : Nat) : P Stmt := do
  let c ← parseParenExpr r
  let (body, bsp) ← parseStatementExtractBlock r
  return .mk (.ite c body []) (mkSpan start bsp.stop)

/-- The loop src/parser.rs:1548-1586 for `if`, after the first branch. -/
def ifStep (r : Rec) (stmts : List Stmt) : P (List Stmt ⊕ List Stmt) := do
  match ← eat .ElseIf with
  | some t =>
    let s ← parseIfBranch r t.span.start
    return .inl (stmts ++ [s])
  | none =>
    match ← eat .Else with
    | some t =>
      let (body, bsp) ← parseStatementExtractBlock r
      return .inl (stmts ++ [.mk (.block body) (mkSpan t.span.start bsp.stop)])
    | none => return .inr stmts

/-- src/parser.rs:1588-1603: one step of nesting the branches. -/
def nestIf (acc el : Stmt) : Option Stmt :=
  match acc, el with
  | .mk (.block e2) bsp, .mk (.ite c b []) sp => some (.mk (.ite c b e2) { sp with stop := bsp.stop })
  | .mk (.ite c b e) sp, .mk (.ite c2 b2 []) sp2 =>
    some (.mk (.ite c2 b2 [.mk (.ite c b e) sp]) { sp2 with stop := sp.stop })
  | _, _ => none

/-- src/parser.rs:1588-1603: the fold over the branches, from the last to the first; `none` is
`unreachable!()`. -/
def nestIfs (acc : Stmt) : List Stmt → Option Stmt
  | [] => some acc
  | el :: els =>
    match nestIf acc el with
    | some a => nestIfs a els
    | none => none

/-- src/parser.rs:1534-1604: `if`, after the keyword. -/
def parseIf (r : Rec) (t : TokSpan) : P Stmt := do
  let first ← parseIfBranch r t.span.start
  let stmts ← loop (ifStep r) [first]
  match stmts.reverse with
  | [] => abort .unwrap
  | last :: rest =>
    match nestIfs last rest with
    | some s => return s
    | none => abort .unreachable

/-- src/parser.rs:1407-1415: a block, after `{`. -/
def parseBlock (r : Rec) (t : TokSpan) : P Stmt := do
  let (b, err) ← parseInnerStatementList r
  let c ← expectOr .CurlyBracesClose err
  return .mk (.block b) (mkSpan t.span.start c.span.stop)

/-- src/parser.rs:1624-1630: `echo`, `return`, `continue`, `break`, `throw` and inline HTML, after the
token; `none` for other tokens. -/
def simpleStmt (r : Rec) (t : TokSpan) : Option (P StmtK) :=
  match t.tok with
  | .k .Echo => some (do return .echo (← parseExpressionList r))
  | .k .Return => some (do return .ret (← parseOptExpression r .None))
  | .k .Continue => some (do return .cont (← parseOptExpression r .None))
  | .k .Break => some (do return .brk (← parseOptExpression r .None))
  | .k .Throw => some (do return .throw (← r.expr .None))
  | .inlineHtml s => some (P.ret (.echo [.mk (.str s) t.span]))
  | _ => none

/-- src/parser.rs:1646-1657: an expression statement; `store` is the deepest error so far. -/
def parseExprStmt (r : Rec) (store : Option PErr) : P Stmt := do
  match ← attempt (r.expr .None) with
  | .error e => deepestUnpack (deepest store e)
  | .ok e =>
    let c ← expect .SemiColon
    return .mk (.expr e) (mkSpan e.span.start c.span.stop)

/-- src/parser.rs:1617-1657: class-like declarations, simple statements, expression statements. -/
def parseOtherStmt (r : Rec) (store : Option PErr) : P Stmt := do
  match ← attempt (parseOoDeclaration r) with
  | .ok s => return s
  | .error e =>
    let store := deepest store e
    match ← peek with
    | none => errHere []
    | some t =>
      match simpleStmt r t with
      | some m =>
        let p ← getPos
        P.setPos (p + 1)
        let k ← m
        let _ ← expect .SemiColon
        let stop ← lastEnd
        return .mk k (mkSpan t.span.start stop)
      | none =>
        let p ← getPos
        parseExprStmt r (deepest store ⟨[], p⟩)

/-- src/parser.rs:1607-1616 with `if_lookahead_restore!`: run `m` after consuming the token; on error go
back and continue with the error recorded. -/
def tryDecl (r : Rec) (m : P Stmt) : P Stmt := do
  let p ← getPos
  P.setPos (p + 1)
  match ← attempt m with
  | .ok s => return s
  | .error e =>
    P.setPos p
    parseOtherStmt r (deepest none e)

/-- src/parser.rs:1399-1658 `parse_statement`. -/
def parseStatement (r : Rec) : P Stmt := do
  match ← peek with
  | some ⟨.k k, sp⟩ =>
    let t : TokSpan := ⟨.k k, sp⟩
    let p ← getPos
    if k = .SemiColon then
      P.setPos (p + 1)
      return .mk .none sp
    else if k = .CurlyBracesOpen then
      P.setPos (p + 1)
      parseBlock r t
    else if k = .Try then
      P.setPos (p + 1)
      parseTry r t
    else if k = .Unset then
      P.setPos (p + 1)
      parseUnset r t
    else if k = .Foreach then
      P.setPos (p + 1)
      parseForeach r t
    else if k = .For then
      P.setPos (p + 1)
      parseFor r t
    else if k = .Switch then
      P.setPos (p + 1)
      parseSwitch r t
    else if k = .If then
      P.setPos (p + 1)
      parseIf r t
    else if k = .While then
      P.setPos (p + 1)
      parseWhile r t
    else if k = .Do then
      P.setPos (p + 1)
      parseDo r t
    else if k = .Static then tryDecl r (parseStaticVarDecl r sp)
    else if k = .Global then tryDecl r (parseGlobalVarDecl sp)
    else if k = .Function then
      tryDecl r (do
        let (name, decl, span) ← parseFunctionNamed r sp false
        return .mk (.decl (.globalFunction name decl)) span)
    else parseOtherStmt r none
  | _ => parseOtherStmt r none

/-- Tying the knot: nesting depth is bounded by the fuel. -/
def recN : Nat → Rec
  | 0 => ⟨fun _ => noFuel, noFuel⟩
  | n + 1 => ⟨parseExpression (recN n), parseStatement (recN n)⟩

/-- src/parser.rs:1815-1835: `use` at the top level, after the keyword. -/
def parseTopUse (t : TokSpan) : P Stmt := do
  let clauses ← loop (fun (cs : List UseClause) => do
    let abs ← eats .NsSeparator
    let (path, _) ← parseNamespaceName
    let alias_ : Option Text ← (do
      if ← eats .As then
        let (a, _) ← expectString
        return some a
      else return none)
    let cs := cs ++ [⟨{ path with isAbsolute := abs }, alias_⟩]
    if ← eats .Comma then return .inl cs else return .inr cs) []
  let c ← expect .SemiColon
  return .mk (.use clauses) (mkSpan t.span.start c.span.stop)

/-- src/parser.rs:1808-1838 `parse_top_statement`. -/
def parseTopStatement (r : Rec) : P Stmt := do
  match ← eat .Namespace with
  | some t =>
    let (name, _) ← parseNamespaceName
    let c ← expect .SemiColon
    return .mk (.decl (.namespace name)) (mkSpan t.span.start c.span.start)
  | none =>
    match ← eat .Use with
    | some t => parseTopUse t
    | none => parseStatement r

/-- src/parser.rs:1840-1847 `parse_top_statement_list`. -/
def parseTopStatementList (r : Rec) : P (List Stmt) := do
  let n ← tokCount
  let last ← subP n 1
  loop (fun (stmts : List Stmt) => do
    let p ← getPos
    if p ≤ last then
      let s ← parseTopStatement r
      return .inl (stmts ++ [s])
    else return .inr stmts) []

end Pico
