import Verif.Spec.Grammar
/-!
# Trees as readings of token sequences

`Stmt.marks`: the words, variables, literals, operators and keywords of which a tree consists, in the order in
which they are written. `ReadOff ms ts`: the marks `ms` can be found in the tokens `ts` from left to right; every mark
stands for tokens of its own, and some tokens may be left over. Neither mentions the parser.

Not marks, because the trees do not tell where they were written: parentheses and braces, separators, modifiers,
`echo`, `else`, `case`, `const` and the (implicit) concatenations of double-quoted strings.
-/
namespace Pico

/-- One piece of a tree. -/
inductive Mark
  /-- one of some keywords or operators -/
  | kw (ks : List Kw)
  /-- a word in a place where reserved words are not allowed -/
  | word (s : Text)
  /-- a word in a place where reserved words are allowed -/
  | ident (s : Text)
  | var (s : Text)
  | path (p : Path)
  | const (c : Const)
  | str (s : Text)
  | int (v : Int)
  | double (lit : Text)

/-- The words of the constants that are not keywords. -/
def constSpelling : Const → Option Text
  | .True => some c!"true"
  | .False => some c!"false"
  | .Null => some c!"null"
  | _ => none

/-- The tokens that spell a path: a class name, or an identifier. -/
inductive Spells : List Token → Path → Prop
  | name {ts : List Token} {p : Path} (h : ClassName ts p) : Spells ts p
  | ident {t : Token} {s : Text} (h : Ident t s) : Spells [t] ⟨false, none, s⟩

/-- The tokens a mark stands for. A string literal may be given in several adjacent pieces (and the empty one in
none), `${name}` is the variable `name`. -/
inductive Fits : Mark → List Token → Prop
  | kw {ks : List Kw} {k : Kw} (h : k ∈ ks) : Fits (.kw ks) [.k k]
  | word (s : Text) : Fits (.word s) [.string s]
  | ident {t : Token} {s : Text} (h : Ident t s) : Fits (.ident s) [t]
  | var (s : Text) : Fits (.var s) [.variable s]
  | varIdent {t : Token} {s : Text} (h : Ident t s) : Fits (.var s) [t]
  | path {p : Path} {ts : List Token} (h : Spells ts p) : Fits (.path p) ts
  | magic {k : Kw} {c : Const} (h : magicOf k = some c) : Fits (.const c) [.k k]
  | const {p : Path} {ts : List Token} {c : Const} (h : Spells ts p) (hn : p.ns = none)
      (hc : constSpelling c = some (p.ident.map lowerAscii)) : Fits (.const c) ts
  | str (xs : List Text) : Fits (.str xs.flatten) (xs.map .encaps)
  | html (s : Text) : Fits (.str s) [.inlineHtml s]
  | int (v : Nat) : Fits (.int v) [.int v]
  | double (lit : Text) : Fits (.double lit) [.double lit]

/-- The marks can be found in the tokens, in this order. -/
inductive ReadOff : List Mark → List Token → Prop
  | nil : ReadOff [] []
  | skip {ms : List Mark} {ts : List Token} (h : ReadOff ms ts) (t : Token) : ReadOff ms (ts ++ [t])
  | read {ms : List Mark} {ts us : List Token} {m : Mark} (h : ReadOff ms ts) (hm : Fits m us) :
      ReadOff (ms ++ [m]) (ts ++ us)

/-! ## The marks of operators -/

/-- Binary operators. A concatenation may be implicit. `xor` and `^` make the same node. -/
def opMarks : Op → List Mark
  | .Concat => []
  | .Add => [.kw [.Plus]]
  | .Sub => [.kw [.Minus]]
  | .Mul => [.kw [.Mul]]
  | .Div => [.kw [.Div]]
  | .Pow => [.kw [.Pow]]
  | .Mod => [.kw [.Mod]]
  | .Or => [.kw [.LogicalOr, .BoolOr]]
  | .And => [.kw [.LogicalAnd, .BoolAnd]]
  | .Identical => [.kw [.IsIdentical]]
  | .NotIdentical => [.kw [.IsNotIdentical]]
  | .Eq => [.kw [.IsEqual]]
  | .Neq => [.kw [.IsNotEqual]]
  | .Lt => [.kw [.Lt]]
  | .Gt => [.kw [.Gt]]
  | .Le => [.kw [.IsSmallerOrEqual]]
  | .Ge => [.kw [.IsGreaterOrEqual]]
  | .BitwiseAnd => [.kw [.Ampersand]]
  | .BitwiseInclOr => [.kw [.BwOr]]
  | .BitwiseExclOr => [.kw [.BwXor, .LogicalXor]]
  | .Spaceship => [.kw [.SpaceShip]]
  | .Sl => [.kw [.Sl]]
  | .Sr => [.kw [.Sr]]

/-- Combined assignments; the others do not occur. (`&=` makes the node of `&&`.) -/
def compoundMark : Op → Mark
  | .Add => .kw [.PlusEqual]
  | .Sub => .kw [.MinusEqual]
  | .Mul => .kw [.MulEqual]
  | .Pow => .kw [.PowEqual]
  | .Div => .kw [.DivEqual]
  | .Concat => .kw [.ConcatEqual]
  | .Mod => .kw [.ModEqual]
  | .And => .kw [.AndEqual]
  | .BitwiseExclOr => .kw [.XorEqual]
  | .Sl => .kw [.SlEqual]
  | .Sr => .kw [.SrEqual]
  | _ => .kw []

/-- What a unary operator puts before its operand. -/
def beforeMarks : UnaryOp → List Mark
  | .Positive => [.kw [.Plus]]
  | .Negative => [.kw [.Minus]]
  | .Not => [.kw [.BoolNot]]
  | .PreInc => [.kw [.Increment]]
  | .PreDec => [.kw [.Decrement]]
  | .BitwiseNot => [.kw [.BwNot]]
  | .SilenceErrors => [.kw [.Silence]]
  | .PostInc => []
  | .PostDec => []

/-- What a unary operator puts behind its operand. -/
def behindMarks : UnaryOp → List Mark
  | .PostInc => [.kw [.Increment]]
  | .PostDec => [.kw [.Decrement]]
  | _ => []

/-- The casts. -/
def castMark : Ty → Mark
  | .Int => .kw [.CastInt]
  | .Double => .kw [.CastDouble]
  | .String => .kw [.CastString]
  | .Array => .kw [.CastArray]
  | .Object none => .kw [.CastObject]
  | .Bool => .kw [.CastBool]
  | _ => .kw []

/-- The inclusions. -/
def includeMark : IncludeTy → Mark
  | .Include => .kw [.Include]
  | .IncludeOnce => .kw [.IncludeOnce]
  | .Require => .kw [.Require]
  | .RequireOnce => .kw [.RequireOnce]

/-- Type hints of parameters. -/
def hintMarks : Option Ty → List Mark
  | none => []
  | some .Array => [.kw [.Array]]
  | some .Callable => [.kw [.Callable]]
  | some (.Object (some p)) => [.path p]
  | some _ => [.kw []]

/-- A keyword that is there or not. -/
def flagMarks (k : Kw) (b : Bool) : List Mark := if b then [.kw [k]] else []

/-- Names in `use` and `namespace`, `extends`, `implements`. -/
def pathsMarks : List Path → List Mark
  | [] => []
  | p :: ps => .path p :: pathsMarks ps

/-- Names behind a keyword, or nothing. -/
def headedMarks (k : Kw) : List Path → List Mark
  | [] => []
  | p :: ps => .kw [k] :: .path p :: pathsMarks ps

/-- A name that is there or not. -/
def optPathMarks : Option Path → List Mark
  | none => []
  | some p => [.path p]

/-- A new name, behind `as`. -/
def aliasMarks : Option Text → List Mark
  | none => []
  | some a => [.kw [.As], .word a]

/-- The clauses of `use`. -/
def clausesMarks : List UseClause → List Mark
  | [] => []
  | c :: cs => .path c.path :: (aliasMarks c.alias_ ++ clausesMarks cs)

/-- The adaptations of traits. -/
def adaptMarks : List TraitUse → List Mark
  | [] => []
  | .insteadOf p n ps :: us => .path p :: .ident n :: .kw [.Insteadof] :: (pathsMarks ps ++ adaptMarks us)
  | .asAlias p n _ a :: us => optPathMarks p ++ .ident n :: (aliasMarks a ++ adaptMarks us)

/-- The variables captured by a closure. -/
def captureMarks : List (Bool × Text) → List Mark
  | [] => []
  | (r, v) :: vs => flagMarks .Ampersand r ++ .var v :: captureMarks vs

/-! ## The marks of trees -/

mutual

def Expr.marks : Expr → List Mark
  | .mk k _ => k.marks

def ExprK.marks : ExprK → List Mark
  | .path p => [.path p]
  | .const c => [.const c]
  | .str s => [.str s]
  | .binStr _ => [.kw []]
  | .int v => [.int v]
  | .double l => [.double l]
  | .array is => .kw [.Array, .SquareBracketOpen] :: itemsMarks is
  | .var v => v.marks
  | .reference e => .kw [.Ampersand] :: e.marks
  | .clone e => .kw [.Clone] :: e.marks
  | .isset es => .kw [.Isset] :: exprsMarks es
  | .empty e => .kw [.Empty] :: e.marks
  | .exit e => .kw [.Exit] :: optMarks e
  | .include t e => includeMark t :: e.marks
  | .arrayIdx e is => e.marks ++ indicesMarks is
  | .objMember e ms => e.marks ++ membersMarks .ObjectOp ms
  | .staticMember e ms => e.marks ++ membersMarks .ScopeOp ms
  | .call e args => e.marks ++ .kw [.ParenthesesOpen] :: exprsMarks args
  | .new e args => .kw [.New] :: (e.marks ++ exprsMarks args)
  | .unpack e => .kw [.Ellipsis] :: e.marks
  | .unary op e => beforeMarks op ++ e.marks ++ behindMarks op
  | .binary op l r => l.marks ++ opMarks op ++ r.marks
  | .instanceOf l r => l.marks ++ .kw [.InstanceOf] :: r.marks
  | .cast t e => castMark t :: e.marks
  | .yield e => .kw [.Yield] :: optMarks e
  | .function f => .kw [.Function] :: (f.refMarks ++ f.marks)
  | .assign l r => l.marks ++ .kw [.Equal] :: r.marks
  | .compoundAssign l op r => l.marks ++ compoundMark op :: r.marks
  | .assignRef l r => l.marks ++ .kw [.Equal] :: .kw [.Ampersand] :: r.marks
  | .list is => .kw [.List] :: itemsMarks is
  | .ternary c t e => c.marks ++ .kw [.QuestionMark] :: (optMarks t ++ .kw [.Colon] :: e.marks)

def Variable.marks : Variable → List Mark
  | .name n => [.var n]
  | .fetch e => .kw [.DollarCurlyBracesOpen] :: e.marks

def optMarks : Option Expr → List Mark
  | none => []
  | some e => e.marks

def exprsMarks : List Expr → List Mark
  | [] => []
  | e :: es => e.marks ++ exprsMarks es

/-- Elements of arrays, with their keys. -/
def itemsMarks : List (Option Expr × Expr) → List Mark
  | [] => []
  | (none, v) :: is => v.marks ++ itemsMarks is
  | (some k, v) :: is => k.marks ++ .kw [.DoubleArrow] :: (v.marks ++ itemsMarks is)

/-- Indices, each behind its bracket. -/
def indicesMarks : List (Option Expr) → List Mark
  | [] => []
  | i :: is => .kw [.SquareBracketOpen] :: (optMarks i ++ indicesMarks is)

/-- Members, each behind `->` or `::`. -/
def membersMarks (k : Kw) : List Expr → List Mark
  | [] => []
  | e :: es => .kw [k] :: (e.marks ++ membersMarks k es)

/-- The `&` of a function that returns a reference. -/
def FnDecl.refMarks : FnDecl → List Mark
  | .mk _ _ _ r => flagMarks .Ampersand r

/-- The rest of a function: parameters, captured variables, body. -/
def FnDecl.marks : FnDecl → List Mark
  | .mk ps b us _ => paramsMarks ps ++ captureMarks us ++ optBlockMarks b

def paramsMarks : List Param → List Mark
  | [] => []
  | p :: ps => p.marks ++ paramsMarks ps

def Param.marks : Param → List Mark
  | .mk n r v t d => hintMarks t ++ flagMarks .Ampersand r ++ flagMarks .Ellipsis v ++ .var n :: defaultMarks d

/-- A value behind `=`. -/
def defaultMarks : Option Expr → List Mark
  | none => []
  | some e => .kw [.Equal] :: e.marks

def optBlockMarks : Option (List Stmt) → List Mark
  | none => []
  | some b => stmtsMarks b

def Stmt.marks : Stmt → List Mark
  | .mk k _ => k.marks

def stmtsMarks : List Stmt → List Mark
  | [] => []
  | s :: ss => s.marks ++ stmtsMarks ss

def StmtK.marks : StmtK → List Mark
  | .none => []
  | .block b => stmtsMarks b
  | .decl d => d.marks
  | .use cs => .kw [.Use] :: clausesMarks cs
  | .expr e => e.marks
  | .echo es => exprsMarks es
  | .ret e => .kw [.Return] :: optMarks e
  | .brk e => .kw [.Break] :: optMarks e
  | .cont e => .kw [.Continue] :: optMarks e
  | .unset es => .kw [.Unset] :: exprsMarks es
  | .ite c t e => .kw [.If, .ElseIf] :: (c.marks ++ stmtsMarks t ++ stmtsMarks e)
  | .while c b => .kw [.While] :: (c.marks ++ stmtsMarks b)
  | .doWhile b c => .kw [.Do] :: (stmtsMarks b ++ .kw [.While] :: c.marks)
  | .for i c l b => .kw [.For] :: (optMarks i ++ optMarks c ++ optMarks l ++ stmtsMarks b)
  | .forEach e none v b => .kw [.Foreach] :: (e.marks ++ .kw [.As] :: (v.marks ++ stmtsMarks b))
  | .forEach e (some k) v b =>
      .kw [.Foreach] :: (e.marks ++ .kw [.As] :: (k.marks ++ .kw [.DoubleArrow] :: (v.marks ++ stmtsMarks b)))
  | .try b cs f => .kw [.Try] :: (stmtsMarks b ++ catchesMarks cs ++ finallyMarks f)
  | .throw e => .kw [.Throw] :: e.marks
  | .switch e cs => .kw [.Switch] :: (e.marks ++ casesMarks cs)

def finallyMarks : Option (List Stmt) → List Mark
  | none => []
  | some b => .kw [.Finally] :: stmtsMarks b

def catchesMarks : List Catch → List Mark
  | [] => []
  | c :: cs => c.marks ++ catchesMarks cs

def Catch.marks : Catch → List Mark
  | .mk t v b => .kw [.Catch] :: .path t :: .var v :: stmtsMarks b

def casesMarks : List Case → List Mark
  | [] => []
  | c :: cs => c.marks ++ casesMarks cs

def Case.marks : Case → List Mark
  | .mk cs _ b => exprsMarks cs ++ stmtsMarks b

def Decl.marks : Decl → List Mark
  | .namespace p => [.kw [.Namespace], .path p]
  | .globalFunction n f => .kw [.Function] :: (f.refMarks ++ .word n :: f.marks)
  | .cls _ n b is ms => .kw [.Class] :: .word n :: (headedMarks .Extends b.toList ++ headedMarks .Implements is ++ declsMarks ms)
  | .interface n es ms => .kw [.Interface] :: .word n :: (headedMarks .Extends es ++ declsMarks ms)
  | .trait n ms => .kw [.Trait] :: .word n :: declsMarks ms
  | .staticVars vs => .kw [.Static] :: staticsMarks vs
  | .globalVars vs => .kw [.Global] :: variablesMarks vs

def staticsMarks : List (Text × Option Expr) → List Mark
  | [] => []
  | (n, d) :: vs => .var n :: (defaultMarks d ++ staticsMarks vs)

def variablesMarks : List Variable → List Mark
  | [] => []
  | v :: vs => v.marks ++ variablesMarks vs

def declsMarks : List Member → List Mark
  | [] => []
  | m :: ms => m.marks ++ declsMarks ms

def Member.marks : Member → List Mark
  | .constant _ n e => .ident n :: .kw [.Equal] :: e.marks
  | .property _ n d => .var n :: defaultMarks d
  | .method _ n f => .kw [.Function] :: (f.refMarks ++ .word n :: f.marks)
  | .traitUse ps us => .kw [.Use] :: (pathsMarks ps ++ adaptMarks us)

end

end Pico
