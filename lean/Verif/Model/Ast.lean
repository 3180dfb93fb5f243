import Verif.Model.Token
/-!
# Syntax trees (src/ast.rs)

`Block(Vec<Stmt>)` is a plain list of statements; boxes and reference counts disappear. `ClassDecl` is
inlined in its only use, `Decl.cls`. `ParsedItem`, `Visibility`, `NullableTy` are not used by the parser
and the printer and are left out.
-/
namespace Pico

/-- src/ast.rs:19-24 `Path`. -/
structure Path where
  isAbsolute : Bool
  ns : Option Text
  ident : Text
  deriving DecidableEq, Repr

/-- src/ast.rs:11-16 `UseClause::QualifiedName(Path, UseAlias)`. -/
structure UseClause where
  path : Path
  alias_ : Option Text
  deriving DecidableEq, Repr

/-- src/ast.rs:46-77 `Op`. -/
inductive Op
  | Concat | Add | Sub | Mul | Div | Pow | Mod | Or | And | Identical | NotIdentical | Eq | Neq
  | Lt | Gt | Le | Ge | BitwiseAnd | BitwiseInclOr | BitwiseExclOr | Spaceship | Sl | Sr
  deriving DecidableEq, Repr

/-- src/ast.rs:80-92 `UnaryOp`. -/
inductive UnaryOp
  | Positive | Negative | Not | PreInc | PreDec | PostInc | PostDec | BitwiseNot | SilenceErrors
  deriving DecidableEq, Repr

/-- src/ast.rs:103-106 `ClassModifier`. -/
inductive ClassModifier
  | Abstract | Final
  deriving DecidableEq, Repr

/-- The discriminants of src/ast.rs:104-105. -/
def ClassModifier.bit : ClassModifier → Nat
  | .Abstract => 1 <<< 0
  | .Final => 1 <<< 1

/-- src/ast.rs:109 `ClassModifiers(u8)`. -/
structure ClassModifiers where
  bits : Nat
  deriving DecidableEq, Repr

/-- src/ast.rs:112-114. -/
def ClassModifiers.none : ClassModifiers := ⟨0⟩

/-- src/ast.rs:116-122. -/
def ClassModifiers.new (ms : List ClassModifier) : ClassModifiers :=
  ⟨ms.foldl (fun flag m => flag ||| m.bit) 0⟩

/-- src/ast.rs:125-127. -/
def ClassModifiers.has (s : ClassModifiers) (m : ClassModifier) : Bool := (s.bits &&& m.bit) != 0

/-- src/ast.rs:133-140 `MemberModifier`. -/
inductive MemberModifier
  | Public | Protected | Private | Static | Abstract | Final
  deriving DecidableEq, Repr

/-- The discriminants of src/ast.rs:134-139. -/
def MemberModifier.bit : MemberModifier → Nat
  | .Public => 1 <<< 0
  | .Protected => 1 <<< 1
  | .Private => 1 <<< 2
  | .Static => 1 <<< 3
  | .Abstract => 1 <<< 4
  | .Final => 1 <<< 5

/-- src/ast.rs:142 `MemberModifiers(u8)`. -/
structure MemberModifiers where
  bits : Nat
  deriving DecidableEq, Repr

/-- src/ast.rs:145-147. -/
def MemberModifiers.none : MemberModifiers := ⟨0⟩

/-- src/ast.rs:149-155. -/
def MemberModifiers.new (ms : List MemberModifier) : MemberModifiers :=
  ⟨ms.foldl (fun flag m => flag ||| m.bit) 0⟩

/-- src/ast.rs:157-159. -/
def MemberModifiers.has (s : MemberModifiers) (m : MemberModifier) : Bool := (s.bits &&& m.bit) != 0

/-- src/ast.rs:275-284 `Ty`. -/
inductive Ty
  | Array | Callable | Bool | Float | Int | Double | String | Object (p : Option Path)
  deriving DecidableEq, Repr

/-- src/ast.rs:291-303 `Const`. -/
inductive Const
  | Null | True | False | MagicClass | MagicTrait | MagicFunction | MagicMethod | MagicLine
  | MagicFile | MagicDir | MagicNamespace
  deriving DecidableEq, Repr

/-- src/ast.rs:309-314 `IncludeTy`. -/
inductive IncludeTy
  | Include | IncludeOnce | Require | RequireOnce
  deriving DecidableEq, Repr

/-- src/ast.rs:317-320 `TraitUse`. -/
inductive TraitUse
  | insteadOf (p : Path) (name : Text) (names : List Path)
  | asAlias (p : Option Path) (name : Text) (m : MemberModifiers) (alias_ : Option Text)
  deriving DecidableEq, Repr

mutual

/-- src/ast.rs:163 `Expr(Expr_, Span)`. -/
inductive Expr
  | mk (kind : ExprK) (span : Span)

/-- src/ast.rs:195-239 `Expr_`. -/
inductive ExprK
  | path (p : Path)
  | const (c : Const)
  | str (s : Text)
  | binStr (bs : List Byte)
  | int (v : Int)
  | double (lit : Text)
  | array (items : List (Option Expr × Expr))
  | var (v : Variable)
  | reference (e : Expr)
  | clone (e : Expr)
  | isset (es : List Expr)
  | empty (e : Expr)
  | exit (e : Option Expr)
  | include (t : IncludeTy) (e : Expr)
  | arrayIdx (e : Expr) (idxs : List (Option Expr))
  | objMember (e : Expr) (ms : List Expr)
  | staticMember (e : Expr) (ms : List Expr)
  | call (e : Expr) (args : List Expr)
  | new (e : Expr) (args : List Expr)
  | unpack (e : Expr)
  | unary (op : UnaryOp) (e : Expr)
  | binary (op : Op) (l r : Expr)
  | instanceOf (l r : Expr)
  | cast (t : Ty) (e : Expr)
  | yield (e : Option Expr)
  | function (f : FnDecl)
  | assign (l r : Expr)
  | compoundAssign (l : Expr) (op : Op) (r : Expr)
  | assignRef (l r : Expr)
  | list (items : List (Option Expr × Expr))
  | ternary (c : Expr) (t : Option Expr) (e : Expr)

/-- src/ast.rs:182-186 `Variable`. -/
inductive Variable
  | name (n : Text)
  | fetch (e : Expr)

/-- src/ast.rs:166 `Stmt(Stmt_, Span)`. -/
inductive Stmt
  | mk (kind : StmtK) (span : Span)

/-- src/ast.rs:242-272 `Stmt_`. -/
inductive StmtK
  | none
  | block (b : List Stmt)
  | decl (d : Decl)
  | use (cs : List UseClause)
  | expr (e : Expr)
  | echo (es : List Expr)
  | ret (e : Option Expr)
  | brk (e : Option Expr)
  | cont (e : Option Expr)
  | unset (es : List Expr)
  | ite (c : Expr) (t e : List Stmt)
  | while (c : Expr) (b : List Stmt)
  | doWhile (b : List Stmt) (c : Expr)
  | for (i c l : Option Expr) (b : List Stmt)
  | forEach (e : Expr) (k : Option Expr) (v : Expr) (b : List Stmt)
  | try (b : List Stmt) (cs : List Catch) (f : Option (List Stmt))
  | throw (e : Expr)
  | switch (e : Expr) (cs : List Case)

/-- src/ast.rs:334-342 `FunctionDecl`. -/
inductive FnDecl
  | mk (params : List Param) (body : Option (List Stmt)) (usev : List (Bool × Text)) (retRef : Bool)

/-- src/ast.rs:323-331 `ParamDefinition`. -/
inductive Param
  | mk (name : Text) (asRef variadic : Bool) (ty : Option Ty) (default : Option Expr)

/-- src/ast.rs:355-360 `Member`. -/
inductive Member
  | constant (m : MemberModifiers) (name : Text) (e : Expr)
  | property (m : MemberModifiers) (name : Text) (e : Option Expr)
  | method (m : MemberModifiers) (name : Text) (f : FnDecl)
  | traitUse (ps : List Path) (us : List TraitUse)

/-- src/ast.rs:363-371 `Decl`, with `ClassDecl` (src/ast.rs:345-352) inlined. -/
inductive Decl
  | namespace (p : Path)
  | globalFunction (name : Text) (f : FnDecl)
  | cls (cmod : ClassModifiers) (name : Text) (base : Option Path) (impls : List Path)
      (members : List Member)
  | interface (name : Text) (exts : List Path) (members : List Member)
  | trait (name : Text) (members : List Member)
  | staticVars (vs : List (Text × Option Expr))
  | globalVars (vs : List Variable)

/-- src/ast.rs:374-378 `CatchClause`. -/
inductive Catch
  | mk (ty : Path) (var : Text) (block : List Stmt)

/-- src/ast.rs:381-385 `SwitchCase`. -/
inductive Case
  | mk (conds : List Expr) (default : Bool) (block : List Stmt)

end

/-- `expr.0`. -/
def Expr.kind : Expr → ExprK
  | .mk k _ => k

/-- `expr.1`. -/
def Expr.span : Expr → Span
  | .mk _ s => s

/-- `stmt.0`. -/
def Stmt.kind : Stmt → StmtK
  | .mk k _ => k

/-- `stmt.1`. -/
def Stmt.span : Stmt → Span
  | .mk _ s => s

instance : Inhabited Expr := ⟨.mk (.int 0) Span.new⟩
instance : Inhabited Stmt := ⟨.mk .none Span.new⟩

end Pico
