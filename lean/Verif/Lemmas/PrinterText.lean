import Verif.Model.Printer
/-!
# What the printer writes, as a pure function

`c*` gives the list of writes a printing method makes, in order (a `boom` marks an abort). The lemmas show
that the printer of `Verif.Model.Printer`, run on any target, makes exactly these writes until the first
refused one, and leaves the indentation as it found it.
-/
namespace Pico

/-- One write, or an abort. -/
inductive Chunk
  | text (t : Text)
  | boom (p : Panic)
  deriving DecidableEq, Repr

/-- Concatenation, nested to the right. -/
infixr:60 " ⧺ " => HAppend.hAppend

/-- One write. -/
def w (t : Text) : List Chunk := [.text t]

/-- Indentation and a text. -/
def ind (i : Nat) (t : Text) : List Chunk := List.replicate i (.text c!"    ") ++ [.text t]

/-- An indented line. -/
def ln (i : Nat) (t : Text) : List Chunk := ind i t ⧺ w c!"\n"

/-- Conditional. -/
def cnd (b : Bool) (m : List Chunk) : List Chunk := if b then m else []

/-- Optional. -/
def opt {α : Type} (o : Option α) (f : α → List Chunk) : List Chunk :=
  match o with
  | some x => f x
  | none => []

/-- src/printer.rs:718-728 `Display for ClassModifiers`. -/
def cClassModifiers (m : ClassModifiers) : List Chunk :=
  cnd (m.has .Abstract) (w c!"abstract ") ⧺
  cnd (m.has .Final) (w c!"final ")

/-- src/printer.rs:730-752 `Display for MemberModifiers`. -/
def cMemberModifiers (m : MemberModifiers) : List Chunk :=
  cnd (m.has .Public) (w c!"public ") ⧺
  cnd (m.has .Protected) (w c!"protected ") ⧺
  cnd (m.has .Private) (w c!"private ") ⧺
  cnd (m.has .Static) (w c!"static ") ⧺
  cnd (m.has .Abstract) (w c!"abstract ") ⧺
  cnd (m.has .Final) (w c!"final ")

/-- src/printer.rs:754-764 `Display for Path`. -/
def cPath (p : Path) : List Chunk :=
  cnd p.isAbsolute (w c!"\\") ⧺
  (match p.ns with
   | some ns => w ns ⧺ w c!"\\"
   | none => []) ⧺
  w p.ident

/-- src/printer.rs:767-785 `Display for Ty`. -/
def cTy : Ty → List Chunk
  | .Array => w c!"array"
  | .Callable => w c!"callable"
  | .Bool => w c!"bool"
  | .Float => w c!"float"
  | .Int => w c!"int"
  | .Double => w c!"double"
  | .String => w c!"string"
  | .Object none => w c!"object"
  | .Object (some p) => cPath p

/-- src/printer.rs:488-495: a string literal. -/
def cStr (s : Text) : List Chunk :=
  let out := replaceQuote (replaceBsQuote s)
  w c!"'" ⧺ w out ⧺ cnd (endsWithBs out) (w c!"\\") ⧺ w c!"'"

/-- src/printer.rs:441-469 `print_expression_curly_parens`; `body` is `print_expression(expr)`. -/
def cParens (curly : Bool) (e : Expr) (body : List Chunk) : List Chunk :=
  cnd e.kind.wrapped (w (if curly then c!"{" else c!"(")) ⧺
  body ⧺
  cnd e.kind.wrapped (w (if curly then c!"}" else c!")"))

/-- src/printer.rs:607-611. -/
def cPostfix : UnaryOp → List Chunk
  | .PostInc => w c!"++"
  | .PostDec => w c!"--"
  | _ => []

/-- src/printer.rs:626-636: the name of a cast. -/
def cCastTy : Ty → List Chunk
  | .Array => w c!"array"
  | .Callable => w c!"callable"
  | .Bool => w c!"bool"
  | .Float => w c!"float"
  | .Int => w c!"int"
  | .Double => w c!"double"
  | .String => w c!"string"
  | .Object none => w c!"object"
  | .Object (some _) => [.boom .unimplemented]

/-- Paths separated by commas (src/printer.rs:90-95, 104-109, 172-177, 199-204). -/
def cPaths : Bool → List Path → List Chunk
  | _, [] => []
  | first, p :: ps => cnd (!first) (w c!", ") ⧺ cPath p ⧺ cPaths false ps

/-- src/printer.rs:261-270: the variables of a `use (..)` clause. -/
def cUseVars : Bool → List (Bool × Text) → List Chunk
  | _, [] => []
  | first, (byRef, v) :: vs =>
    cnd (!first) (w c!", ") ⧺ cnd byRef (w c!"&") ⧺ w c!"$" ⧺ w v ⧺
    cUseVars false vs

/-- src/printer.rs:181-208: one trait adaptation. -/
def cTraitUse : TraitUse → List Chunk
  | .asAlias path method ms alias_ =>
    opt path (fun p => cPath p ⧺ w c!"::") ⧺ w method ⧺ w c!" as " ⧺
    cMemberModifiers ms ⧺ w c!" " ⧺ opt alias_ w
  | .insteadOf path method names =>
    cPath path ⧺ w c!"::" ⧺ w method ⧺ w c!" insteadof " ⧺ cPaths true names

/-- src/printer.rs:181-208: the adaptations. -/
def cTraitUses (i : Nat) : List TraitUse → List Chunk
  | [] => []
  | u :: us => ind i [] ⧺ cTraitUse u ⧺ w c!";\n" ⧺ cTraitUses i us

/-- src/printer.rs:280-295 `print_use`. -/
def cUse (i : Nat) : List UseClause → List Chunk
  | [] => []
  | c :: cs =>
    ind i c!"use " ⧺ cPath c.path ⧺
    opt c.alias_ (fun a => w c!" as " ⧺ w a) ⧺ w c!";\n" ⧺ cUse i cs

/-- src/printer.rs:219-227 `print_block`; `body` prints the statements. -/
def cBlock (i : Nat) (body : List Chunk) : List Chunk :=
  w c!"{\n" ⧺ body ⧺ ind i c!"}\n"

/-- src/printer.rs:56-65 `print_member_body`; `body` prints the members. -/
def cMemberBody (i : Nat) (body : List Chunk) : List Chunk :=
  w c!" {\n" ⧺ body ⧺ ind i c!"}"

/-- src/printer.rs:229-278 `print_function`, with the parameters and the body printed by arguments. -/
def cFunction (retRef : Bool) (name : Option Text) (params : List Chunk) (usev : List (Bool × Text))
    (body : List Chunk) : List Chunk :=
  w c!"function " ⧺ cnd retRef (w c!"&") ⧺ opt name w ⧺ w c!"(" ⧺
  params ⧺ w c!") " ⧺
  cnd (!usev.isEmpty) (w c!"use (" ⧺ cUseVars true usev ⧺ w c!") ") ⧺
  body

section
variable (dbl : Text → Text)

mutual

/-- src/printer.rs:485-685 `print_expression`. -/
def cExpr (i : Nat) : Expr → List Chunk
  | .mk k _ => cExprK i k

/-- src/printer.rs:486-684. -/
def cExprK (i : Nat) : ExprK → List Chunk
  | .path p => cPath p
  | .str s => cStr s
  | .binStr _ => [.boom .unimplemented]
  | .int v => w (intText v)
  | .double d => w (dbl d)
  | .array arr => w c!"[" ⧺ cItems i true arr ⧺ w c!"]"
  | .const c => w c.text
  | .var v => cVariable i v
  | .reference e => w c!"&" ⧺ cExpr i e
  | .isset args => w c!"isset(" ⧺ cArgs i true args ⧺ w c!")"
  | .empty e => w c!"empty(" ⧺ cExpr i e ⧺ w c!")"
  | .exit e => w c!"exit(" ⧺ cOptExpr i e ⧺ w c!")"
  | .clone e => w c!"clone " ⧺ cExpr i e
  | .include t e => w t.text ⧺ w c!" " ⧺ cExpr i e
  | .arrayIdx b idxs => cParens false b (cExpr i b) ⧺ cIdxs i idxs
  | .objMember b ms => cParens false b (cExpr i b) ⧺ cMemberNames i c!"->" true ms
  | .staticMember b ms => cParens false b (cExpr i b) ⧺ cMemberNames i c!"::" false ms
  | .call t args => cExpr i t ⧺ w c!"(" ⧺ cArgs i true args ⧺ w c!")"
  | .new t args => w c!"new " ⧺ cExpr i t ⧺ w c!"(" ⧺ cArgs i true args ⧺ w c!")"
  | .unpack e => w c!"..." ⧺ cExpr i e
  | .unary op e =>
    w op.prefixText.1 ⧺
    (if op.prefixText.2 then cParens false e (cExpr i e) else cExpr i e) ⧺
    cPostfix op
  | .binary op l r =>
    cParens false l (cExpr i l) ⧺ w op.text ⧺ cParens false r (cExpr i r)
  | .instanceOf l r => cExpr i l ⧺ w c!" instanceof " ⧺ cExpr i r
  | .cast t e => w c!"(" ⧺ cCastTy t ⧺ w c!")(" ⧺ cExpr i e ⧺ w c!")"
  | .yield e => w c!"yield " ⧺ cOptExpr i e
  | .function f => cFn i none f
  | .assign l r => cExpr i l ⧺ w c!"=" ⧺ cExpr i r
  | .compoundAssign l op r => cExpr i l ⧺ w op.text ⧺ w c!"=" ⧺ cExpr i r
  | .assignRef l r => cExpr i l ⧺ w c!"=&" ⧺ cExpr i r
  | .list items => w c!"list(" ⧺ cItems i true items ⧺ w c!")"
  | .ternary c t e =>
    cParens false c (cExpr i c) ⧺ w c!"?" ⧺
    (match t with
     | some t => cParens false t (cExpr i t)
     | none => []) ⧺
    w c!":" ⧺ cParens false e (cExpr i e)

/-- src/printer.rs:475-483 `print_variable`. -/
def cVariable (i : Nat) : Variable → List Chunk
  | .name n => w c!"$" ⧺ w n
  | .fetch e => w c!"$" ⧺ cParens true e (cExpr i e)

/-- src/printer.rs:434-439 `print_opt_expression`. -/
def cOptExpr (i : Nat) : Option Expr → List Chunk
  | none => []
  | some e => cExpr i e

/-- src/printer.rs:46-54 `print_argument_list`; `first` is `i == 0`. -/
def cArgs (i : Nat) : Bool → List Expr → List Chunk
  | _, [] => []
  | first, e :: es => cnd (!first) (w c!", ") ⧺ cExpr i e ⧺ cArgs i false es

/-- src/printer.rs:501-510 and 663-672: array or list elements. -/
def cItems (i : Nat) : Bool → List (Option Expr × Expr) → List Chunk
  | _, [] => []
  | first, (none, v) :: items => cnd (!first) (w c!", ") ⧺ cExpr i v ⧺ cItems i false items
  | first, (some k, v) :: items =>
    cnd (!first) (w c!", ") ⧺ (cExpr i k ⧺ w c!" => ") ⧺ cExpr i v ⧺ cItems i false items

/-- src/printer.rs:550-554: array indexes. -/
def cIdxs (i : Nat) : List (Option Expr) → List Chunk
  | [] => []
  | none :: idxs => w c!"[" ⧺ [] ⧺ w c!"]" ⧺ cIdxs i idxs
  | some e :: idxs => w c!"[" ⧺ cExpr i e ⧺ w c!"]" ⧺ cIdxs i idxs

/-- src/printer.rs:559-562 and 567-570: member names. -/
def cMemberNames (i : Nat) (sep : Text) (curly : Bool) : List Expr → List Chunk
  | [] => []
  | e :: es => w sep ⧺ cParens curly e (cExpr i e) ⧺ cMemberNames i sep curly es

/-- src/printer.rs:229-278 `print_function`. -/
def cFn (i : Nat) (name : Option Text) : FnDecl → List Chunk
  | .mk params body usev retRef =>
    cFunction retRef name (cParams i true params) usev
      (match body with
       | some b => cBlock i (cStmts (i + 1) b)
       | none => w c!";")

/-- src/printer.rs:238-257: the parameters. -/
def cParams (i : Nat) : Bool → List Param → List Chunk
  | _, [] => []
  | first, p :: ps => cnd (!first) (w c!",") ⧺ cParam i p ⧺ cParams i false ps

/-- src/printer.rs:242-256: one parameter. -/
def cParam (i : Nat) : Param → List Chunk
  | .mk name asRef variadic ty default =>
    opt ty (fun t => cTy t ⧺ w c!" ") ⧺ cnd asRef (w c!"&") ⧺
    cnd variadic (w c!"...") ⧺ w c!"$" ⧺ w name ⧺
    (match default with
     | some e => w c!"=" ⧺ cExpr i e
     | none => [])

/-- src/printer.rs:297-432 `print_statement`. -/
def cStmt (i : Nat) : Stmt → List Chunk
  | .mk k _ => cStmtK i k

/-- src/printer.rs:298-431. -/
def cStmtK (i : Nat) : StmtK → List Chunk
  | .none => ln i c!";"
  | .block b => ln i c!"{\n" ⧺ cStmts (i + 1) b ⧺ ln i c!"}\n"
  | .decl d => cDecl i d
  | .use cs => cUse i cs
  | .expr e => ind i [] ⧺ cExpr i e ⧺ w c!";\n"
  | .echo es => ind i c!"echo " ⧺ cArgs i true es ⧺ w c!";\n"
  | .ret e =>
    ind i c!"return" ⧺
    (match e with
     | some e => w c!" " ⧺ cExpr i e
     | none => []) ⧺
    w c!";\n"
  | .brk e =>
    ind i c!"break" ⧺
    (match e with
     | some e => w c!" " ⧺ cExpr i e
     | none => []) ⧺
    w c!";\n"
  | .cont e =>
    ind i c!"continue" ⧺
    (match e with
     | some e => w c!" " ⧺ cExpr i e
     | none => []) ⧺
    w c!";\n"
  | .unset es => ind i c!"unset(" ⧺ cArgs i true es ⧺ w c!");\n"
  | .ite c t e =>
    ind i c!"if (" ⧺ cExpr i c ⧺ w c!") " ⧺ cBlock i (cStmts (i + 1) t) ⧺
    cnd (!e.isEmpty) (ind i c!"else " ⧺ cBlock i (cStmts (i + 1) e))
  | .while c b => ind i c!"while (" ⧺ cExpr i c ⧺ w c!") " ⧺ cBlock i (cStmts (i + 1) b)
  | .doWhile b c =>
    ind i c!"do " ⧺ cBlock i (cStmts (i + 1) b) ⧺ w c!"while (" ⧺ cExpr i c ⧺ w c!");\n"
  | .for s c l b =>
    ind i c!"for (" ⧺ cOptExpr i s ⧺ w c!"; " ⧺ cOptExpr i c ⧺ w c!";" ⧺
    cOptExpr i l ⧺ w c!") " ⧺ cBlock i (cStmts (i + 1) b)
  | .forEach e k v b =>
    ind i c!"foreach (" ⧺ cExpr i e ⧺ w c!" as " ⧺
    (match k with
     | some k => cExpr i k ⧺ w c!" => "
     | none => []) ⧺
    cExpr i v ⧺ w c!") " ⧺ cBlock i (cStmts (i + 1) b)
  | .try b cs f =>
    ind i c!"try " ⧺ cBlock i (cStmts (i + 1) b) ⧺ cCatches i cs ⧺
    (match f with
     | some f => w c!"finally " ⧺ cBlock i (cStmts (i + 1) f)
     | none => [])
  | .throw e => ind i c!"throw " ⧺ cExpr i e ⧺ w c!";\n"
  | .switch e cs =>
    ind i c!"switch (" ⧺ cExpr i e ⧺ w c!") {\n" ⧺ cCases (i + 1) cs ⧺
    w c!"}\n"

/-- Statements in order (src/printer.rs:222-224 and similar). -/
def cStmts (i : Nat) : List Stmt → List Chunk
  | [] => []
  | s :: ss => cStmt i s ⧺ cStmts i ss

/-- src/printer.rs:392-396: catch clauses. -/
def cCatches (i : Nat) : List Catch → List Chunk
  | [] => []
  | c :: cs => cCatch i c ⧺ cCatches i cs

/-- src/printer.rs:393-395. -/
def cCatch (i : Nat) : Catch → List Chunk
  | .mk ty var block =>
    w c!"catch (" ⧺ cPath ty ⧺ w c!" $" ⧺ w var ⧺ w c!") " ⧺
    cBlock i (cStmts (i + 1) block)

/-- src/printer.rs:413-427: the cases of a switch. -/
def cCases (i : Nat) : List Case → List Chunk
  | [] => []
  | c :: cs => cCase i c ⧺ cCases i cs

/-- src/printer.rs:414-426: one case. -/
def cCase (i : Nat) : Case → List Chunk
  | .mk conds default block =>
    cConds i conds ⧺ cnd default (w c!"default:\n") ⧺ cStmts (i + 1) block

/-- src/printer.rs:414-418: the labels of a case. -/
def cConds (i : Nat) : List Expr → List Chunk
  | [] => []
  | e :: es => ind i c!"case " ⧺ cExpr i e ⧺ w c!":\n" ⧺ cConds i es

/-- src/printer.rs:67-145 `print_decl`. -/
def cDecl (i : Nat) : Decl → List Chunk
  | .namespace p => ind i c!"namespace " ⧺ cPath p ⧺ w c!";\n"
  | .globalFunction name f => ind i [] ⧺ cFn i (some name) f
  | .cls cmod name base impls members =>
    ind i [] ⧺ cClassModifiers cmod ⧺ w c!"class " ⧺ w name ⧺ w c!" " ⧺
    opt base (fun b => w c!"extends " ⧺ cPath b ⧺ w c!" ") ⧺
    cnd (!impls.isEmpty) (w c!"implements " ⧺ cPaths true impls) ⧺
    cMemberBody i (cMembers (i + 1) members)
  | .interface name exts members =>
    ind i c!"interface " ⧺ w name ⧺
    cnd (!exts.isEmpty) (w c!" extends " ⧺ cPaths true exts) ⧺
    cMemberBody i (cMembers (i + 1) members)
  | .trait name members =>
    ind i c!"trait " ⧺ w name ⧺ cMemberBody i (cMembers (i + 1) members)
  | .staticVars vs => ind i c!"static " ⧺ cStaticVars i true vs ⧺ w c!";\n"
  | .globalVars vs => ind i c!"global " ⧺ cGlobalVars i true vs ⧺ w c!";\n"

/-- src/printer.rs:120-130. -/
def cStaticVars (i : Nat) : Bool → List (Text × Option Expr) → List Chunk
  | _, [] => []
  | first, (n, none) :: vs =>
    cnd (!first) (w c!", ") ⧺ w c!"$" ⧺ w n ⧺ cStaticVars i false vs
  | first, (n, some e) :: vs =>
    cnd (!first) (w c!", ") ⧺ w c!"$" ⧺ w n ⧺ (w c!"=" ⧺ cExpr i e) ⧺
    cStaticVars i false vs

/-- src/printer.rs:135-141. -/
def cGlobalVars (i : Nat) : Bool → List Variable → List Chunk
  | _, [] => []
  | first, v :: vs =>
    cnd (!first) (w c!", ") ⧺ w c!"$" ⧺ cVariable i v ⧺ cGlobalVars i false vs

/-- src/printer.rs:59-62: members, each followed by a line end. -/
def cMembers (i : Nat) : List Member → List Chunk
  | [] => []
  | m :: ms => cMember i m ⧺ w c!"\n" ⧺ cMembers i ms

/-- src/printer.rs:147-217 `print_member`. -/
def cMember (i : Nat) : Member → List Chunk
  | .constant ms name e =>
    ind i [] ⧺ cMemberModifiers ms ⧺ w c!" const " ⧺ w name ⧺ w c!"=" ⧺
    cExpr i e ⧺ w c!";"
  | .property ms name e =>
    ind i [] ⧺ cMemberModifiers ms ⧺ w c!" $" ⧺ w name ⧺
    (match e with
     | some e => w c!"=" ⧺ cExpr i e
     | none => []) ⧺
    w c!";"
  | .method ms name f =>
    ind i [] ⧺ cMemberModifiers ms ⧺ w c!" " ⧺ cFn i (some name) f
  | .traitUse names uses =>
    ind i [] ⧺ w c!"use " ⧺ cPaths true names ⧺
    (if uses.isEmpty then w c!";\n"
     else w c!"{\n" ⧺ cTraitUses (i + 1) uses ⧺ ind i c!"}\n")


end

end

end Pico
