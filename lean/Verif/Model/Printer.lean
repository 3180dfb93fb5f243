import Verif.Model.Ast
/-!
# Pretty printer (src/printer.rs)

The printer writes to any target implementing `fmt::Write`, which may refuse a write. The model keeps the
target abstract, threads the indentation counter through the state exactly as the Rust code does, and
propagates a refused write as `try!` does.

Simplifications: the number of `write_str` calls that the standard library makes for one formatted integer
is taken to be one; the formatting of `f64` values is a parameter (`Target.dbl`), because the trees of the
model keep the text of a double literal. What the standard library writes for that text is modelled in
`Verif/Model/Float.lean`; the theorems of C52 are about the printer with that formatting put in.
-/
namespace Pico

/-- A `W: fmt::Write`: each write gives the next state of the target and whether it was accepted.
`dbl` is the formatting of a double, given the text of its literal (`Verif/Model/Float.lean`). -/
structure Target (σ : Type) where
  write : σ → Text → σ × Bool
  dbl : Text → Text

/-- src/printer.rs:9-12 `PrettyPrinter`. -/
structure WSt (σ : Type) where
  indent : Nat
  target : σ

/-- Outcome of a printing method: `Ok(())`, `Err(fmt::Error)` or a panic. -/
inductive WR (σ : Type)
  | ok (s : WSt σ)
  | err (s : WSt σ)
  | panic (p : Panic)

/-- A printing method taking `&mut self` and returning `fmt::Result`. -/
abbrev W (σ : Type) := WSt σ → WR σ

/-- `try!(a); b`. -/
def W.seq {σ : Type} (a b : W σ) : W σ := fun s =>
  match a s with
  | .ok s' => b s'
  | .err s' => .err s'
  | .panic p => .panic p

@[inherit_doc] infixr:60 " ;; " => W.seq

/-- `Ok(())`. -/
def W.skip {σ : Type} : W σ := fun s => .ok s

/-- `unimplemented!()`. -/
def W.boom {σ : Type} (p : Panic) : W σ := fun _ => .panic p

/-- `self.indentation += 1`. -/
def W.inc {σ : Type} : W σ := fun s => .ok { s with indent := s.indent + 1 }

/-- `self.indentation -= 1` (with the overflow check of the debug profile). -/
def W.dec {σ : Type} : W σ := fun s =>
  match s.indent with
  | 0 => .panic .subOverflow
  | n + 1 => .ok { s with indent := n }

/-- Run an action `n` times. -/
def W.times {σ : Type} : Nat → W σ → W σ
  | 0, _ => W.skip
  | n + 1, m => m ;; W.times n m

section
variable {σ : Type} (tg : Target σ)

/-- src/printer.rs:42-44 `write` (and `write!(self.target, ..)`). -/
def wr (t : Text) : W σ := fun s =>
  match tg.write s.target t with
  | (s', true) => .ok { s with target := s' }
  | (s', false) => .err { s with target := s' }

/-- src/printer.rs:35-40 `write_indented`. -/
def wrIndented (t : Text) : W σ := fun s =>
  (W.times s.indent (wr tg c!"    ") ;; wr tg t) s

/-- src/printer.rs:30-33 `writeln`. -/
def wrLn (t : Text) : W σ := wrIndented tg t ;; wr tg c!"\n"

/-- `if b { m }`. -/
def W.cond (b : Bool) (m : W σ) : W σ := if b then m else W.skip

/-- src/printer.rs:688-716 `Display for Op`. -/
def Op.text : Op → Text
  | .Concat => c!"."
  | .Add => c!"+"
  | .Sub => c!"-"
  | .Mul => c!"*"
  | .Div => c!"/"
  | .Pow => c!"**"
  | .Mod => c!"%"
  | .Or => c!"||"
  | .And => c!"&&"
  | .Identical => c!"==="
  | .NotIdentical => c!"!=="
  | .Eq => c!"=="
  | .Neq => c!"!="
  | .Lt => c!"<"
  | .Gt => c!">"
  | .Le => c!"<="
  | .Ge => c!">="
  | .BitwiseAnd => c!"&"
  | .BitwiseInclOr => c!"|"
  | .BitwiseExclOr => c!"^"
  | .Spaceship => c!"<=>"
  | .Sl => c!"<<"
  | .Sr => c!">>"

/-- src/printer.rs:718-728 `Display for ClassModifiers`. -/
def wrClassModifiers (m : ClassModifiers) : W σ :=
  W.cond (m.has .Abstract) (wr tg c!"abstract ") ;;
  W.cond (m.has .Final) (wr tg c!"final ")

/-- src/printer.rs:730-752 `Display for MemberModifiers`. -/
def wrMemberModifiers (m : MemberModifiers) : W σ :=
  W.cond (m.has .Public) (wr tg c!"public ") ;;
  W.cond (m.has .Protected) (wr tg c!"protected ") ;;
  W.cond (m.has .Private) (wr tg c!"private ") ;;
  W.cond (m.has .Static) (wr tg c!"static ") ;;
  W.cond (m.has .Abstract) (wr tg c!"abstract ") ;;
  W.cond (m.has .Final) (wr tg c!"final ")

/-- src/printer.rs:754-764 `Display for Path`. -/
def wrPath (p : Path) : W σ :=
  W.cond p.isAbsolute (wr tg c!"\\") ;;
  (match p.ns with
   | some ns => wr tg ns ;; wr tg c!"\\"
   | none => W.skip) ;;
  wr tg p.ident

/-- src/printer.rs:767-785 `Display for Ty`. -/
def wrTy : Ty → W σ
  | .Array => wr tg c!"array"
  | .Callable => wr tg c!"callable"
  | .Bool => wr tg c!"bool"
  | .Float => wr tg c!"float"
  | .Int => wr tg c!"int"
  | .Double => wr tg c!"double"
  | .String => wr tg c!"string"
  | .Object none => wr tg c!"object"
  | .Object (some p) => wrPath tg p

/-- src/printer.rs:787-803 `Display for Const`. -/
def Const.text : Const → Text
  | .Null => c!"null"
  | .True => c!"true"
  | .False => c!"false"
  | .MagicClass => Kw.MagicClass.repr
  | .MagicTrait => Kw.MagicTrait.repr
  | .MagicFunction => Kw.MagicFunction.repr
  | .MagicMethod => Kw.MagicMethod.repr
  | .MagicLine => Kw.MagicLine.repr
  | .MagicFile => Kw.MagicFile.repr
  | .MagicDir => Kw.MagicDir.repr
  | .MagicNamespace => Kw.MagicNamespace.repr

/-- src/printer.rs:489: `str_.replace("\\'", "\\\\'")`: every backslash-quote gets a second backslash. -/
def replaceBsQuote : Text → Text
  | [] => []
  | '\\' :: '\'' :: cs => '\\' :: '\\' :: '\'' :: replaceBsQuote cs
  | c :: cs => c :: replaceBsQuote cs

/-- src/printer.rs:489: `.replace('\'', "\\'")`. -/
def replaceQuote : Text → Text
  | [] => []
  | '\'' :: cs => '\\' :: '\'' :: replaceQuote cs
  | c :: cs => c :: replaceQuote cs

/-- `s.ends_with('\\')`. -/
def endsWithBs (s : Text) : Bool := s.getLast? == some '\\'

/-- src/printer.rs:488-495: a string literal. -/
def wrStr (s : Text) : W σ :=
  let out := replaceQuote (replaceBsQuote s)
  wr tg c!"'" ;; wr tg out ;; W.cond (endsWithBs out) (wr tg c!"\\") ;; wr tg c!"'"

/-- `{}` of an `i64`: decimal digits with a minus sign if negative. -/
def intText (v : Int) : Text :=
  match v with
  | .ofNat n => Nat.toDigits 10 n
  | .negSucc n => '-' :: Nat.toDigits 10 (n + 1)

/-- src/printer.rs:448-459: is the expression put in parentheses as an operand? -/
def ExprK.wrapped : ExprK → Bool
  | .binary .. | .unary .. | .arrayIdx .. | .objMember .. | .staticMember .. | .call .. | .new ..
  | .assign .. | .ternary .. => true
  | _ => false

/-- src/printer.rs:441-469 `print_expression_curly_parens`; `body` is `print_expression(expr)`. -/
def wrapParens (curly : Bool) (e : Expr) (body : W σ) : W σ :=
  W.cond e.kind.wrapped (wr tg (if curly then c!"{" else c!"(")) ;;
  body ;;
  W.cond e.kind.wrapped (wr tg (if curly then c!"}" else c!")"))

/-- src/printer.rs:591-600: the prefix and whether the operand may be parenthesised. -/
def UnaryOp.prefixText : UnaryOp → Text × Bool
  | .Positive => (c!"+", true)
  | .Negative => (c!"-", true)
  | .Not => (c!"!", true)
  | .PreInc => (c!"++", false)
  | .PreDec => (c!"--", false)
  | .PostInc => ([], false)
  | .PostDec => ([], false)
  | .BitwiseNot => (c!"~", true)
  | .SilenceErrors => (c!"@", true)

/-- src/printer.rs:607-611. -/
def wrPostfix : UnaryOp → W σ
  | .PostInc => wr tg c!"++"
  | .PostDec => wr tg c!"--"
  | _ => W.skip

/-- src/printer.rs:539-544. -/
def IncludeTy.text : IncludeTy → Text
  | .Require => c!"require"
  | .RequireOnce => c!"require_once"
  | .Include => c!"include"
  | .IncludeOnce => c!"include_once"

/-- src/printer.rs:626-636: the name of a cast. -/
def wrCastTy : Ty → W σ
  | .Array => wr tg c!"array"
  | .Callable => wr tg c!"callable"
  | .Bool => wr tg c!"bool"
  | .Float => wr tg c!"float"
  | .Int => wr tg c!"int"
  | .Double => wr tg c!"double"
  | .String => wr tg c!"string"
  | .Object none => wr tg c!"object"
  | .Object (some _) => W.boom .unimplemented

/-- Paths separated by commas (src/printer.rs:90-95, 104-109, 172-177, 199-204). -/
def wrPaths : Bool → List Path → W σ
  | _, [] => W.skip
  | first, p :: ps => W.cond (!first) (wr tg c!", ") ;; wrPath tg p ;; wrPaths false ps

/-- src/printer.rs:261-270: the variables of a `use (..)` clause. -/
def wrUseVars : Bool → List (Bool × Text) → W σ
  | _, [] => W.skip
  | first, (byRef, v) :: vs =>
    W.cond (!first) (wr tg c!", ") ;; W.cond byRef (wr tg c!"&") ;; wr tg c!"$" ;; wr tg v ;;
    wrUseVars false vs

/-- `if let Some(ref x) = o { f(x) }`. -/
def W.opt {α : Type} (o : Option α) (f : α → W σ) : W σ :=
  match o with
  | some x => f x
  | none => W.skip

/-- src/printer.rs:181-208: one trait adaptation. -/
def wrTraitUse : TraitUse → W σ
  | .asAlias path method ms alias_ =>
    W.opt path (fun p => wrPath tg p ;; wr tg c!"::") ;; wr tg method ;; wr tg c!" as " ;;
    wrMemberModifiers tg ms ;; wr tg c!" " ;; W.opt alias_ (wr tg)
  | .insteadOf path method names =>
    wrPath tg path ;; wr tg c!"::" ;; wr tg method ;; wr tg c!" insteadof " ;; wrPaths tg true names

/-- src/printer.rs:181-208: the adaptations. -/
def wrTraitUses : List TraitUse → W σ
  | [] => W.skip
  | u :: us => wrIndented tg [] ;; wrTraitUse tg u ;; wr tg c!";\n" ;; wrTraitUses us

/-- src/printer.rs:280-295 `print_use`. -/
def wrUse : List UseClause → W σ
  | [] => W.skip
  | c :: cs =>
    wrIndented tg c!"use " ;; wrPath tg c.path ;;
    W.opt c.alias_ (fun a => wr tg c!" as " ;; wr tg a) ;; wr tg c!";\n" ;; wrUse cs

/-- src/printer.rs:219-227 `print_block`; `body` prints the statements. -/
def wrBlock (body : W σ) : W σ :=
  wr tg c!"{\n" ;; W.inc ;; body ;; W.dec ;; wrIndented tg c!"}\n"

/-- src/printer.rs:56-65 `print_member_body`; `body` prints the members. -/
def wrMemberBody (body : W σ) : W σ :=
  wr tg c!" {\n" ;; W.inc ;; body ;; W.dec ;; wrIndented tg c!"}"

/-- src/printer.rs:229-278 `print_function`, with the parameters and the body printed by arguments. -/
def wrFunction (retRef : Bool) (name : Option Text) (params : W σ) (usev : List (Bool × Text))
    (body : W σ) : W σ :=
  wr tg c!"function " ;; W.cond retRef (wr tg c!"&") ;; W.opt name (wr tg) ;; wr tg c!"(" ;;
  params ;; wr tg c!") " ;;
  W.cond (!usev.isEmpty) (wr tg c!"use (" ;; wrUseVars tg true usev ;; wr tg c!") ") ;;
  body

mutual

/-- src/printer.rs:485-685 `print_expression`. -/
def pExpr : Expr → W σ
  | .mk k _ => pExprK k

/-- src/printer.rs:486-684. -/
def pExprK : ExprK → W σ
  | .path p => wrPath tg p
  | .str s => wrStr tg s
  | .binStr _ => W.boom .unimplemented
  | .int i => wr tg (intText i)
  | .double d => wr tg (tg.dbl d)
  | .array arr => wr tg c!"[" ;; pItems true arr ;; wr tg c!"]"
  | .const c => wr tg c.text
  | .var v => pVariable v
  | .reference e => wr tg c!"&" ;; pExpr e
  | .isset args => wr tg c!"isset(" ;; pArgs true args ;; wr tg c!")"
  | .empty e => wr tg c!"empty(" ;; pExpr e ;; wr tg c!")"
  | .exit e => wr tg c!"exit(" ;; pOptExpr e ;; wr tg c!")"
  | .clone e => wr tg c!"clone " ;; pExpr e
  | .include t e => wr tg t.text ;; wr tg c!" " ;; pExpr e
  | .arrayIdx b idxs => wrapParens tg false b (pExpr b) ;; pIdxs idxs
  | .objMember b ms => wrapParens tg false b (pExpr b) ;; pMemberNames c!"->" true ms
  | .staticMember b ms => wrapParens tg false b (pExpr b) ;; pMemberNames c!"::" false ms
  | .call t args => pExpr t ;; wr tg c!"(" ;; pArgs true args ;; wr tg c!")"
  | .new t args => wr tg c!"new " ;; pExpr t ;; wr tg c!"(" ;; pArgs true args ;; wr tg c!")"
  | .unpack e => wr tg c!"..." ;; pExpr e
  | .unary op e =>
    wr tg op.prefixText.1 ;;
    (if op.prefixText.2 then wrapParens tg false e (pExpr e) else pExpr e) ;;
    wrPostfix tg op
  | .binary op l r =>
    wrapParens tg false l (pExpr l) ;; wr tg op.text ;; wrapParens tg false r (pExpr r)
  | .instanceOf l r => pExpr l ;; wr tg c!" instanceof " ;; pExpr r
  | .cast t e => wr tg c!"(" ;; wrCastTy tg t ;; wr tg c!")(" ;; pExpr e ;; wr tg c!")"
  | .yield e => wr tg c!"yield " ;; pOptExpr e
  | .function f => pFn none f
  | .assign l r => pExpr l ;; wr tg c!"=" ;; pExpr r
  | .compoundAssign l op r => pExpr l ;; wr tg op.text ;; wr tg c!"=" ;; pExpr r
  | .assignRef l r => pExpr l ;; wr tg c!"=&" ;; pExpr r
  | .list items => wr tg c!"list(" ;; pItems true items ;; wr tg c!")"
  | .ternary c t e =>
    wrapParens tg false c (pExpr c) ;; wr tg c!"?" ;;
    (match t with
     | some t => wrapParens tg false t (pExpr t)
     | none => W.skip) ;;
    wr tg c!":" ;; wrapParens tg false e (pExpr e)

/-- src/printer.rs:475-483 `print_variable`. -/
def pVariable : Variable → W σ
  | .name n => wr tg c!"$" ;; wr tg n
  | .fetch e => wr tg c!"$" ;; wrapParens tg true e (pExpr e)

/-- src/printer.rs:434-439 `print_opt_expression`. -/
def pOptExpr : Option Expr → W σ
  | none => W.skip
  | some e => pExpr e

/-- src/printer.rs:46-54 `print_argument_list`; `first` is `i == 0`. -/
def pArgs : Bool → List Expr → W σ
  | _, [] => W.skip
  | first, e :: es => W.cond (!first) (wr tg c!", ") ;; pExpr e ;; pArgs false es

/-- src/printer.rs:501-510 and 663-672: array or list elements. -/
def pItems : Bool → List (Option Expr × Expr) → W σ
  | _, [] => W.skip
  | first, (none, v) :: items => W.cond (!first) (wr tg c!", ") ;; pExpr v ;; pItems false items
  | first, (some k, v) :: items =>
    W.cond (!first) (wr tg c!", ") ;; (pExpr k ;; wr tg c!" => ") ;; pExpr v ;; pItems false items

/-- src/printer.rs:550-554: array indexes. -/
def pIdxs : List (Option Expr) → W σ
  | [] => W.skip
  | none :: idxs => wr tg c!"[" ;; W.skip ;; wr tg c!"]" ;; pIdxs idxs
  | some e :: idxs => wr tg c!"[" ;; pExpr e ;; wr tg c!"]" ;; pIdxs idxs

/-- src/printer.rs:559-562 and 567-570: member names. -/
def pMemberNames (sep : Text) (curly : Bool) : List Expr → W σ
  | [] => W.skip
  | e :: es => wr tg sep ;; wrapParens tg curly e (pExpr e) ;; pMemberNames sep curly es

/-- src/printer.rs:229-278 `print_function`. -/
def pFn (name : Option Text) : FnDecl → W σ
  | .mk params body usev retRef =>
    wrFunction tg retRef name (pParams true params) usev
      (match body with
       | some b => wrBlock tg (pStmts b)
       | none => wr tg c!";")

/-- src/printer.rs:238-257: the parameters. -/
def pParams : Bool → List Param → W σ
  | _, [] => W.skip
  | first, p :: ps => W.cond (!first) (wr tg c!",") ;; pParam p ;; pParams false ps

/-- src/printer.rs:242-256: one parameter. -/
def pParam : Param → W σ
  | .mk name asRef variadic ty default =>
    W.opt ty (fun t => wrTy tg t ;; wr tg c!" ") ;; W.cond asRef (wr tg c!"&") ;;
    W.cond variadic (wr tg c!"...") ;; wr tg c!"$" ;; wr tg name ;;
    (match default with
     | some e => wr tg c!"=" ;; pExpr e
     | none => W.skip)

/-- src/printer.rs:297-432 `print_statement`. -/
def pStmt : Stmt → W σ
  | .mk k _ => pStmtK k

/-- src/printer.rs:298-431. -/
def pStmtK : StmtK → W σ
  | .none => wrLn tg c!";"
  | .block b => wrLn tg c!"{\n" ;; W.inc ;; pStmts b ;; W.dec ;; wrLn tg c!"}\n"
  | .decl d => pDecl d
  | .use cs => wrUse tg cs
  | .expr e => wrIndented tg [] ;; pExpr e ;; wr tg c!";\n"
  | .echo es => wrIndented tg c!"echo " ;; pArgs true es ;; wr tg c!";\n"
  | .ret e =>
    wrIndented tg c!"return" ;;
    (match e with
     | some e => wr tg c!" " ;; pExpr e
     | none => W.skip) ;;
    wr tg c!";\n"
  | .brk e =>
    wrIndented tg c!"break" ;;
    (match e with
     | some e => wr tg c!" " ;; pExpr e
     | none => W.skip) ;;
    wr tg c!";\n"
  | .cont e =>
    wrIndented tg c!"continue" ;;
    (match e with
     | some e => wr tg c!" " ;; pExpr e
     | none => W.skip) ;;
    wr tg c!";\n"
  | .unset es => wrIndented tg c!"unset(" ;; pArgs true es ;; wr tg c!");\n"
  | .ite c t e =>
    wrIndented tg c!"if (" ;; pExpr c ;; wr tg c!") " ;; wrBlock tg (pStmts t) ;;
    W.cond (!e.isEmpty) (wrIndented tg c!"else " ;; wrBlock tg (pStmts e))
  | .while c b => wrIndented tg c!"while (" ;; pExpr c ;; wr tg c!") " ;; wrBlock tg (pStmts b)
  | .doWhile b c =>
    wrIndented tg c!"do " ;; wrBlock tg (pStmts b) ;; wr tg c!"while (" ;; pExpr c ;; wr tg c!");\n"
  | .for i c l b =>
    wrIndented tg c!"for (" ;; pOptExpr i ;; wr tg c!"; " ;; pOptExpr c ;; wr tg c!";" ;;
    pOptExpr l ;; wr tg c!") " ;; wrBlock tg (pStmts b)
  | .forEach e k v b =>
    wrIndented tg c!"foreach (" ;; pExpr e ;; wr tg c!" as " ;;
    (match k with
     | some k => pExpr k ;; wr tg c!" => "
     | none => W.skip) ;;
    pExpr v ;; wr tg c!") " ;; wrBlock tg (pStmts b)
  | .try b cs f =>
    wrIndented tg c!"try " ;; wrBlock tg (pStmts b) ;; pCatches cs ;;
    (match f with
     | some f => wr tg c!"finally " ;; wrBlock tg (pStmts f)
     | none => W.skip)
  | .throw e => wrIndented tg c!"throw " ;; pExpr e ;; wr tg c!";\n"
  | .switch e cs =>
    wrIndented tg c!"switch (" ;; pExpr e ;; wr tg c!") {\n" ;; W.inc ;; pCases cs ;; W.dec ;;
    wr tg c!"}\n"

/-- Statements in order (src/printer.rs:222-224 and similar). -/
def pStmts : List Stmt → W σ
  | [] => W.skip
  | s :: ss => pStmt s ;; pStmts ss

/-- src/printer.rs:392-396: catch clauses. -/
def pCatches : List Catch → W σ
  | [] => W.skip
  | c :: cs => pCatch c ;; pCatches cs

/-- src/printer.rs:393-395. -/
def pCatch : Catch → W σ
  | .mk ty var block =>
    wr tg c!"catch (" ;; wrPath tg ty ;; wr tg c!" $" ;; wr tg var ;; wr tg c!") " ;;
    wrBlock tg (pStmts block)

/-- src/printer.rs:413-427: the cases of a switch. -/
def pCases : List Case → W σ
  | [] => W.skip
  | c :: cs => pCase c ;; pCases cs

/-- src/printer.rs:414-426: one case. -/
def pCase : Case → W σ
  | .mk conds default block =>
    pConds conds ;; W.cond default (wr tg c!"default:\n") ;; W.inc ;; pStmts block ;; W.dec

/-- src/printer.rs:414-418: the labels of a case. -/
def pConds : List Expr → W σ
  | [] => W.skip
  | e :: es => wrIndented tg c!"case " ;; pExpr e ;; wr tg c!":\n" ;; pConds es

/-- src/printer.rs:67-145 `print_decl`. -/
def pDecl : Decl → W σ
  | .namespace p => wrIndented tg c!"namespace " ;; wrPath tg p ;; wr tg c!";\n"
  | .globalFunction name f => wrIndented tg [] ;; pFn (some name) f
  | .cls cmod name base impls members =>
    wrIndented tg [] ;; wrClassModifiers tg cmod ;; wr tg c!"class " ;; wr tg name ;; wr tg c!" " ;;
    W.opt base (fun b => wr tg c!"extends " ;; wrPath tg b ;; wr tg c!" ") ;;
    W.cond (!impls.isEmpty) (wr tg c!"implements " ;; wrPaths tg true impls) ;;
    wrMemberBody tg (pMembers members)
  | .interface name exts members =>
    wrIndented tg c!"interface " ;; wr tg name ;;
    W.cond (!exts.isEmpty) (wr tg c!" extends " ;; wrPaths tg true exts) ;;
    wrMemberBody tg (pMembers members)
  | .trait name members =>
    wrIndented tg c!"trait " ;; wr tg name ;; wrMemberBody tg (pMembers members)
  | .staticVars vs => wrIndented tg c!"static " ;; pStaticVars true vs ;; wr tg c!";\n"
  | .globalVars vs => wrIndented tg c!"global " ;; pGlobalVars true vs ;; wr tg c!";\n"

/-- src/printer.rs:120-130. -/
def pStaticVars : Bool → List (Text × Option Expr) → W σ
  | _, [] => W.skip
  | first, (n, none) :: vs =>
    W.cond (!first) (wr tg c!", ") ;; wr tg c!"$" ;; wr tg n ;; pStaticVars false vs
  | first, (n, some e) :: vs =>
    W.cond (!first) (wr tg c!", ") ;; wr tg c!"$" ;; wr tg n ;; (wr tg c!"=" ;; pExpr e) ;;
    pStaticVars false vs

/-- src/printer.rs:135-141. -/
def pGlobalVars : Bool → List Variable → W σ
  | _, [] => W.skip
  | first, v :: vs =>
    W.cond (!first) (wr tg c!", ") ;; wr tg c!"$" ;; pVariable v ;; pGlobalVars false vs

/-- src/printer.rs:59-62: members, each followed by a line end. -/
def pMembers : List Member → W σ
  | [] => W.skip
  | m :: ms => pMember m ;; wr tg c!"\n" ;; pMembers ms

/-- src/printer.rs:147-217 `print_member`. -/
def pMember : Member → W σ
  | .constant ms name e =>
    wrIndented tg [] ;; wrMemberModifiers tg ms ;; wr tg c!" const " ;; wr tg name ;; wr tg c!"=" ;;
    pExpr e ;; wr tg c!";"
  | .property ms name e =>
    wrIndented tg [] ;; wrMemberModifiers tg ms ;; wr tg c!" $" ;; wr tg name ;;
    (match e with
     | some e => wr tg c!"=" ;; pExpr e
     | none => W.skip) ;;
    wr tg c!";"
  | .method ms name f =>
    wrIndented tg [] ;; wrMemberModifiers tg ms ;; wr tg c!" " ;; pFn (some name) f
  | .traitUse names uses =>
    wrIndented tg [] ;; wr tg c!"use " ;; wrPaths tg true names ;;
    (if uses.isEmpty then wr tg c!";\n"
     else wr tg c!"{\n" ;; W.inc ;; wrTraitUses tg uses ;; W.dec ;; wrIndented tg c!"}\n")

end

/-- src/printer.rs:14-20 `PrettyPrinter::new`. -/
def WSt.new (target : σ) : WSt σ := ⟨0, target⟩

/-- src/printer.rs:22-28 `print_statements`. -/
def printStatements (target : σ) (stmts : List Stmt) : WR σ := pStmts tg stmts (WSt.new target)

end

/-- A Rust `String` as the target: never refuses. -/
def stringTarget (dbl : Text → Text) : Target Text := ⟨fun s t => (s ++ t, true), dbl⟩

/-- Printing statements to a fresh string; `none` is a panic. -/
def printToString (dbl : Text → Text) (stmts : List Stmt) : Option Text :=
  match printStatements (stringTarget dbl) [] stmts with
  | .ok s => some s.target
  | _ => none

/-- Printing one expression to a fresh string (`PrettyPrinter::new(s).print_expression(e)`). -/
def printExprToString (dbl : Text → Text) (e : Expr) : Option Text :=
  match pExpr (stringTarget dbl) e (WSt.new []) with
  | .ok s => some s.target
  | _ => none

end Pico
