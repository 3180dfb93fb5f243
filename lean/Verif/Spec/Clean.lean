import Verif.Spec.RoundTrip
/-!
# What keeps a program from being read back

`clTops dbl` excludes the constructs for which the printed form of a tree may be read differently. All of them can
occur in programs (`C21_quirks` has a source for each group), and apart from them everything the parser returns is read
back (`C21_accepted_partial`). Unlike `rtTops` it says nothing about trees that are not the result of parsing.

The printer is to blame for most: it writes operands of `clone`, `include`, `yield`, `instanceof`, combined
assignments and calls without the parentheses they need, `exit;` as `exit();`, backslashes as they are, and more.
-/
namespace Pico

def traitUseClean : TraitUse → Bool
  | .insteadOf p m ps => pathOk p && identOk m && ps.all pathOk
  | .asAlias p m _ a => (match p with | some p => pathOk p | none => true) && identOk m &&
      (match a with | some a => nameOk a | none => true)

def tyClean : Option Ty → Bool
  | some (.Object (some p)) => pathOk p
  | _ => true

section
variable (dbl : Text → Text)

mutual

def clExpr : Expr → Bool
  | .mk k _ => clExprK k

def clExprK : ExprK → Bool
  -- names of types, which in parentheses make a cast; names with unusual letters
  | .path p => callable p && isPathK (constOf p)
  -- magic constants: `__line__` is printed as `__LINE__`, which is read as a name
  | .const x => x == .True || x == .False || x == .Null
  -- two backslashes in a row
  | .str s => strOk s
  -- numbers printed unlike they are written
  | .double l => doubleOk dbl l
  | .array items => clItems items
  | .var (.name n) => isIdentifier n
  -- `"${'a'}"`, printed as `$'a'`
  | .var (.fetch _) => false
  -- `foreach ($a as &$b->c[0])`, printed as `&($b->c)[0]`
  | .reference e => clExpr e && crefOk e && e.isVar
  | .clone e => clExpr e
  | .isset es => clExprs es
  | .empty e => clExpr e
  -- `exit` alone
  | .exit e => e.isSome && clOpt e
  | .include _ e => clExpr e
  -- what is indexed must not need parentheses the printer does not write
  | .arrayIdx b idxs => clExpr b && baseOk b && clOpts idxs
  | .objMember b ms => clExpr b && baseOk b && clNames ms
  | .staticMember b ms => scopeOk b && (ms.all simpleVar || classConstOk b ms) || clExpr b && baseOk b && ms.all simpleVar
  | .call t args => (callee t || clExpr t && (t.isVar || t.isClassConst)) && clExprs args
  | .new t args => (classRef t || clExpr t && crefOk t) && clExprs args
  | .unpack e => clExpr e
  -- `instanceof` behind signs, printed without parentheses
  | .unary op e => clExpr e && (match op with
    | .PreInc | .PreDec | .PostInc | .PostDec => e.isVar
    | _ => signOk e && (e.kind.bracketed || e.grade != .inst))
  -- left operands that extend to the right; numbers around a dot
  | .binary op l r => clExpr l && clExpr r && leftOk l && signOk r &&
      (op != .Concat || (!l.isNumber && (r.kind.bracketed || r.lead != .digit)))
  | .instanceOf l r => clExpr l && l.grade == .tight && (classRef r || clExpr r && crefOk r)
  | .cast _ e => clExpr e
  -- `yield from..`
  | .yield e => clOpt e && (match e with | some e => noFromLead e.lead | none => true)
  | .function f => clFn f
  | .assign l r => clExpr l && (l.isVar || l.isList) && clExpr r
  -- `&=`, printed as `&&=`
  | .compoundAssign l op r => clExpr l && l.isVar && (compoundKw op).isSome && clExpr r
  | .assignRef l r => clExpr l && (l.isVar || l.isList) && clExpr r
  | .list items => clItems items
  | .ternary c t e => clExpr c && leftOk c && clOpt t && clExpr e
  | _ => true

def clOpt : Option Expr → Bool
  | none => true
  | some e => clExpr e

def clExprs : List Expr → Bool
  | [] => true
  | e :: es => clExpr e && clExprs es

def clItems : List (Option Expr × Expr) → Bool
  | [] => true
  | (k, e) :: es => clOpt k && clExpr e && clItems es

def clOpts : List (Option Expr) → Bool
  | [] => true
  | e :: es => clOpt e && clOpts es

/-- What follows `->`: names, variables, and expressions that are printed in braces. -/
def clNames : List Expr → Bool
  | [] => true
  | e :: es => (propName e || simpleVar e || (e.kind.bracketed && clExpr e)) && clNames es

def clFn : FnDecl → Bool
  | .mk params body usev _ => clParams params && useVarsOk usev && (match body with
    | some b => clStmts b
    | none => true)

def clParams : List Param → Bool
  | [] => true
  | q :: qs => clParam q && clParams qs

def clParam : Param → Bool
  | .mk n _ _ t d => isIdentifier n && tyClean t && clOpt d

def clStmt : Stmt → Bool
  | .mk k _ => clStmtK k

def clStmtK : StmtK → Bool
  | .none => true
  | .block b => clStmts b
  | .decl d => clDecl d
  | .use _ => true
  | .expr e => clExpr e
  | .echo es => clExprs es
  | .ret e => clOpt e
  | .brk e => clOpt e
  | .cont e => clOpt e
  | .unset es => clExprs es && es.all Expr.isVar
  | .ite c t e => clExpr c && clStmts t && clStmts e
  | .while c b => clExpr c && clStmts b
  | .doWhile b c => clStmts b && clExpr c
  | .for i c l b => clOpt i && clOpt c && clOpt l && clStmts b
  | .forEach e k v b => clExpr e && (match k with | some k => clExpr k && eachOk k | none => true) && clExpr v &&
      eachOk v && clStmts b
  | .try b cs f => clStmts b && clCatches cs && (match f with | some f => clStmts f | none => true)
  | .throw e => clExpr e
  | .switch e cs => clExpr e && clCases cs

def clStmts : List Stmt → Bool
  | [] => true
  | s :: ss => clStmt s && clStmts ss

def clCatches : List Catch → Bool
  | [] => true
  | .mk ty v b :: cs => pathOk ty && isIdentifier v && clStmts b && clCatches cs

def clCases : List Case → Bool
  | [] => true
  | .mk conds _ b :: cs => clExprs conds && clStmts b && clCases cs

def clDecl : Decl → Bool
  | .namespace p => pathOk p
  | .globalFunction n f => nameOk n && clFn f
  | .cls _ n b i ms => nameOk n && (match b with | some b => pathOk b | none => true) && i.all pathOk && clMembers ms
  | .interface n x ms => nameOk n && x.all pathOk && clMembers ms
  | .trait n ms => nameOk n && clMembers ms
  | .staticVars vs => clStaticVars vs
  -- `global`
  | .globalVars _ => false

def clStaticVars : List (Text × Option Expr) → Bool
  | [] => true
  | (n, e) :: vs => isIdentifier n && clOpt e && clStaticVars vs

def clMember : Member → Bool
  | .constant _ n e => identOk n && clExpr e
  | .property _ n e => isIdentifier n && clOpt e
  | .method _ n f => nameOk n && clFn f
  | .traitUse ps us => ps.all pathOk && us.all traitUseClean

def clMembers : List Member → Bool
  | [] => true
  | m :: ms => clMember m && clMembers ms

end

/-- `use A, B;` is printed as `use A;` and `use B;`. -/
def clTop : Stmt → Bool
  | .mk (.use [c]) _ => pathOk c.path && (match c.alias_ with | some a => nameOk a | none => true)
  | .mk (.use _) _ => false
  | s => clStmt dbl s

def clTops (ss : List Stmt) : Bool := ss.all (clTop dbl)

end

end Pico
