import Verif.Model.Ast
/-!
# All ranges of a tree

`treeSpans ss`: the `Span` of every node of a tree. Only expressions and statements
have one.
-/
namespace Pico

mutual

def Expr.spans : Expr → List Span
  | .mk k sp => sp :: k.spans

def ExprK.spans : ExprK → List Span
  | .path _ => []
  | .const _ => []
  | .str _ => []
  | .binStr _ => []
  | .int _ => []
  | .double _ => []
  | .array is => itemsSpans is
  | .var v => v.spans
  | .reference e => e.spans
  | .clone e => e.spans
  | .isset es => exprsSpans es
  | .empty e => e.spans
  | .exit e => optSpans e
  | .include _ e => e.spans
  | .arrayIdx e is => e.spans ++ optsSpans is
  | .objMember e ms => e.spans ++ exprsSpans ms
  | .staticMember e ms => e.spans ++ exprsSpans ms
  | .call e args => e.spans ++ exprsSpans args
  | .new e args => e.spans ++ exprsSpans args
  | .unpack e => e.spans
  | .unary _ e => e.spans
  | .binary _ l r => l.spans ++ r.spans
  | .instanceOf l r => l.spans ++ r.spans
  | .cast _ e => e.spans
  | .yield e => optSpans e
  | .function f => f.spans
  | .assign l r => l.spans ++ r.spans
  | .compoundAssign l _ r => l.spans ++ r.spans
  | .assignRef l r => l.spans ++ r.spans
  | .list is => itemsSpans is
  | .ternary c t e => c.spans ++ (optSpans t ++ e.spans)

def Variable.spans : Variable → List Span
  | .name _ => []
  | .fetch e => e.spans

def optSpans : Option Expr → List Span
  | none => []
  | some e => e.spans

def optsSpans : List (Option Expr) → List Span
  | [] => []
  | e :: es => optSpans e ++ optsSpans es

def exprsSpans : List Expr → List Span
  | [] => []
  | e :: es => e.spans ++ exprsSpans es

def itemsSpans : List (Option Expr × Expr) → List Span
  | [] => []
  | (k, v) :: is => optSpans k ++ (v.spans ++ itemsSpans is)

def FnDecl.spans : FnDecl → List Span
  | .mk ps b _ _ => paramsSpans ps ++ optBlockSpans b

def paramsSpans : List Param → List Span
  | [] => []
  | p :: ps => p.spans ++ paramsSpans ps

def Param.spans : Param → List Span
  | .mk _ _ _ _ d => optSpans d

def optBlockSpans : Option (List Stmt) → List Span
  | none => []
  | some b => stmtsSpans b

def Stmt.spans : Stmt → List Span
  | .mk k sp => sp :: k.spans

def stmtsSpans : List Stmt → List Span
  | [] => []
  | s :: ss => s.spans ++ stmtsSpans ss

def StmtK.spans : StmtK → List Span
  | .none => []
  | .block b => stmtsSpans b
  | .decl d => d.spans
  | .use _ => []
  | .expr e => e.spans
  | .echo es => exprsSpans es
  | .ret e => optSpans e
  | .brk e => optSpans e
  | .cont e => optSpans e
  | .unset es => exprsSpans es
  | .ite c t e => c.spans ++ (stmtsSpans t ++ stmtsSpans e)
  | .while c b => c.spans ++ stmtsSpans b
  | .doWhile b c => stmtsSpans b ++ c.spans
  | .for i c l b => optSpans i ++ (optSpans c ++ (optSpans l ++ stmtsSpans b))
  | .forEach e k v b => e.spans ++ (optSpans k ++ (v.spans ++ stmtsSpans b))
  | .try b cs f => stmtsSpans b ++ (catchesSpans cs ++ optBlockSpans f)
  | .throw e => e.spans
  | .switch e cs => e.spans ++ casesSpans cs

def catchesSpans : List Catch → List Span
  | [] => []
  | .mk _ _ b :: cs => stmtsSpans b ++ catchesSpans cs

def casesSpans : List Case → List Span
  | [] => []
  | .mk es _ b :: cs => exprsSpans es ++ (stmtsSpans b ++ casesSpans cs)

def Decl.spans : Decl → List Span
  | .namespace _ => []
  | .globalFunction _ f => f.spans
  | .cls _ _ _ _ ms => declsSpans ms
  | .interface _ _ ms => declsSpans ms
  | .trait _ ms => declsSpans ms
  | .staticVars vs => staticsSpans vs
  | .globalVars vs => variablesSpans vs

def staticsSpans : List (Text × Option Expr) → List Span
  | [] => []
  | (_, d) :: vs => optSpans d ++ staticsSpans vs

def variablesSpans : List Variable → List Span
  | [] => []
  | v :: vs => v.spans ++ variablesSpans vs

def declsSpans : List Member → List Span
  | [] => []
  | m :: ms => m.spans ++ declsSpans ms

def Member.spans : Member → List Span
  | .constant _ _ e => e.spans
  | .property _ _ d => optSpans d
  | .method _ _ f => f.spans
  | .traitUse _ _ => []

end

/-- The ranges of all nodes of a tree. -/
def treeSpans (ss : List Stmt) : List Span := stmtsSpans ss

end Pico
