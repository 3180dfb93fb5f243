import Verif.Spec.Reading
import Verif.Spec.Program
/-!
# Trees with their ranges, as readings of token sequences

`Stmt.spots`: the pieces of a tree (`Mark`, see `Spec/Reading`) together with the first and the last byte of the range
of every node, in the order in which they are written: the begin of a range before everything that belongs to the
node, the end behind it. `Located toks a ss b`: the spots `ss` can be found in the tokens from left to right. For this,
time is counted in half tokens: at `2 * i + 1` the token number `i` begins, at `2 * i + 2` it ends. Neither mentions the
parser.
-/
namespace Pico

/-- A piece of a tree, or one end of the range of a node. -/
inductive Spot
  | item (m : Mark)
  | start (x : Nat)
  | stop (x : Nat)
  /-- an end of a token, no matter which one -/
  | edge (x : Nat)

/-- A node that begins with the token number `i` begins at `x`: where this token begins. Only fully qualified names
begin one byte before the first word (src/parser.rs:1083-1091). -/
def StartsAt (toks : List TokSpan) (i x : Nat) : Prop :=
  ∃ t, toks[i]? = some t ∧
    (t.tok ≠ .k .NsSeparator ∧ t.span.start = x ∨ t.tok = .k .NsSeparator ∧ ∃ u, toks[i + 1]? = some u ∧ u.span.start = x + 1)

/-- A node whose last token is the one before number `i` ends at `x`: where this token ends. For pieces of text in
double-quoted strings it is the latest end of the tokens so far (src/parser.rs:1190-1192). -/
def EndsAt (toks : List TokSpan) (i x : Nat) : Prop :=
  ∃ j t, i = j + 1 ∧ toks[j]? = some t ∧
    (t.span.stop = x ∨ (∃ s, t.tok = .encaps s) ∧ t.span.stop ≤ x ∧ ∃ k u, k ≤ j ∧ toks[k]? = some u ∧ u.span.stop = x)

/-- The spot is found in the tokens between the times `a` and `b`. -/
inductive ReadAt (toks : List TokSpan) : Spot → Nat → Nat → Prop
  /-- a piece stands for some tokens -/
  | item {m : Mark} {us : List Token} {i : Nat} (hm : Fits m us) (hn : us ≠ [])
      (ht : ((toks.drop i).take us.length).map TokSpan.tok = us) : ReadAt toks (.item m) (2 * i + 1) (2 * (i + us.length))
  /-- or for none -/
  | none {m : Mark} {a : Nat} (hm : Fits m []) : ReadAt toks (.item m) a a
  | start {i x : Nat} (h : StartsAt toks i x) : ReadAt toks (.start x) (2 * i + 1) (2 * i + 1)
  | stop {i x : Nat} (h : EndsAt toks i x) : ReadAt toks (.stop x) (2 * i) (2 * i)
  | edgeStart {i x : Nat} (h : StartsAt toks i x) : ReadAt toks (.edge x) (2 * i + 1) (2 * i + 1)
  | edgeStop {i x : Nat} (h : EndsAt toks i x) : ReadAt toks (.edge x) (2 * i) (2 * i)

/-- The spots are found in the tokens between the times `a` and `b`, in this order. -/
def Located (toks : List TokSpan) : Nat → List Spot → Nat → Prop
  | a, [], b => a ≤ b
  | a, s :: ss, b => ∃ c d, a ≤ c ∧ ReadAt toks s c d ∧ Located toks d ss b

/-- The tokens the grammar sees, with their ranges: text outside of tags is an `echo` of that text, and all three tokens
have the range of the text. -/
def seen (toks : List TokSpan) : List TokSpan := toks.flatMap fun t => (seenAs t.tok).map fun k => ⟨k, t.span⟩

/-! ## The spots of trees -/

/-- Marks without ranges. -/
def its (ms : List Mark) : List Spot := ms.map .item

/-- The begin of a piece of a concatenation. A piece of text in a double-quoted string begins where the piece before
it ends (src/parser.rs:1217-1236), and so does a concatenation that begins with such a piece. -/
def ExprK.pieceStart (k : ExprK) (x : Nat) : Spot :=
  match k with
  | .str _ => .edge x
  | .binary .Concat _ _ => .edge x
  | _ => .start x

mutual

/-- The range of a node, around everything that belongs to it. -/
def Expr.spots : Expr → List Spot
  | .mk k sp => .start sp.start :: (k.spots ++ [.stop sp.stop])

/-- The same for pieces of concatenations. -/
def Expr.piece : Expr → List Spot
  | .mk k sp => k.pieceStart sp.start :: (k.spots ++ [.stop sp.stop])

/-- The same for the variables of `foreach`, but without the range of `&$v` itself (which is the byte before `$v`). -/
def Expr.target : Expr → List Spot
  | .mk (.reference e) _ => .item (.kw [.Ampersand]) :: e.spots
  | .mk k sp => .start sp.start :: (k.spots ++ [.stop sp.stop])

def ExprK.spots : ExprK → List Spot
  | .path p => [.item (.path p)]
  | .const c => [.item (.const c)]
  | .str s => [.item (.str s)]
  | .binStr _ => [.item (.kw [])]
  | .int v => [.item (.int v)]
  | .double l => [.item (.double l)]
  | .array is => .item (.kw [.Array, .SquareBracketOpen]) :: itemsSpots is
  | .var v => v.spots
  | .reference e => .item (.kw [.Ampersand]) :: e.spots
  | .clone e => .item (.kw [.Clone]) :: e.spots
  | .isset es => .item (.kw [.Isset]) :: exprsSpots es
  | .empty e => .item (.kw [.Empty]) :: e.spots
  | .exit e => .item (.kw [.Exit]) :: optSpots e
  | .include t e => .item (includeMark t) :: e.spots
  | .arrayIdx e is => e.spots ++ indicesSpots is
  | .objMember e ms => e.spots ++ membersSpots .ObjectOp ms
  | .staticMember e ms => e.spots ++ membersSpots .ScopeOp ms
  | .call e args => e.spots ++ .item (.kw [.ParenthesesOpen]) :: exprsSpots args
  | .new e args => .item (.kw [.New]) :: (e.spots ++ exprsSpots args)
  | .unpack e => .item (.kw [.Ellipsis]) :: e.spots
  | .unary op e => its (beforeMarks op) ++ e.spots ++ its (behindMarks op)
  | .binary op l r => if op = .Concat then l.piece ++ r.piece else l.spots ++ its (opMarks op) ++ r.spots
  | .instanceOf l r => l.spots ++ .item (.kw [.InstanceOf]) :: r.spots
  | .cast t e => .item (castMark t) :: e.spots
  | .yield e => .item (.kw [.Yield]) :: optSpots e
  | .function f => .item (.kw [.Function]) :: (f.refSpots ++ f.spots)
  | .assign l r => l.spots ++ .item (.kw [.Equal]) :: r.spots
  | .compoundAssign l op r => l.spots ++ .item (compoundMark op) :: r.spots
  | .assignRef l r => l.spots ++ .item (.kw [.Equal]) :: .item (.kw [.Ampersand]) :: r.spots
  | .list is => .item (.kw [.List]) :: itemsSpots is
  | .ternary c t e => c.spots ++ .item (.kw [.QuestionMark]) :: (optSpots t ++ .item (.kw [.Colon]) :: e.spots)

def Variable.spots : Variable → List Spot
  | .name n => [.item (.var n)]
  | .fetch e => .item (.kw [.DollarCurlyBracesOpen]) :: e.spots

def optSpots : Option Expr → List Spot
  | none => []
  | some e => e.spots

def exprsSpots : List Expr → List Spot
  | [] => []
  | e :: es => e.spots ++ exprsSpots es

/-- Elements of arrays, with their keys. -/
def itemsSpots : List (Option Expr × Expr) → List Spot
  | [] => []
  | (none, v) :: is => v.spots ++ itemsSpots is
  | (some k, v) :: is => k.spots ++ .item (.kw [.DoubleArrow]) :: (v.spots ++ itemsSpots is)

/-- Indices, each behind its bracket. -/
def indicesSpots : List (Option Expr) → List Spot
  | [] => []
  | i :: is => .item (.kw [.SquareBracketOpen]) :: (optSpots i ++ indicesSpots is)

/-- Members, each behind `->` or `::`. -/
def membersSpots (k : Kw) : List Expr → List Spot
  | [] => []
  | e :: es => .item (.kw [k]) :: (e.spots ++ membersSpots k es)

/-- The `&` of a function that returns a reference. -/
def FnDecl.refSpots : FnDecl → List Spot
  | .mk _ _ _ r => its (flagMarks .Ampersand r)

/-- The rest of a function: parameters, captured variables, body. -/
def FnDecl.spots : FnDecl → List Spot
  | .mk ps b us _ => paramsSpots ps ++ its (captureMarks us) ++ optBlockSpots b

def paramsSpots : List Param → List Spot
  | [] => []
  | p :: ps => p.spots ++ paramsSpots ps

def Param.spots : Param → List Spot
  | .mk n r v t d => its (hintMarks t) ++ its (flagMarks .Ampersand r) ++ its (flagMarks .Ellipsis v) ++ .item (.var n) :: defaultSpots d

/-- A value behind `=`. -/
def defaultSpots : Option Expr → List Spot
  | none => []
  | some e => .item (.kw [.Equal]) :: e.spots

def optBlockSpots : Option (List Stmt) → List Spot
  | none => []
  | some b => stmtsSpots b

def Stmt.spots : Stmt → List Spot
  | .mk k sp => .start sp.start :: (k.spots ++ [.stop sp.stop])

def stmtsSpots : List Stmt → List Spot
  | [] => []
  | s :: ss => s.spots ++ stmtsSpots ss

def StmtK.spots : StmtK → List Spot
  | .none => []
  | .block b => stmtsSpots b
  | .decl d => d.spots
  | .use cs => .item (.kw [.Use]) :: its (clausesMarks cs)
  | .expr e => e.spots
  | .echo es => exprsSpots es
  | .ret e => .item (.kw [.Return]) :: optSpots e
  | .brk e => .item (.kw [.Break]) :: optSpots e
  | .cont e => .item (.kw [.Continue]) :: optSpots e
  | .unset es => .item (.kw [.Unset]) :: exprsSpots es
  | .ite c t e => .item (.kw [.If, .ElseIf]) :: (c.spots ++ stmtsSpots t ++ stmtsSpots e)
  | .while c b => .item (.kw [.While]) :: (c.spots ++ stmtsSpots b)
  | .doWhile b c => .item (.kw [.Do]) :: (stmtsSpots b ++ .item (.kw [.While]) :: c.spots)
  | .for i c l b => .item (.kw [.For]) :: (optSpots i ++ optSpots c ++ optSpots l ++ stmtsSpots b)
  | .forEach e none v b => .item (.kw [.Foreach]) :: (e.spots ++ .item (.kw [.As]) :: (v.target ++ stmtsSpots b))
  | .forEach e (some k) v b =>
      .item (.kw [.Foreach]) :: (e.spots ++ .item (.kw [.As]) :: (k.target ++ .item (.kw [.DoubleArrow]) :: (v.target ++ stmtsSpots b)))
  | .try b cs f => .item (.kw [.Try]) :: (stmtsSpots b ++ catchesSpots cs ++ finallySpots f)
  | .throw e => .item (.kw [.Throw]) :: e.spots
  | .switch e cs => .item (.kw [.Switch]) :: (e.spots ++ casesSpots cs)

def finallySpots : Option (List Stmt) → List Spot
  | none => []
  | some b => .item (.kw [.Finally]) :: stmtsSpots b

def catchesSpots : List Catch → List Spot
  | [] => []
  | c :: cs => c.spots ++ catchesSpots cs

def Catch.spots : Catch → List Spot
  | .mk t v b => .item (.kw [.Catch]) :: .item (.path t) :: .item (.var v) :: stmtsSpots b

def casesSpots : List Case → List Spot
  | [] => []
  | c :: cs => c.spots ++ casesSpots cs

def Case.spots : Case → List Spot
  | .mk cs _ b => exprsSpots cs ++ stmtsSpots b

def Decl.spots : Decl → List Spot
  | .namespace p => [.item (.kw [.Namespace]), .item (.path p)]
  | .globalFunction n f => .item (.kw [.Function]) :: (f.refSpots ++ .item (.word n) :: f.spots)
  | .cls _ n b is ms => .item (.kw [.Class]) :: .item (.word n) :: (its (headedMarks .Extends b.toList) ++ its (headedMarks .Implements is) ++ declsSpots ms)
  | .interface n es ms => .item (.kw [.Interface]) :: .item (.word n) :: (its (headedMarks .Extends es) ++ declsSpots ms)
  | .trait n ms => .item (.kw [.Trait]) :: .item (.word n) :: declsSpots ms
  | .staticVars vs => .item (.kw [.Static]) :: staticsSpots vs
  | .globalVars vs => .item (.kw [.Global]) :: variablesSpots vs

def staticsSpots : List (Text × Option Expr) → List Spot
  | [] => []
  | (n, d) :: vs => .item (.var n) :: (defaultSpots d ++ staticsSpots vs)

def variablesSpots : List Variable → List Spot
  | [] => []
  | v :: vs => v.spots ++ variablesSpots vs

def declsSpots : List Member → List Spot
  | [] => []
  | m :: ms => m.spots ++ declsSpots ms

def Member.spots : Member → List Spot
  | .constant _ n e => .item (.ident n) :: .item (.kw [.Equal]) :: e.spots
  | .property _ n d => .item (.var n) :: defaultSpots d
  | .method _ n f => .item (.kw [.Function]) :: (f.refSpots ++ .item (.word n) :: f.spots)
  | .traitUse ps us => .item (.kw [.Use]) :: (its (pathsMarks ps) ++ its (adaptMarks us))

end

/-- A statement at the top level. The range of a namespace declaration ends where the `;` begins. -/
def Stmt.topSpots : Stmt → List Spot
  | .mk (.decl (.namespace p)) sp => [.start sp.start, .item (.kw [.Namespace]), .item (.path p), .edge sp.stop]
  | .mk k sp => .start sp.start :: (k.spots ++ [.stop sp.stop])

/-- A whole tree. -/
def treeSpots (ss : List Stmt) : List Spot := ss.flatMap Stmt.topSpots

/-! ## Ranges as numbers -/

/-- The ends of ranges among the spots. -/
def ends (ss : List Spot) : List Nat :=
  ss.filterMap fun s => match s with
    | .item _ => none
    | .start x => some x
    | .stop x => some x
    | .edge x => some x

/-- The ranges of the tokens are in order, and behind `\` the next token follows directly. -/
structure Orderly (toks : List TokSpan) : Prop where
  each : ∀ t ∈ toks, t.span.start ≤ t.span.stop
  order : toks.Pairwise fun t u => t.span.stop ≤ u.span.start
  names : ∀ (i : Nat) (t u : TokSpan), toks[i]? = some t → t.tok = .k .NsSeparator → toks[i + 1]? = some u →
    u.span.start = t.span.start + 1

end Pico
