import Verif.Model.Api
/-!
# Replay of the repository's own unit tests on the model

These are tests of the model, not proofs: the expected values are transcribed mechanically from
src/tests/{expr,stmt,file}.rs and the test module of src/tokenizer.rs (token texts replace the values of
doubles). They are evaluated during the build.
-/
namespace Pico

deriving instance BEq for Expr, ExprK, Variable, Stmt, StmtK, FnDecl, Param, Member, Decl, Catch, Case

namespace Replay

abbrev Block (b : List Stmt) : List Stmt := b
abbrev Block.empty : List Stmt := []

def rnb : Nat × Nat × ExprK → Expr := fun (a, b, e) => .mk e (mkSpan a b)
def rsnb : Nat × Nat × StmtK → Stmt := fun (a, b, e) => .mk e (mkSpan a b)
def enb : Nat × Nat × ExprK → Expr := fun (a, b, e) => .mk e (mkSpan (a + 6) (b + 6))
def eb := enb
def st : Nat × Nat × StmtK → Stmt := fun (a, b, e) => .mk e (mkSpan (a + 6) (b + 6))
def senb : Nat × Nat × ExprK → Stmt := fun (a, b, e) => st (a, b + 1, .expr (enb (a, b, e)))
inductive B3 | true | false | null
open B3 in
def constant : B3 → ExprK
  | .true => .const .True
  | .false => .const .False
  | .null => .const .Null
instance : Coe Bool B3 := ⟨fun b => if b then .true else .false⟩

def Path.identifier : Bool × Text → Path := fun (a, n) => ⟨a, none, n⟩
def Path.ns_identifier : Bool × Text × Text → Path := fun (a, ns, n) => ⟨a, some ns, n⟩

def Expr_.Array := ExprK.array
def Expr_.ArrayIdx : Expr × List (Option Expr) → ExprK := fun (a, b) => .arrayIdx a b
def Expr_.Assign : Expr × Expr → ExprK := fun (a, b) => .assign a b
def Expr_.BinaryOp : Op × Expr × Expr → ExprK := fun (o, a, b) => .binary o a b
def Expr_.Call : Expr × List Expr → ExprK := fun (a, b) => .call a b
def Expr_.Cast : Ty × Expr → ExprK := fun (a, b) => .cast a b
def Expr_.Clone := ExprK.clone
def Expr_.CompoundAssign : Expr × Op × Expr → ExprK := fun (a, o, b) => .compoundAssign a o b
def Expr_.Empty := ExprK.empty
def Expr_.Exit := ExprK.exit
def Expr_.Function := ExprK.function
def Expr_.Include : IncludeTy × Expr → ExprK := fun (a, b) => .include a b
def Expr_.InstanceOf : Expr × Expr → ExprK := fun (a, b) => .instanceOf a b
def Expr_.Int := ExprK.int
def Expr_.Isset := ExprK.isset
def Expr_.List := ExprK.list
def Expr_.New : Expr × _root_.List Expr → ExprK := fun (a, b) => .new a b
def Expr_.ObjMember : Expr × _root_.List Expr → ExprK := fun (a, b) => .objMember a b
def Expr_.Path := ExprK.path
def Expr_.StaticMember : Expr × _root_.List Expr → ExprK := fun (a, b) => .staticMember a b
def Expr_.String := ExprK.str
def Expr_.TernaryIf : Expr × Option Expr × Expr → ExprK := fun (a, b, c) => .ternary a b c
def Expr_.UnaryOp : UnaryOp × Expr → ExprK := fun (a, b) => .unary a b
def Expr_.Unpack := ExprK.unpack
def Expr_.Variable (n : Text) : ExprK := .var (.name n)

structure FunctionDecl where
  params_ : List Param
  body_ : Option (List Stmt)
  usev_ : List (Bool × Text)
  ret_ref_ : Bool
def FunctionDecl.c (f : FunctionDecl) : FnDecl := .mk f.params_ f.body_ f.usev_ f.ret_ref_
structure ClassDecl where
  cmod_ : ClassModifiers
  name_ : Text
  base_class_ : Option Pico.Path
  implements_ : List Pico.Path
  members_ : List Member
def ClassDecl.c (d : ClassDecl) : Decl := .cls d.cmod_ d.name_ d.base_class_ d.implements_ d.members_
structure ParamDefinition where
  name_ : Text
  as_ref_ : Bool
  variadic_ : Bool
  ty_ : Option Ty
  default_ : Option Expr
def ParamDefinition.c (p : ParamDefinition) : Param := .mk p.name_ p.as_ref_ p.variadic_ p.ty_ p.default_
structure CatchClause where
  ty_ : Pico.Path
  var_ : Text
  block_ : List Stmt
def CatchClause.c (p : CatchClause) : Catch := .mk p.ty_ p.var_ p.block_
structure SwitchCase where
  default_ : Bool
  conds_ : List Expr
  block_ : List Stmt
def SwitchCase.c (p : SwitchCase) : Case := .mk p.conds_ p.default_ p.block_

def Decl.Class (d : Decl) : Decl := d
def Decl.GlobalFunction : Text × FnDecl → Decl := fun (a, b) => .globalFunction a b
def Decl.GlobalVars (l : List Text) : Decl := .globalVars (l.map .name)
def Decl.Interface : Text × List Pico.Path × List Member → Decl := fun (a, b, c) => .interface a b c
def Decl.Namespace := Pico.Decl.namespace
def Decl.StaticVars := Pico.Decl.staticVars
def Decl.Trait : Text × List Member → Decl := fun (a, b) => .trait a b
def Member.Constant : MemberModifiers × Text × Expr → Member := fun (a, b, c) => .constant a b c
def Member.Method : MemberModifiers × Text × FnDecl → Member := fun (a, b, c) => .method a b c
def Member.Property : MemberModifiers × Text × Option Expr → Member := fun (a, b, c) => .property a b c
def Member.TraitUse : List Pico.Path × List Pico.TraitUse → Member := fun (a, b) => .traitUse a b
def TraitUse.As : Option Pico.Path × Text × MemberModifiers × Option Text → TraitUse :=
  fun (a, b, c, d) => .asAlias a b c d
def TraitUse.InsteadOf : Pico.Path × Text × List Pico.Path → TraitUse := fun (a, b, c) => .insteadOf a b c
def UseClause.QualifiedName : Pico.Path × Option Text → UseClause := fun (a, b) => ⟨a, b⟩

def Stmt_.Break := StmtK.brk
def Stmt_.Continue := StmtK.cont
def Stmt_.Decl := StmtK.decl
def Stmt_.DoWhile : List Stmt × Expr → StmtK := fun (a, b) => .doWhile a b
def Stmt_.Echo := StmtK.echo
def Stmt_.For : Option Expr × Option Expr × Option Expr × List Stmt → StmtK := fun (a, b, c, d) => .for a b c d
def Stmt_.ForEach : Expr × Option Expr × Expr × List Stmt → StmtK := fun (a, b, c, d) => .forEach a b c d
def Stmt_.If : Expr × List Stmt × List Stmt → StmtK := fun (a, b, c) => .ite a b c
def Stmt_.Return := StmtK.ret
def Stmt_.Switch : Expr × List Case → StmtK := fun (a, b) => .switch a b
def Stmt_.Throw := StmtK.throw
def Stmt_.Try : List Stmt × List Catch × Option (List Stmt) → StmtK := fun (a, b, c) => .try a b c
def Stmt_.Unset := StmtK.unset
def Stmt_.Use := StmtK.use
def Stmt_.While : Expr × List Stmt → StmtK := fun (a, b) => .while a b

/-- `Parser::parse_str(..).unwrap()`. -/
def process_script (s : Text) : Option (List Stmt) :=
  match parseStrN 2000 s with
  | .ok ss => some ss
  | _ => none

/-- src/tests/stmt.rs:3-8. -/
def process_stmt (s : Text) : Option Stmt :=
  match process_script (c!"<?php " ++ s) with
  | some [x] => some x
  | _ => none

/-- src/tests/expr.rs:3-11. -/
def process_expr (s : Text) : Option Expr :=
  match process_script (c!"<?php " ++ s ++ c!";") with
  | some [.mk (.expr e) _] => some e
  | _ => none

def Token.End := Token.k .End
def Token.OpenTag := Token.k .OpenTag
def Token.CloseTag := Token.k .CloseTag
def Token.ObjectOp := Token.k .ObjectOp
def Token.CastString := Token.k .CastString
def Token.DoubleQuote := Token.k .DoubleQuote
def Token.Backquote := Token.k .Backquote
def Token.HereDocStart := Token.k .HereDocStart
def Token.HereDocEnd := Token.k .HereDocEnd
def Token.CurlyBracesOpen := Token.k .CurlyBracesOpen
def Token.CurlyBracesClose := Token.k .CurlyBracesClose
def Token.String := Token.string
def Token.Variable := Token.variable
def Token.InlineHtml := Token.inlineHtml
def Token.Int := Token.int
def Token.Double := Token.double
def Token.Comment := Token.comment
def Token.ConstantEncapsedString := Token.encaps
def Ok (t : Token) : Option Token := some t

def tokensFrom : Nat → Tz → List (Option Token)
  | 0, _ => []
  | n + 1, t =>
    match nextToken 2000 t with
    | .ok a t' => some a.tok :: tokensFrom n t'
    | _ => [none]

/-- src/tokenizer.rs:1312-1315. -/
def get_n_tokens (s : Text) (n : Nat) : List (Option Token) := tokensFrom n (Tz.new s)

-- parse_expr_comment
#guard process_expr c!"1/*test*/+/*test*/2" ==
  some ((enb (0, 19, (Expr_.BinaryOp (Op.Add, (eb (0, 1, (Expr_.Int (1)))), (eb (18, 19, (Expr_.Int (2)))))))))

-- parse_expr_op
#guard process_expr c!"1+2" ==
  some ((enb (0, 3, (Expr_.BinaryOp (Op.Add, (eb (0, 1, (Expr_.Int (1)))), (eb (2, 3, (Expr_.Int (2)))))))))
#guard process_expr c!"1+2*3" ==
  some ((enb (0, 5, (Expr_.BinaryOp (Op.Add, (eb (0, 1, (Expr_.Int (1)))), (eb (2, 5, (Expr_.BinaryOp (Op.Mul, (eb (2, 3, (Expr_.Int (2)))), (eb (4, 5, (Expr_.Int (3)))))))))))))
#guard process_expr c!"2+$d**$c**$d" ==
  some ((enb (0, 12, (Expr_.BinaryOp (Op.Add, (eb (0, 1, (Expr_.Int (2)))), (eb (2, 12, (Expr_.BinaryOp (Op.Pow, (eb (2, 4, (Expr_.Variable (c!"d")))), (eb (6, 12, (Expr_.BinaryOp (Op.Pow, (eb (6, 8, (Expr_.Variable (c!"c")))), (eb (10, 12, (Expr_.Variable (c!"d")))))))))))))))))
#guard process_expr c!"$g[\"a\"]-$g[\"b\"]/3" ==
  some ((enb (0, 17, (Expr_.BinaryOp (Op.Sub, (eb (0, 7, (Expr_.ArrayIdx ((eb (0, 2, (Expr_.Variable (c!"g")))), [(some ((enb (3, 6, (Expr_.String (c!"a"))))))])))), (eb (8, 17, (Expr_.BinaryOp (Op.Div, (eb (8, 15, (Expr_.ArrayIdx ((eb (8, 10, (Expr_.Variable (c!"g")))), [(some ((enb (11, 14, (Expr_.String (c!"b"))))))])))), (eb (16, 17, (Expr_.Int (3)))))))))))))

-- parse_expr_logical
#guard process_expr c!"$a||$b" ==
  some ((enb (0, 6, (Expr_.BinaryOp (Op.Or, (eb (0, 2, (Expr_.Variable (c!"a")))), (eb (4, 6, (Expr_.Variable (c!"b")))))))))
#guard process_expr c!"$a&&true" ==
  some ((enb (0, 8, (Expr_.BinaryOp (Op.And, (eb (0, 2, (Expr_.Variable (c!"a")))), (eb (4, 8, (constant (true)))))))))
#guard process_expr c!"!$a" ==
  some ((enb (0, 3, (Expr_.UnaryOp (UnaryOp.Not, (eb (1, 3, (Expr_.Variable (c!"a")))))))))
#guard process_expr c!"$a?false:true or $b" ==
  some ((enb (0, 19, (Expr_.BinaryOp (Op.Or, (eb (0, 13, (Expr_.TernaryIf ((eb (0, 2, (Expr_.Variable (c!"a")))), (some ((eb (3, 8, (constant (false)))))), (eb (9, 13, (constant (true)))))))), (eb (17, 19, (Expr_.Variable (c!"b")))))))))

-- parse_expr_parens
#guard process_expr c!"(1+2)*3" ==
  some ((enb (0, 7, (Expr_.BinaryOp (Op.Mul, (eb (0, 5, (Expr_.BinaryOp (Op.Add, (eb (1, 2, (Expr_.Int (1)))), (eb (3, 4, (Expr_.Int (2)))))))), (eb (6, 7, (Expr_.Int (3)))))))))
#guard process_expr c!"(true||false)&&true" ==
  some ((enb (0, 19, (Expr_.BinaryOp (Op.And, (eb (0, 13, (Expr_.BinaryOp (Op.Or, (eb (1, 5, (constant (true)))), (eb (7, 12, (constant (false)))))))), (eb (15, 19, (constant (true)))))))))

-- parse_expr_string
#guard process_expr c!"\"\"" ==
  some ((enb (0, 2, (Expr_.String (c!"")))))
#guard process_expr c!"\"t\\nest\\tsss\\\"os\\\"haha\"" ==
  some ((enb (0, 23, (Expr_.String (c!"t\nest\tsss\"os\"haha")))))
#guard process_expr c!"\"\\xe7\\x9a\\x84\"" ==
  some ((enb (0, 14, (Expr_.String (c!"的")))))
#guard process_expr c!"\"a\\\"b\\\\\\\"c\\\\\\\"d\\\"e\"" ==
  some ((enb (0, 19, (Expr_.String (c!"a\"b\\\"c\\\"d\"e")))))
#guard process_expr c!"\"abc\\ClassName\"" ==
  some ((enb (0, 15, (Expr_.String (c!"abc\\ClassName")))))

-- parse_expr_string_fragmented
#guard process_expr c!"\"hello $world\"" ==
  some ((enb (0, 14, (Expr_.BinaryOp (Op.Concat, (eb (1, 7, (Expr_.String (c!"hello ")))), (eb (7, 13, (Expr_.Variable (c!"world")))))))))
#guard process_expr c!"\"hello {$world}\"" ==
  some ((enb (0, 16, (Expr_.BinaryOp (Op.Concat, (eb (1, 7, (Expr_.String (c!"hello ")))), (eb (8, 14, (Expr_.Variable (c!"world")))))))))
#guard process_expr c!"\"hello $wor->ld\"" ==
  some ((enb (0, 16, (Expr_.BinaryOp (Op.Concat, (eb (1, 7, (Expr_.String (c!"hello ")))), (eb (7, 15, (Expr_.ObjMember ((eb (7, 11, (Expr_.Variable (c!"wor")))), [(enb (13, 15, (Expr_.Path ((Path.identifier (false, c!"ld"))))))])))))))))
#guard process_expr c!"\"hello ${world}\"" ==
  some ((enb (0, 16, (Expr_.BinaryOp (Op.Concat, (eb (1, 7, (Expr_.String (c!"hello ")))), (eb (7, 15, (Expr_.Variable (c!"world")))))))))

-- parse_expr_char_string
#guard process_expr c!"'\\ntest\\142'" ==
  some ((enb (0, 12, (Expr_.String (c!"\\ntest\\142")))))
#guard process_expr c!"'a\\'b\\'c'" ==
  some ((enb (0, 9, (Expr_.String (c!"a'b'c")))))
#guard process_expr c!"'d\\'e\\\\\\'f\\\\\\'\\'g'" ==
  some ((enb (0, 18, (Expr_.String (c!"d'e\\'f\\''g")))))

-- parse_ns_identifier
#guard process_expr c!"Test" ==
  some ((enb (0, 4, (Expr_.Path ((Path.identifier (false, c!"Test")))))))
#guard process_expr c!"Test\\Abc" ==
  some ((enb (0, 8, (Expr_.Path ((Path.ns_identifier (false, c!"Test", c!"Abc")))))))
#guard process_expr c!"Test\\Ns1\\Ns2" ==
  some ((enb (0, 12, (Expr_.Path ((Path.ns_identifier (false, c!"Test\\Ns1", c!"Ns2")))))))
#guard process_expr c!"\\Test\\Ns1\\Ns2\\Ns3" ==
  some ((enb (0, 17, (Expr_.Path ((Path.ns_identifier (true, c!"Test\\Ns1\\Ns2", c!"Ns3")))))))

-- parse_expr_object_property
#guard process_expr c!"$obj->prop" ==
  some ((enb (0, 10, (Expr_.ObjMember ((eb (0, 4, (Expr_.Variable (c!"obj")))), [(enb (6, 10, (Expr_.Path ((Path.identifier (false, c!"prop"))))))])))))
#guard process_expr c!"$obj->a->b->c->d" ==
  some ((enb (0, 16, (Expr_.ObjMember ((eb (0, 4, (Expr_.Variable (c!"obj")))), [(enb (6, 7, (Expr_.Path ((Path.identifier (false, c!"a")))))), (enb (9, 10, (Expr_.Path ((Path.identifier (false, c!"b")))))), (enb (12, 13, (Expr_.Path ((Path.identifier (false, c!"c")))))), (enb (15, 16, (Expr_.Path ((Path.identifier (false, c!"d"))))))])))))
#guard process_expr c!"$obj->$a->b" ==
  some ((enb (0, 11, (Expr_.ObjMember ((eb (0, 4, (Expr_.Variable (c!"obj")))), [(enb (6, 8, (Expr_.Variable (c!"a")))), (enb (10, 11, (Expr_.Path ((Path.identifier (false, c!"b"))))))])))))
#guard process_expr c!"$obj->{$obj->b}->c" ==
  some ((enb (0, 18, (Expr_.ObjMember ((eb (0, 4, (Expr_.Variable (c!"obj")))), [(enb (7, 14, (Expr_.ObjMember ((eb (7, 11, (Expr_.Variable (c!"obj")))), [(enb (13, 14, (Expr_.Path ((Path.identifier (false, c!"b"))))))])))), (enb (17, 18, (Expr_.Path ((Path.identifier (false, c!"c"))))))])))))
#guard process_expr c!"$obj->{$a->{$b->c}->d}->e" ==
  some ((enb (0, 25, (Expr_.ObjMember ((eb (0, 4, (Expr_.Variable (c!"obj")))), [(enb (7, 21, (Expr_.ObjMember ((eb (7, 9, (Expr_.Variable (c!"a")))), [(enb (12, 17, (Expr_.ObjMember ((eb (12, 14, (Expr_.Variable (c!"b")))), [(enb (16, 17, (Expr_.Path ((Path.identifier (false, c!"c"))))))])))), (enb (20, 21, (Expr_.Path ((Path.identifier (false, c!"d"))))))])))), (enb (24, 25, (Expr_.Path ((Path.identifier (false, c!"e"))))))])))))
#guard process_expr c!"$obj->$a->b()" ==
  some ((enb (0, 13, (Expr_.Call ((eb (0, 11, (Expr_.ObjMember ((eb (0, 4, (Expr_.Variable (c!"obj")))), [(enb (6, 8, (Expr_.Variable (c!"a")))), (enb (10, 11, (Expr_.Path ((Path.identifier (false, c!"b"))))))])))), [])))))

-- parse_expr_array_idx
#guard process_expr c!"$test[\"a\"]" ==
  some ((enb (0, 10, (Expr_.ArrayIdx ((eb (0, 5, (Expr_.Variable (c!"test")))), [(some ((enb (6, 9, (Expr_.String (c!"a"))))))])))))
#guard process_expr c!"$test[9]" ==
  some ((enb (0, 8, (Expr_.ArrayIdx ((eb (0, 5, (Expr_.Variable (c!"test")))), [(some ((enb (6, 7, (Expr_.Int (9))))))])))))
#guard process_expr c!"$test[\"a\"]['b\\n']" ==
  some ((enb (0, 17, (Expr_.ArrayIdx ((eb (0, 5, (Expr_.Variable (c!"test")))), [(some ((enb (6, 9, (Expr_.String (c!"a")))))), (some ((enb (11, 16, (Expr_.String (c!"b\\n"))))))])))))
#guard process_expr c!"$test[$g[\"a\"]][\"b\"][\"c\"]" ==
  some ((enb (0, 24, (Expr_.ArrayIdx ((eb (0, 5, (Expr_.Variable (c!"test")))), [(some ((enb (6, 13, (Expr_.ArrayIdx ((eb (6, 8, (Expr_.Variable (c!"g")))), [(some ((enb (9, 12, (Expr_.String (c!"a"))))))])))))), (some ((enb (15, 18, (Expr_.String (c!"b")))))), (some ((enb (20, 23, (Expr_.String (c!"c"))))))])))))

-- parse_expr_func_call
#guard process_expr c!"test()" ==
  some ((enb (0, 6, (Expr_.Call ((eb (0, 4, (Expr_.Path ((Path.identifier (false, c!"test")))))), [])))))
#guard process_expr c!"array_()" ==
  some ((enb (0, 8, (Expr_.Call ((eb (0, 6, (Expr_.Path ((Path.identifier (false, c!"array_")))))), [])))))
#guard process_expr c!"func_x(1, 2)" ==
  some ((enb (0, 12, (Expr_.Call ((eb (0, 6, (Expr_.Path ((Path.identifier (false, c!"func_x")))))), [(enb (7, 8, (Expr_.Int (1)))), (enb (10, 11, (Expr_.Int (2))))])))))
#guard process_expr c!"func_x(abc(1), 2)" ==
  some ((enb (0, 17, (Expr_.Call ((eb (0, 6, (Expr_.Path ((Path.identifier (false, c!"func_x")))))), [(enb (7, 13, (Expr_.Call ((eb (7, 10, (Expr_.Path ((Path.identifier (false, c!"abc")))))), [(enb (11, 12, (Expr_.Int (1))))])))), (enb (15, 16, (Expr_.Int (2))))])))))
#guard process_expr c!"$g[0]()" ==
  some ((enb (0, 7, (Expr_.Call ((eb (0, 5, (Expr_.ArrayIdx ((eb (0, 2, (Expr_.Variable (c!"g")))), [(some ((enb (3, 4, (Expr_.Int (0))))))])))), [])))))
#guard process_expr c!"$g[0]()[1](true)" ==
  some ((enb (0, 16, (Expr_.Call ((eb (0, 10, (Expr_.ArrayIdx ((eb (0, 7, (Expr_.Call ((eb (0, 5, (Expr_.ArrayIdx ((eb (0, 2, (Expr_.Variable (c!"g")))), [(some ((enb (3, 4, (Expr_.Int (0))))))])))), [])))), [(some ((enb (8, 9, (Expr_.Int (1))))))])))), [(enb (11, 15, (constant (true))))])))))

-- parse_expr_require
#guard process_expr c!"abc(require $path)" ==
  some ((enb (0, 18, (Expr_.Call ((eb (0, 3, (Expr_.Path ((Path.identifier (false, c!"abc")))))), [(enb (4, 17, (Expr_.Include (IncludeTy.Require, (eb (12, 17, (Expr_.Variable (c!"path"))))))))])))))

-- parse_expr_isset
#guard process_expr c!"isset($b)" ==
  some ((enb (0, 9, (Expr_.Isset ([(enb (6, 8, (Expr_.Variable (c!"b"))))])))))

-- parse_expr_empty
#guard process_expr c!"empty($b)" ==
  some ((enb (0, 9, (Expr_.Empty ((eb (6, 8, (Expr_.Variable (c!"b")))))))))

-- parse_expr_cast
#guard process_expr c!"(bool) $test" ==
  some ((enb (0, 12, (Expr_.Cast (Ty.Bool, (eb (7, 12, (Expr_.Variable (c!"test")))))))))
#guard process_expr c!"(int)$a['a']" ==
  some ((enb (0, 12, (Expr_.Cast (Ty.Int, (eb (5, 12, (Expr_.ArrayIdx ((eb (5, 7, (Expr_.Variable (c!"a")))), [(some ((enb (8, 11, (Expr_.String (c!"a"))))))])))))))))
#guard process_expr c!"(int)ab()['c']" ==
  some ((enb (0, 14, (Expr_.Cast (Ty.Int, (eb (5, 14, (Expr_.ArrayIdx ((eb (5, 9, (Expr_.Call ((eb (5, 7, (Expr_.Path ((Path.identifier (false, c!"ab")))))), [])))), [(some ((enb (10, 13, (Expr_.String (c!"c"))))))])))))))))

-- parse_expr_error_control
#guard process_expr c!"@test()" ==
  some ((enb (0, 7, (Expr_.UnaryOp (UnaryOp.SilenceErrors, (eb (1, 7, (Expr_.Call ((eb (1, 5, (Expr_.Path ((Path.identifier (false, c!"test")))))), [])))))))))

-- parse_expr_post_pre_dec_inc
#guard process_expr c!"$c++" ==
  some ((enb (0, 4, (Expr_.UnaryOp (UnaryOp.PostInc, (eb (0, 2, (Expr_.Variable (c!"c")))))))))
#guard process_expr c!"$c--" ==
  some ((enb (0, 4, (Expr_.UnaryOp (UnaryOp.PostDec, (eb (0, 2, (Expr_.Variable (c!"c")))))))))
#guard process_expr c!"++$c" ==
  some ((enb (0, 4, (Expr_.UnaryOp (UnaryOp.PreInc, (eb (2, 4, (Expr_.Variable (c!"c")))))))))
#guard process_expr c!"--$c" ==
  some ((enb (0, 4, (Expr_.UnaryOp (UnaryOp.PreDec, (eb (2, 4, (Expr_.Variable (c!"c")))))))))

-- parse_expr_static_const
#guard process_expr c!"Obj::test" ==
  some ((enb (0, 9, (Expr_.StaticMember ((eb (0, 3, (Expr_.Path ((Path.identifier (false, c!"Obj")))))), [(enb (5, 9, (Expr_.Path ((Path.identifier (false, c!"test"))))))])))))

-- parse_expr_static_property
#guard process_expr c!"Obj::$test" ==
  some ((enb (0, 10, (Expr_.StaticMember ((eb (0, 3, (Expr_.Path ((Path.identifier (false, c!"Obj")))))), [(enb (5, 10, (Expr_.Variable (c!"test"))))])))))
#guard process_expr c!"Obj::$a::$b" ==
  some ((enb (0, 11, (Expr_.StaticMember ((eb (0, 3, (Expr_.Path ((Path.identifier (false, c!"Obj")))))), [(enb (5, 7, (Expr_.Variable (c!"a")))), (enb (9, 11, (Expr_.Variable (c!"b"))))])))))
#guard process_expr c!"Obj::test()" ==
  some ((enb (0, 11, (Expr_.Call ((eb (0, 9, (Expr_.StaticMember ((eb (0, 3, (Expr_.Path ((Path.identifier (false, c!"Obj")))))), [(enb (5, 9, (Expr_.Path ((Path.identifier (false, c!"test"))))))])))), [])))))
#guard process_expr c!"static::$abc" ==
  some ((enb (0, 12, (Expr_.StaticMember ((eb (0, 6, (Expr_.Path ((Path.identifier (false, c!"static")))))), [(enb (8, 12, (Expr_.Variable (c!"abc"))))])))))

-- parse_expr_ternary
#guard process_expr c!"$test?true:false" ==
  some ((enb (0, 16, (Expr_.TernaryIf ((eb (0, 5, (Expr_.Variable (c!"test")))), (some ((eb (6, 10, (constant (true)))))), (eb (11, 16, (constant (false)))))))))
#guard process_expr c!"!$test?true:false" ==
  some ((enb (0, 17, (Expr_.TernaryIf ((eb (0, 6, (Expr_.UnaryOp (UnaryOp.Not, (eb (1, 6, (Expr_.Variable (c!"test")))))))), (some ((eb (7, 11, (constant (true)))))), (eb (12, 17, (constant (false)))))))))
#guard process_expr c!"true?'y':false?'n':'y'" ==
  some ((enb (0, 22, (Expr_.TernaryIf ((eb (0, 14, (Expr_.TernaryIf ((eb (0, 4, (constant (true)))), (some ((eb (5, 8, (Expr_.String (c!"y")))))), (eb (9, 14, (constant (false)))))))), (some ((eb (15, 18, (Expr_.String (c!"n")))))), (eb (19, 22, (Expr_.String (c!"y")))))))))

-- parse_expr_new
#guard process_expr c!"new TestA()" ==
  some ((enb (0, 11, (Expr_.New ((eb (4, 9, (Expr_.Path ((Path.identifier (false, c!"TestA")))))), [])))))
#guard process_expr c!"new Foo\\Bar()" ==
  some ((enb (0, 13, (Expr_.New ((eb (4, 11, (Expr_.Path ((Path.ns_identifier (false, c!"Foo", c!"Bar")))))), [])))))
#guard process_expr c!"new Foo" ==
  some ((enb (0, 7, (Expr_.New ((eb (4, 7, (Expr_.Path ((Path.identifier (false, c!"Foo")))))), [])))))

-- parse_expr_clone
#guard process_expr c!"clone $test" ==
  some ((enb (0, 5, (Expr_.Clone ((eb (6, 11, (Expr_.Variable (c!"test")))))))))

-- parse_expr_array_append
#guard process_expr c!"$test[]=1" ==
  some ((enb (0, 9, (Expr_.Assign ((eb (0, 7, (Expr_.ArrayIdx ((eb (0, 5, (Expr_.Variable (c!"test")))), [none])))), (eb (8, 9, (Expr_.Int (1)))))))))

-- parse_expr_assign
#guard process_expr c!"($b=4)" ==
  some ((enb (0, 6, (Expr_.Assign ((eb (1, 3, (Expr_.Variable (c!"b")))), (eb (4, 5, (Expr_.Int (4)))))))))
#guard process_expr c!"!($b=1)" ==
  some ((enb (0, 7, (Expr_.UnaryOp (UnaryOp.Not, (eb (1, 7, (Expr_.Assign ((eb (2, 4, (Expr_.Variable (c!"b")))), (eb (5, 6, (Expr_.Int (1)))))))))))))
#guard process_expr c!"!$b=1" ==
  some ((enb (0, 5, (Expr_.UnaryOp (UnaryOp.Not, (eb (1, 5, (Expr_.Assign ((eb (1, 3, (Expr_.Variable (c!"b")))), (eb (4, 5, (Expr_.Int (1)))))))))))))

-- parse_expr_array
#guard process_expr c!"[]" ==
  some ((enb (0, 2, (Expr_.Array ([])))))
#guard process_expr c!"[1,]" ==
  some ((enb (0, 4, (Expr_.Array ([(none, (enb (1, 2, (Expr_.Int (1)))))])))))
#guard process_expr c!"[1, 2]" ==
  some ((enb (0, 6, (Expr_.Array ([(none, (enb (1, 2, (Expr_.Int (1))))), (none, (enb (4, 5, (Expr_.Int (2)))))])))))
#guard process_expr c!"[1, [2, 3], 3]" ==
  some ((enb (0, 14, (Expr_.Array ([(none, (enb (1, 2, (Expr_.Int (1))))), (none, (enb (4, 10, (Expr_.Array ([(none, (enb (5, 6, (Expr_.Int (2))))), (none, (enb (8, 9, (Expr_.Int (3)))))]))))), (none, (enb (12, 13, (Expr_.Int (3)))))])))))
#guard process_expr c!"array()" ==
  some ((enb (0, 7, (Expr_.Array ([])))))

-- parse_expr_assoc_array
#guard process_expr c!"['a' => 'b']" ==
  some ((enb (0, 12, (Expr_.Array ([((some ((enb (1, 4, (Expr_.String (c!"a")))))), (enb (8, 11, (Expr_.String (c!"b")))))])))))

-- parse_expr_closure
#guard process_expr c!"function () { c(); }" ==
  some ((enb (0, 20, (Expr_.Function ((FunctionDecl.c {params_ := [], body_ := (some ((Block ([(senb (14, 17, (Expr_.Call ((eb (14, 15, (Expr_.Path ((Path.identifier (false, c!"c")))))), []))))])))), usev_ := [], ret_ref_ := false}))))))

-- parse_expr_priority_parents_call
#guard process_expr c!"(new Factory)->test" ==
  some ((enb (0, 19, (Expr_.ObjMember ((eb (0, 13, (Expr_.New ((eb (5, 12, (Expr_.Path ((Path.identifier (false, c!"Factory")))))), [])))), [(enb (15, 19, (Expr_.Path ((Path.identifier (false, c!"test"))))))])))))
#guard process_expr c!"(new $obj)->method()" ==
  some ((enb (0, 20, (Expr_.Call ((eb (0, 18, (Expr_.ObjMember ((eb (0, 10, (Expr_.New ((eb (5, 9, (Expr_.Variable (c!"obj")))), [])))), [(enb (12, 18, (Expr_.Path ((Path.identifier (false, c!"method"))))))])))), [])))))

-- parse_expr_unpack
#guard process_expr c!"t(...$email)" ==
  some ((enb (0, 12, (Expr_.Call ((eb (0, 1, (Expr_.Path ((Path.identifier (false, c!"t")))))), [(enb (2, 11, (Expr_.Unpack ((eb (5, 11, (Expr_.Variable (c!"email"))))))))])))))

-- parse_stmt_heredoc
#guard process_stmt c!"<<<EOT\ntest\nEOT;\n" ==
  some ((senb (0, 15, (Expr_.String (c!"test")))))

-- parse_stmt_echo
#guard process_stmt c!"echo 1;" ==
  some ((st (0, 7, (Stmt_.Echo ([(enb (5, 6, (Expr_.Int (1))))])))))

-- parse_stmt_return
#guard process_stmt c!"return true;" ==
  some ((st (0, 12, (Stmt_.Return ((some ((eb (7, 11, (constant (true)))))))))))
#guard process_stmt c!"return;" ==
  some ((st (0, 7, (Stmt_.Return (none)))))

-- parse_stmt_continue
#guard process_stmt c!"continue;" ==
  some ((st (0, 9, (Stmt_.Continue (none)))))
#guard process_stmt c!"continue 2;" ==
  some ((st (0, 11, (Stmt_.Continue ((some ((eb (9, 10, (Expr_.Int (2)))))))))))

-- parse_stmt_break
#guard process_stmt c!"break;" ==
  some ((st (0, 6, (Stmt_.Break (none)))))
#guard process_stmt c!"break 2;" ==
  some ((st (0, 8, (Stmt_.Break ((some ((eb (6, 7, (Expr_.Int (2)))))))))))

-- parse_stmt_unset
#guard process_stmt c!"unset($a);" ==
  some ((st (0, 10, (Stmt_.Unset ([(enb (6, 8, (Expr_.Variable (c!"a"))))])))))

-- parse_stmt_throw
#guard process_stmt c!"throw new Exception(\"test\");" ==
  some ((st (0, 28, (Stmt_.Throw ((eb (6, 27, (Expr_.New ((eb (10, 19, (Expr_.Path ((Path.identifier (false, c!"Exception")))))), [(enb (20, 26, (Expr_.String (c!"test"))))])))))))))
#guard process_stmt c!"throw new Exception;" ==
  some ((st (0, 20, (Stmt_.Throw ((eb (6, 19, (Expr_.New ((eb (10, 19, (Expr_.Path ((Path.identifier (false, c!"Exception")))))), [])))))))))

-- parse_stmt_include
#guard process_stmt c!"include $test;" ==
  some ((senb (0, 13, (Expr_.Include (IncludeTy.Include, (eb (8, 13, (Expr_.Variable (c!"test")))))))))
#guard process_stmt c!"include_once($test);" ==
  some ((senb (0, 19, (Expr_.Include (IncludeTy.IncludeOnce, (eb (12, 19, (Expr_.Variable (c!"test")))))))))
#guard process_stmt c!"require($test);" ==
  some ((senb (0, 14, (Expr_.Include (IncludeTy.Require, (eb (7, 14, (Expr_.Variable (c!"test")))))))))
#guard process_stmt c!"require_once $test;" ==
  some ((senb (0, 18, (Expr_.Include (IncludeTy.RequireOnce, (eb (13, 18, (Expr_.Variable (c!"test")))))))))

-- parse_stmt_exit
#guard process_stmt c!"exit;" ==
  some ((senb (0, 4, (Expr_.Exit (none)))))
#guard process_stmt c!"exit(true);" ==
  some ((senb (0, 10, (Expr_.Exit ((some ((eb (5, 9, (constant (true)))))))))))

-- parse_stmt_assignment
#guard process_stmt c!"$test=4;" ==
  some ((senb (0, 7, (Expr_.Assign ((eb (0, 5, (Expr_.Variable (c!"test")))), (eb (6, 7, (Expr_.Int (4)))))))))
#guard process_stmt c!"$test[\"a\"]=4+$b;" ==
  some ((senb (0, 15, (Expr_.Assign ((eb (0, 10, (Expr_.ArrayIdx ((eb (0, 5, (Expr_.Variable (c!"test")))), [(some ((enb (6, 9, (Expr_.String (c!"a"))))))])))), (eb (11, 15, (Expr_.BinaryOp (Op.Add, (eb (11, 12, (Expr_.Int (4)))), (eb (13, 15, (Expr_.Variable (c!"b")))))))))))))

-- parse_stmt_return_ternary_assign
#guard process_stmt c!"return isset($a) ? $b : $c = $d;" ==
  some ((st (0, 32, (Stmt_.Return ((some ((eb (7, 31, (Expr_.TernaryIf ((eb (7, 16, (Expr_.Isset ([(enb (13, 15, (Expr_.Variable (c!"a"))))])))), (some ((eb (19, 21, (Expr_.Variable (c!"b")))))), (eb (24, 31, (Expr_.Assign ((eb (24, 26, (Expr_.Variable (c!"c")))), (eb (29, 31, (Expr_.Variable (c!"d")))))))))))))))))))

-- parse_stmt_compound_assignment
#guard process_stmt c!"$test+=4;" ==
  some ((senb (0, 8, (Expr_.CompoundAssign ((eb (0, 5, (Expr_.Variable (c!"test")))), Op.Add, (eb (7, 8, (Expr_.Int (4)))))))))

-- parse_stmt_if_assign
#guard process_stmt c!"if (! $a && $b = $c) { echo 1; }" ==
  some ((st (0, 32, (Stmt_.If ((eb (4, 19, (Expr_.BinaryOp (Op.And, (eb (4, 8, (Expr_.UnaryOp (UnaryOp.Not, (eb (6, 8, (Expr_.Variable (c!"a")))))))), (eb (12, 19, (Expr_.Assign ((eb (12, 14, (Expr_.Variable (c!"b")))), (eb (17, 19, (Expr_.Variable (c!"c")))))))))))), (Block ([(st (23, 30, (Stmt_.Echo ([(enb (28, 29, (Expr_.Int (1))))]))))])), (Block ([])))))))

-- parse_stmt_if_while
#guard process_stmt c!"if   ($a) { b(); }" ==
  some ((st (0, 18, (Stmt_.If ((eb (6, 8, (Expr_.Variable (c!"a")))), (Block ([(senb (12, 15, (Expr_.Call ((eb (12, 13, (Expr_.Path ((Path.identifier (false, c!"b")))))), []))))])), (Block ([])))))))
#guard process_stmt c!"while($a) b();" ==
  some ((st (0, 14, (Stmt_.While ((eb (6, 8, (Expr_.Variable (c!"a")))), (Block ([(senb (10, 13, (Expr_.Call ((eb (10, 11, (Expr_.Path ((Path.identifier (false, c!"b")))))), []))))])))))))

-- parse_stmt_if_else
#guard process_stmt c!"if ($a) { a(); } else { b(); }" ==
  some ((st (0, 30, (Stmt_.If ((eb (4, 6, (Expr_.Variable (c!"a")))), (Block ([(senb (10, 13, (Expr_.Call ((eb (10, 11, (Expr_.Path ((Path.identifier (false, c!"a")))))), []))))])), (Block ([(senb (24, 27, (Expr_.Call ((eb (24, 25, (Expr_.Path ((Path.identifier (false, c!"b")))))), []))))])))))))
#guard process_stmt c!"if ($a) a(); else b();" ==
  some ((st (0, 22, (Stmt_.If ((eb (4, 6, (Expr_.Variable (c!"a")))), (Block ([(senb (8, 11, (Expr_.Call ((eb (8, 9, (Expr_.Path ((Path.identifier (false, c!"a")))))), []))))])), (Block ([(senb (18, 21, (Expr_.Call ((eb (18, 19, (Expr_.Path ((Path.identifier (false, c!"b")))))), []))))])))))))
#guard process_stmt c!"if ($a) a(); else if ($b) b(); else c();" ==
  some ((st (0, 40, (Stmt_.If ((eb (4, 6, (Expr_.Variable (c!"a")))), (Block ([(senb (8, 11, (Expr_.Call ((eb (8, 9, (Expr_.Path ((Path.identifier (false, c!"a")))))), []))))])), (Block ([(st (18, 40, (Stmt_.If ((eb (22, 24, (Expr_.Variable (c!"b")))), (Block ([(senb (26, 29, (Expr_.Call ((eb (26, 27, (Expr_.Path ((Path.identifier (false, c!"b")))))), []))))])), (Block ([(senb (36, 39, (Expr_.Call ((eb (36, 37, (Expr_.Path ((Path.identifier (false, c!"c")))))), []))))]))))))])))))))
#guard process_stmt c!"if ($a) a(); elseif ($b)  b(); else c();" ==
  some ((st (0, 40, (Stmt_.If ((eb (4, 6, (Expr_.Variable (c!"a")))), (Block ([(senb (8, 11, (Expr_.Call ((eb (8, 9, (Expr_.Path ((Path.identifier (false, c!"a")))))), []))))])), (Block ([(st (13, 40, (Stmt_.If ((eb (21, 23, (Expr_.Variable (c!"b")))), (Block ([(senb (26, 29, (Expr_.Call ((eb (26, 27, (Expr_.Path ((Path.identifier (false, c!"b")))))), []))))])), (Block ([(senb (36, 39, (Expr_.Call ((eb (36, 37, (Expr_.Path ((Path.identifier (false, c!"c")))))), []))))]))))))])))))))

-- parse_stmt_do_while
#guard process_stmt c!"do { test(); } while(count($a));" ==
  some ((st (0, 32, (Stmt_.DoWhile ((Block ([(senb (5, 11, (Expr_.Call ((eb (5, 9, (Expr_.Path ((Path.identifier (false, c!"test")))))), []))))])), (eb (21, 30, (Expr_.Call ((eb (21, 26, (Expr_.Path ((Path.identifier (false, c!"count")))))), [(enb (27, 29, (Expr_.Variable (c!"a"))))])))))))))

-- parse_stmt_for
#guard process_stmt c!"for ($i = 0; $i < 10; $i++) { echo 1; }" ==
  some ((st (0, 39, (Stmt_.For ((some ((eb (5, 11, (Expr_.Assign ((eb (5, 7, (Expr_.Variable (c!"i")))), (eb (10, 11, (Expr_.Int (0)))))))))), (some ((eb (13, 20, (Expr_.BinaryOp (Op.Lt, (eb (13, 15, (Expr_.Variable (c!"i")))), (eb (18, 20, (Expr_.Int (10)))))))))), (some ((eb (22, 26, (Expr_.UnaryOp (UnaryOp.PostInc, (eb (22, 24, (Expr_.Variable (c!"i")))))))))), (Block ([(st (30, 37, (Stmt_.Echo ([(enb (35, 36, (Expr_.Int (1))))]))))])))))))

-- parse_stmt_foreach
#guard process_stmt c!"foreach ($test as $v) { ok(); }" ==
  some ((st (0, 31, (Stmt_.ForEach ((eb (9, 14, (Expr_.Variable (c!"test")))), none, (eb (18, 20, (Expr_.Variable (c!"v")))), (Block ([(senb (24, 28, (Expr_.Call ((eb (24, 26, (Expr_.Path ((Path.identifier (false, c!"ok")))))), []))))])))))))
#guard process_stmt c!"foreach ($test as $k => $v) { ok(); }" ==
  some ((st (0, 37, (Stmt_.ForEach ((eb (9, 14, (Expr_.Variable (c!"test")))), (some ((eb (18, 20, (Expr_.Variable (c!"k")))))), (eb (24, 26, (Expr_.Variable (c!"v")))), (Block ([(senb (30, 34, (Expr_.Call ((eb (30, 32, (Expr_.Path ((Path.identifier (false, c!"ok")))))), []))))])))))))

-- parse_stmt_instanceof
#guard process_stmt c!"if ($result instanceof Response) { return $result; }" ==
  some ((st (0, 52, (Stmt_.If ((eb (4, 31, (Expr_.InstanceOf ((eb (4, 11, (Expr_.Variable (c!"result")))), (eb (23, 31, (Expr_.Path ((Path.identifier (false, c!"Response")))))))))), (Block ([(st (35, 50, (Stmt_.Return ((some ((eb (42, 49, (Expr_.Variable (c!"result"))))))))))])), (Block.empty))))))

-- parse_stmt_new_as_param
#guard process_stmt c!"r(new Foo);" ==
  some ((senb (0, 10, (Expr_.Call ((eb (0, 1, (Expr_.Path ((Path.identifier (false, c!"r")))))), [(enb (2, 9, (Expr_.New ((eb (6, 9, (Expr_.Path ((Path.identifier (false, c!"Foo")))))), []))))])))))

-- parse_stmt_try
#guard process_stmt c!"try { echo \"ok\"; } catch (Exception $e) { return false;}" ==
  some ((st (0, 56, (Stmt_.Try ((Block ([(st (6, 16, (Stmt_.Echo ([(enb (11, 15, (Expr_.String (c!"ok"))))]))))])), [(CatchClause.c {ty_ := (Path.identifier (false, c!"Exception")), var_ := c!"e", block_ := (Block ([(st (42, 55, (Stmt_.Return ((some ((eb (49, 54, (constant (false))))))))))]))})], none)))))
#guard process_stmt c!"try { echo \"ok\"; } catch (Exception $e) { return false; } catch (Throwable $e) { return true; }" ==
  some ((st (0, 95, (Stmt_.Try ((Block ([(st (6, 16, (Stmt_.Echo ([(enb (11, 15, (Expr_.String (c!"ok"))))]))))])), [(CatchClause.c {ty_ := (Path.identifier (false, c!"Exception")), var_ := c!"e", block_ := (Block ([(st (42, 55, (Stmt_.Return ((some ((eb (49, 54, (constant (false))))))))))]))}), (CatchClause.c {ty_ := (Path.identifier (false, c!"Throwable")), var_ := c!"e", block_ := (Block ([(st (81, 93, (Stmt_.Return ((some ((eb (88, 92, (constant (true))))))))))]))})], none)))))

-- parse_stmt_use
#guard process_stmt c!"use Test;" ==
  some ((st (0, 9, (Stmt_.Use ([(UseClause.QualifiedName ((Path.identifier (false, c!"Test")), none))])))))
#guard process_stmt c!"use Ab\\Cd\\Ef\\Gh\\Ij as Ga;" ==
  some ((st (0, 25, (Stmt_.Use ([(UseClause.QualifiedName ((Path.ns_identifier (false, c!"Ab\\Cd\\Ef\\Gh", c!"Ij")), (some (c!"Ga"))))])))))
#guard process_stmt c!"use \\FQNS\\Test;" ==
  some ((st (0, 15, (Stmt_.Use ([(UseClause.QualifiedName ((Path.ns_identifier (true, c!"FQNS", c!"Test")), none))])))))

-- parse_stmt_switch
#guard process_stmt c!"switch ($test) { case 1: echo \"1\"; break; default: echo \"2\"; }" ==
  some ((st (0, 62, (Stmt_.Switch ((eb (8, 13, (Expr_.Variable (c!"test")))), [(SwitchCase.c {default_ := false, conds_ := [(enb (22, 23, (Expr_.Int (1))))], block_ := (Block ([(st (25, 34, (Stmt_.Echo ([(enb (30, 33, (Expr_.String (c!"1"))))])))), (st (35, 41, (Stmt_.Break (none))))]))}), (SwitchCase.c {default_ := true, conds_ := [], block_ := (Block ([(st (51, 60, (Stmt_.Echo ([(enb (56, 59, (Expr_.String (c!"2"))))]))))]))})])))))
#guard process_stmt c!"switch ($test) { case 1: echo \"1\"; default: echo \"2\"; }" ==
  some ((st (0, 55, (Stmt_.Switch ((eb (8, 13, (Expr_.Variable (c!"test")))), [(SwitchCase.c {default_ := false, conds_ := [(enb (22, 23, (Expr_.Int (1))))], block_ := (Block ([(st (25, 34, (Stmt_.Echo ([(enb (30, 33, (Expr_.String (c!"1"))))]))))]))}), (SwitchCase.c {default_ := true, conds_ := [], block_ := (Block ([(st (44, 53, (Stmt_.Echo ([(enb (49, 52, (Expr_.String (c!"2"))))]))))]))})])))))
#guard process_stmt c!"switch ($test) { case 1: case 2: echo 1; }" ==
  some ((st (0, 42, (Stmt_.Switch ((eb (8, 13, (Expr_.Variable (c!"test")))), [(SwitchCase.c {default_ := false, conds_ := [(enb (22, 23, (Expr_.Int (1)))), (enb (30, 31, (Expr_.Int (2))))], block_ := (Block ([(st (33, 40, (Stmt_.Echo ([(enb (38, 39, (Expr_.Int (1))))]))))]))})])))))
#guard process_stmt c!"switch ($test) { case 1: case 2: case 3: case 4: echo 1; }" ==
  some ((st (0, 58, (Stmt_.Switch ((eb (8, 13, (Expr_.Variable (c!"test")))), [(SwitchCase.c {default_ := false, conds_ := [(enb (22, 23, (Expr_.Int (1)))), (enb (30, 31, (Expr_.Int (2)))), (enb (38, 39, (Expr_.Int (3)))), (enb (46, 47, (Expr_.Int (4))))], block_ := (Block ([(st (49, 56, (Stmt_.Echo ([(enb (54, 55, (Expr_.Int (1))))]))))]))})])))))

-- parse_stmt_func_decl
#guard process_stmt c!"function test() { ok(); }" ==
  some ((st (0, 25, (Stmt_.Decl ((Decl.GlobalFunction (c!"test", (FunctionDecl.c {params_ := [], body_ := (some ((Block ([(senb (18, 22, (Expr_.Call ((eb (18, 20, (Expr_.Path ((Path.identifier (false, c!"ok")))))), []))))])))), usev_ := [], ret_ref_ := false}))))))))
#guard process_stmt c!"function &test() { ok(); }" ==
  some ((st (0, 26, (Stmt_.Decl ((Decl.GlobalFunction (c!"test", (FunctionDecl.c {params_ := [], body_ := (some ((Block ([(senb (19, 23, (Expr_.Call ((eb (19, 21, (Expr_.Path ((Path.identifier (false, c!"ok")))))), []))))])))), usev_ := [], ret_ref_ := true}))))))))
#guard process_stmt c!"function test($a) { ok(); }" ==
  some ((st (0, 27, (Stmt_.Decl ((Decl.GlobalFunction (c!"test", (FunctionDecl.c {params_ := [(ParamDefinition.c {name_ := c!"a", as_ref_ := false, variadic_ := false, ty_ := none, default_ := none})], body_ := (some ((Block ([(senb (20, 24, (Expr_.Call ((eb (20, 22, (Expr_.Path ((Path.identifier (false, c!"ok")))))), []))))])))), usev_ := [], ret_ref_ := false}))))))))
#guard process_stmt c!"function test($a, $b) { ok(); }" ==
  some ((st (0, 31, (Stmt_.Decl ((Decl.GlobalFunction (c!"test", (FunctionDecl.c {params_ := [(ParamDefinition.c {name_ := c!"a", as_ref_ := false, variadic_ := false, ty_ := none, default_ := none}), (ParamDefinition.c {name_ := c!"b", as_ref_ := false, variadic_ := false, ty_ := none, default_ := none})], body_ := (some ((Block ([(senb (24, 28, (Expr_.Call ((eb (24, 26, (Expr_.Path ((Path.identifier (false, c!"ok")))))), []))))])))), usev_ := [], ret_ref_ := false}))))))))
#guard process_stmt c!"function test(...$a) { ok(); }" ==
  some ((st (0, 30, (Stmt_.Decl ((Decl.GlobalFunction (c!"test", (FunctionDecl.c {params_ := [(ParamDefinition.c {name_ := c!"a", as_ref_ := false, variadic_ := true, ty_ := none, default_ := none})], body_ := (some ((Block ([(senb (23, 27, (Expr_.Call ((eb (23, 25, (Expr_.Path ((Path.identifier (false, c!"ok")))))), []))))])))), usev_ := [], ret_ref_ := false}))))))))

-- parse_func_decl_typehint
#guard process_stmt c!"function test(Test $a) { ok(); }" ==
  some ((st (0, 32, (Stmt_.Decl ((Decl.GlobalFunction (c!"test", (FunctionDecl.c {params_ := [(ParamDefinition.c {name_ := c!"a", as_ref_ := false, variadic_ := false, ty_ := (some ((Ty.Object ((some ((Path.identifier (false, c!"Test")))))))), default_ := none})], body_ := (some ((Block ([(senb (25, 29, (Expr_.Call ((eb (25, 27, (Expr_.Path ((Path.identifier (false, c!"ok")))))), []))))])))), usev_ := [], ret_ref_ := false}))))))))

-- parse_class_decl
#guard process_stmt c!"class Test {}" ==
  some ((st (0, 13, (Stmt_.Decl ((Decl.Class ((ClassDecl.c {cmod_ := (ClassModifiers.none), name_ := c!"Test", base_class_ := none, implements_ := [], members_ := []}))))))))
#guard process_stmt c!"final class Test {}" ==
  some ((st (0, 19, (Stmt_.Decl ((Decl.Class ((ClassDecl.c {cmod_ := (ClassModifiers.new ([ClassModifier.Final])), name_ := c!"Test", base_class_ := none, implements_ := [], members_ := []}))))))))
#guard process_stmt c!"class Test extends Abc\\Test2 {}" ==
  some ((st (0, 31, (Stmt_.Decl ((Decl.Class ((ClassDecl.c {cmod_ := (ClassModifiers.none), name_ := c!"Test", base_class_ := (some ((Path.ns_identifier (false, c!"Abc", c!"Test2")))), implements_ := [], members_ := []}))))))))
#guard process_stmt c!"class Test implements ITest {}" ==
  some ((st (0, 30, (Stmt_.Decl ((Decl.Class ((ClassDecl.c {cmod_ := (ClassModifiers.none), name_ := c!"Test", base_class_ := none, implements_ := [(Path.identifier (false, c!"ITest"))], members_ := []}))))))))

-- parse_class_properties
#guard process_stmt c!"class Test { public $test; }" ==
  some ((st (0, 28, (Stmt_.Decl ((Decl.Class ((ClassDecl.c {cmod_ := (ClassModifiers.none), name_ := c!"Test", base_class_ := none, implements_ := [], members_ := [(Member.Property ((MemberModifiers.new ([MemberModifier.Public])), c!"test", none))]}))))))))
#guard process_stmt c!"class Test { protected $ab = []; }" ==
  some ((st (0, 34, (Stmt_.Decl ((Decl.Class ((ClassDecl.c {cmod_ := (ClassModifiers.none), name_ := c!"Test", base_class_ := none, implements_ := [], members_ := [(Member.Property ((MemberModifiers.new ([MemberModifier.Protected])), c!"ab", (some ((enb (29, 31, (Expr_.Array ([]))))))))]}))))))))

-- parse_class_const
#guard process_stmt c!"class Test { const C=true; }" ==
  some ((st (0, 28, (Stmt_.Decl ((Decl.Class ((ClassDecl.c {cmod_ := (ClassModifiers.none), name_ := c!"Test", base_class_ := none, implements_ := [], members_ := [(Member.Constant ((MemberModifiers.none), c!"C", (enb (21, 25, (constant (true))))))]}))))))))

-- parse_class_methods
#guard process_stmt c!"class Test { public function a() { run(); } }" ==
  some ((st (0, 45, (Stmt_.Decl ((Decl.Class ((ClassDecl.c {cmod_ := (ClassModifiers.none), name_ := c!"Test", base_class_ := none, implements_ := [], members_ := [(Member.Method ((MemberModifiers.new ([MemberModifier.Public])), c!"a", (FunctionDecl.c {params_ := [], body_ := (some ((Block ([(senb (35, 40, (Expr_.Call ((eb (35, 38, (Expr_.Path ((Path.identifier (false, c!"run")))))), []))))])))), usev_ := [], ret_ref_ := false})))]}))))))))
#guard process_stmt c!"class Test { public function __construct(array $param1 = []) { $this->param = $param1; } }" ==
  some ((st (0, 90, (Stmt_.Decl ((Decl.Class ((ClassDecl.c {cmod_ := (ClassModifiers.none), name_ := c!"Test", base_class_ := none, implements_ := [], members_ := [(Member.Method ((MemberModifiers.new ([MemberModifier.Public])), c!"__construct", (FunctionDecl.c {params_ := [(ParamDefinition.c {name_ := c!"param1", as_ref_ := false, variadic_ := false, ty_ := (some (Ty.Array)), default_ := (some ((enb (57, 59, (Expr_.Array ([]))))))})], body_ := (some ((Block ([(senb (63, 85, (Expr_.Assign ((eb (63, 75, (Expr_.ObjMember ((eb (63, 68, (Expr_.Variable (c!"this")))), [(enb (70, 75, (Expr_.Path ((Path.identifier (false, c!"param"))))))])))), (eb (78, 85, (Expr_.Variable (c!"param1"))))))))])))), usev_ := [], ret_ref_ := false})))]}))))))))

-- parse_class_trait_use
#guard process_stmt c!"class Test { use Abc; }" ==
  some ((st (0, 23, (Stmt_.Decl ((Decl.Class ((ClassDecl.c {name_ := c!"Test", base_class_ := none, implements_ := [], members_ := [(Member.TraitUse ([(Path.identifier (false, c!"Abc"))], []))], cmod_ := (ClassModifiers.none)}))))))))

-- parse_stmt_list
#guard process_stmt c!"list($a, $b) = test();" ==
  some ((senb (0, 21, (Expr_.Assign ((eb (0, 12, (Expr_.List ([(none, (enb (5, 7, (Expr_.Variable (c!"a"))))), (none, (enb (9, 11, (Expr_.Variable (c!"b")))))])))), (eb (15, 21, (Expr_.Call ((eb (15, 19, (Expr_.Path ((Path.identifier (false, c!"test")))))), [])))))))))

-- parse_trait_decl
#guard process_stmt c!"trait Test {}" ==
  some ((st (0, 13, (Stmt_.Decl ((Decl.Trait (c!"Test", [])))))))
#guard process_stmt c!"trait HelloWorld {use Hello, World;}" ==
  some ((st (0, 36, (Stmt_.Decl ((Decl.Trait (c!"HelloWorld", [(Member.TraitUse ([(Path.identifier (false, c!"Hello")), (Path.identifier (false, c!"World"))], []))])))))))

-- parse_interface_decl
#guard process_stmt c!"interface ITest {}" ==
  some ((st (0, 18, (Stmt_.Decl ((Decl.Interface (c!"ITest", [], [])))))))
#guard process_stmt c!"interface ITest { public function test(); }" ==
  some ((st (0, 43, (Stmt_.Decl ((Decl.Interface (c!"ITest", [], [(Member.Method ((MemberModifiers.new ([MemberModifier.Public])), c!"test", (FunctionDecl.c {params_ := [], body_ := none, usev_ := [], ret_ref_ := false})))])))))))

-- parse_class_use_trait_complex
#guard process_stmt c!"class Aliased_Talker {\n        use A, B {\n            B::smallTalk insteadof A;\n            A::bigTalk insteadof B;\n            B::bigTalk as talk;\n        }\n    }" ==
  some ((st (0, 163, (Stmt_.Decl ((Decl.Class ((ClassDecl.c {cmod_ := (ClassModifiers.none), name_ := c!"Aliased_Talker", base_class_ := none, implements_ := [], members_ := [(Member.TraitUse ([(Path.identifier (false, c!"A")), (Path.identifier (false, c!"B"))], [(TraitUse.InsteadOf ((Path.identifier (false, c!"B")), c!"smallTalk", [(Path.identifier (false, c!"A"))])), (TraitUse.InsteadOf ((Path.identifier (false, c!"A")), c!"bigTalk", [(Path.identifier (false, c!"B"))])), (TraitUse.As ((some ((Path.identifier (false, c!"B")))), c!"bigTalk", (MemberModifiers.none), (some (c!"talk"))))]))]}))))))))

-- parse_static_decl
#guard process_stmt c!"static $t=true;" ==
  some ((st (0, 15, (Stmt_.Decl ((Decl.StaticVars ([(c!"t", (some ((enb (10, 14, (constant (true)))))))])))))))

-- parse_global_decl
#guard process_stmt c!"global $t;" ==
  some ((st (0, 10, (Stmt_.Decl ((Decl.GlobalVars ([c!"t"])))))))

-- parse_stmt_closure_use
#guard process_stmt c!"return function () use ($t) {};" ==
  some ((st (0, 31, (Stmt_.Return ((some ((eb (7, 30, (Expr_.Function ((FunctionDecl.c {params_ := [], body_ := (some ((Block ([])))), usev_ := [(false, c!"t")], ret_ref_ := false}))))))))))))

-- parse_namespace_decl
#guard process_stmt c!"namespace Foo\\Bar;" ==
  some ((st (0, 17, (Stmt_.Decl ((Decl.Namespace ((Path.ns_identifier (false, c!"Foo", c!"Bar")))))))))

-- parse_simple_file_echos
#guard process_script c!"before<?php echo \"test\"; ?>after1<?php echo \"end\"; ?>end" ==
  some ([(rsnb (0, 6, (Stmt_.Echo ([(rnb (0, 6, (Expr_.String (c!"before"))))])))), (rsnb (12, 24, (Stmt_.Echo ([(rnb (17, 23, (Expr_.String (c!"test"))))])))), (rsnb (27, 33, (Stmt_.Echo ([(rnb (27, 33, (Expr_.String (c!"after1"))))])))), (rsnb (39, 50, (Stmt_.Echo ([(rnb (44, 49, (Expr_.String (c!"end"))))])))), (rsnb (53, 56, (Stmt_.Echo ([(rnb (53, 56, (Expr_.String (c!"end"))))]))))])

section Tokenizer

-- simple_object_operator
#guard get_n_tokens c!"<?php  ->test ?>" 3 ==
  [(Ok (Token.OpenTag)), (Ok (Token.ObjectOp)), (Ok ((Token.String (c!"test"))))]
#guard get_n_tokens c!"<?php  ->test->gest2 ?>" 5 ==
  [(Ok (Token.OpenTag)), (Ok (Token.ObjectOp)), (Ok ((Token.String (c!"test")))), (Ok (Token.ObjectOp)), (Ok ((Token.String (c!"gest2"))))]

-- simple_cast
#guard get_n_tokens c!"<?php  (string) ?>" 3 ==
  [(Ok (Token.OpenTag)), (Ok (Token.CastString)), (Ok (Token.CloseTag))]

-- scripting_initial_text
#guard get_n_tokens c!"a?>b<?php?>" 3 ==
  [(Ok ((Token.InlineHtml (c!"a?>b")))), (Ok (Token.OpenTag)), (Ok (Token.CloseTag))]

-- simple_lnum
#guard get_n_tokens c!"<?php  42" 2 ==
  [(Ok (Token.OpenTag)), (Ok ((Token.Int (42))))]

-- simple_onum
#guard get_n_tokens c!"<?php  0144" 2 ==
  [(Ok (Token.OpenTag)), (Ok ((Token.Int (100))))]

-- simple_bnum
#guard get_n_tokens c!"<?php  0b101" 2 ==
  [(Ok (Token.OpenTag)), (Ok ((Token.Int (5))))]

-- simple_hnum
#guard get_n_tokens c!"<?php  0xff" 2 ==
  [(Ok (Token.OpenTag)), (Ok ((Token.Int (255))))]

-- simple_dnum
#guard get_n_tokens c!"<?php  .10" 2 ==
  [(Ok (Token.OpenTag)), (Ok ((Token.Double (c!".10"))))]
#guard get_n_tokens c!"<?php  1." 2 ==
  [(Ok (Token.OpenTag)), (Ok ((Token.Double (c!"1."))))]
#guard get_n_tokens c!"<?php  1.1" 2 ==
  [(Ok (Token.OpenTag)), (Ok ((Token.Double (c!"1.1"))))]

-- dq_string
#guard get_n_tokens c!"<?php \"\"" 3 ==
  [(Ok (Token.OpenTag)), (Ok (Token.DoubleQuote)), (Ok (Token.DoubleQuote))]
#guard get_n_tokens c!"<?php \"testhallo\\nwelt\"" 4 ==
  [(Ok (Token.OpenTag)), (Ok (Token.DoubleQuote)), (Ok ((Token.ConstantEncapsedString (c!"testhallo\nwelt")))), (Ok (Token.DoubleQuote))]
#guard get_n_tokens c!"<?php \"testhallo\\\"welt\\\"\"" 3 ==
  [(Ok (Token.OpenTag)), (Ok (Token.DoubleQuote)), (Ok ((Token.ConstantEncapsedString (c!"testhallo\"welt\""))))]
#guard get_n_tokens c!"<?php \"转\\t注\\t字\"" 3 ==
  [(Ok (Token.OpenTag)), (Ok (Token.DoubleQuote)), (Ok ((Token.ConstantEncapsedString (c!"转\t注\t字"))))]

-- sq_string
#guard get_n_tokens c!"<?php 'testhallo\\nwelt \\'g\\''" 2 ==
  [(Ok (Token.OpenTag)), (Ok ((Token.ConstantEncapsedString (c!"testhallo\\nwelt 'g'"))))]

-- dq_string_var
#guard get_n_tokens c!"<?php \"ab $world cd\"" 6 ==
  [(Ok (Token.OpenTag)), (Ok (Token.DoubleQuote)), (Ok ((Token.ConstantEncapsedString (c!"ab ")))), (Ok ((Token.Variable (c!"world")))), (Ok ((Token.ConstantEncapsedString (c!" cd")))), (Ok (Token.DoubleQuote))]
#guard get_n_tokens c!"<?php \"$world->ab\"" 6 ==
  [(Ok (Token.OpenTag)), (Ok (Token.DoubleQuote)), (Ok ((Token.Variable (c!"world")))), (Ok (Token.ObjectOp)), (Ok ((Token.String (c!"ab")))), (Ok (Token.DoubleQuote))]
#guard get_n_tokens c!"<?php \"$world->ab->cd\"" 7 ==
  [(Ok (Token.OpenTag)), (Ok (Token.DoubleQuote)), (Ok ((Token.Variable (c!"world")))), (Ok (Token.ObjectOp)), (Ok ((Token.String (c!"ab")))), (Ok ((Token.ConstantEncapsedString (c!"->cd")))), (Ok (Token.DoubleQuote))]
#guard get_n_tokens c!"<?php \"{$world->ab->cd}\"" 9 ==
  [(Ok (Token.OpenTag)), (Ok (Token.DoubleQuote)), (Ok (Token.CurlyBracesOpen)), (Ok ((Token.Variable (c!"world")))), (Ok (Token.ObjectOp)), (Ok ((Token.String (c!"ab")))), (Ok (Token.ObjectOp)), (Ok ((Token.String (c!"cd")))), (Ok (Token.CurlyBracesClose))]

-- backquote
#guard get_n_tokens c!"<?php `ab $world cd`" 6 ==
  [(Ok (Token.OpenTag)), (Ok (Token.Backquote)), (Ok ((Token.ConstantEncapsedString (c!"ab ")))), (Ok ((Token.Variable (c!"world")))), (Ok ((Token.ConstantEncapsedString (c!" cd")))), (Ok (Token.Backquote))]

-- heredoc
#guard get_n_tokens c!"<?php <<<EOT\ntest\nEOT;\n" 4 ==
  [(Ok (Token.OpenTag)), (Ok (Token.HereDocStart)), (Ok ((Token.ConstantEncapsedString (c!"test")))), (Ok (Token.HereDocEnd))]
#guard get_n_tokens c!"<?php <<<\"EOT\"\nte\\tst\nEOT;\n" 4 ==
  [(Ok (Token.OpenTag)), (Ok (Token.HereDocStart)), (Ok ((Token.ConstantEncapsedString (c!"te\tst")))), (Ok (Token.HereDocEnd))]

-- nowdoc
#guard get_n_tokens c!"<?php <<<'EOT'\nte\\tst\nEOT;\n" 2 ==
  [(Ok (Token.OpenTag)), (Ok ((Token.ConstantEncapsedString (c!"te\\tst"))))]

-- single_line_comment
#guard get_n_tokens c!"<?php //test" 2 ==
  [(Ok (Token.OpenTag)), (Ok ((Token.Comment (c!"test"))))]
#guard get_n_tokens c!"<?php //test\n$a" 2 ==
  [(Ok (Token.OpenTag)), (Ok ((Token.Comment (c!"test"))))]

-- block_comment
#guard get_n_tokens c!"<?php /* test\ntest2 */bb" 2 ==
  [(Ok (Token.OpenTag)), (Ok ((Token.Comment (c!" test\ntest2 "))))]

-- resolve_line_nums
#guard get_n_tokens c!"<?php \n\n\n/* test */" 1 ==
  [(Ok (Token.OpenTag))]

end Tokenizer

end Replay
end Pico
