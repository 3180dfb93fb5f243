import Verif.Spec.Lexing
/-!
# Source texts as sequences of lexemes

A lexical description of the scripts the statements below speak about: a text is written down as a list of
lexemes, blanks and comments (`Item`), together with the tokens this list stands for. Nothing here refers to how
the tokenizer works. Not described: the forms `{$..}`, `${..}` and `$a[..]` inside strings between double quotes,
strings with the prefix `b`, back quotes, heredocs and nowdocs, text outside of the tags.
-/
namespace Pico

/-- The operators and brackets with their tokens. (`**=` is missing: the tokenizer never delivers `PowEqual`.) -/
def symbols : List (Text × Kw) :=
  [(c!";", .SemiColon), (c!":", .Colon), (c!",", .Comma), (c!".", .Dot), (c!"[", .SquareBracketOpen),
   (c!"]", .SquareBracketClose), (c!"(", .ParenthesesOpen), (c!")", .ParenthesesClose), (c!"|", .BwOr),
   (c!"^", .BwXor), (c!"&", .Ampersand), (c!"+", .Plus), (c!"-", .Minus), (c!"/", .Div), (c!"*", .Mul),
   (c!"=", .Equal), (c!"%", .Mod), (c!"!", .BoolNot), (c!"~", .BwNot), (c!"<", .Lt), (c!">", .Gt),
   (c!"?", .QuestionMark), (c!"@", .Silence), (c!"{", .CurlyBracesOpen), (c!"}", .CurlyBracesClose),
   (c!"->", .ObjectOp), (c!"::", .ScopeOp), (c!"\\", .NsSeparator), (c!"...", .Ellipsis), (c!"??", .Coalesce),
   (c!"=>", .DoubleArrow), (c!"++", .Increment), (c!"--", .Decrement), (c!"===", .IsIdentical),
   (c!"!==", .IsNotIdentical), (c!"==", .IsEqual), (c!"!=", .IsNotEqual), (c!"<>", .IsNotEqual),
   (c!"<=>", .SpaceShip), (c!"<=", .IsSmallerOrEqual), (c!">=", .IsGreaterOrEqual), (c!"+=", .PlusEqual),
   (c!"-=", .MinusEqual), (c!"*=", .MulEqual), (c!"**", .Pow), (c!"/=", .DivEqual), (c!".=", .ConcatEqual),
   (c!"%=", .ModEqual), (c!"<<=", .SlEqual), (c!">>=", .SrEqual), (c!"&=", .AndEqual), (c!"|=", .OrEqual),
   (c!"^=", .XorEqual), (c!"||", .BoolOr), (c!"&&", .BoolAnd), (c!"<<", .Sl), (c!">>", .Sr)]

/-- The character `c` behind the symbol `w` does not make a longer symbol, a comment, a heredoc or a number. -/
def stops (w : Text) (c : Char) : Bool :=
  (c!"?>" :: c!"**=" :: c!"//" :: c!"/*" :: c!"<<<" :: symbols.map Prod.fst).all (fun s => !(w ++ [c]).isPrefixOf s) &&
    !(w == c!"." && c.isDigit)

/-- The words that make a type cast between parentheses. -/
def castWords : List (Text × Kw) :=
  [(c!"int", .CastInt), (c!"real", .CastDouble), (c!"double", .CastDouble), (c!"float", .CastDouble),
   (c!"string", .CastString), (c!"binary", .CastString), (c!"array", .CastArray), (c!"object", .CastObject),
   (c!"boolean", .CastBool), (c!"bool", .CastBool), (c!"unset", .CastUnset)]

/-- Spaces and tabs only. -/
def Spaces (w : Text) : Prop := ∀ c ∈ w, c = ' ' ∨ c = '\t'

/-- What follows an opening parenthesis makes a type cast of it. -/
def CastAhead (rest : Text) : Prop :=
  ∃ b w b' r, rest = b ++ w ++ b' ++ c!")" ++ r ∧ Spaces b ∧ Spaces b' ∧ ∃ k, (w, k) ∈ castWords

/-- What stands between single quotes, and what it means. -/
inductive Quoted : Text → Text → Prop
  | nil : Quoted [] []
  | plain {b s : Text} (c : Char) (h : c ≠ '\\' ∧ c ≠ '\'') (t : Quoted b s) : Quoted (c :: b) (c :: s)
  | esc {b s : Text} (c : Char) (h : c = '\\' ∨ c = '\'') (t : Quoted b s) : Quoted ('\\' :: c :: b) (c :: s)
  | raw {b s : Text} (c : Char) (h : c ≠ '\\' ∧ c ≠ '\'') (t : Quoted b s) : Quoted ('\\' :: c :: b) ('\\' :: c :: s)

/-- The lexemes. -/
inductive Lexeme
  | word (w : Text)                       -- an identifier or reserved word
  | var (n : Text)                        -- `$n`
  | int (lit : Text) (v : Nat)            -- an integer literal with its value
  | double (ds fs : Text)                 -- `ds.fs`
  | str (body s : Text)                   -- `'body'`, which means `s`
  | sym (w : Text) (k : Kw)               -- an operator or bracket
  | cast (b w b' : Text) (k : Kw)         -- `(bwb')` with blanks `b`, `b'`

/-- How a lexeme is written. -/
def Lexeme.text : Lexeme → Text
  | .word w => w
  | .var n => '$' :: n
  | .int lit _ => lit
  | .double ds fs => ds ++ c!"." ++ fs
  | .str body _ => c!"'" ++ body ++ c!"'"
  | .sym w _ => w
  | .cast b w b' _ => c!"(" ++ b ++ w ++ b' ++ c!")"

/-- Its token. Directly behind `->` (`prop`) every word is a name. -/
def Lexeme.tok (prop : Bool) : Lexeme → Token
  | .word w => if prop then .string w else identifierToken w
  | .var n => .variable n
  | .int _ v => .int v
  | .double ds fs => .double (ds ++ c!"." ++ fs)
  | .str _ s => .encaps s
  | .sym _ k => .k k
  | .cast _ _ _ k => .k k

/-- It is what it says. -/
def Lexeme.Ok : Lexeme → Prop
  | .word w => isIdentifier w = true ∧ w ≠ c!"yieldfrom"
  | .var n => isIdentifier n = true
  | .int lit v => IntLit lit v ∧ v < 2 ^ 63
  | .double ds fs => ds ≠ [] ∧ (∀ c ∈ ds, c.isDigit = true) ∧ ∀ c ∈ fs, c.isDigit = true
  | .str body s => Quoted body s
  | .sym w k => (w, k) ∈ symbols
  | .cast b w b' k => Spaces b ∧ Spaces b' ∧ (w, k) ∈ castWords

/-- What follows it does not belong to it. -/
def Lexeme.Before (prop : Bool) (l : Lexeme) (rest : Text) : Prop :=
  match l with
  | .word w => endsIdentifier rest = true ∧ (prop = false →
      (w = c!"yield" → ¬ ∃ b r, rest = b ++ c!"from" ++ r ∧ Blank b) ∧
      (w = c!"b" → ¬ (c!"'" <+: rest ∨ c!"\"" <+: rest ∨ c!"<<<" <+: rest)))
  | .var _ => endsIdentifier rest = true
  | .int _ _ => endsNumber rest = true
  | .double _ _ => endsNumber rest = true
  | .str _ _ => True
  | .sym w _ => (∀ c, rest.head? = some c → stops w c = true) ∧ (w = c!"(" → ¬ CastAhead rest) ∧
      (w = c!"." → rest ≠ [])
  | .cast _ _ _ _ => True

/-- Is it `->`? -/
def Lexeme.isArrow : Lexeme → Bool
  | .sym _ .ObjectOp => true
  | _ => false

/-! ### Strings between double quotes -/

/-- The escape sequences of one character and what they mean. -/
def dqEscapes : List (Char × Char) :=
  [('n', '\n'), ('r', '\r'), ('t', '\t'), ('f', Char.ofNat 12), ('v', Char.ofNat 11), ('"', '"'), ('\\', '\\'), ('$', '$')]

/-- The building blocks of what stands between double quotes. -/
inductive DqItem
  | plain (c : Char)                      -- the character itself
  | esc (c v : Char)                      -- `\c`, which means `v`
  | raw (c : Char)                        -- `\c`, which means just this
  | hex (ds : Text)                       -- `\xds`, the character with this number
  | dollar                                -- `$`, which means itself
  | brace                                 -- `{`, which means itself
  | var (n : Text)                        -- `$n`
  | prop (n p : Text)                     -- `$n->p`

/-- How it is written. -/
def DqItem.src : DqItem → Text
  | .plain c => [c]
  | .esc c _ => ['\\', c]
  | .raw c => ['\\', c]
  | .hex ds => '\\' :: 'x' :: ds
  | .dollar => ['$']
  | .brace => ['{']
  | .var n => '$' :: n
  | .prop n p => '$' :: n ++ c!"->" ++ p

/-- How the parts of a string are written. -/
def dqSrc (its : List DqItem) : Text := its.flatMap DqItem.src

/-- The text it stands for, if it is no variable. -/
def DqItem.val : DqItem → Text
  | .plain c => [c]
  | .esc _ v => [v]
  | .raw c => ['\\', c]
  | .hex ds => [Char.ofNat (numberValue 16 ds)]
  | .dollar => ['$']
  | .brace => ['{']
  | .var _ => []
  | .prop _ _ => []

/-- Literal text as a token (none for the empty text). -/
def textTok (s : Text) : List Token := if s = [] then [] else [.encaps s]

/-- The tokens of a string: the variables, and between them the literal text (`s` is what has been collected). -/
def dqToks (s : Text) : List DqItem → List Token
  | [] => textTok s
  | .var n :: its => textTok s ++ .variable n :: dqToks [] its
  | .prop n p :: its => textTok s ++ .variable n :: .k .ObjectOp :: .string p :: dqToks [] its
  | it :: its => dqToks (s ++ it.val) its

/-- `rest` does not begin with an identifier. -/
def noIdentifier (rest : Text) : Prop := endsIdentifier rest = true ∨ ∃ c r, rest = c :: r ∧ c.isDigit = true

/-- It is what it says when `rest` follows. -/
def DqItem.Ok (it : DqItem) (rest : Text) : Prop :=
  match it with
  | .plain c => c ≠ '\\' ∧ c ≠ '"' ∧ c ≠ '$' ∧ c ≠ '{'
  | .esc c v => (c, v) ∈ dqEscapes
  | .raw c => c ∉ c!"nrtfve\"\\$xXu"
  | .hex ds => (ds.length = 2 ∨ ds.length = 1 ∧ ∀ c, rest.head? = some c → c.isAlphanum = false) ∧
      (∀ c ∈ ds, c.isDigit = true ∨ c ∈ c!"abcdefABCDEF") ∧ numberValue 16 ds < 128
  | .dollar => noIdentifier rest ∧ ¬ c!"{" <+: rest
  | .brace => ¬ c!"$" <+: rest
  | .var n => isIdentifier n = true ∧ endsIdentifier rest = true ∧ ¬ c!"[" <+: rest ∧ ∀ r, rest = c!"->" ++ r → noIdentifier r
  | .prop n p => isIdentifier n = true ∧ isIdentifier p = true ∧ endsIdentifier rest = true

/-- The parts of a string are what they say. -/
def DqOk : List DqItem → Prop
  | [] => True
  | it :: its => it.Ok (dqSrc its ++ c!"\"") ∧ DqOk its

/-- What a script consists of: lexemes, blanks, comments, strings between double quotes. -/
inductive Item
  | lex (l : Lexeme)
  | dq (its : List DqItem)
  | gap (w : Text)
  | block (body : Text)                   -- `/*body*/`
  | line (opener body : Text)             -- `#body` or `//body`

def Item.text : Item → Text
  | .lex l => l.text
  | .dq its => c!"\"" ++ dqSrc its ++ c!"\""
  | .gap w => w
  | .block body => c!"/*" ++ body ++ c!"*/"
  | .line opener body => opener ++ body

def render : List Item → Text
  | [] => []
  | i :: is => i.text ++ render is

/-- The tokens of a script; `prop` says whether it stands directly behind `->`. -/
def toks (prop : Bool) : List Item → List Token
  | [] => []
  | .lex l :: is => l.tok prop :: toks l.isArrow is
  | .dq its :: is => .k .DoubleQuote :: (dqToks [] its ++ .k .DoubleQuote :: toks false is)
  | .gap _ :: is => toks prop is
  | .block body :: is => .comment (if body.head? = some '*' then body.tail else body) :: toks false is
  | .line _ body :: is => .comment body :: toks false is

/-- Does the script end directly behind `->`? -/
def endsProp (prop : Bool) : List Item → Bool
  | [] => prop
  | .lex l :: is => endsProp l.isArrow is
  | .dq _ :: is => endsProp false is
  | .gap _ :: is => endsProp prop is
  | .block _ :: is => endsProp false is
  | .line _ _ :: is => endsProp false is

/-- The number of open braces behind a script, if no brace is closed that has not been opened (`d` are open before
it). -/
def braces (d : Nat) : List Item → Option Nat
  | [] => some d
  | .lex (.sym _ .CurlyBracesOpen) :: is => braces (d + 1) is
  | .lex (.sym _ .CurlyBracesClose) :: is => if d = 0 then none else braces (d - 1) is
  | _ :: is => braces d is

/-- The items can be told apart when `rest` follows: each lexeme is what it says and ends where it says. -/
def Apart (prop : Bool) : List Item → Text → Prop
  | [], _ => True
  | .lex l :: is, rest => l.Ok ∧ l.Before prop (render is ++ rest) ∧ Apart l.isArrow is rest
  | .dq its :: is, rest => DqOk its ∧ Apart false is rest
  | .gap w :: is, rest => Blank w ∧ Apart prop is rest
  | .block body :: is, rest => body ≠ [] ∧ ¬ c!"*/" <:+: body ∧ Apart false is rest
  | .line opener body :: is, rest => (opener = c!"#" ∨ opener = c!"//") ∧ '\n' ∉ body ∧
      (render is ++ rest = [] ∨ c!"\n" <+: render is ++ rest) ∧ Apart false is rest

/-- The source of a script: open tag, items, and a close tag or nothing. -/
def scriptText (is : List Item) (closed : Bool) : Text :=
  c!"<?php" ++ render is ++ (if closed then c!"?>" else [])

/-- A script whose items can be told apart, and which closes only braces it has opened. -/
def Script (is : List Item) (closed : Bool) : Prop :=
  Apart false is (if closed then c!"?>" else []) ∧ ∃ d, braces 0 is = some d

def isComment : Token → Bool
  | .comment _ => true
  | _ => false

/-- The tokens of a script that matter: all but the comments. -/
def codeToks (is : List Item) : List Token := (toks false is).filter fun t => !isComment t

/-- The second script has the same lexemes and comments as the first one, with other blanks between them (but blanks
only where the first one has some, and no white space with a line end is replaced by mere spaces and tabs: see
`C34_fails` for what happens otherwise). -/
inductive Respaced : List Item → List Item → Prop
  | nil : Respaced [] []
  | lex {is js : List Item} (l : Lexeme) (h : Respaced is js) : Respaced (.lex l :: is) (.lex l :: js)
  | dq {is js : List Item} (its : List DqItem) (h : Respaced is js) : Respaced (.dq its :: is) (.dq its :: js)
  | cast {is js : List Item} (b w b' c c' : Text) (k : Kw) (hc : Spaces c) (hc' : Spaces c') (h : Respaced is js) :
      Respaced (.lex (.cast b w b' k) :: is) (.lex (.cast c w c' k) :: js)
  | gap {is js : List Item} (w w' : Text) (hw : w ≠ []) (hw' : w' ≠ []) (hb : Blank w') (hs : Spaces w' → Spaces w)
      (h : Respaced is js) : Respaced (.gap w :: is) (.gap w' :: js)
  | block {is js : List Item} (body : Text) (h : Respaced is js) : Respaced (.block body :: is) (.block body :: js)
  | line {is js : List Item} (o body w w' : Text) (hb : Blank w')
      (h : Respaced is js) : Respaced (.line o body :: .gap ('\n' :: w) :: is) (.line o body :: .gap ('\n' :: w') :: js)

end Pico
