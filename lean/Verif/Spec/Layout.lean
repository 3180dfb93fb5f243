import Verif.Spec.Spelling
import Verif.Spec.Scan
/-!
# How a whole source is laid out

The relation `Laid` between a source and a list of tokens: the source consists, from the first character to the last,
of blanks and of pieces, and the tokens are those of the pieces. It is written from the lexical rules of PHP (and of
what the tokenizer takes for them, where they differ: back quotes end a command at the end of the source only) without
reference to how the tokenizer works. Of the expressions between braces inside of strings it describes those without
comments, double quotes, documents and further braces.
-/
namespace Pico

/-- The bytes of a text. -/
def utf8 (s : Text) : List Nat := s.flatMap fun c => (String.utf8EncodeChar c).map UInt8.toNat

/-- The token of literal bytes: a text if the bytes are those of a text. -/
inductive BytesTok : List Nat → Token → Prop
  | text (s : Text) : BytesTok (utf8 s) (.encaps s)
  | binary {bs : List Nat} (h : ∀ s, utf8 s ≠ bs) : BytesTok bs (.binary bs)

/-- A name: letters, digits, underscores and characters from U+0080 to U+00FF, the first one not a digit. -/
def IsLabel (w : Text) : Prop :=
  w ≠ [] ∧ (∀ c, w.head? = some c → c.isDigit = false) ∧
    ∀ c ∈ w, isIdChar c = true ∨ (0x80 ≤ c.toNat ∧ c.toNat ≤ 0xFF)

/-- Outside of the tags, in a script, and in a script behind `->`. -/
inductive Region
  | html | script | prop
  deriving DecidableEq

/-! ### What may follow -/

/-- No symbol, nor the close tag, reaches further than `w` when `rest` follows. -/
def Longest (w rest : Text) : Prop := ∀ s ∈ c!"?>" :: symbols.map Prod.fst, s <+: w ++ rest → s.length ≤ w.length

/-- A document begins: its first line stands here, and `n` bytes are left at least. (Where fewer are left than the
shortest document has, the tokenizer takes the first line for symbols and words.) -/
def DocAhead (n : Nat) (s : Text) : Prop :=
  n ≤ (utf8 s).length ∧ ∃ b q tag nl r, s = c!"<<<" ++ b ++ q ++ tag ++ q ++ nl ++ r ∧ Spaces b ∧
    (q = [] ∨ q = c!"'" ∨ q = c!"\"") ∧ IsLabel tag ∧ (nl = c!"\n" ∨ nl = c!"\r")

/-- Something that begins like a symbol, but is none: a fraction, a comment, a cast or a document. -/
def NoSymbol (s : Text) : Prop :=
  (∃ c r, s = '.' :: c :: r ∧ c.isDigit = true) ∨ c!"//" <+: s ∨ c!"/*" <+: s ∨ (∃ r, s = '(' :: r ∧ CastAhead r) ∨ DocAhead 8 s

/-- Behind the letter `b` a string begins. -/
def QuoteAhead (rest : Text) : Prop := c!"'" <+: rest ∨ c!"\"" <+: rest ∨ DocAhead 7 rest

/-- Behind the word `yield` the word `from` follows. -/
def FromAhead (rest : Text) : Prop := ∃ b r, rest = b ++ c!"from" ++ r ∧ Blank b

/-! ### Strings -/

/-- The kinds of literals: `'..'`, `".."`, back quotes, `<<<` and `<<<'..'` with their end labels. -/
inductive Quote
  | single | double | back
  | here (tag : Text)
  | now (tag : Text)

/-- Two escape sequences are known between single quotes. -/
inductive SqEscape : Text → List Nat → Prop
  | known (c : Char) (h : c = '\\' ∨ c = '\'') : SqEscape ['\\', c] (utf8 [c])
  | other (c : Char) (h : c ≠ '\\' ∧ c ≠ '\'') : SqEscape ['\\', c] (utf8 ['\\', c])

/-- The escape sequences between double quotes, when `rest` follows. -/
inductive DqEscape : Text → List Nat → Text → Prop
  | known {rest : Text} (c v : Char) (h : (c, v) ∈ dqEscapes) : DqEscape ['\\', c] (utf8 [v]) rest
  | hex {rest : Text} (x : Char) (ds : Text) (hx : x = 'x' ∨ x = 'X')
      (hl : ds.length = 2 ∨ ds.length = 1 ∧ ∀ c, rest.head? = some c → c.isAlphanum = false)
      (hd : ∀ c ∈ ds, c.isDigit = true ∨ c ∈ c!"abcdefABCDEF") : DqEscape ('\\' :: x :: ds) [numberValue 16 ds] rest
  | other {rest : Text} (c : Char) (h : c ∉ c!"nrtfve\"\\$u")
      (hx : c = 'x' ∨ c = 'X' → ∀ d, rest.head? = some d → d.isAlphanum = false) : DqEscape ['\\', c] (utf8 ['\\', c]) rest

/-- A piece of an expression inside of a string, its token, and what may follow it. -/
inductive Bit : Text → Token → Text → Prop
  | word {w rest : Text} (h : isIdentifier w = true) (he : endsIdentifier rest = true) (hy : w ≠ c!"yieldfrom")
      (hf : w = c!"yield" → ¬ FromAhead rest) (hb : w = c!"b" → ¬ QuoteAhead rest) : Bit w (identifierToken w) rest
  | yieldFrom {rest : Text} (b : Text) (h : Blank b) (he : b = [] → endsIdentifier rest = true) :
      Bit (c!"yield" ++ b ++ c!"from") (.k .YieldFrom) rest
  | variable {rest : Text} (n : Text) (h : IsLabel n) (he : endsIdentifier rest = true) :
      Bit (c!"$" ++ n) (.variable n) rest
  | dollar {rest : Text} (h : noIdentifier rest) : Bit c!"$" (.k .Dollar) rest
  | int {lit rest : Text} {v : Nat} (h : IntLit lit v) (hv : v < 2 ^ 63)
      (hm : ∀ l u, IntLit l u → l <+: lit ++ rest → l.length ≤ lit.length)
      (hd : (∀ c ∈ lit, c.isDigit = true) → ∀ c, rest.head? = some c → c.isDigit = false ∧ c ≠ '.') : Bit lit (.int v) rest
  | double {rest : Text} (ds fs : Text) (hd : ∀ c ∈ ds ++ fs, c.isDigit = true) (hne : ds ++ fs ≠ [])
      (hm : ∀ c, rest.head? = some c → c.isDigit = false) : Bit (ds ++ c!"." ++ fs) (.double (ds ++ c!"." ++ fs)) rest
  | symbol {w rest : Text} {k : Kw} (h : (w, k) ∈ symbols) (hk : isBrace (.k k) = false) (hm : Longest w rest)
      (hn : ¬ NoSymbol (w ++ rest)) : Bit w (.k k) rest
  | cast {rest : Text} (b w b' : Text) (k : Kw) (hb : Spaces b) (h : (w, k) ∈ castWords) (hb' : Spaces b') :
      Bit (c!"(" ++ b ++ w ++ b' ++ c!")") (.k k) rest
  | single {rest : Text} (p s : Text) (hp : p = [] ∨ p = c!"b") (hs : ∀ c ∈ s, c ≠ '\'' ∧ c ≠ '\\') :
      Bit (p ++ c!"'" ++ s ++ c!"'") (.encaps s) rest

/-- The text is an expression with its closing brace, whose tokens are these, when `rest` follows. -/
inductive Inner : Region → Text → List Token → Text → Prop
  | close {rest : Text} (b : Text) (hb : Blank b) : Inner .script (b ++ c!"}") [.k .CurlyBracesClose] rest
  | piece {s rest : Text} {ts : List Token} (b w : Text) (k : Token) (hb : Blank b) (hw : Bit w k (s ++ rest))
      (h : Inner (if k = .k .ObjectOp then .prop else .script) s ts rest) : Inner .script (b ++ w ++ s) (k :: ts) rest
  | propName {s rest : Text} {ts : List Token} (b w : Text) (hb : Blank b) (hw : IsLabel w)
      (he : endsIdentifier (s ++ rest) = true) (h : Inner .script s ts rest) : Inner .prop (b ++ w ++ s) (.string w :: ts) rest
  | propArrow {s rest : Text} {ts : List Token} (b : Text) (hb : Blank b) (h : Inner .prop s ts rest) :
      Inner .prop (b ++ c!"->" ++ s) (.k .ObjectOp :: ts) rest
  | propNone {s rest : Text} {ts : List Token} (b : Text) (hb : Blank b) (hr : startsBlank (s ++ rest) = false)
      (hn : noIdentifier (s ++ rest)) (ha : ¬ c!"->" <+: s ++ rest) (h : Inner .script s ts rest) : Inner .prop (b ++ s) ts rest

/-- What stands inside of a literal. -/
inductive Snip
  | plain (c : Char)                      -- the character itself
  | esc (e : Text) (bs : List Nat)        -- an escape sequence and its meaning
  | var (n : Text)                        -- `$n`
  | prop (n p : Text)                     -- `$n->p`
  | block (s : Text) (ts : List Token)    -- `{s`, an expression that begins with `$`
  | dollar (s : Text) (ts : List Token)   -- `${s`

/-- How it is written. -/
def Snip.src : Snip → Text
  | .plain c => [c]
  | .esc e _ => e
  | .var n => c!"$" ++ n
  | .prop n p => c!"$" ++ n ++ c!"->" ++ p
  | .block s _ => c!"{" ++ s
  | .dollar s _ => c!"${" ++ s

def fragSrc (fs : List Snip) : Text := fs.flatMap Snip.src

/-- A variable begins, or an expression between braces, when `rest` follows the character. -/
def Begins (c : Char) (rest : Text) : Prop :=
  c = '$' ∧ (¬ noIdentifier rest ∨ c!"{" <+: rest) ∨ c = '{' ∧ c!"$" <+: rest

/-- It may stand there and ends there when `rest` follows. -/
def Snip.Ok (q : Quote) (rest : Text) : Snip → Prop
  | .plain c =>
    match q with
    | .single => c ≠ '\\' ∧ c ≠ '\''
    | .double => c ≠ '\\' ∧ c ≠ '"' ∧ ¬ Begins c rest
    | .back => c ≠ '\\' ∧ c ≠ '"' ∧ ¬ Begins c rest
    | .here tag => c ≠ '\\' ∧ ¬ Begins c rest ∧ (c = '\n' → ¬ tag <+: rest)
    | .now tag => c ≠ '\\' ∧ c ≠ '$' ∧ c ≠ '{' ∧ (c = '\n' → ¬ tag <+: rest)
  | .esc e bs =>
    match q with
    | .single => SqEscape e bs
    | .now _ => SqEscape e bs
    | .double => DqEscape e bs rest
    | .here _ => DqEscape e bs rest
    | .back => False
  | .var n =>
    match q with
    | .single => False
    | .now _ => False
    | _ => IsLabel n ∧ endsIdentifier rest = true ∧ ¬ c!"[" <+: rest ∧ ∀ r, rest = c!"->" ++ r → noIdentifier r
  | .prop n p =>
    match q with
    | .single => False
    | .now _ => False
    | _ => IsLabel n ∧ IsLabel p ∧ endsIdentifier rest = true
  | .block s ts =>
    match q with
    | .single => False
    | .now _ => False
    | _ => c!"$" <+: s ∧ Inner .script s ts rest
  | .dollar s ts =>
    match q with
    | .single => False
    | .now _ => False
    | _ => Inner .script s ts rest

/-- All of them, when `rest` follows. -/
def FragsOk (q : Quote) : List Snip → Text → Prop
  | [], _ => True
  | f :: fs, rest => f.Ok q (fragSrc fs ++ rest) ∧ FragsOk q fs rest

/-- The bytes collected between two variables as tokens. -/
inductive TextPart : List Nat → List Token → Prop
  | none : TextPart [] []
  | some {bs : List Nat} {k : Token} (hne : bs ≠ []) (h : BytesTok bs k) : TextPart bs [k]

/-- The tokens of the inside of a literal; `bs` are the bytes collected so far. -/
inductive Parts : List Nat → List Snip → List Token → Prop
  | nil {bs : List Nat} {ts : List Token} (h : TextPart bs ts) : Parts bs [] ts
  | plain {bs : List Nat} {fs : List Snip} {ts : List Token} (c : Char) (h : Parts (bs ++ utf8 [c]) fs ts) :
      Parts bs (.plain c :: fs) ts
  | esc {bs : List Nat} {fs : List Snip} {ts : List Token} (e : Text) (v : List Nat) (h : Parts (bs ++ v) fs ts) :
      Parts bs (.esc e v :: fs) ts
  | var {bs : List Nat} {fs : List Snip} {ts us : List Token} (n : Text) (hb : TextPart bs us) (h : Parts [] fs ts) :
      Parts bs (.var n :: fs) (us ++ .variable n :: ts)
  | prop {bs : List Nat} {fs : List Snip} {ts us : List Token} (n p : Text) (hb : TextPart bs us) (h : Parts [] fs ts) :
      Parts bs (.prop n p :: fs) (us ++ .variable n :: .k .ObjectOp :: .string p :: ts)
  | block {bs : List Nat} {fs : List Snip} {ts us : List Token} (s : Text) (is : List Token) (hb : TextPart bs us)
      (h : Parts [] fs ts) : Parts bs (.block s is :: fs) (us ++ .k .CurlyBracesOpen :: (is ++ ts))
  | dollar {bs : List Nat} {fs : List Snip} {ts us : List Token} (s : Text) (is : List Token) (hb : TextPart bs us)
      (h : Parts [] fs ts) : Parts bs (.dollar s is :: fs) (us ++ .k .DollarCurlyBracesOpen :: (is ++ ts))

/-- The bytes of a literal without variables. -/
def fragBytes : List Snip → List Nat
  | [] => []
  | .plain c :: fs => utf8 [c] ++ fragBytes fs
  | .esc _ bs :: fs => bs ++ fragBytes fs
  | _ :: fs => fragBytes fs

/-- A line end, when `rest` follows. -/
def Newline (w rest : Text) : Prop := w = c!"\n" ∨ w = c!"\r\n" ∨ w = c!"\r" ∧ ¬ c!"\n" <+: rest

/-- What follows the end label of a document: the end of the line, perhaps behind a semicolon. -/
def EndsDoc (rest : Text) : Prop := ∃ s nl r, rest = s ++ nl ++ r ∧ (s = [] ∨ s = c!";") ∧ Newline nl r

/-- A here document or now document, its tokens, and what may follow it. -/
inductive Doc : Text → List Token → Text → Prop
  | here {rest : Text} (b q tag nl : Text) (fs : List Snip) (ts : List Token) (hb : Spaces b)
      (hq : q = [] ∨ q = c!"\"") (ht : IsLabel tag) (hn : Newline nl (fragSrc fs ++ c!"\n"))
      (h : FragsOk (.here tag) fs (c!"\n" ++ tag ++ rest)) (hk : Parts [] fs ts) (he : EndsDoc rest) :
      Doc (c!"<<<" ++ b ++ q ++ tag ++ q ++ nl ++ fragSrc fs ++ c!"\n" ++ tag)
        (.k .HereDocStart :: ts ++ [.k .HereDocEnd]) rest
  | now {rest : Text} (b tag nl : Text) (fs : List Snip) (k : Token) (hb : Spaces b)
      (ht : IsLabel tag) (hn : Newline nl (fragSrc fs ++ c!"\n"))
      (h : FragsOk (.now tag) fs (c!"\n" ++ tag ++ rest)) (hk : BytesTok (fragBytes fs) k) (he : EndsDoc rest) :
      Doc (c!"<<<" ++ b ++ c!"'" ++ tag ++ c!"'" ++ nl ++ fragSrc fs ++ c!"\n" ++ tag) [k] rest

/-! ### Pieces -/

/-- A piece of a script, its tokens, and what may follow it. -/
inductive Scrap : Text → List Token → Text → Prop
  | word {w rest : Text} (h : isIdentifier w = true) (he : endsIdentifier rest = true) (hy : w ≠ c!"yieldfrom")
      (hf : w = c!"yield" → ¬ FromAhead rest) (hb : w = c!"b" → ¬ QuoteAhead rest) : Scrap w [identifierToken w] rest
  | yieldFrom {rest : Text} (b : Text) (h : Blank b) (he : b = [] → endsIdentifier rest = true) :
      Scrap (c!"yield" ++ b ++ c!"from") [.k .YieldFrom] rest
  | variable {rest : Text} (n : Text) (h : IsLabel n) (he : endsIdentifier rest = true) :
      Scrap (c!"$" ++ n) [.variable n] rest
  | dollar {rest : Text} (h : noIdentifier rest) : Scrap c!"$" [.k .Dollar] rest
  | int {lit rest : Text} {v : Nat} (h : IntLit lit v) (hv : v < 2 ^ 63)
      (hm : ∀ l u, IntLit l u → l <+: lit ++ rest → l.length ≤ lit.length)
      (hd : (∀ c ∈ lit, c.isDigit = true) → ∀ c, rest.head? = some c → c.isDigit = false ∧ c ≠ '.') : Scrap lit [.int v] rest
  | double {rest : Text} (ds fs : Text) (hd : ∀ c ∈ ds ++ fs, c.isDigit = true) (hne : ds ++ fs ≠ [])
      (hm : ∀ c, rest.head? = some c → c.isDigit = false) : Scrap (ds ++ c!"." ++ fs) [.double (ds ++ c!"." ++ fs)] rest
  | symbol {w rest : Text} {k : Kw} (h : (w, k) ∈ symbols) (hm : Longest w rest) (hn : ¬ NoSymbol (w ++ rest)) :
      Scrap w [.k k] rest
  | cast {rest : Text} (b w b' : Text) (k : Kw) (hb : Spaces b) (h : (w, k) ∈ castWords) (hb' : Spaces b') :
      Scrap (c!"(" ++ b ++ w ++ b' ++ c!")") [.k k] rest
  | line {rest : Text} (o s : Text) (h : o = c!"#" ∨ o = c!"//") (hs : '\n' ∉ s) (he : rest = [] ∨ c!"\n" <+: rest) :
      Scrap (o ++ s) [.comment s] rest
  | block {rest : Text} (o s : Text) (h : o = c!"/**" ∨ o = c!"/*" ∧ ¬ c!"*" <+: s ++ c!"*/") (hs : ¬ c!"*/" <:+: s) :
      Scrap (o ++ s ++ c!"*/") [.comment s] rest
  | single {rest : Text} (p : Text) (fs : List Snip) (k : Token) (hp : p = [] ∨ p = c!"b")
      (h : FragsOk .single fs (c!"'" ++ rest)) (hk : BytesTok (fragBytes fs) k) :
      Scrap (p ++ c!"'" ++ fragSrc fs ++ c!"'") [k] rest
  | quoted {rest : Text} (p : Text) (fs : List Snip) (ts : List Token) (hp : p = [] ∨ p = c!"b")
      (h : FragsOk .double fs (c!"\"" ++ rest)) (hk : Parts [] fs ts) :
      Scrap (p ++ c!"\"" ++ fragSrc fs ++ c!"\"") (.k .DoubleQuote :: ts ++ [.k .DoubleQuote]) rest
  | back (fs : List Snip) (ts : List Token) (h : FragsOk .back fs c!"`") (hk : Parts [] fs ts) :
      Scrap (c!"`" ++ fragSrc fs ++ c!"`") (.k .Backquote :: ts ++ [.k .Backquote]) []
  | doc {rest : Text} (p w : Text) (ks : List Token) (hp : p = [] ∨ p = c!"b") (h : Doc w ks rest) : Scrap (p ++ w) ks rest

/-- The open tags. -/
def openTags : List (Text × Kw) := [(c!"<?=", .OpenTagWithEcho), (c!"<?php", .OpenTag), (c!"<?", .OpenTag)]

/-- The text consists of blanks and pieces, whose tokens are these. -/
inductive Laid : Region → Text → List Token → Prop
  | htmlEnd : Laid .html [] []
  | html {rest : Text} {ts : List Token} (s : Text) (hne : s ≠ []) (hs : ¬ c!"<?" <:+: s)
      (he : rest = [] ∨ c!"<?" <+: rest) (h : Laid .html rest ts) : Laid .html (s ++ rest) (.inlineHtml s :: ts)
  | openTag {rest : Text} {ts : List Token} (w : Text) (k : Kw) (hw : (w, k) ∈ openTags)
      (hm : ∀ p ∈ openTags, p.1 <+: w ++ rest → p.1.length ≤ w.length) (h : Laid .script rest ts) :
      Laid .html (w ++ rest) (.k k :: ts)
  | scriptEnd {b : Text} (hb : Blank b) : Laid .script b []
  | closeTag {rest : Text} {ts : List Token} (b : Text) (hb : Blank b) (h : Laid .html rest ts) :
      Laid .script (b ++ c!"?>" ++ rest) (.k .CloseTag :: ts)
  | piece {rest : Text} {ts : List Token} (b w : Text) (ks : List Token) (hb : Blank b) (hw : Scrap w ks rest)
      (h : Laid (if ks = [.k .ObjectOp] then .prop else .script) rest ts) :
      Laid .script (b ++ w ++ rest) (ks ++ ts)
  | propName {rest : Text} {ts : List Token} (b w : Text) (hb : Blank b) (hw : IsLabel w) (he : endsIdentifier rest = true)
      (h : Laid .script rest ts) : Laid .prop (b ++ w ++ rest) (.string w :: ts)
  | propArrow {rest : Text} {ts : List Token} (b : Text) (hb : Blank b) (h : Laid .prop rest ts) :
      Laid .prop (b ++ c!"->" ++ rest) (.k .ObjectOp :: ts)
  | propNone {rest : Text} {ts : List Token} (b : Text) (hb : Blank b) (hr : startsBlank rest = false)
      (hn : noIdentifier rest) (ha : ¬ c!"->" <+: rest) (h : Laid .script rest ts) : Laid .prop (b ++ rest) ts

/-- Somewhere in the text the prefix of a hexadecimal or binary number is followed by something else than such a digit. -/
def HasStray (src : Text) : Prop :=
  ∃ pre c post, (src = pre ++ c!"0x" ++ c :: post ∧ c.isDigit = false ∧ c ∉ c!"abcdefABCDEF") ∨
    (src = pre ++ c!"0b" ++ c :: post ∧ c ≠ '0' ∧ c ≠ '1')

/-- Characters of which a simple expression consists: those of names and numbers, blanks, and those of the operators
other than `<`, `/` and `?`. -/
def codeChar (c : Char) : Bool := isIdChar c || c ∈ c!" \t\r\n$-+*%=!&|^~@.,:;>[]()\\"

/-- A simple expression: such characters, and texts between single quotes without `\`. -/
inductive Tame : Text → Prop
  | nil : Tame []
  | code {w : Text} (c : Char) (hc : codeChar c = true) (h : Tame w) : Tame (c :: w)
  | text {w : Text} (s : Text) (hs : ∀ c ∈ s, c ≠ '\'' ∧ c ≠ '\\') (h : Tame w) : Tame (c!"'" ++ s ++ c!"'" ++ w)

/-- Somewhere `{$` or `${` is not followed by a simple expression and `}`. -/
def HasWild (src : Text) : Prop :=
  ∃ pre rest, (src = pre ++ c!"{$" ++ rest ∨ src = pre ++ c!"${" ++ rest) ∧ ¬ ∃ w r, rest = w ++ c!"}" ++ r ∧ Tame w

/-- In every part of the tokens at the beginning no more than `d` braces are closed that were not opened there. -/
def Closed (d : Nat) (ts : List Token) : Prop :=
  ∀ a b, ts = a ++ b → (a.filter closesBrace).length ≤ d + (a.filter opensBrace).length

/-- The last character of the source is the last token, a `.`. -/
def DotEnd (src : Text) (ts : List Token) : Prop := c!"." <:+ src ∧ ts.getLast? = some (.k .Dot)

end Pico
