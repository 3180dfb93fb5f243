import Verif.Model.Token
import Verif.Model.LineMap
/-!
# Tokenizer (src/tokenizer.rs)

State passing, one Lean definition per Rust function. Differences from the Rust code:
* interning is not modelled here (see `Verif.Model.Interner`): tokens carry their text;
* `short_tags` is the constant `true` (it is private and only ever set to `true`, src/tokenizer.rs:225);
* the loop of `next_token` and the `while let` loop of `str_block` consume fuel, as the latter need not
  terminate; running out of fuel is the explicit outcome `oof`.
-/
namespace Pico

/-- src/tokenizer.rs:36-44 `State`. -/
inductive LexState
  | doNothing | initial | inScripting | lookingForProperty | emitQueue | done
  deriving DecidableEq, Repr

/-- src/tokenizer.rs:112-119 `TokenizerState` (`stack` has its top at the head). -/
structure TState where
  srcPos : Nat
  state : LexState
  stack : List LexState
  lineNum : Nat
  lineMap : LineMap
  restart : Bool
  deriving DecidableEq, Repr

/-- src/tokenizer.rs:46-53 `Tokenizer` (`queue` has the next token to emit at the head). -/
structure Tz where
  code : Text
  st : TState
  queue : List TokSpan
  deriving DecidableEq, Repr

/-- Outcome of a tokenizer step: `Ok`, `Err`, abort, or out of fuel. -/
inductive TR (α : Type)
  | ok (a : α) (t : Tz)
  | err (e : SyntaxErr) (t : Tz)
  | panic (p : Panic)
  | oof
  deriving Repr

/-- A method of `Tokenizer` taking `&mut self`. -/
abbrev T (α : Type) := Tz → TR α

namespace T

/-- Returning a value. -/
def ret {α : Type} (a : α) : T α := fun t => .ok a t

/-- Sequencing; errors propagate as with `try!`. -/
def bnd {α β : Type} (m : T α) (f : α → T β) : T β := fun t =>
  match m t with
  | .ok a t' => f a t'
  | .err e t' => .err e t'
  | .panic p => .panic p
  | .oof => .oof

instance : Monad T where
  pure := ret
  bind := bnd

/-- `return Err(e)`. -/
def fail {α : Type} (e : SyntaxErr) : T α := fun t => .err e t

/-- Abort. -/
def abort {α : Type} (p : Panic) : T α := fun _ => .panic p

/-- Out of fuel. -/
def noFuel {α : Type} : T α := fun _ => .oof

/-- src/tokenizer.rs:203-210 `ret_token!(m); rest`. -/
def orElse {α : Type} (m rest : T α) : T α := fun t =>
  match m t with
  | .err .none t' => rest t'
  | r => r

/-- Read the inner state. -/
def getSt : T TState := fun t => .ok t.st t

/-- `self.state = st`. -/
def setSt (s : TState) : T Unit := fun t => .ok () { t with st := s }

/-- Update the inner state. -/
def modSt (f : TState → TState) : T Unit := fun t => .ok () { t with st := f t.st }

/-- Length of the whole code: `self.code.len()`. -/
def codeLen : T Nat := fun t => .ok (byteLen t.code) t

end T

open T

@[inherit_doc] infixr:55 " <||> " => T.orElse

/-- src/tokenizer.rs:257-259 `input`. -/
def input : T Text := fun t =>
  match dropBytes t.code t.st.srcPos with
  | some i => .ok i t
  | none => .panic .charBoundary

/-- src/tokenizer.rs:262-264 `input_pos`. -/
def inputPos : T Nat := fun t => .ok t.st.srcPos t

/-- `self.state.src_pos = p`. -/
def setPos (p : Nat) : T Unit := modSt fun s => { s with srcPos := p }

/-- Checked subtraction of unsigned numbers. -/
def subT (a b : Nat) : T Nat := if b ≤ a then ret (a - b) else abort .subOverflow

/-- src/tokenizer.rs:250-254 `advance_bytes`. -/
def advanceBytes (n : Nat) : T Text := do
  let i ← input
  match takeBytes i n with
  | none => abort .charBoundary
  | some r =>
    modSt fun s => { s with srcPos := s.srcPos + n }
    return r

/-- src/tokenizer.rs:241-247 `advance_chars`. -/
def advanceChars (n : Nat) : T Text := do
  let i ← input
  advanceBytes (byteLen (i.take n))

/-- src/tokenizer.rs:123-126 `next_line`. -/
def TState.nextLine (s : TState) : TState :=
  { s with lineMap := s.lineMap.push s.srcPos, lineNum := s.lineNum + 1 }

/-- src/tokenizer.rs:142-145 `state_helper!(push, ..)`. -/
def TState.push (new : LexState) (s : TState) : TState :=
  { s with state := new, stack := s.state :: s.stack }

/-- src/tokenizer.rs:267-273 `pop_state`. -/
def popState : T Unit := do
  let s ← getSt
  match s.stack with
  | x :: xs => setSt { s with state := x, stack := xs }
  | [] => abort .unreachable

/-- src/tokenizer.rs:276-289 `whitespace`, as a pass over the remaining input: every blank character is
one byte long, so the input after `advance_bytes(1)` is the tail. -/
def wsGo : Text → TState → TState
  | [], s => s
  | c :: cs, s =>
    if c == ' ' || c == '\t' || c == '\r' then wsGo cs { s with srcPos := s.srcPos + 1 }
    else if c == '\n' then wsGo cs ({ s with srcPos := s.srcPos + 1 } : TState).nextLine
    else s

/-- src/tokenizer.rs:276-289 `whitespace`. -/
def whitespace : T Unit := do
  let i ← input
  modSt (wsGo i)

/-- src/tokenizer.rs:292-301 `whitespace_only`, as a pass over the remaining input. -/
def wsOnlyGo : Text → TState → TState
  | [], s => s
  | c :: cs, s =>
    if c == ' ' || c == '\t' then wsOnlyGo cs { s with srcPos := s.srcPos + 1 } else s

/-- src/tokenizer.rs:292-301 `whitespace_only`. -/
def whitespaceOnly : T Unit := do
  let i ← input
  modSt (wsOnlyGo i)

/-- src/tokenizer.rs:304-315 `newline`. -/
def newline : T Bool := do
  let i ← input
  if startsWith i c!"\r\n" then
    let _ ← advanceBytes 2
    modSt TState.nextLine
    return true
  else if startsWith i c!"\n" || startsWith i c!"\r" then
    let _ ← advanceBytes 1
    modSt TState.nextLine
    return true
  else return false

/-- The character class of src/tokenizer.rs:328-335. -/
def isLabelChar (c : Char) : Bool :=
  inRange 'a' 'z' c || inRange 'A' 'Z' c || inRange '\u0080' 'ÿ' c || c == '_' || inRange '0' '9' c

/-- src/tokenizer.rs:318-344 `_label`. -/
def label : T (Option (Text × Span)) := do
  let i ← input
  match i with
  | [] => return none
  | c :: _ =>
    if inRange '0' '9' c then return none
    else
      let endPos := (position (fun x => !isLabelChar x) i).getD i.length
      if endPos == 0 then return none
      else
        let old ← inputPos
        let r ← advanceChars endPos
        return some (r, mkSpan old (old + endPos))

/-- src/tokenizer.rs:351-377, the one-character tokens. -/
def charToken : Char → Option Kw
  | ';' => some .SemiColon | ':' => some .Colon | ',' => some .Comma | '.' => some .Dot
  | '[' => some .SquareBracketOpen | ']' => some .SquareBracketClose
  | '(' => some .ParenthesesOpen | ')' => some .ParenthesesClose
  | '|' => some .BwOr | '^' => some .BwXor | '&' => some .Ampersand | '+' => some .Plus
  | '-' => some .Minus | '/' => some .Div | '*' => some .Mul | '=' => some .Equal
  | '%' => some .Mod | '!' => some .BoolNot | '~' => some .BwNot | '$' => some .Dollar
  | '<' => some .Lt | '>' => some .Gt | '?' => some .QuestionMark | '@' => some .Silence
  | _ => none

/-- The `End` token at the end of the code, e.g. src/tokenizer.rs:349. -/
def endToken : T TokSpan := do
  let n ← codeLen
  return ⟨.k .End, mkSpan n n⟩

/-- src/tokenizer.rs:347-380 `_token`. -/
def oneCharToken : T TokSpan := do
  let i ← input
  match i with
  | [] => endToken
  | c :: _ =>
    match charToken c with
    | none => fail .none
    | some k =>
      let _ ← advanceChars 1
      let p ← inputPos
      let q ← subT p 1
      return ⟨.k k, mkSpan q p⟩

/-- Is `c` not a decimal digit (src/tokenizer.rs:388). -/
def notDigit (c : Char) : Bool := c.toNat < '0'.toNat || c.toNat > '9'.toNat

/-- src/tokenizer.rs:383-422 `_onum_dnum_lnum`. -/
def onumDnumLnum : T TokSpan := do
  let i ← input
  if i.isEmpty then endToken
  else
    let endPos := (position notDigit i).getD (byteLen i)
    let old ← inputPos
    let str ← advanceChars endPos
    let i ← input
    if !startsWith i c!"." then
      let p ← inputPos
      if endPos != 0 then
        if startsWith str c!"0" && byteLen str > 1 then
          match fromStrRadix i64Max 8 (str.drop 1) with
          | some v => return ⟨.int v, mkSpan old p⟩
          | none => abort .unwrap
        else
          match fromStrRadix i64Max 10 str with
          | some v => return ⟨.int v, mkSpan old p⟩
          | none => abort .unwrap
      else
        setPos old
        fail .none
    else
      let dot ← advanceChars 1
      let str := str ++ dot
      let i ← input
      let pos2 := position notDigit i
      if pos2 == some 0 && byteLen str == 1 then
        setPos old
        fail .none
      else
        let p ← inputPos
        let frac ← advanceChars (pos2.getD i.length)
        let str := str ++ frac
        -- `f64::from_str` fails on this form of text only if there is no digit at all
        if str == c!"." then abort .unwrap
        else return ⟨.double str, mkSpan p endPos⟩

/-- Common shape of `_hnum` (src/tokenizer.rs:425-441) and `_bnum` (src/tokenizer.rs:444-457). -/
def prefixedNum (pre : Text) (radix : Nat) (isDigit : Char → Bool) : T TokSpan := do
  let i ← input
  if byteLen i < 3 || !startsWith i pre then fail .none
  else
    let _ ← advanceBytes 2
    let i ← input
    let endPos := (position (fun c => !isDigit c) i).getD i.length
    if position (fun c => !isDigit c) i == some 0 then fail .none
    else
      let p ← inputPos
      let p2 ← subT p 2
      let str ← advanceChars endPos
      match fromStrRadix i64Max radix str with
      | some v => return ⟨.int v, mkSpan p2 endPos⟩
      | none => abort .unwrap

/-- Hexadecimal digits, src/tokenizer.rs:431. -/
def isHexDigit (c : Char) : Bool := inRange 'a' 'f' c || inRange 'A' 'F' c || inRange '0' '9' c

/-- src/tokenizer.rs:425-441 `_hnum`. -/
def hnum : T TokSpan := prefixedNum c!"0x" 16 isHexDigit

/-- src/tokenizer.rs:444-457 `_bnum`. -/
def bnum : T TokSpan := prefixedNum c!"0b" 2 fun c => c == '0' || c == '1'

/-- src/tokenizer.rs:460-476 `match_variable`. -/
def matchVariable : T TokSpan := do
  let i ← input
  if byteLen i < 2 || !startsWith i c!"$" then fail .none
  else
    let bak ← inputPos
    let _ ← advanceBytes 1
    match ← label with
    | some (name, span) => return ⟨.variable name, { span with start := bak }⟩
    | none =>
      setPos bak
      fail .none

/-- The class tested at src/tokenizer.rs:496 (all alphanumerics, not only hex digits). -/
def isAlnum (c : Char) : Bool := inRange 'a' 'z' c || inRange 'A' 'Z' c || inRange '0' '9' c

/-- src/tokenizer.rs:493-499: index of the last of up to two alphanumerics after `\x`, or 0. -/
def hexEnd (i : Text) : Nat :=
  match i[2]? with
  | some c2 =>
    if isAlnum c2 then
      match i[3]? with
      | some c3 => if isAlnum c3 then 3 else 2
      | none => 2
    else 0
  | none => 0

/-- src/tokenizer.rs:522-526, end of `str_escape`. -/
def escDone (bytes : List Byte) : T (List Byte) := do
  let _ ← advanceChars 2
  return bytes

/-- src/tokenizer.rs:478-527 `str_escape`; returns the extended byte vector. -/
def strEscape (bytes : List Byte) (sq : Bool) : T (List Byte) := do
  let i ← input
  match i[1]? with
  | none =>
    let p ← inputPos
    fail (.unterminated "string escape sequence" (mkSpan p (p + 1)))
  | some x =>
    if !sq && x == 'n' then escDone (bytes ++ [10])
    else if !sq && x == 'r' then escDone (bytes ++ [13])
    else if !sq && x == 't' then escDone (bytes ++ [9])
    else if !sq && x == 'f' then escDone (bytes ++ [12])
    else if !sq && x == 'v' then escDone (bytes ++ [11])
    else if !sq && x == 'e' then abort .unimplemented
    else if !sq && x == '"' then escDone (bytes ++ [34])
    else if sq && x == '\'' then escDone (bytes ++ [39])
    else if x == '\\' then escDone (bytes ++ [92])
    else if !sq && x == '$' then escDone (bytes ++ [36])
    else if !sq && (x == 'x' || x == 'X') then
      let e := hexEnd i
      if e == 0 then escDone (bytes ++ [92, x.toNat])
      else if i.length ≤ e + 1 then abort .unwrap
      else
        match fromStrRadix 255 16 ((i.take (e + 1)).drop 2) with
        | some b =>
          let _ ← advanceChars (1 + e)
          return bytes ++ [b]
        | none => abort .unwrap
    else if !sq && x == 'u' then abort .unimplemented
    else escDone (bytes ++ [92] ++ encodeChar x)

/-- The recurring `match String::from_utf8(bytes)`, e.g. src/tokenizer.rs:539-542. -/
def bytesToken (bytes : List Byte) : Token :=
  match decode bytes with
  | some s => .encaps s
  | none => .binary bytes

/-- src/tokenizer.rs:530-550 `return_tokens_from_parts`. -/
def returnTokensFromParts (startTok endTok : TokSpan) (bytes : List Byte) (parts : List TokSpan) :
    T TokSpan := fun t =>
  let rest := if bytes.isEmpty then [endTok]
    else [⟨bytesToken bytes, mkSpan startTok.span.start endTok.span.stop⟩, endTok]
  .ok startTok { t with queue := parts ++ rest ++ t.queue, st := t.st.push .emitQueue }

/-- src/tokenizer.rs:570-594, the loop of `match_sq_string`. `bak` is the state before the literal. -/
def sqLoop (bak : TState) : Nat → List Byte → T (List Byte)
  | 0, _ => noFuel
  | fuel + 1, bytes => do
    let i ← input
    let endPos := (position (fun x => x == '\\' || x == '\'' || x == '\n') i).getD i.length
    let r ← advanceChars endPos
    let bytes := bytes ++ encode r
    let i ← input
    match i.head? with
    | some '\n' =>
      let _ ← advanceBytes 1
      modSt TState.nextLine
      sqLoop bak fuel (bytes ++ [10])
    | some '\\' =>
      let bytes ← strEscape bytes true
      sqLoop bak fuel bytes
    | some '\'' =>
      let _ ← advanceBytes 1
      return bytes
    | _ =>
      let old ← inputPos
      setSt bak
      fail (.unterminated "single-quoted string literal" (mkSpan bak.srcPos (old + 1)))

/-- src/tokenizer.rs:553-601 `match_sq_string`. Every iteration of the loop consumes a character. -/
def matchSqString : T TokSpan := do
  let i ← input
  if byteLen i < 2 then fail .none
  else
    let bak ← getSt
    let body : T TokSpan := do
      let bytes ← sqLoop bak (i.length + 1) []
      let p ← inputPos
      return ⟨bytesToken bytes, mkSpan bak.srcPos p⟩
    if startsWith i c!"b'" then
      let _ ← advanceBytes 2
      body
    else if startsWith i c!"'" then
      let _ ← advanceBytes 1
      body
    else fail .none

/-- The recurring "flush the pending text before a variable or block", e.g. src/tokenizer.rs:608-615:
`stop` is where the pending text ends. -/
def flushBytes (bytes : List Byte) (parts : List TokSpan) (stop : Nat) : T (List TokSpan) := do
  if bytes.isEmpty then return parts
  else
    let s ← subT stop bytes.length
    return parts ++ [⟨bytesToken bytes, mkSpan s stop⟩]

/-- src/tokenizer.rs:670-672, `while let Ok(tok) = self.next_token()`: collect tokens until an error. -/
def blockLoop (next : T TokSpan) : Nat → List TokSpan → T (List TokSpan)
  | 0, _ => noFuel
  | fuel + 1, acc => fun t =>
    match next t with
    | .ok tok t' => blockLoop next fuel (acc ++ [tok]) t'
    | .err _ t' => .ok acc t'
    | .panic p => .panic p
    | .oof => .oof

/-- src/tokenizer.rs:659-693 `str_block`; returns the new `bytes` and `parts`. -/
def strBlock (next : T TokSpan) (fuel : Nat) (bytes : List Byte) (parts : List TokSpan)
    (requireDollar : Bool) : T (List Byte × List TokSpan) := do
  let _ ← advanceBytes 1
  let i ← input
  if startsWith i c!"$" || !requireDollar then
    let bak ← getSt
    modSt fun s => { s with state := .inScripting, stack := [.doNothing] }
    let p ← inputPos
    let q ← subT p 1
    let tokens ← blockLoop next fuel [⟨.k .CurlyBracesOpen, mkSpan q p⟩]
    if (tokens.getLast?.map TokSpan.tok) == some (.k .CurlyBracesClose) then
      let start ← subT bak.srcPos 1
      let parts ← flushBytes bytes parts start
      modSt fun s => { s with state := bak.state, stack := bak.stack }
      return ([], parts ++ tokens)
    else
      setSt bak
      return (bytes, parts)
  else return (bytes ++ [123], parts)

/-- src/tokenizer.rs:603-657 `str_variable`; returns the new `bytes` and `parts`. -/
def strVariable (next : T TokSpan) (fuel : Nat) (bytes : List Byte) (parts : List TokSpan) :
    T (List Byte × List TokSpan) := do
  let _ ← advanceBytes 1
  let i ← input
  if startsWith i c!"{" then
    let p ← inputPos
    let pos ← subT p 1
    let parts ← flushBytes bytes parts pos
    let (bytes, parts') ← strBlock next fuel [] parts false
    -- patch the `CurlyBracesOpen` token (src/tokenizer.rs:618-621)
    match parts'[parts.length]? with
    | none => abort .index
    | some ts =>
      if ts.tok == .k .CurlyBracesOpen then
        let s ← subT ts.span.start 1
        return (bytes, parts'.set parts.length ⟨.k .DollarCurlyBracesOpen, { ts.span with start := s }⟩)
      else abort .assert
  else
    match ← label with
    | none => return (bytes ++ [36], parts)
    | some (name, span) =>
      let i ← input
      let tmp : List TokSpan ←
        (if startsWith i c!"[" then abort .unimplemented
        else if startsWith i c!"->" then do
          let bak ← inputPos
          let _ ← advanceBytes 2
          match ← label with
          | some (prop, pspan) =>
            return [⟨.k .ObjectOp, mkSpan bak (bak + 1)⟩, ⟨.string prop, mkSpan pspan.start pspan.stop⟩]
          | none =>
            setPos bak
            return []
        else return [])
      let start ← subT span.start 1
      let parts ← flushBytes bytes parts start
      return ([], parts ++ [⟨.variable name, mkSpan start span.stop⟩] ++ tmp)

/-- Stop characters of src/tokenizer.rs:716 and 768. -/
def isDqStop (x : Char) : Bool := x == '\\' || x == '"' || x == '$' || x == '\n' || x == '{'

/-- src/tokenizer.rs:714-720 and 766-772: skip to the next stop character. `count() - 1` is a checked
subtraction. -/
def dqAdvance : T Text := do
  let i ← input
  match position isDqStop i with
  | some n => advanceChars n
  | none =>
    let n ← subT i.length 1
    advanceChars n

/-- src/tokenizer.rs:713-742, the loop of `match_dq_string`. -/
def dqLoop (next : T TokSpan) (bfuel : Nat) (bak : TState) :
    Nat → List Byte → List TokSpan → T (List Byte × List TokSpan)
  | 0, _, _ => noFuel
  | fuel + 1, bytes, parts => do
    let r ← dqAdvance
    let bytes := bytes ++ encode r
    let i ← input
    match i.head? with
    | some '\n' =>
      let _ ← advanceBytes 1
      modSt TState.nextLine
      dqLoop next bfuel bak fuel (bytes ++ [10]) parts
    | some '\\' =>
      let bytes ← strEscape bytes false
      dqLoop next bfuel bak fuel bytes parts
    | some '"' =>
      let _ ← advanceBytes 1
      return (bytes, parts)
    | some '$' =>
      let (bytes, parts) ← strVariable next bfuel bytes parts
      dqLoop next bfuel bak fuel bytes parts
    | some '{' =>
      let (bytes, parts) ← strBlock next bfuel bytes parts true
      dqLoop next bfuel bak fuel bytes parts
    | _ =>
      let errPos ← inputPos
      setSt bak
      fail (.unterminated "double-quoted string literal" (mkSpan bak.srcPos errPos))

/-- src/tokenizer.rs:696-749 `match_dq_string`. -/
def matchDqString (next : T TokSpan) (bfuel : Nat) : T TokSpan := do
  let i ← input
  if byteLen i < 2 then fail .none
  else
    let bak ← getSt
    let body : T TokSpan := do
      let (bytes, parts) ← dqLoop next bfuel bak (i.length + 1) [] []
      let cur ← inputPos
      let c1 ← subT cur 1
      returnTokensFromParts ⟨.k .DoubleQuote, mkSpan bak.srcPos (bak.srcPos + 1)⟩
        ⟨.k .DoubleQuote, mkSpan c1 cur⟩ bytes parts
    if startsWith i c!"b\"" then
      let _ ← advanceBytes 2
      body
    else if startsWith i c!"\"" then
      let _ ← advanceBytes 1
      body
    else fail .none

/-- src/tokenizer.rs:765-793, the loop of `match_backquote`. -/
def bqLoop (next : T TokSpan) (bfuel : Nat) (bak : TState) :
    Nat → List Byte → List TokSpan → T (List Byte × List TokSpan)
  | 0, _, _ => noFuel
  | fuel + 1, bytes, parts => do
    let r ← dqAdvance
    let bytes := bytes ++ encode r
    let i ← input
    match i.head? with
    | some '\n' =>
      let _ ← advanceBytes 1
      modSt TState.nextLine
      bqLoop next bfuel bak fuel (bytes ++ [10]) parts
    | some '`' =>
      let _ ← advanceBytes 1
      return (bytes, parts)
    | some '$' =>
      let (bytes, parts) ← strVariable next bfuel bytes parts
      bqLoop next bfuel bak fuel bytes parts
    | some '{' =>
      let (bytes, parts) ← strBlock next bfuel bytes parts true
      bqLoop next bfuel bak fuel bytes parts
    | _ =>
      let old ← inputPos
      setSt bak
      fail (.unterminated "Backquote" (mkSpan bak.srcPos old))

/-- src/tokenizer.rs:752-800 `match_backquote`. -/
def matchBackquote (next : T TokSpan) (bfuel : Nat) : T TokSpan := do
  let i ← input
  if byteLen i < 2 then fail .none
  else if startsWith i c!"`" then
    let bak ← getSt
    let _ ← advanceBytes 1
    let (bytes, parts) ← bqLoop next bfuel bak (i.length + 1) [] []
    let cur ← inputPos
    let c1 ← subT cur 1
    returnTokensFromParts ⟨.k .Backquote, mkSpan bak.srcPos (bak.srcPos + 1)⟩
      ⟨.k .Backquote, mkSpan c1 cur⟩ bytes parts
  else fail .none

/-- src/tokenizer.rs:871-913, the loop of `match_here_now_doc`. -/
def docLoop (next : T TokSpan) (bfuel : Nat) (bak : TState) (isNowDoc : Bool) (endTag : Text) :
    Nat → List Byte → List TokSpan → T (List Byte × List TokSpan)
  | 0, _, _ => noFuel
  | fuel + 1, bytes, parts => do
    let i ← input
    let endPos := (position (fun x => x == '\\' || x == '$' || x == '\n' || x == '{') i).getD (byteLen i)
    let r ← advanceChars endPos
    let bytes := bytes ++ encode r
    let i ← input
    let unterminated : T (List Byte × List TokSpan) := do
      let old ← inputPos
      setSt bak
      fail (.unterminated "Here/Nowdoc" (mkSpan bak.srcPos old))
    match i.head? with
    | some '\n' =>
      let _ ← advanceBytes 1
      modSt TState.nextLine
      let i ← input
      if startsWith i endTag then
        let _ ← advanceBytes (byteLen endTag)
        let old ← inputPos
        let i ← input
        if startsWith i c!";" then
          let _ ← advanceBytes 1
        if ← newline then
          setPos old
          return (bytes, parts)
        else
          let old ← inputPos
          setSt bak
          fail (.unterminated "Here/Nowdoc: end-tag requires to be followed by a newline"
            (mkSpan bak.srcPos old))
      else docLoop next bfuel bak isNowDoc endTag fuel (bytes ++ [10]) parts
    | some '\\' =>
      let bytes ← strEscape bytes isNowDoc
      docLoop next bfuel bak isNowDoc endTag fuel bytes parts
    | some '$' =>
      if isNowDoc then unterminated
      else
        let (bytes, parts) ← strVariable next bfuel bytes parts
        docLoop next bfuel bak isNowDoc endTag fuel bytes parts
    | some '{' =>
      if isNowDoc then unterminated
      else
        let (bytes, parts) ← strBlock next bfuel bytes parts true
        docLoop next bfuel bak isNowDoc endTag fuel bytes parts
    | _ => unterminated

/-- src/tokenizer.rs:804-811 `DocType`. -/
inductive DocType
  | hereDoc | hereDocEncapsed | nowDoc
  deriving DecidableEq, Repr

/-- src/tokenizer.rs:860-927, after the header of the document. -/
def docBody (next : T TokSpan) (bfuel : Nat) (bak : TState) (isNowDoc : Bool) (endTag : Text) :
    T TokSpan := do
  let i ← input
  let (bytes, parts) ← docLoop next bfuel bak isNowDoc endTag (i.length + 1) [] []
  let cur ← inputPos
  if isNowDoc then
    if parts.isEmpty then return ⟨bytesToken bytes, mkSpan bak.srcPos cur⟩ else abort .assert
  else
    let c1 ← subT cur 1
    returnTokensFromParts ⟨.k .HereDocStart, mkSpan bak.srcPos (bak.srcPos + 1)⟩
      ⟨.k .HereDocEnd, mkSpan c1 cur⟩ bytes parts

/-- src/tokenizer.rs:823-858, the header after `<<<`. -/
def docHeader (next : T TokSpan) (bfuel : Nat) (bak : TState) : T TokSpan := do
  whitespaceOnly
  let i ← input
  let ty : DocType ←
    (if startsWith i c!"'" then do
      let _ ← advanceBytes 1
      return .nowDoc
    else if startsWith i c!"\"" then do
      let _ ← advanceBytes 1
      return .hereDocEncapsed
    else return .hereDoc)
  match ← label with
  | none =>
    setSt bak
    fail .none
  | some (lbl, _) =>
    let i ← input
    let required : Text :=
      match ty with
      | .hereDocEncapsed => c!"\""
      | .nowDoc => c!"'"
      | .hereDoc => []
    if startsWith i required then
      let _ ← advanceBytes (byteLen required)
      if ← newline then docBody next bfuel bak (ty == .nowDoc) lbl
      else
        setSt bak
        fail .none
    else
      setSt bak
      fail .none

/-- src/tokenizer.rs:803-928 `match_here_now_doc`. -/
def matchHereNowDoc (next : T TokSpan) (bfuel : Nat) : T TokSpan := do
  let i ← input
  if byteLen i < 8 then fail .none
  else
    let bak ← getSt
    if startsWith i c!"b<<<" then
      let _ ← advanceBytes 4
      docHeader next bfuel bak
    else if startsWith i c!"<<<" then
      let _ ← advanceBytes 3
      docHeader next bfuel bak
    else fail .none

/-- `f` applied `n` times: the counting loop of src/tokenizer.rs:976-978. -/
def repeatN {α : Type} (f : α → α) : Nat → α → α
  | 0, a => a
  | n + 1, a => repeatN f n (f a)

/-- src/tokenizer.rs:976-985: count the lines of the comment and build the token. -/
def commentDone (old : Nat) (doc : Bool) (comment : Text) : T TokSpan := do
  modSt (repeatN TState.nextLine (linesCount comment - 1))
  let p ← inputPos
  return ⟨.comment comment, { mkSpan old p with doc := if doc then some [] else none }⟩

/-- src/tokenizer.rs:942-948: the rest of a one-line comment after its `n`-byte opener. -/
def lineComment (old n : Nat) : T TokSpan := do
  let _ ← advanceBytes n
  let i ← input
  let comment ← advanceChars ((position (· == '\n') i).getD (byteLen i))
  commentDone old false comment

/-- src/tokenizer.rs:959-971: the rest of a block comment after its `n`-byte opener. -/
def blockComment (old n : Nat) (doc : Bool) : T TokSpan := do
  let _ ← advanceBytes n
  let i ← input
  match beforeSub c!"*/" i with
  | none =>
    let p ← inputPos
    fail (.unterminated "comment" (mkSpan p p))
  | some body =>
    let comment ← advanceBytes (byteLen body)
    let _ ← advanceBytes 2
    commentDone old doc comment

/-- src/tokenizer.rs:931-986 `match_comments`. -/
def matchComments : T TokSpan := do
  let old ← inputPos
  let i ← input
  if startsWith i c!"#" then lineComment old 1
  else if startsWith i c!"//" then lineComment old 2
  else if startsWith i c!"/**" then blockComment old 3 true
  else if startsWith i c!"/*" then blockComment old 2 false
  else fail .none

/-- src/tokenizer.rs:134-139 `starts_with_ci`: the input is *not* lowered, only the pattern is. The
patterns are ASCII, so that `s.len()` is the number of characters. -/
def startsWithCi (i s : Text) : Bool := i.take s.length == s.map lowerAscii

/-- What a `match_token!` does to the state stack (src/tokenizer.rs:149-200). -/
inductive Act
  | keep
  | set (s : LexState)
  | push (s : LexState)
  | pop
  deriving DecidableEq, Repr

/-- Perform the action. -/
def Act.run : Act → T Unit
  | .keep => ret ()
  | .set s => modSt fun st => { st with state := s }
  | .push s => modSt (TState.push s)
  | .pop => popState

/-- One entry of a `ret_token!(match_token!(..))` chain. -/
structure Entry where
  text : Text
  kw : Kw
  act : Act := .keep

/-- src/tokenizer.rs:149-200 `match_token!` / `match_token_alias!`. -/
def matchTok (e : Entry) : T TokSpan := do
  let i ← input
  if startsWithCi i e.text then
    let old ← inputPos
    let _ ← advanceBytes (byteLen e.text)
    let p ← inputPos
    e.act.run
    return ⟨.k e.kw, mkSpan old p⟩
  else fail .none

/-- A chain of `ret_token!(match_token!(..))` statements: the first matching entry wins. -/
def matchFirst : List Entry → T TokSpan
  | [] => fail .none
  | e :: es => matchTok e <||> matchFirst es

/-- An entry spelled by `Token::repr`. -/
def ent (k : Kw) : Entry := ⟨k.repr, k, .keep⟩

/-- src/tokenizer.rs:1112-1117. -/
def tableA : List Entry :=
  [⟨Kw.repr .CloseTag, .CloseTag, .set .initial⟩, ent .Exit, ⟨c!"die", .Exit, .keep⟩, ent .Function,
   ent .Const, ent .Return]

/-- src/tokenizer.rs:1138-1178. -/
def tableB : List Entry :=
  [ent .Try, ent .Catch, ent .Finally, ent .Throw, ent .If, ent .ElseIf, ent .EndIf, ent .Else,
   ent .While, ent .EndWhile, ent .Do, ent .Foreach, ent .EndForeach, ent .For, ent .Endfor,
   ent .Declare, ent .EndDeclare, ent .InstanceOf, ent .As, ent .Switch, ent .EndSwitch, ent .Case,
   ent .Default, ent .Break, ent .Continue, ent .Goto, ent .Echo, ent .Print, ent .Class,
   ent .Interface, ent .Trait, ent .Extends, ent .Implements,
   ⟨Kw.repr .ObjectOp, .ObjectOp, .push .lookingForProperty⟩, ent .ScopeOp, ent .NsSeparator,
   ent .Ellipsis, ent .Coalesce, ent .New, ent .Clone, ent .Var]

/-- src/tokenizer.rs:1184-1195 `try_determine_cast_type`. -/
def castTable : List Entry :=
  [ent .CastInt, ⟨c!"int", .CastInt, .keep⟩, ⟨c!"real", .CastDouble, .keep⟩, ent .CastDouble,
   ⟨c!"float", .CastDouble, .keep⟩, ent .CastString, ⟨c!"binary", .CastString, .keep⟩, ent .CastArray,
   ent .CastObject, ⟨c!"boolean", .CastBool, .keep⟩, ent .CastBool, ent .CastUnset]

/-- src/tokenizer.rs:1211-1264. -/
def tableC : List Entry :=
  [ent .Eval, ent .IncludeOnce, ent .Include, ent .RequireOnce, ent .Require, ent .Namespace, ent .Use,
   ent .Insteadof, ent .Global, ent .Isset, ent .Empty, ent .HaltCompiler, ent .Static, ent .Abstract,
   ent .Final, ent .Private, ent .Protected, ent .Public, ent .Unset, ent .DoubleArrow, ent .List,
   ent .Array, ent .Callable, ent .Increment, ent .Decrement, ent .IsIdentical, ent .IsNotIdentical,
   ent .IsEqual, ent .IsNotEqual, ⟨c!"<>", .IsNotEqual, .keep⟩, ent .SpaceShip, ent .IsSmallerOrEqual,
   ent .IsGreaterOrEqual, ent .PlusEqual, ent .MinusEqual, ent .MulEqual, ent .Pow, ent .PowEqual,
   ent .DivEqual, ent .ConcatEqual, ent .ModEqual, ent .SlEqual, ent .SrEqual, ent .AndEqual,
   ent .OrEqual, ent .XorEqual, ent .BoolOr, ent .BoolAnd, ent .LogicalOr, ent .LogicalAnd,
   ent .LogicalXor, ent .Sl, ent .Sr, ⟨Kw.repr .CurlyBracesOpen, .CurlyBracesOpen, .push .inScripting⟩]

/-- src/tokenizer.rs:1273-1280. -/
def tableD : List Entry :=
  [ent .MagicClass, ent .MagicTrait, ent .MagicFunction, ent .MagicMethod, ent .MagicLine,
   ent .MagicFile, ent .MagicDir, ent .MagicNamespace]

/-- src/tokenizer.rs:1118-1137: `yield` and `yield from`. -/
def matchYield : T TokSpan := do
  let i ← input
  if startsWithCi i c!"yield" then
    let old ← inputPos
    let _ ← advanceBytes 5
    whitespace
    let i ← input
    if startsWithCi i c!"from" then
      let _ ← advanceBytes 4
      let p ← inputPos
      return ⟨.k .YieldFrom, mkSpan old p⟩
    else
      let p ← inputPos
      return ⟨.k .Yield, mkSpan old p⟩
  else fail .none

/-- src/tokenizer.rs:1181-1210: cast tokens such as `(int)`. An error inside is dropped. -/
def matchCast : T TokSpan := do
  let i ← input
  if startsWith i c!"(" then
    let old ← inputPos
    let _ ← advanceBytes 1
    whitespaceOnly
    let tok : Option TokSpan ← fun t =>
      match matchFirst castTable t with
      | .ok a t' => .ok (some a) t'
      | .err _ t' => .ok none t'
      | .panic p => .panic p
      | .oof => .oof
    match tok with
    | none =>
      setPos old
      fail .none
    | some tok =>
      whitespaceOnly
      let i ← input
      if startsWith i c!")" then
        let _ ← advanceBytes 1
        let p ← inputPos
        return ⟨tok.tok, mkSpan old p⟩
      else
        setPos old
        fail .none
  else fail .none

/-- src/tokenizer.rs:1265-1272: `}` pops the state and resets the doc comment. -/
def matchCurlyClose : T TokSpan := do
  let ts ← matchTok ⟨Kw.repr .CurlyBracesClose, .CurlyBracesClose, .pop⟩
  return ⟨ts.tok, { ts.span with doc := some [] }⟩

/-- src/tokenizer.rs:1282. -/
def unknownChar : T TokSpan := do
  let p ← inputPos
  fail (.unknownCharacter (mkSpan p (p + 1)))

/-- src/tokenizer.rs:1111-1283 `in_scripting_other_token`. -/
def inScriptingOtherToken : T TokSpan :=
  matchFirst tableA <||> matchYield <||> matchFirst tableB <||> matchCast <||> matchFirst tableC <||>
    matchCurlyClose <||> matchFirst tableD <||> oneCharToken <||> unknownChar

/-- src/tokenizer.rs:1066-1108: the longest of the identifier reading and the keyword/operator reading.
`SyntaxError::None` cannot come out of `in_scripting_other_token` (its last step is `unknownChar`); its
`span()` would abort. -/
def labelOrOther (old : Nat) : T TokSpan := do
  setPos old
  let lbl ← label
  setPos old
  fun t =>
    match inScriptingOtherToken t with
    | .ok tok t' =>
      match lbl with
      | some (name, span) =>
        if span.stop ≤ tok.span.stop then
          .ok tok { t' with st := { t'.st with srcPos := tok.span.stop } }
        else .ok ⟨.string name, span⟩ { t' with st := { t'.st with srcPos := span.stop } }
      | none => .ok tok { t' with st := { t'.st with srcPos := tok.span.stop } }
    | .err e t' =>
      match lbl with
      | some (name, span) => .ok ⟨.string name, span⟩ { t' with st := { t'.st with srcPos := span.stop } }
      | none =>
        match e with
        | .none => .err (.unknownCharacter (mkSpan t'.st.srcPos (t'.st.srcPos + 1))) t'
        | .unterminated _ sp => .err e { t' with st := { t'.st with srcPos := sp.stop } }
        | .unknownCharacter sp => .err e { t' with st := { t'.st with srcPos := sp.stop } }
    | .panic p => .panic p
    | .oof => .oof

/-- src/tokenizer.rs:1060-1109 `in_scripting_token`. -/
def inScriptingToken (next : T TokSpan) (bfuel : Nat) : T TokSpan := do
  whitespace
  let i ← input
  if i.isEmpty then endToken
  else
    let old ← inputPos
    matchHereNowDoc next bfuel <||> bnum <||> hnum <||> onumDnumLnum <||> matchDqString next bfuel <||>
      matchVariable <||> matchSqString <||> matchComments <||> matchBackquote next bfuel <||>
      labelOrOther old

/-- src/tokenizer.rs:1019-1057 `initial_token`. With `short_tags` set, the search loop (1033-1049) stops
in its first iteration: at the first `<?`, or at the end of the input. -/
def initialToken : T TokSpan := do
  let i ← input
  if i.isEmpty then
    modSt fun s => { s with state := .done }
    endToken
  else
    matchFirst [⟨Kw.repr .OpenTagWithEcho, .OpenTagWithEcho, .set .inScripting⟩,
      ⟨Kw.repr .OpenTag, .OpenTag, .set .inScripting⟩, ⟨c!"<?", .OpenTag, .set .inScripting⟩] <||>
    (do
      let i ← input
      let endPos :=
        match beforeSub c!"<?" i with
        | some pre => byteLen pre
        | none => byteLen i
      if endPos != 0 then
        let p ← inputPos
        let s ← advanceBytes endPos
        return ⟨.inlineHtml s, mkSpan p (p + endPos)⟩
      else endToken)

/-- src/tokenizer.rs:1286-1300 `looking_for_property_token`. -/
def lookingForPropertyToken : T TokSpan := do
  whitespace
  matchTok (ent .ObjectOp) <||> (do
    match ← label with
    | some (x, span) =>
      popState
      return ⟨.string x, span⟩
    | none =>
      popState
      modSt fun s => { s with restart := true }
      fail .none)

/-- src/tokenizer.rs:989-1016 `next_token`: one unit of fuel per iteration of its loop, and the fuel left
is passed to string blocks, which call `next_token` again. -/
def nextToken : Nat → T TokSpan
  | 0 => noFuel
  | fuel + 1 => fun t =>
    let step : T TokSpan :=
      match t.st.state with
      | .done => fail .none
      | .doNothing => fail .none
      | .initial => initialToken
      | .inScripting => inScriptingToken (nextToken fuel) fuel
      | .lookingForProperty => lookingForPropertyToken
      | .emitQueue => fun t =>
        match t.queue with
        | x :: q => .ok x { t with queue := q }
        | [] =>
          (do
            popState
            modSt fun s => { s with restart := true }
            nextToken fuel) t
    match t.st.state, step t with
    | .emitQueue, r => r
    | _, .err .none t' =>
      if t'.st.restart then nextToken fuel { t' with st := { t'.st with restart := false } }
      else .err .none t'
    | _, r => r

/-- src/tokenizer.rs:214-231 `Tokenizer::new`. -/
def Tz.new (src : Text) : Tz :=
  { code := src
    st := { srcPos := 0, state := .initial, stack := [], lineNum := 1
            lineMap := ⟨[0], byteLen src⟩, restart := false }
    queue := [] }

end Pico
