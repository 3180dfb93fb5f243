import Verif.Model.Tokenizer
import Verif.Model.Parser
import Verif.Model.Printer
/-!
# Public entry points (src/parser.rs:1849-1927, 53-85)

`Parser::parse_str`, the token filter in front of the parser, and the formatting of errors.
-/
namespace Pico

/-- How a call ends: `Ok`, `Err`, a panic, or the given fuel was not enough. -/
inductive Outcome (ε α : Type)
  | ok (a : α)
  | err (e : ε)
  | panic (p : Panic)
  | oof

/-- src/parser.rs:54-61 `SpannedParserError`; `syntaxErr` is `error.syntax`. -/
structure SpannedErr where
  start : Nat
  stop : Nat
  lineStart : Nat
  lineEnd : Nat
  line : Nat
  error : PErr
  syntaxErr : Option SyntaxErr

/-- src/tokens.rs:36-44 `SyntaxError::span`; `none` is `unimplemented!()`. -/
def SyntaxErr.span : SyntaxErr → Option Span
  | .none => Option.none
  | .unterminated _ s => some s
  | .unknownCharacter s => some s

/-- src/parser.rs:1856-1868: what one token of the tokenizer becomes for the parser. -/
def stripToken (t : TokSpan) : List TokSpan :=
  match t.tok with
  | .comment _ => []
  | .k .OpenTag => []
  | .k .CloseTag => []
  | .inlineHtml s => [⟨.k .Echo, t.span⟩, ⟨.encaps s, t.span⟩, ⟨.k .SemiColon, t.span⟩]
  | .k .OpenTagWithEcho => [⟨.k .Echo, t.span⟩]
  | _ => [t]

/-- src/parser.rs:1854-1869. -/
def stripTokens : List TokSpan → List TokSpan
  | [] => []
  | t :: ts => stripToken t ++ stripTokens ts

/-- src/parser.rs:1886-1895: locate a byte range in the line table. -/
def spannedErr (m : LineMap) (start stop : Nat) (e : PErr) (s : Option SyntaxErr) :
    Outcome SpannedErr (List Stmt) :=
  match m.lineFromPosition stop with
  | none => .panic .index
  | some line =>
    match m.line line with
    | none => .panic .index
    | some (ls, le) => .err ⟨start, stop, ls, le, line, e, s⟩

/-- src/parser.rs:1849-1899 `parse_tokens`; `n` is the fuel of the parser. -/
def parseTokensN (n : Nat) (m : LineMap) (toks : List TokSpan) : Outcome SpannedErr (List Stmt) :=
  let tokens := stripTokens toks
  match parseTopStatementList (recN n) tokens 0 with
  | .ok ss _ => .ok ss
  | .panic p => .panic p
  | .oof => .oof
  | .err e _ =>
    if e.pos < tokens.length then
      match tokens[e.pos]? with
      | some t => spannedErr m t.span.start t.span.stop e none
      | none => .panic .index
    else
      match tokens.getLast? with
      | some t => spannedErr m t.span.stop (t.span.stop + 1) e none
      | none => .panic .subOverflow

/-- src/parser.rs:1905-1923: call the tokenizer until `End`. -/
def lexAll (fuel : Nat) : Nat → Tz → List TokSpan → Outcome (SyntaxErr × Tz) (List TokSpan × Tz)
  | 0, _, _ => .oof
  | n + 1, t, acc =>
    match nextToken fuel t with
    | .ok tok t' => if tok.tok = .k .End then .ok (acc, t') else lexAll fuel n t' (acc ++ [tok])
    | .err e t' => .err (e, t')
    | .panic p => .panic p
    | .oof => .oof

/-- src/parser.rs:1901-1927 `parse_str`; `n` bounds the number of tokens, the work per token and the
nesting depth of the parser. -/
def parseStrN (n : Nat) (src : Text) : Outcome SpannedErr (List Stmt) :=
  match lexAll n n (Tz.new src) [] with
  | .ok (toks, t) => parseTokensN n t.st.lineMap toks
  | .err (e, t) =>
    match e.span with
    | none => .panic .unimplemented
    | some sp => spannedErr t.st.lineMap sp.start sp.stop ⟨[], 0⟩ (some e)
  | .panic p => .panic p
  | .oof => .oof

/-- `&code[a..b]`: `none` is the slicing panic. -/
def sliceBytes (code : Text) (a b : Nat) : Option Text :=
  if a ≤ b then (dropBytes code a).bind fun rest => takeBytes rest (b - a) else none

/-- src/parser.rs:63-85 `error_message`; `message` is never set. `dbg` is the `{:?}` text of the expected
tokens, which is not modelled. `none` is a panic. -/
def SpannedErr.errorMessage (e : SpannedErr) (dbg : List Token → Text) (code : Option Text) :
    Option Text :=
  let head := c!"expected one of " ++ dbg e.error.tokens ++ c!" at line " ++ intText e.line ++ c!"\n"
  match code with
  | none => some head
  | some code =>
    match sliceBytes code e.lineStart e.lineEnd with
    | none => none
    | some line =>
      if e.start < e.lineStart then none
      else if e.stop < e.start + 1 then none
      else some (head ++ line ++ c!"\n" ++ List.replicate (e.start - e.lineStart) ' ' ++ c!"^" ++
        List.replicate (e.stop - e.start - 1) '~')

/-- ci/tester/main.rs:180-185: the rewritten file. -/
def rewriteFile (dbl : Text → Text) (stmts : List Stmt) : Option Text :=
  (printToString dbl stmts).map fun s => c!"<?php\n" ++ s ++ c!"\n?>"

end Pico
