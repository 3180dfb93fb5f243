import Verif.Model.Tokenizer
/-!
# Vocabulary of the statements about single tokens
-/
namespace Pico

/-- The tokenizer is in script mode and `rest` is what it has not read yet. -/
def InScript (t : Tz) (rest : Text) : Prop :=
  t.st.state = .inScripting ∧ ∃ before, t.code = before ++ rest ∧ t.st.srcPos = byteLen before

/-- As `InScript`, in any mode. -/
def Remaining (t : Tz) (rest : Text) : Prop :=
  ∃ before, t.code = before ++ rest ∧ t.st.srcPos = byteLen before

/-- Blank characters only. -/
def Blank (w : Text) : Prop := ∀ c ∈ w, c = ' ' ∨ c = '\t' ∨ c = '\r' ∨ c = '\n'

/-- Reading the next token, however much fuel is given (at least one unit): the token is `tok`, it covers the
bytes from `start` to `stop`, and the tokenizer ends in a state satisfying `P`. -/
def Reads (t : Tz) (tok : Token) (start stop : Nat) (P : Tz → Prop) : Prop :=
  ∀ n, ∃ sp t', nextToken (n + 1) t = .ok ⟨tok, sp⟩ t' ∧ sp.start = start ∧ sp.stop = stop ∧ P t'

/-- Letters, digits and the underscore. -/
def isIdChar (c : Char) : Bool := c.isAlphanum || c == '_'

/-- An ASCII identifier: letters, digits and underscores, not beginning with a digit. -/
def isIdentifier : Text → Bool
  | [] => false
  | c :: cs => isIdChar c && !c.isDigit && cs.all isIdChar

/-- `rest` does not continue an identifier: it is empty or begins with a character that is neither a letter, a
digit, an underscore nor in U+0080 to U+00FF (which PHP allows in identifiers). -/
def endsIdentifier : Text → Bool
  | [] => true
  | c :: _ => !isIdChar c && (c.toNat < 0x80 || 0xFF < c.toNat)

/-- The reserved words of PHP 7.1 and their tokens. -/
def reservedWords : List (Text × Kw) :=
  [(c!"yield", .Yield), (c!"exit", .Exit), (c!"die", .Exit), (c!"function", .Function), (c!"const", .Const),
   (c!"return", .Return), (c!"try", .Try), (c!"catch", .Catch), (c!"finally", .Finally),
   (c!"throw", .Throw), (c!"if", .If), (c!"elseif", .ElseIf), (c!"endif", .EndIf), (c!"else", .Else),
   (c!"while", .While), (c!"endwhile", .EndWhile), (c!"do", .Do), (c!"foreach", .Foreach),
   (c!"endforeach", .EndForeach), (c!"for", .For), (c!"endfor", .Endfor), (c!"declare", .Declare),
   (c!"enddeclare", .EndDeclare), (c!"instanceof", .InstanceOf), (c!"as", .As), (c!"switch", .Switch),
   (c!"endswitch", .EndSwitch), (c!"case", .Case), (c!"default", .Default), (c!"break", .Break),
   (c!"continue", .Continue), (c!"goto", .Goto), (c!"echo", .Echo), (c!"print", .Print),
   (c!"class", .Class), (c!"interface", .Interface), (c!"trait", .Trait), (c!"extends", .Extends),
   (c!"implements", .Implements), (c!"new", .New), (c!"clone", .Clone), (c!"var", .Var),
   (c!"eval", .Eval), (c!"include_once", .IncludeOnce), (c!"include", .Include),
   (c!"require_once", .RequireOnce), (c!"require", .Require), (c!"namespace", .Namespace),
   (c!"use", .Use), (c!"insteadof", .Insteadof), (c!"global", .Global), (c!"isset", .Isset),
   (c!"empty", .Empty), (c!"__halt_compiler", .HaltCompiler), (c!"static", .Static),
   (c!"abstract", .Abstract), (c!"final", .Final), (c!"private", .Private),
   (c!"protected", .Protected), (c!"public", .Public), (c!"unset", .Unset), (c!"list", .List),
   (c!"array", .Array), (c!"callable", .Callable), (c!"or", .LogicalOr), (c!"and", .LogicalAnd),
   (c!"xor", .LogicalXor), (c!"__class__", .MagicClass), (c!"__trait__", .MagicTrait),
   (c!"__function__", .MagicFunction), (c!"__method__", .MagicMethod), (c!"__line__", .MagicLine),
   (c!"__file__", .MagicFile), (c!"__dir__", .MagicDir), (c!"__namespace__", .MagicNamespace)]

/-- The token of an identifier: the keyword if it is a reserved word, a name otherwise. -/
def identifierToken (w : Text) : Token :=
  match reservedWords.lookup w with
  | some k => .k k
  | none => .string w

/-- The value of a digit. -/
def digitValue (c : Char) : Nat :=
  if c.isDigit then c.toNat - '0'.toNat
  else if c.isLower then c.toNat - 'a'.toNat + 10
  else c.toNat - 'A'.toNat + 10

/-- The value of a digit string. -/
def numberValue (radix : Nat) (ds : Text) : Nat := ds.foldl (fun v c => v * radix + digitValue c) 0

/-- `rest` does not continue a number: it is empty or begins with neither a letter, a digit, an underscore nor
a dot. -/
def endsNumber : Text → Bool
  | [] => true
  | c :: _ => !isIdChar c && c != '.'

/-- Writing a text between single quotes: each backslash and each quote gets a backslash in front. -/
def sqEscape : Text → Text
  | [] => []
  | c :: cs => if c == '\\' || c == '\'' then '\\' :: c :: sqEscape cs else c :: sqEscape cs

/-- Does the text begin with a blank? -/
def startsBlank : Text → Bool
  | [] => false
  | c :: _ => c == ' ' || c == '\t' || c == '\n' || c == '\r'

/-- The digits of the four notations. -/
def isOctDigit (c : Char) : Bool := c == '0' || c == '1' || c == '2' || c == '3' || c == '4' || c == '5' || c == '6' ||
  c == '7'

/-- An integer literal with its value: decimal (no leading zero), octal, hexadecimal, binary. -/
inductive IntLit : Text → Nat → Prop
  | dec (ds : Text) (h : ds ≠ []) (hd : ∀ c ∈ ds, c.isDigit = true) (hz : ds.head? = some '0' → ds = c!"0") :
      IntLit ds (numberValue 10 ds)
  | oct (ds : Text) (h : ds ≠ []) (hd : ∀ c ∈ ds, isOctDigit c = true) :
      IntLit (c!"0" ++ ds) (numberValue 8 ds)
  | hex (ds : Text) (h : ds ≠ []) (hd : ∀ c ∈ ds, c.isDigit = true ∨ c ∈ c!"abcdefABCDEF") :
      IntLit (c!"0x" ++ ds) (numberValue 16 ds)
  | bin (ds : Text) (h : ds ≠ []) (hd : ∀ c ∈ ds, c = '0' ∨ c = '1') :
      IntLit (c!"0b" ++ ds) (numberValue 2 ds)

end Pico
