import Verif.Props.Lexing
import Verif.Lemmas.LexPrint
import Verif.Lemmas.LexSpec
import Verif.Lemmas.LexStr
import Verif.Lemmas.Utf8
import Verif.Lemmas.LexLit
import Verif.Lemmas.LexWord
import Verif.Lemmas.LexTable
import Verif.Lemmas.LexFail
import Verif.Lemmas.Lex
import Verif.Spec.Lexing
import Verif.Model.Basic
import Verif.Model.Interner
import Verif.Model.LineMap
import Verif.Model.Token
import Verif.Model.Tokenizer
import Verif.Model.Ast
import Verif.Model.Parser
import Verif.Model.Printer
import Verif.Model.Api
import Verif.Model.Bisect
import Verif.Tests
import Verif.Props.Interner
import Verif.Props.Modifiers
import Verif.Props.LineMap
import Verif.Props.Bisect
import Verif.Spec.Tree
import Verif.Spec.Printing
import Verif.Lemmas.PrinterSafe
import Verif.Props.Printer
import Verif.Lemmas.ParserTotal
import Verif.Lemmas.ParserMono
import Verif.Props.Parser
import Verif.Spec.Outcome
import Verif.Spec.Erase
import Verif.Lemmas.TokenizerMono
import Verif.Props.Violations
import Verif.Props.Diverge
import Verif.Props.Tokens
import Verif.Spec.Grammar
import Verif.Lemmas.ParserRun
import Verif.Lemmas.GramBase
import Verif.Lemmas.GramFail
import Verif.Lemmas.GramClaims
import Verif.Lemmas.GramVar
import Verif.Lemmas.GramExpr
import Verif.Lemmas.GramFn
import Verif.Lemmas.GramStart
import Verif.Lemmas.GramStmt
import Verif.Lemmas.GramTop
import Verif.Lemmas.GramMain
import Verif.Lemmas.PrintOut
import Verif.Spec.Program
import Verif.Props.Grammar
import Verif.Spec.Scan
import Verif.Lemmas.TokWp
import Verif.Lemmas.TokInv
import Verif.Lemmas.TokStep
import Verif.Lemmas.TokStr
import Verif.Lemmas.TokNext
import Verif.Props.Scan
import Verif.Props.Ranges
import Verif.Spec.Source
import Verif.Spec.Spelling
import Verif.Lemmas.LexDq
import Verif.Lemmas.LexMeans
import Verif.Lemmas.LexItem
import Verif.Lemmas.Respace
import Verif.Props.Source
import Verif.Props.Strings
import Verif.Lemmas.ScriptCheck
import Verif.Props.Programs
import Verif.Spec.RoundTrip
import Verif.Lemmas.RtBase
import Verif.Lemmas.RtName
import Verif.Lemmas.RtClaim
import Verif.Lemmas.RtLeaf
import Verif.Lemmas.RtOp
import Verif.Lemmas.RtExpr
import Verif.Lemmas.RtPost
import Verif.Lemmas.RtDecl
import Verif.Lemmas.RtStmt
import Verif.Lemmas.RtClass
import Verif.Lemmas.RtAll
import Verif.Props.RoundTrip
import Verif.Lemmas.PrinterErase
import Verif.Props.Rewrite
import Verif.Lemmas.RelBase
import Verif.Lemmas.ParserRel
import Verif.Lemmas.ParserRelExpr
import Verif.Lemmas.ParserRelOper
import Verif.Lemmas.ParserRelStmt
import Verif.Spec.Agree
import Verif.Props.Agree
import Verif.Spec.Reading
import Verif.Lemmas.ReadBase
import Verif.Lemmas.ReadTac
import Verif.Lemmas.ReadExpr
import Verif.Lemmas.ReadOper
import Verif.Lemmas.ReadStmt
import Verif.Lemmas.Front
import Verif.Props.Reading
import Verif.Spec.Layout
import Verif.Lemmas.LayUtf8
import Verif.Lemmas.LayBase
import Verif.Lemmas.LayNum
import Verif.Lemmas.LayStr
import Verif.Lemmas.LayBody
import Verif.Lemmas.LayTok
import Verif.Lemmas.LayLit
import Verif.Lemmas.LayOther
import Verif.Lemmas.LayRest
import Verif.Lemmas.TameText
import Verif.Lemmas.TameStep
import Verif.Lemmas.TameNext
import Verif.Lemmas.TameEnd
import Verif.Lemmas.GoBlk
import Verif.Lemmas.LayNext
import Verif.Lemmas.UniqueStr
import Verif.Lemmas.Unique
import Verif.Props.Layout
import Verif.Props.Complete
import Verif.Spec.Ranges
import Verif.Lemmas.SpotBase
import Verif.Lemmas.SpotTac
import Verif.Lemmas.SpotExpr
import Verif.Lemmas.SpotOper
import Verif.Lemmas.SpotStmt
import Verif.Props.TreeRanges
import Verif.Spec.Errors
import Verif.Props.Errors
import Verif.Spec.Expected
import Verif.Lemmas.ParserTruth
import Verif.Props.Expected
import Verif.Spec.Panics
import Verif.Lemmas.PanicBase
import Verif.Lemmas.PanicExpr
import Verif.Lemmas.PanicOper
import Verif.Lemmas.PanicStmt
import Verif.Props.Panics
import Verif.Spec.LexPanics
import Verif.Lemmas.LexPanicBase
import Verif.Lemmas.LexPanicStr
import Verif.Lemmas.LexPanicDoc
import Verif.Lemmas.LexPanicNext
import Verif.Props.LexPanics
import Verif.Spec.Lines
import Verif.Lemmas.LineBase
import Verif.Lemmas.LineStr
import Verif.Lemmas.LineNext
import Verif.Lemmas.LineTable
import Verif.Props.Lines
import Verif.Spec.Shape
import Verif.Spec.Clean
import Verif.Lemmas.ShapeExpr
import Verif.Lemmas.ShapeStmt
import Verif.Lemmas.Clean
import Verif.Props.Shape
import Verif.Props.Aborting
import Verif.Props.Accepted
import Verif.Lemmas.SndBase
import Verif.Lemmas.SndBin
import Verif.Lemmas.SndEdge
import Verif.Lemmas.SndExpr
import Verif.Lemmas.SndFn
import Verif.Lemmas.SndName
import Verif.Lemmas.SndOper
import Verif.Lemmas.SndScalar
import Verif.Lemmas.SndStmt
import Verif.Lemmas.SndTop
import Verif.Lemmas.SndVar
import Verif.Spec.Edges
import Verif.Props.Sound
import Verif.Spec.Brackets
import Verif.Lemmas.Brackets
import Verif.Lemmas.SndNn
import Verif.Lemmas.Nest
import Verif.Props.Brackets
import Verif.Props.Grammatical
import Verif.Model.Float
import Verif.Spec.Float
import Verif.Spec.Doubles
import Verif.Lemmas.Float
import Verif.Lemmas.PrinterDoubles
import Verif.Lemmas.ShapeDoubles
import Verif.Props.Doubles
import Verif.Spec.Spans
import Verif.Lemmas.SpanBase
import Verif.Lemmas.SpanExpr
import Verif.Lemmas.SpanStmt
import Verif.Lemmas.DocTok
import Verif.Props.Positions
import Verif.Model.Count
import Verif.Lemmas.Count
import Verif.Lemmas.CountOpen
import Verif.Lemmas.Sink
import Verif.Props.Effort
import Verif.Spec.Template
import Verif.Lemmas.Template
import Verif.Props.Template
import Verif.Spec.Document
import Verif.Props.Document
import Verif.Props.Unending
import Verif.Lemmas.LitBack
import Verif.Props.Literal
import Verif.Props.Spelling
import Verif.Props.Yield
import Verif.Props.Switch
import Verif.Props.StrayBrace
import Verif.Spec.Quoted
import Verif.Props.Quoted
import Verif.Spec.Command
import Verif.Lemmas.LexBack
import Verif.Lemmas.LexNow
import Verif.Props.Command
import Verif.Props.Foreach
import Verif.Spec.Heads
import Verif.Props.Heads
import Verif.Props.Dangling
import Verif.Spec.Unclosed
import Verif.Props.Unclosed
import Verif.Props.OpenCall
import Verif.Props.CloseTag
import Verif.Spec.NowText
import Verif.Props.NowText
import Verif.Props.NumRanges
import Verif.Props.Comments
import Verif.Props.Casts
import Verif.Props.NameRanges
import Verif.Props.Parentheses
import Verif.Props.IntegralDoubles
