import Verif.Model.Collections
import Verif.Proofs.Collections
import Verif.Model.Input
import Verif.Model.Alphabet
import Verif.Model.Automaton
import Verif.Model.Nfa
import Verif.Spec.Regex
import Verif.Model.Lexer
import Verif.Spec.Alphabet
import Verif.Proofs.Alphabet
import Verif.Spec.Automata
import Verif.Proofs.Nfa
import Verif.Proofs.NfaRep
import Verif.Proofs.NfaAll
import Verif.Proofs.Trim
import Verif.Proofs.Weights
import Verif.Proofs.Closure
import Verif.Proofs.Powerset
import Verif.Proofs.Convert
import Verif.Proofs.PowersetMain
import Verif.Spec.Precedence
import Verif.Proofs.Precedence
import Verif.Spec.Lexing
import Verif.Proofs.Tables
import Verif.Proofs.LexRun
import Verif.Props.Alphabet
import Verif.Props.Nfa
import Verif.Props.Powerset
import Verif.Props.Precedence
import Verif.Proofs.LexHist
import Verif.Props.Lexer
import Verif.Model.CppLexer
import Verif.Proofs.Utf8
import Verif.Spec.Cpp
import Verif.Proofs.CppLex
import Verif.Props.Cpp
import Verif.Model.Grammar
import Verif.Spec.Grammar
import Verif.Proofs.GrammarNames
import Verif.Proofs.GrammarTrans
import Verif.Proofs.GrammarErr
import Verif.Proofs.GrammarLang
import Verif.Proofs.GrammarOrigin
import Verif.Props.Grammar
import Verif.Model.First
import Verif.Model.LL
import Verif.Spec.Sentential
import Verif.Spec.LL
import Verif.Spec.ParseTree
import Verif.Spec.LLTrace
import Verif.Proofs.SymSets
import Verif.Proofs.FirstIn
import Verif.Proofs.First
import Verif.Proofs.Follow
import Verif.Proofs.LLTable
import Verif.Proofs.LLRun
import Verif.Proofs.LLCpp
import Verif.Props.LL
import Verif.Model.LR
import Verif.Model.LRDriver
import Verif.Spec.LR
import Verif.Spec.LRTrace
import Verif.Proofs.LROut
import Verif.Proofs.LRClosure
import Verif.Proofs.LRCore
import Verif.Proofs.LRGraph
import Verif.Proofs.LRTable
import Verif.Proofs.LRArms
import Verif.Proofs.LRPath
import Verif.Proofs.LRSound
import Verif.Proofs.LRViable
import Verif.Proofs.LRComplete
import Verif.Proofs.LRConflict
import Verif.Proofs.LRLink
import Verif.Props.LR
import Verif.Model.Glr
import Verif.Spec.GlrTrace
import Verif.Proofs.GlrHeap
import Verif.Proofs.GlrLin
import Verif.Proofs.GlrArms
import Verif.Proofs.GlrGraph
import Verif.Proofs.GlrRound
import Verif.Proofs.GlrRun
import Verif.Proofs.GlrComplete
import Verif.Proofs.GlrExact
import Verif.Proofs.GlrTerm
import Verif.Proofs.GlrTermEps
import Verif.Proofs.LRReach
import Verif.Proofs.LRStops
import Verif.Proofs.GlrAgree
import Verif.Proofs.GlrError
import Verif.Props.GLR
import Verif.Props.LR1
import Verif.Props.Source
import Verif.Props.Template
import Verif.Props.BidiMap
import Verif.Props.Names
import Verif.Props.Hir
import Verif.Model.Lapex
import Verif.Spec.Lapex
import Verif.Proofs.LRCert
import Verif.Proofs.LapexGrammar
import Verif.Proofs.Lapex
import Verif.Props.Lapex
import Verif.Model.Bootstrap
import Verif.Model.LapexFile
import Verif.Spec.Bootstrap
import Verif.Proofs.Bootstrap
import Verif.Proofs.BootFile
import Verif.Proofs.BootPrint
import Verif.Proofs.LapexFile
import Verif.Props.Bootstrap
import Verif.Model.CppLR
import Verif.Spec.CppLR
import Verif.Proofs.CppLR
import Verif.Props.CppLR
import Verif.Spec.Pipeline
import Verif.Proofs.EbnfCond
import Verif.Proofs.Pipeline
import Verif.Props.Pipeline
import Verif.Model.LapexInput
import Verif.Spec.LapexInput
import Verif.Spec.LapexLexemes
import Verif.Proofs.LapexInput
import Verif.Proofs.LapexLexer
import Verif.Proofs.LapexScan
import Verif.Proofs.LapexQuote
import Verif.Props.LapexInput
import Verif.Model.Display
import Verif.Model.Generate
import Verif.Spec.Conflict
import Verif.Proofs.ConflictFits
import Verif.Proofs.ItemAfter
import Verif.Proofs.RightForms
import Verif.Props.Conflicts
import Verif.Spec.Table
import Verif.Proofs.Display
import Verif.Props.Table
import Verif.Spec.Generate
import Verif.Proofs.Generate
import Verif.Proofs.GenerateFile
import Verif.Proofs.GenerateTotal
import Verif.Props.Generate
import Verif.Model.Debug
import Verif.Spec.Debug
import Verif.Proofs.Debug
import Verif.Proofs.GrammarCheck
import Verif.Props.Debug
import Verif.Proofs.PipelineText
import Verif.Props.PipelineKinds
import Verif.Props.GenerateKinds
import Verif.Model.Report
import Verif.Spec.Report
import Verif.Proofs.Report
import Verif.Proofs.ReportNames
import Verif.Props.Report
import Verif.Proofs.LRLinear
import Verif.Proofs.LLLinear
import Verif.Props.Linear
import Verif.Model.Layout
import Verif.Model.LaidGenerate
import Verif.Spec.Layout
import Verif.Proofs.Layout
import Verif.Proofs.LayoutTable
import Verif.Proofs.LaidGenerate
import Verif.Proofs.Settled
import Verif.Props.Layout
import Verif.Spec.Rename
import Verif.Proofs.RenameBuild
import Verif.Proofs.RenameGrammar
import Verif.Proofs.RenameSem
import Verif.Proofs.RenameItems
import Verif.Proofs.RenameFile
import Verif.Props.Rename
import Verif.Model.CppText
import Verif.Spec.CppSource
import Verif.Spec.CppLexText
import Verif.Proofs.CppRead
import Verif.Proofs.CppLexText
import Verif.Props.CppText
import Verif.Model.CppLRText
import Verif.Spec.CppLRText
import Verif.Proofs.CppLRRead
import Verif.Proofs.CppLRExec
import Verif.Proofs.CppLRDriver
import Verif.Proofs.CppLRFiles
import Verif.Proofs.CppLRNames
import Verif.Props.CppLRText
import Verif.Model.RustTokens
import Verif.Model.RustText
import Verif.Spec.RustSource
import Verif.Spec.RustLexText
import Verif.Proofs.RustRead
import Verif.Proofs.RustStmts
import Verif.Proofs.RustLexText
import Verif.Props.RustText
import Verif.Model.RustLRText
import Verif.Spec.RustLRText
import Verif.Proofs.RustLRText
import Verif.Proofs.RustLRArms
import Verif.Proofs.RustLRFuns
import Verif.Proofs.RustLRReduce
import Verif.Proofs.RustLRRun
import Verif.Proofs.RustLRFile
import Verif.Props.RustLRText
import Verif.Model.RustGlrText
import Verif.Spec.RustGlrText
import Verif.Proofs.RustGlrFuns
import Verif.Proofs.RustGlrFile
import Verif.Proofs.RustGlrCalls
import Verif.Props.RustGlrText
import Verif.Spec.RustBlocks
import Verif.Spec.RustGss
import Verif.Spec.RustGlrRun
import Verif.Proofs.RustGss
import Verif.Proofs.RustGlrHeap
import Verif.Proofs.RustGlrExec
import Verif.Proofs.RustGlrReduce
import Verif.Proofs.RustGlrReduces
import Verif.Proofs.RustGlrParse
import Verif.Proofs.RustGlrDriver
import Verif.Props.RustGlrRun
import Verif.Spec.RustProgram
import Verif.Proofs.RustProgram
import Verif.Props.RustProgram
import Verif.Spec.CppProgram
import Verif.Proofs.CppProgram
import Verif.Props.CppProgram
import Verif.Spec.CppVisitor
import Verif.Proofs.CppVisitor
import Verif.Props.CppVisitor
import Verif.Spec.RustMessage
import Verif.Proofs.RustMessage
import Verif.Props.RustMessage
import Verif.Model.CppLLText
import Verif.Spec.CppLLText
import Verif.Proofs.CppLLRead
import Verif.Proofs.CppLLExec
import Verif.Proofs.CppLLDriver
import Verif.Proofs.CppLLNames
import Verif.Props.CppLLText
import Verif.Props.Online
import Verif.Spec.LLEnd
import Verif.Proofs.LLTree
import Verif.Proofs.Gaps
import Verif.Props.LLTree
import Verif.Props.CppLLProgram
import Verif.Spec.LLReach
import Verif.Proofs.LLError
import Verif.Props.LLError
import Verif.Model.Output
import Verif.Spec.Output
import Verif.Proofs.Output
import Verif.Props.Output
import Verif.Model.OnDisk
import Verif.Props.OnDisk
import Verif.Spec.Rounds
import Verif.Proofs.LexRounds
import Verif.Props.LexRounds
import Verif.Props.FromFile
import Verif.Props.Agree
import Verif.Props.FailedRun
import Verif.Props.PanicRun
import Verif.Props.RenameGenerate
