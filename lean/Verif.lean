import Verif.Basic
import Verif.Instr
import Verif.InstrLemmas
import Verif.Props.Instr
import Verif.Program
import Verif.ProgramLemmas
import Verif.Props.Program
import Verif.Value
import Verif.Machine
import Verif.AbsMem
import Verif.Builtins
import Verif.MachineLemmas
import Verif.Samples
import Verif.Props.Ops
import Verif.Props.Thread
import Verif.Props.Sched
import Verif.Props.Builtins
import Verif.Props.Calls
import Verif.Frame
import Verif.GcHook
import Verif.Gc
import Verif.GcLemmas
import Verif.GcHeight
import Verif.Sim
import Verif.SimExec
import Verif.SimRun
import Verif.Host
import Verif.SimHost
import Verif.Wf
import Verif.WfHost
import Verif.Props.Gc
import Verif.Props.Refine
import Verif.Token
import Verif.Lexer
import Verif.LexSpec
import Verif.LexLemmas
import Verif.LexStep
import Verif.LexRun
import Verif.Source
import Verif.Props.Lexer
import Verif.Props.Source
import Verif.Props.Moves
import Verif.Ast
import Verif.Parser
import Verif.ParserSafe
import Verif.Grammar
import Verif.GramLemmas
import Verif.Props.Parser
import Verif.Sema
import Verif.Optimize
import Verif.Codegen
import Verif.Build
import Verif.Asm
import Verif.AsmGen
import Verif.AsmProg
import Verif.Sem
import Verif.Steps
import Verif.Trace
import Verif.TraceExpr
import Verif.TraceStmt
import Verif.TraceCall
import Verif.TraceProg
import Verif.RunCall
import Verif.HostSpec
import Verif.SemaFacts
import Verif.Whole
import Verif.SampleProg
import Verif.Props.Compile
import Verif.Bounds
import Verif.Heights
import Verif.Props.Layout
import Verif.SemFrame
import Verif.Props.Startup
import Verif.Props.Exec
import Verif.OptFacts
import Verif.Props.Optimize
import Verif.Props.Static
import Verif.Props.Consts
import Verif.Props.Slots
import Verif.Props.Scopes
import Verif.Safe
import Verif.StepSafe
import Verif.SafeProg
import Verif.SafeRun
import Verif.SafeFacts
import Verif.Props.Safety
import Verif.Src
import Verif.SrcSim
import Verif.SrcConst
import Verif.SrcFits
import Verif.Props.EndToEnd
import Verif.ParserTree
import Verif.BuildFacts
import Verif.StrFacts
import Verif.Props.Build
import Verif.ParserOnly
import Verif.Props.Accepts
import Verif.Driver
import Verif.IoFacts
import Verif.SrcFrame
import Verif.Props.Driver
import Verif.Props.Io
import Verif.XorShiftData
import Verif.XorShift
import Verif.Props.Rand
import Verif.Sdl
import Verif.SdlSpec
import Verif.SdlFacts
import Verif.SdlLine
import Verif.SdlFlip
import Verif.Props.Sdl
import Verif.TokFacts
import Verif.TokLines
import Verif.Pc
import Verif.Report
import Verif.Props.Lines
import Verif.Listing
import Verif.Props.Listing
import Verif.Tree
import Verif.TreeFacts
import Verif.Props.Tree
import Verif.Comp
import Verif.Props.Comp
import Verif.Blind
import Verif.Goes
import Verif.Props.Slices
import Verif.Reset
import Verif.Props.Reset
import Verif.Words
import Verif.WordsSound
import Verif.WordsComplete
import Verif.Props.Words
import Verif.SdlDriver
import Verif.Props.SdlDriver
import Verif.ParserOver
import Verif.Nano
import Verif.Props.Nano
import Verif.Show
import Verif.Props.Show
import Verif.Signs
import Verif.SignsLemmas
import Verif.SignsTotal
import Verif.Props.Signs
import Verif.LoopGoes
import Verif.Without
import Verif.Props.Graphics
import Verif.Cut
import Verif.Props.Frames
import Verif.SrcPart
import Verif.Props.Meaning
import Verif.SrcSize
import Verif.Props.Limits
import Verif.Bare
import Verif.BareParser
import Verif.Props.Spacing
import Verif.LineFree
import Verif.Props.LineFree
import Verif.Files
import Verif.Props.Files
import Verif.Complaint
import Verif.BlameSaid
import Verif.Blame
import Verif.BlamePass
import Verif.Props.Blame
