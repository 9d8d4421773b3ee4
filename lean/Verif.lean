import Verif.Model.Basics
import Verif.Model.Hash
import Verif.Model.Token
import Verif.Model.Source
import Verif.Model.LineMap
import Verif.Model.Arrays
import Verif.Model.StringUniq
import Verif.Model.Num
import Verif.Model.Bcode
import Verif.Model.Symbol
import Verif.Model.Lexer
import Verif.Model.Parser
import Verif.Model.VM
import Verif.Model.Session
import Verif.Model.Monitor
import Verif.Props.Program
import Verif.Props.Keywords
import Verif.Props.LineMap
import Verif.Props.Arrays
import Verif.Props.NameList
import Verif.Props.Loops
import Verif.Props.Stacks
import Verif.Props.Calls
import Verif.Props.Branches
import Verif.Props.Values
import Verif.Props.Arithmetic
import Verif.Props.Digits
import Verif.Props.Data
import Verif.Props.Print
import Verif.Props.Numbers
import Verif.Props.Input
import Verif.Props.Strings
import Verif.Props.Variables
import Verif.Proofs.ParserKeeps
import Verif.Proofs.Running
import Verif.Props.Monitor
import Verif.Props.Commands
import Verif.Proofs.Code
import Verif.Proofs.Compile
import Verif.Props.Lexer
import Verif.Props.Names
import Verif.Props.Compiling
import Verif.Props.Flow
import Verif.Props.Lines
import Verif.Props.Programs
import Verif.Proofs.Symbols
import Verif.Proofs.HeldState
import Verif.Props.Clearing
import Verif.Props.Crash
import Verif.Proofs.SimRun
import Verif.Props.Fresh
import Verif.Props.Residue
import Verif.Props.Functions
import Verif.Props.Expressions
import Verif.Props.Renumber
import Verif.Props.Semantics
import Verif.Props.Continue
import Verif.Props.ContinueCommand
import Verif.Props.ContinueBreak
import Verif.Props.RunCommand
import Verif.Proofs.LexNum
import Verif.Proofs.Lines
import Verif.Proofs.LineState
import Verif.Spec.Tracing
import Verif.Proofs.AllDoubles
import Verif.Spec.AllNumbers
import Verif.Props.AllNumbers
import Verif.Model.Main
import Verif.Spec.CommandLine
import Verif.Proofs.CommandLine
import Verif.Props.CommandLine
import Verif.Props.Batch
import Verif.Props.BatchModes
import Verif.Props.BatchNames
import Verif.Spec.Dialogue
import Verif.Proofs.Dialogue
import Verif.Props.Dialogue
import Verif.Props.LoadRun
import Verif.Props.Tracing
import Verif.Props.TracedRun
import Verif.Props.Anywhere
