import Verif.Props.Instructions
import Verif.Props.Expressions
import Verif.Props.Assembly
import Verif.Props.Macros
import Verif.Props.InstrLines
import Verif.Props.Lexing
import Verif.Props.Parsing
import Verif.Props.Recasing
import Verif.Props.Printing
import Verif.Props.Disassembly
import Verif.Props.Images
import Verif.Props.Vmi
import Verif.Props.Report
import Verif.Props.Files
import Verif.Props.Include
import Verif.Props.Pipeline
import Verif.Props.Reread
import Verif.Props.Sources
import Verif.Spec.Reassembly
import Verif.Lemmas.Reassemble
import Verif.Lemmas.ListingText
import Verif.Props.Reassembly
import Verif.Spec.Respelling
import Verif.Lemmas.Respell
import Verif.Props.Respelling
import Verif.Model.Command
import Verif.Spec.Command
import Verif.Lemmas.Command
import Verif.Lemmas.Chop
import Verif.Lemmas.ImageFile
import Verif.Props.Command
import Verif.Spec.ImageFile
import Verif.Props.ImageFile
import Verif.Tests.Repo
import Verif.Model.Located.Basic
import Verif.Model.Located.Instr
import Verif.Model.Located.Parser
import Verif.Model.Located.Asm
import Verif.Model.Located.Read
import Verif.Lemmas.Located.Erase
import Verif.Lemmas.Located.EraseMake
import Verif.Lemmas.Located.EraseParse
import Verif.Lemmas.Located.EraseAsm
import Verif.Lemmas.Located.EraseRead
import Verif.Spec.Places
import Verif.Lemmas.Located.PlacesExpr
import Verif.Lemmas.Located.PlacesMake
import Verif.Lemmas.Located.PlacesParse
import Verif.Lemmas.Located.PlacesExpand
import Verif.Lemmas.Located.PlacesData
import Verif.Lemmas.Located.PlacesAsm
import Verif.Lemmas.Located.PlacesRead
import Verif.Lemmas.Located.EvalFields
import Verif.Lemmas.Located.EvalCases
import Verif.Lemmas.Located.PlacesEval
import Verif.Props.Places
import Verif.Model.Located.Report
import Verif.Model.WrongArgs
import Verif.Spec.Highlight
import Verif.Spec.WrongArgs
import Verif.Lemmas.Located.Highlight
import Verif.Lemmas.WrongArgs
import Verif.Props.Highlight
import Verif.Props.WrongArgs
import Verif.Model.Json
import Verif.Model.LoadImage
import Verif.Spec.Json
import Verif.Spec.LoadImage
import Verif.Lemmas.Json
import Verif.Lemmas.LoadImage
import Verif.Props.Json
import Verif.Props.LoadImage
import Verif.Spec.Reasons
import Verif.Lemmas.GenMore
import Verif.Lemmas.Located.Reasons
import Verif.Lemmas.Located.ReasonsBack
import Verif.Props.Reasons
import Verif.Spec.Syntax
import Verif.Lemmas.Located.Steady
import Verif.Lemmas.Located.ExprSteps
import Verif.Lemmas.Located.SteadyExpr
import Verif.Lemmas.Located.SteadyItems
import Verif.Lemmas.Located.Scan
import Verif.Lemmas.Located.ScanShape
import Verif.Lemmas.Located.ExprPlace
import Verif.Lemmas.Located.LineError
import Verif.Lemmas.Located.ProgramError
import Verif.Lemmas.Located.OneError
import Verif.Lemmas.Located.OneProgram
import Verif.Props.Stderr
import Verif.Props.Syntax
import Verif.Spec.Expansion
import Verif.Lemmas.Located.ExpansionFails
import Verif.Props.Expansion
import Verif.Spec.DataIncludes
import Verif.Lemmas.DataIncludes
import Verif.Props.DataIncludes
import Verif.Spec.SourceErrors
import Verif.Lemmas.Located.SourceErrors
import Verif.Lemmas.Located.SourceRuns
import Verif.Lemmas.Located.SourceRunsBack
import Verif.Props.SourceErrors
import Verif.Spec.SourceTokens
import Verif.Spec.AssembledFiles
import Verif.Lemmas.Located.SourceTokens
import Verif.Lemmas.Located.SourceTokensBack
import Verif.Lemmas.SameData
import Verif.Lemmas.AssembledFiles
import Verif.Props.AssembledFiles
import Verif.Spec.FileErrors
import Verif.Lemmas.SameErrors
import Verif.Lemmas.FileErrors
import Verif.Props.FileErrors
import Verif.Spec.Messages
import Verif.Props.Messages
import Verif.Spec.Warnings
import Verif.Props.Warnings
import Verif.Spec.Renaming
import Verif.Props.Renaming
import Verif.Spec.Annotations
import Verif.Props.Annotations
import Verif.Lemmas.Ends
import Verif.Props.Ends
import Verif.Lemmas.CnopLoop
import Verif.Props.CnopSearch
import Verif.Props.AssembleCommand
import Verif.Model.CInterface
import Verif.Props.CInterface
import Verif.Spec.ListingNotes
import Verif.Lemmas.ListingNotes
import Verif.Props.ListingNotes
import Verif.Spec.LineEnds
import Verif.Lemmas.LineEnds
import Verif.Props.LineEnds
