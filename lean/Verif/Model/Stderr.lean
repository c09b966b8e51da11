import Verif.Model.Command
/-
What `disassemble`, `icon` and `vmi` write to the standard error (src/lib.rs 147–222, 246–277 and 476–525; src/disasm.rs
927–958).  Colours and the messages of panics are not modelled.  Texts that come from elsewhere are parameters: `quoted` is
`{:?}` of a string, `why` is what the operating system or the decoder of images says about a file.
-/
namespace Verif

/-- One round, src/disasm.rs 929–957, with the positions that are reported (934–937) -/
def visitNotes (bytes : List UInt8) : List Nat → Graph × List Nat → List Nat × Res (Graph × List Nat)
  | [], st => ([], .ok st)
  | pos :: locs, st =>
    let note := if pos > bytes.length then [pos] else []
    match visit bytes pos st with
    | .ok st =>
      let r := visitNotes bytes locs st
      (note ++ r.1, r.2)
    | .err e => (note, .err e)
    | .panic => (note, .panic)
    | .loop => (note, .loop)

/-- The outer loop, src/disasm.rs 927–958 -/
def traceLoopNotes (bytes : List UInt8) : Nat → Graph → List Nat → List Nat × Res Graph
  | _, g, [] => ([], .ok g)
  | 0, _, _ => ([], .loop)
  | fuel + 1, g, locs =>
    match visitNotes bytes locs (g, []) with
    | (notes, .ok (g, positions)) =>
      let r := traceLoopNotes bytes fuel g positions
      (notes ++ r.1, r.2)
    | (notes, .err e) => (notes, .err e)
    | (notes, .panic) => (notes, .panic)
    | (notes, .loop) => (notes, .loop)

/-- build_instruction_graph, src/disasm.rs 920–960: the positions that are reported, and the graph -/
def traceNotes (entries : List Nat) (bytes : List UInt8) : List Nat × Res Graph :=
  traceLoopNotes bytes (bytes.length + 3) Graph.new entries

/-- src/disasm.rs 935 -/
def noteText (pos : Nat) : Text := "Invalid instruction position found: ".toList ++ digitsOf 10 pos ++ "\n".toList

/-- `eprintln!("ERROR: {:?}", err)`, src/lib.rs 156, for a NoInstruction (src/disasm.rs 9–14); disassemble makes no other
error. -/
def noInstructionText : Err → Text
  | .noInstruction pos byte => "ERROR: NoInstruction(".toList ++ digitsOf 10 pos ++ ", ".toList ++ digitsOf 10 byte ++ ")\n".toList
  | _ => []

/-- What `disassemble` writes to the standard error, src/lib.rs 147–159 and 476–525 -/
def disassembleStderr (h : Host) (fs : FS) (quoted : Text → Text) (why : Text) (fileType : Option Text) (input : Text) : Text :=
  match openFile fs (h.cwd.join (Path.parse input)) with
  | .ok bytes =>
    match entriesFor (fileType.getD "raw".toList) with
    | none => "ERROR: UnknownFileType(".toList ++ quoted (fileType.getD "raw".toList) ++ ")\n".toList
    | some entries =>
      let r := traceNotes entries bytes
      (r.1.map noteText).flatten ++
        match r.2 with
        | .err e => noInstructionText e
        | _ => []
  | _ => "ERROR: NoSuchFile(".toList ++ quoted input ++ ", ".toList ++ why ++ ")\n".toList

/-- The messages for an IconError, src/lib.rs 178–221; to_icon makes no other error. -/
def iconErrorText (why : Text) : Err → Text
  | .invalidPaletteSize path size expected =>
    "[ERROR]".toList ++ " ".toList ++ "Too many colors in ".toList ++ path ++ ": ".toList ++ digitsOf 10 size ++ ". Must be ".toList ++
      digitsOf 10 expected ++ " or less.\n".toList
  | .invalidIconSize path w h =>
    "[ERROR]".toList ++ " ".toList ++ "Image ".toList ++ path ++ " is the wrong size. It should be ".toList ++ digitsOf 10 w ++
      "x".toList ++ digitsOf 10 h ++ ".\n".toList
  | .fileLoadFailure file => "Error loading file ".toList ++ file ++ ": ".toList ++ why ++ "\n".toList ++ "\n".toList
  | .imageParseError file => "Error parsing image ".toList ++ file ++ ": ".toList ++ why ++ "\n".toList ++ "\n".toList
  | _ => []

/-- What `icon` writes to the standard error, src/lib.rs 160–222 -/
def iconStderr (h : Host) (why : Text) (input : Text) (speed eyecatch : Option Text) : Text :=
  match parseSpeed speed with
  | .ok speed =>
    match toIcon h.order h.load input speed eyecatch with
    | .err e => iconErrorText why e
    | _ => []
  | _ => []

/-- What `vmi` writes to the standard error, src/lib.rs 257–276: not why it failed -/
def vmiStderr (h : Host) (fs : FS) (input : Text) : Text :=
  match openFile fs (h.cwd.join (Path.parse input)) with
  | .err _ =>
    "[ERROR]".toList ++ " ".toList ++ "Failed to generate VMI from ".toList ++ input ++ "\n".toList ++ "\n".toList ++ "✘ ".toList
  | _ => []

end Verif
