import Verif.Model.Located.Report
import Verif.Model.WrongArgs
import Verif.Model.Command
/-
What `assemble` and `expand` write to the standard error (src/lib.rs 122–146, 278–301, 537–1043).  Colours are not
modelled.  Texts that come from elsewhere are parameters: `word` is the word in front of a name that is not defined (Name,
Variable, Label or HashMap: the name of the environment in which it was looked up), `why` is what the operating system or
the decoder of images says about a file.
-/
namespace Verif.Located

/-- `0x{:X}` of an `i32` -/
def hexText (v : Int) : Text := "0x".toList ++ digitsOf 16 (toU32 v)

/-- `0x{:04X}` of a `usize` -/
def hexText4 (n : Nat) : Text := "0x".toList ++ zeroPad 4 (digitsOf 16 n)

/-- The text that print_error (src/lib.rs 562–1043) writes before the first highlighted place.  `as usize` of a negative number
is its two's complement.  WrongNumberOfMacroArgs never occurs (see `captionsOf`), and `noInstruction` is no error of the
assembler. -/
def opening (word why : Text) : Err → Text
  | .nameNotFound n => word ++ " '".toList ++ n ++ "' not found".toList ++ "\n\n".toList
  | .divideByZero a => "Divide by zero: ".toList ++ decimalText a ++ "/0".toList ++ "\n\n".toList
  | .mustBeLiteralNumber => " Must be a literal number\n\n".toList
  | .bytesLongerThanLength length count =>
    "Number of bytes given (".toList ++ digitsOf 10 count ++ ") is longer than the specified length (".toList ++
      digitsOf 10 length ++ ")\n\n".toList
  | .nameAlreadyExists n => "Name already exists: ".toList ++ n ++ "\n\n".toList ++ "The name found here...\n".toList
  | .invalidCodeLocation v => "Invalid code location: ".toList ++ hexText v ++ "\n\n".toList
  | .numOutOfRange bits v =>
    "Value out of range: ".toList ++ decimalText v ++ ". Expected unsigned ".toList ++ digitsOf 10 bits ++
      " bit number.\n\n".toList
  | .byteOutOfRange v => "Byte out of range: ".toList ++ decimalText v ++ "\n\n".toList
  | .wordOutOfRange v => "Word out of range: ".toList ++ decimalText v ++ "\n\n".toList
  | .signedNumOutOfRange bits v =>
    "Value out of range: ".toList ++ decimalText v ++ ". Expected signed ".toList ++ digitsOf 10 bits ++
      " bit number.\n\n".toList
  | .invalidAddress v => "Invalid address: ".toList ++ hexText v ++ "\n\n".toList
  | .addrBitsDontMatch pos v =>
    "Target is a 12 bit absolution position, and the top 4 bits of the\n".toList ++ "  ".toList ++ "target (".toList ++
      hexText4 (v % 18446744073709551616).toNat ++ ") don't match the top 4 bits of the current instruction\n".toList ++
      "  position (".toList ++ hexText4 pos ++ ")\n\n".toList ++
      "  ".toList ++ "Top 4 bits of target:   ".toList ++
      zeroPad 4 (digitsOf 2 ((v % 18446744073709551616).toNat / 4096 % 16)) ++ "\n".toList ++
      "  ".toList ++ "Top 4 bits of position: ".toList ++ zeroPad 4 (digitsOf 2 (pos / 4096 % 16)) ++ "\n\n".toList
  | .unexpectedChar _ _ _ => "Unexpected Character\n\n".toList
  | .unexpectedToken => "Unexpected Token\n\n".toList
  | .invalidInstruction => "Invalid Instruction\n\n".toList
  | .expectedTokenNotFound what => "Expected to find ".toList ++ what ++ "\n\n".toList
  | .invalidExpression => "Invalid Expression\n\n".toList
  | .missingBytes => "The \n".toList ++ ".byte".toList ++ " directive requires at least one byte specified.\n\n".toList
  | .missingWords => "The \n".toList ++ ".word".toList ++ " directive requires at least one word specified.\n\n".toList
  | .unknownDirective _ => "Unknown Directive\n\n".toList
  | .unknownInstruction _ => "Unknown Instruction/Macro\n\n".toList
  | .wrongInstructionArgs n => "Wrong arguments for instruction ".toList ++ n ++ ".\n\n".toList
  | .unexpectedEof => "Unexpected EOF\n\n".toList
  | .fileLoadFailure file => "Error loading file ".toList ++ file ++ ": ".toList ++ why ++ "\n\n".toList
  | .fileUtf8Error file => "UTF-8 Error loading file ".toList ++ file ++ ": ".toList ++ why ++ "\n\n".toList
  | .macroNameConflict n =>
    "Cannot name macro ".toList ++ n ++ ": it conflicts with the instruction of the same name.\n\n".toList
  | .macroAlreadyExists n arity =>
    "Macro ".toList ++ n ++ " already exists for arity=".toList ++ digitsOf 10 arity ++ ".\n\n".toList ++
      "This macro:\n".toList
  | .duplicateMacroArg _ => "Duplicate macro arg.\n\n".toList
  | .invalidMacroArg _ => "No such macro argument name.\n\n".toList
  | .invalidMacroParam => "No such macro argument name.\n\n".toList
  | .wrongNumberOfMacroArgs _ => []
  | .duplicateLabel _ => "Found duplicate label\n\n".toList
  | .macroLabelOutsideOfMacro _ => "Macro label found outside of macro definition.\n\n".toList
  | .macroArgOutsideOfMacro _ => "Macro arg found outside of macro definition.\n\n".toList
  | .immediateNotAllowed =>
    "Immediate value not allowed within an expression or another immediate value.\n\n".toList
  | .indirectionNotAllowed => "Indirection mode not allowed within an expression or immediate value.\n\n".toList
  | .noSuchMacro n => "No macro definition found for name ".toList ++ n ++ ".\n\n".toList
  | .invalidIconSize path w h =>
    "Invalid icon size in ".toList ++ path ++ ". Expected ".toList ++ digitsOf 10 w ++ "x".toList ++ digitsOf 10 h ++
      ".\n\n".toList
  | .invalidPaletteSize path size expected =>
    "Invalid palette size in ".toList ++ path ++ ". Expected ".toList ++ digitsOf 10 expected ++ ", found ".toList ++
      digitsOf 10 size ++ ".\n\n".toList
  | .imageParseError path => "Error parsing image ".toList ++ path ++ ": ".toList ++ why ++ "\n\n".toList
  | .invalidPath given => "Invalid path ".toList ++ given ++ ".\n\n".toList
  | .invalidSpriteType given => "Invalid sprite type: ".toList ++ given ++ ".\n\n".toList
  | .spriteTooWide width _ =>
    "Sprite is too wide to fit in header: ".toList ++ digitsOf 10 width ++ ".\n\n".toList ++
      "The sprite header encodes width and height as bytes.\n".toList ++
      "If you want to include the sprite, but leave out the header, use header=\"no\".\n\n".toList
  | .spriteTooTall height _ =>
    "Sprite is too tall to fit in header: ".toList ++ digitsOf 10 height ++ ".\n\n".toList ++
      "The sprite header encodes width and height as bytes.\n".toList ++
      "If you want to include the sprite, but leave out the header, use header=\"no\".\n\n".toList
  | .invalidSpriteHeader given => "Invalid value for sprite header: ".toList ++ given ++ ".\n\n".toList
  | .noInstruction _ _ => []

/-- The text between two highlighted places, src/lib.rs 604–609 and 871 -/
def between : Err → Text
  | .nameAlreadyExists _ => "\n".toList ++ "...was already declared here\n".toList
  | .macroAlreadyExists _ _ => "\n".toList ++ "Already exists here:\n".toList
  | _ => []

/-- The text after the last highlighted place, src/lib.rs 710, 779–826 and 873 -/
def closing : Err → Text
  | .addrBitsDontMatch _ _ => "\n".toList
  | .wrongInstructionArgs n => "\n".toList ++ wrongArgsText n ((wrongForms.lookup n).getD [])
  | .macroAlreadyExists _ _ => "\n".toList
  | _ => []

/-- print_error, src/lib.rs 562–1043 -/
def printError (m : Mode) (seg : Seg) (sf : SourceFiles) (word why : Text) (e : Error) : Verif.Res Text := do
  match ← highlighted m seg sf e with
  | [t, t'] => .ok (opening word why e.err ++ t ++ between e.err ++ t' ++ closing e.err)
  | ts => .ok (opening word why e.err ++ ts.flatten ++ closing e.err)

/-- expand_file, src/asm.rs 29–34 -/
def expandFile (m : Mode) (seg : Seg) (order : List Color → List Color) (load : Text → Verif.Res Image)
    (uuid : Nat → Text) (fs : FS) (fuel macroFuel : Nat) (name : Text) : Run Text := do
  let program ← readStatements m seg order load fs fuel name
  .of do
    let program ← expandMacros uuid macroFuel program
    match printStatements (program.stmts.map Stmt.erase) with
    | .ok text => .ok (text ++ "\n".toList)
    | .err _ => .panic
    | .panic => .panic
    | .loop => .loop

/-- What is written before print_error is called, src/lib.rs 128–141 and 283–296: `[ERROR]`, what failed, and a cross. -/
def failed (doing input : Text) : Text :=
  "[ERROR]".toList ++ " ".toList ++ "Failed to ".toList ++ doing ++ " ".toList ++ input ++ "\n\n".toList ++ "✘ ".toList

/-- What `assemble` writes to the standard error, src/lib.rs 122–146 and 537–560, if the output file can be written -/
def assembleMessage (h : Host) (fs : FS) (word why input output : Text) : Verif.Res Text :=
  match assembleFile h.mode h.seg h.order h.load h.uuid fs h.fuel h.macroFuel input (SourceFiles.new h.cwd) with
  | (_, .ok bytes) =>
    .ok ("[OK]".toList ++ " Assembled ".toList ++ digitsOf 10 bytes.length ++ " bytes to ".toList ++ output ++ ".\n".toList)
  | (sf, .err e) => do
    let t ← printError h.mode h.seg sf word why e
    .ok (failed "assemble".toList input ++ t)
  | (_, .panic) => .panic
  | (_, .loop) => .loop

/-- What `expand` writes to the standard error, src/lib.rs 278–301 -/
def expandMessage (h : Host) (fs : FS) (word why input : Text) : Verif.Res Text :=
  match expandFile h.mode h.seg h.order h.load h.uuid fs h.fuel h.macroFuel input (SourceFiles.new h.cwd) with
  | (_, .ok _) => .ok []
  | (sf, .err e) => do
    let t ← printError h.mode h.seg sf word why e
    .ok (failed "expand".toList input ++ t)
  | (_, .panic) => .panic
  | (_, .loop) => .loop

end Verif.Located
