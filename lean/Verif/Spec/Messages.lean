import Verif.Spec.Highlight
import Verif.Spec.WrongArgs
/-
Specification: what the messages of `assemble` and `expand` say.
-/
namespace Verif.Spec.Messages
open Verif.Spec.Places

/-- A number with its sign -/
def signed (v : Int) : Text := v.repr.toList

/-- A number in hexadecimal -/
def hex (n : Nat) : Text := (Nat.toDigits 16 n).map Char.toUpper

/-- The same with at least four digits -/
def hex4 (n : Nat) : Text := (hex n).leftpad 4 '0'

/-- Four bits -/
def nibble (n : Nat) : Text := (Nat.toDigits 2 (n % 16)).leftpad 4 '0'

/-- The sentence with texts in its gaps `_` -/
def fill : Text → List Text → Text
  | [], _ => []
  | c :: t, xs => if c = '_' then xs.headD [] ++ fill t xs.tail else c :: fill t xs

/-- What is said about an error: a sentence with gaps, and what stands in the gaps.  `word` says what kind of name is
missing (`Name`, `Variable`, `Label` or `HashMap`); `why` is what the system says about a file.  Two errors are never
reported by the assembler. -/
def explanation (word why : Text) : Err → Option (String × List Text)
  | .nameNotFound n => some ("_ '_' not found", [word, n])
  | .divideByZero a => some ("Divide by zero: _/0", [signed a])
  | .mustBeLiteralNumber => some (" Must be a literal number", [])
  | .bytesLongerThanLength length count =>
    some ("Number of bytes given (_) is longer than the specified length (_)", [number count, number length])
  | .nameAlreadyExists n => some ("Name already exists: _", [n])
  | .invalidCodeLocation v => some ("Invalid code location: 0x_", [hex (v % 2 ^ 32).toNat])
  | .numOutOfRange bits v => some ("Value out of range: _. Expected unsigned _ bit number.", [signed v, number bits])
  | .signedNumOutOfRange bits v => some ("Value out of range: _. Expected signed _ bit number.", [signed v, number bits])
  | .byteOutOfRange v => some ("Byte out of range: _", [signed v])
  | .wordOutOfRange v => some ("Word out of range: _", [signed v])
  | .invalidAddress v => some ("Invalid address: 0x_", [hex (v % 2 ^ 32).toNat])
  | .addrBitsDontMatch pos v =>
    some ("Target is a 12 bit absolution position, and the top 4 bits of the\n  target (0x_) don't match the top 4 bits of the current instruction\n  position (0x_)\n\n  Top 4 bits of target:   _\n  Top 4 bits of position: _",
      [hex4 (v % 2 ^ 64).toNat, hex4 pos, nibble ((v % 2 ^ 64).toNat / 4096), nibble (pos / 4096)])
  | .unexpectedChar _ _ _ => some ("Unexpected Character", [])
  | .unexpectedToken => some ("Unexpected Token", [])
  | .unexpectedEof => some ("Unexpected EOF", [])
  | .expectedTokenNotFound what => some ("Expected to find _", [what])
  | .invalidInstruction => some ("Invalid Instruction", [])
  | .invalidExpression => some ("Invalid Expression", [])
  | .missingBytes => some ("The \n.byte directive requires at least one byte specified.", [])
  | .missingWords => some ("The \n.word directive requires at least one word specified.", [])
  | .unknownDirective _ => some ("Unknown Directive", [])
  | .unknownInstruction _ => some ("Unknown Instruction/Macro", [])
  | .wrongInstructionArgs n => some ("Wrong arguments for instruction _.", [n])
  | .macroNameConflict n => some ("Cannot name macro _: it conflicts with the instruction of the same name.", [n])
  | .macroAlreadyExists n arity => some ("Macro _ already exists for arity=_.", [n, number arity])
  | .duplicateMacroArg _ => some ("Duplicate macro arg.", [])
  | .invalidMacroArg _ => some ("No such macro argument name.", [])
  | .invalidMacroParam => some ("No such macro argument name.", [])
  | .duplicateLabel _ => some ("Found duplicate label", [])
  | .macroLabelOutsideOfMacro _ => some ("Macro label found outside of macro definition.", [])
  | .macroArgOutsideOfMacro _ => some ("Macro arg found outside of macro definition.", [])
  | .immediateNotAllowed => some ("Immediate value not allowed within an expression or another immediate value.", [])
  | .indirectionNotAllowed => some ("Indirection mode not allowed within an expression or immediate value.", [])
  | .noSuchMacro n => some ("No macro definition found for name _.", [n])
  | .fileLoadFailure file => some ("Error loading file _: _", [file, why])
  | .fileUtf8Error file => some ("UTF-8 Error loading file _: _", [file, why])
  | .imageParseError file => some ("Error parsing image _: _", [file, why])
  | .invalidIconSize file w h => some ("Invalid icon size in _. Expected _x_.", [file, number w, number h])
  | .invalidPaletteSize file size max =>
    some ("Invalid palette size in _. Expected _, found _.", [file, number max, number size])
  | .invalidPath given => some ("Invalid path _.", [given])
  | .invalidSpriteType given => some ("Invalid sprite type: _.", [given])
  | .invalidSpriteHeader given => some ("Invalid value for sprite header: _.", [given])
  | .spriteTooWide width _ =>
    some ("Sprite is too wide to fit in header: _.\n\nThe sprite header encodes width and height as bytes.\nIf you want to include the sprite, but leave out the header, use header=\"no\".",
      [number width])
  | .spriteTooTall height _ =>
    some ("Sprite is too tall to fit in header: _.\n\nThe sprite header encodes width and height as bytes.\nIf you want to include the sprite, but leave out the header, use header=\"no\".",
      [number height])
  | .wrongNumberOfMacroArgs _ => none
  | .noInstruction _ _ => none

/-- What is said in front of each place -/
def headings : Err → List String
  | .nameAlreadyExists _ => ["The name found here...\n", "\n...was already declared here\n"]
  | .macroAlreadyExists _ _ => ["This macro:\n", "\nAlready exists here:\n"]
  | _ => [""]

/-- What is said after the places -/
def ending : Err → Text
  | .wrongInstructionArgs n => "\n".toList ++ formsMessage n
  | .addrBitsDontMatch _ _ | .macroAlreadyExists _ _ => "\n".toList
  | _ => []

/-- `t` is the message about the error: the explanation, an empty line, the places, each under its heading, and the end. -/
def Message (word why : Text) (e : Err) (places : List Text) (t : Text) : Prop :=
  ∃ s gaps, explanation word why e = some (s, gaps) ∧ (places = [] ∨ places.length = (headings e).length) ∧
    t = fill s.toList gaps ++ "\n\n".toList ++
      (List.zipWith (fun (h : String) place => h.toList ++ place) (headings e) places).flatten ++ ending e

/-- The words for a missing name -/
def words : List Text := ["Name".toList, "Variable".toList, "Label".toList, "HashMap".toList]

/-- What stands in the gaps has no line breaks. -/
def FitsLine (word why : Text) (e : Err) : Prop := ∀ s gaps, explanation word why e = some (s, gaps) → ∀ x ∈ gaps, '\n' ∉ x

/-- Images are loaded, or the file cannot be read, or it is no image. -/
def LoadErrors (load : Text → Res Image) : Prop :=
  ∀ path e, load path = .err e → ∃ file, e = .fileLoadFailure file ∨ e = .imageParseError file

/-- `t` is the message for the error `e` at the place `p`: the places in it show the lines of the files that are to blame, with the
captions for this error. -/
def MessageAbout (seg : Seg) (sf : SourceFiles) (word why : Text) (e : Err) (p : Located.Place) (t : Text) : Prop :=
  ∃ parts texts, Captions e p parts ∧ EachLine (fun part t => Report seg sf part.1 part.2 t) parts texts ∧
    Message word why e texts t

end Verif.Spec.Messages
