import Verif.Model.Command
/-
Specification of what the commands write and print.
-/
namespace Verif.Spec

/-- The disks agree, except for the file `p`. -/
def SameExcept (p : Path) (fs fs' : FS) : Prop :=
  fs'.isDir = fs.isDir ∧ ∀ q, q ≠ p → fs'.isFile q = fs.isFile q ∧ fs'.read q = fs.read q

/-- The entry points for the value of `--type`; without it, the type is `raw`. -/
inductive FileType : Option Text → List Nat → Prop where
  | default : FileType none gameEntries
  | game : FileType (some "game".toList) gameEntries
  | file : FileType (some "file".toList) gameEntries
  | raw : FileType (some "raw".toList) gameEntries
  | bios : FileType (some "bios".toList) biosEntries

/-- The name of the VMI file: as given, or the name of the VMS file with the extension `.vmi`. -/
inductive VmiName : Text → Option Text → Text → Prop where
  | given {input output} : VmiName input (some output) output
  | vms {base} : VmiName (base ++ ".vms".toList) none (base ++ ".vmi".toList)
  | other {input} : (¬ ∃ base, input = base ++ ".vms".toList) → VmiName input none (input ++ ".vmi".toList)

/-- The text for an image in the format `--format`, where an unknown format means `1bit-asm`. -/
inductive ImageText (i : Image) : Option Text → Text → Prop where
  | json : ImageText i (some "json".toList) (jsonText false i)
  | pretty : ImageText i (some "json-pretty".toList) (jsonText true i)
  | masked {t} : printStatements (i.to1BitAsm true true) = .ok t → ImageText i (some "1bit-asm-masked".toList) t
  | plain {f t} : (∀ n, f = some n → n ∉ ["json".toList, "json-pretty".toList, "1bit-asm-masked".toList]) →
      printStatements (i.to1BitAsm false true) = .ok t → ImageText i f t

/-- `Decimal ds v`: the decimal digits `ds` stand for `v`. -/
inductive Decimal : Text → Nat → Prop where
  | one {d} : d < 10 → Decimal [Nat.digitChar d] d
  | more {ds v d} : Decimal ds v → d < 10 → Decimal (ds ++ [Nat.digitChar d]) (10 * v + d)

/-- The speed of an icon on the command line: a number below 65536, after a plus sign or not. -/
inductive SpeedArg : Option Text → Option Nat → Prop where
  | none : SpeedArg none none
  | digits {ds v} : Decimal ds v → v < 65536 → SpeedArg (some ds) (some v)
  | plus {ds v} : Decimal ds v → v < 65536 → SpeedArg (some ('+' :: ds)) (some v)

/-- `ToWrite h fs c p bs`: the command is to write the bytes `bs` to the file `p`. -/
inductive ToWrite (h : Host) (fs : FS) : Command → Path → List UInt8 → Prop where
  | assemble {input output bytes} :
      assembleFile h.mode h.seg h.order h.load h.uuid fs h.fuel h.macroFuel (SourceFiles.new h.cwd) input = .ok bytes →
      ToWrite h fs (.assemble input output) (h.cwd.join (Path.parse output)) bytes
  | disassemble {positions arrivedFrom fileType input output bytes entries ds text} :
      fs.read (h.cwd.join (Path.parse input)) = some bytes → FileType fileType entries →
      Verif.disassemble arrivedFrom entries bytes = .ok ds → printListing positions ds = .ok text →
      ToWrite h fs (.disassemble positions arrivedFrom fileType input output) (h.cwd.join (Path.parse output)) (utf8 text)
  | image {input format output i text} : h.load input = .ok i → ImageText i format text →
      ToWrite h fs (.image input format (some output)) (h.cwd.join (Path.parse output)) (utf8 text)
  | vmi {input output copyright game vms bytes name} : fs.read (h.cwd.join (Path.parse input)) = some vms →
      vmiCommand vms input (copyright.getD []) game h.now = .ok bytes → VmiName input output name →
      ToWrite h fs (.vmi input output copyright game) (h.cwd.join (Path.parse name)) bytes

/-- `ToPrint h fs c t`: the command is to print the text `t`. -/
inductive ToPrint (h : Host) (fs : FS) : Command → Text → Prop where
  | expand {input text} :
      expandFile h.mode h.seg h.order h.load h.uuid fs h.fuel h.macroFuel (SourceFiles.new h.cwd) input = .ok text →
      ToPrint h fs (.expand input) text
  | icon {args input s speed eyecatch stmts text} : SpeedArg s speed → toIcon h.order h.load input speed eyecatch = .ok stmts →
      printStatements (.comment "NOTE: This file was generated by the waterbear assembler:".toList ::
        .comment (joinWith " ".toList args) :: stmts) = .ok text →
      ToPrint h fs (.icon args input s eyecatch) (text ++ "\n".toList)
  | image {input format i text} : h.load input = .ok i → ImageText i format text →
      ToPrint h fs (.image input format none) (text ++ "\n".toList)

/-- The commands that write all their output: all but `image`. -/
def WritesAll : Command → Prop
  | .image .. => False
  | _ => True

/-- The system creates every file and takes at least one byte each time. -/
def Willing (os : OS) : Prop :=
  (∀ fs p, os.creates fs p = true) ∧ ∀ fs p bs, bs ≠ [] → ∃ k, os.accepts fs p bs = some (k + 1)

end Verif.Spec
