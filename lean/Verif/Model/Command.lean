import Verif.Model.Disasm
import Verif.Model.Include
import Verif.Model.Json
/-
The commands (src/lib.rs 58–345 and 348–560): what they write to the disk, what they print and how they end.  The
parsing of the command line (clap) and failures of printing to standard output are not modelled; the messages on standard
error are in Model/Stderr.lean, Model/Located/Messages.lean and Model/Located/Warnings.lean.  Image files and the clock are parameters.
-/
namespace Verif

/-- What the operating system lets the program do.  `creates`: whether a file can be created (`File::create`).
`accepts`: how many of the given bytes one call of `write` appends to the file; `none` is an error. -/
structure OS where
  creates : FS → Path → Bool
  accepts : FS → Path → List UInt8 → Option Nat

/-- The disk after `File::create`: the file is there and empty. -/
def FS.create (fs : FS) (p : Path) : FS :=
  ⟨fun q => decide (q = p) || fs.isFile q, fs.isDir, fun q => if q = p then some [] else fs.read q⟩

/-- The disk after bytes were appended to a file. -/
def FS.append (fs : FS) (p : Path) (bs : List UInt8) : FS :=
  ⟨fs.isFile, fs.isDir, fun q => if q = p then some ((fs.read p).getD [] ++ bs) else fs.read q⟩

/-- What surrounds the program. -/
structure Host where
  os : OS
  mode : Mode
  seg : Seg
  order : List Color → List Color
  load : Text → Res Image
  uuid : Nat → Text
  now : ClockTime
  cwd : Path
  /-- bounds for the depth of includes and macro calls -/
  fuel : Nat
  macroFuel : Nat

/-- The commands with their arguments, src/lib.rs 59–110.  `args` of `icon` is the whole command line. -/
inductive Command where
  | assemble (input output : Text)
  | expand (input : Text)
  | disassemble (positions arrivedFrom : Bool) (fileType : Option Text) (input output : Text)
  | icon (args : List Text) (input : Text) (speed eyecatch : Option Text)
  | image (input : Text) (format output : Option Text)
  | vmi (input : Text) (output copyright : Option Text) (game : Bool)

/-- How the process ends. -/
inductive Exit where
  | code (n : Nat)
  | panic
  | endless
  deriving DecidableEq, Repr

/-- A run: the disk after each system call that changes it, the standard output, and the end. -/
structure RunResult where
  disks : List FS
  out : Text
  exit : Exit

/-- Errors are reported and end the process with code 1.  (Simplified: that reporting an error may itself panic, which ends the
process in another way, is only in Model/Located/Messages.lean, see `C83_crash`.) -/
def andThen {α : Type} (r : Res α) (k : α → RunResult) : RunResult :=
  match r with
  | .ok a => k a
  | .err _ => ⟨[], [], .code 1⟩
  | .panic => ⟨[], [], .panic⟩
  | .loop => ⟨[], [], .endless⟩

/-- `unwrap` of a result: errors panic. -/
def unwrap {α : Type} : Res α → Res α
  | .err _ => .panic
  | r => r

/-- `write_all` of the standard library: it calls `write` until everything is written; writing nothing is an error.
(Interrupted calls are tried again, they are not counted.)  The number bounds the number of calls. -/
def writeAll (os : OS) (p : Path) : Nat → FS → List UInt8 → List FS × Bool
  | _, _, [] => ([], true)
  | 0, _, _ :: _ => ([], false)
  | n + 1, fs, b :: bs =>
    match os.accepts fs p (b :: bs) with
    | none => ([], false)
    | some 0 => ([], false)
    | some (k + 1) =>
      let fs' := fs.append p ((b :: bs).take (k + 1))
      let r := writeAll os p n fs' ((b :: bs).drop (k + 1))
      (fs' :: r.1, r.2)

/-- `File::create(output).unwrap()` and `write_all(&bytes).unwrap()`, src/lib.rs 470–471 and 544–545 -/
def save (os : OS) (fs : FS) (p : Path) (bs : List UInt8) : RunResult :=
  if os.creates fs p then
    let r := writeAll os p bs.length (fs.create p) bs
    ⟨fs.create p :: r.1, [], if r.2 then .code 0 else .panic⟩
  else ⟨[], [], .panic⟩

/-- `File::create(output).unwrap()` and `write(..).unwrap()`, src/lib.rs 240–241: one call only. -/
def saveOnce (os : OS) (fs : FS) (p : Path) (bs : List UInt8) : RunResult :=
  if os.creates fs p then
    match os.accepts (fs.create p) p bs with
    | none => ⟨[fs.create p], [], .panic⟩
    | some k => ⟨[fs.create p, (fs.create p).append p (bs.take k)], [], .code 0⟩
  else ⟨[], [], .panic⟩

/-- The loop of src/lib.rs 510–523.  Each line is written in several pieces; as the system may take any part of what it is
given, one `write_all` for each line is the same.  A statement that cannot be printed would leave the start of its line in the file;
the disassembler makes none (`disassemble_prints`). -/
def writeLines (os : OS) (p : Path) (positions : Bool) : FS → List DStmt → List FS × Exit
  | _, [] => ([], .code 0)
  | fs, d :: ds =>
    match printLine positions d with
    | .ok t =>
      let r := writeAll os p (utf8 t).length fs (utf8 t)
      if r.2 then
        let rest := writeLines os p positions (r.1.getLastD fs) ds
        (r.1 ++ rest.1, rest.2)
      else (r.1, .panic)
    | _ => ([], .panic)

/-- src/lib.rs 509–523 -/
def saveLines (os : OS) (fs : FS) (p : Path) (positions : Bool) (ds : List DStmt) : RunResult :=
  if os.creates fs p then
    let r := writeLines os p positions (fs.create p) ds
    ⟨fs.create p :: r.1, [], r.2⟩
  else ⟨[], [], .panic⟩

/-- `File::open` and `read_to_end`, src/lib.rs 356–363 and 483–490 -/
def openFile (fs : FS) (p : Path) : Res (List UInt8) :=
  match fs.read p with
  | some bs => .ok bs
  | none => .err (.fileLoadFailure p.render)

/-- The entry points for a file type, src/lib.rs 491–506 -/
def entriesFor (fileType : Text) : Option (List Nat) :=
  if fileType = "game".toList ∨ fileType = "file".toList ∨ fileType = "raw".toList then some gameEntries
  else if fileType = "bios".toList then some biosEntries
  else none

/-- `s.parse::<u16>()` of the standard library: digits, after a `+` or not, for a number below 2^16. -/
def parseU16 (t : Text) : Option Nat :=
  let ds := match t with
    | '+' :: ds => ds
    | ds => ds
  if ds ≠ [] ∧ ds.all (fun c => c.isDigit) = true then
    let v := ds.foldl (fun v c => v * 10 + (c.toNat - 48)) 0
    if v < 65536 then some v else none
  else none

/-- `matches.value_of("SPEED").map(|s| s.parse::<u16>().unwrap())`, src/lib.rs 162 -/
def parseSpeed : Option Text → Res (Option Nat)
  | none => .ok none
  | some t =>
    match parseU16 t with
    | some v => .ok (some v)
    | none => .panic

/-- ImageFormat, src/img.rs 37–42 -/
inductive ImageFormat where
  | json
  | jsonPretty
  | asm1Bit
  | asm1BitMasked

/-- ImageFormat::from, src/img.rs 55–63, with the default of src/lib.rs 226–227: also an unknown name means `1bit-asm`. -/
def imageFormat (name : Text) : ImageFormat :=
  if name = "json".toList then .json
  else if name = "json-pretty".toList then .jsonPretty
  else if name = "1bit-asm".toList then .asm1Bit
  else if name = "1bit-asm-masked".toList then .asm1BitMasked
  else .asm1Bit

/-- The text for an image, src/lib.rs 231–236 -/
def imageText (i : Image) : ImageFormat → Res Text
  | .json => .ok (jsonText false i)
  | .jsonPretty => .ok (jsonText true i)
  | .asm1Bit => printStatements (i.to1BitAsm false true)
  | .asm1BitMasked => printStatements (i.to1BitAsm true true)

/-- The text of the `icon` command, src/lib.rs 165–177: two comments, and the icon. -/
def iconText (args : List Text) (stmts : List Stmt) : Res Text := do
  let note ← Stmt.print (.comment "NOTE: This file was generated by the waterbear assembler:".toList)
  let line ← Stmt.print (.comment (joinWith " ".toList args))
  let text ← printStatements stmts
  .ok (note ++ "\n".toList ++ line ++ "\n".toList ++ text ++ "\n".toList)

/-- The name of the VMI file, src/lib.rs 250–252 -/
def vmiOutput (input : Text) : Option Text → Text
  | some output => output
  | none => vmsBasename input ++ ".vmi".toList

/-- run_command, src/lib.rs 122–300, with generate_vmi (348–474), disassemble_cmd, expand_cmd and assemble_cmd (476–560), for one of the commands that do something. -/
def run (h : Host) (fs : FS) : Command → RunResult
  | .assemble input output =>
    andThen (assembleFile h.mode h.seg h.order h.load h.uuid fs h.fuel h.macroFuel (SourceFiles.new h.cwd) input) fun bytes =>
      save h.os fs (h.cwd.join (Path.parse output)) bytes
  | .expand input =>
    andThen (expandFile h.mode h.seg h.order h.load h.uuid fs h.fuel h.macroFuel (SourceFiles.new h.cwd) input) fun text =>
      ⟨[], text, .code 0⟩
  | .disassemble positions arrivedFrom fileType input output =>
    andThen (openFile fs (h.cwd.join (Path.parse input))) fun bytes =>
      match entriesFor (fileType.getD "raw".toList) with
      | none => ⟨[], [], .code 1⟩
      | some entries =>
        andThen (disassemble arrivedFrom entries bytes) fun ds =>
          saveLines h.os fs (h.cwd.join (Path.parse output)) positions ds
  | .icon args input speed eyecatch =>
    andThen (do
      let speed ← parseSpeed speed
      let stmts ← toIcon h.order h.load input speed eyecatch
      iconText args stmts) fun text =>
      ⟨[], text, .code 0⟩
  | .image input format output =>
    andThen (unwrap do
      let image ← h.load input
      imageText image (imageFormat (format.getD []))) fun text =>
      match output with
      | some output => saveOnce h.os fs (h.cwd.join (Path.parse output)) (utf8 text)
      | none => ⟨[], text ++ "\n".toList, .code 0⟩
  | .vmi input output copyright game =>
    andThen (do
      let vms ← openFile fs (h.cwd.join (Path.parse input))
      vmiCommand vms input (copyright.getD []) game h.now) fun bytes =>
      save h.os fs (h.cwd.join (Path.parse (vmiOutput input output))) bytes

end Verif
