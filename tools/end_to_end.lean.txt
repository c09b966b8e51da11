import Verif.Model.Command
import Verif.Spec.Lexing
open Verif Verif.Spec
def parseImg (s : String) : Image := Id.run do
  let mut frames : Array Frame := #[]
  let mut rows : Array (List Color) := #[]
  let mut first := true
  for l in (s.splitOn "\n") do
    if l = "F" then
      if !first then frames := frames.push ⟨rows.toList⟩
      rows := #[]; first := false
    else if l ≠ "" then
      rows := rows.push ((l.splitOn " ").map fun p =>
        match (p.splitOn ",").map (fun n => UInt8.ofNat n.toNat!) with
        | [r,g,b,a] => ⟨r,g,b,a⟩
        | _ => ⟨0,0,0,0⟩)
  frames := frames.push ⟨rows.toList⟩
  return ⟨frames.toList⟩

def go (main : String) : IO Unit := do
  let names := ["basic.s","basic-quoted.s","inc.i","inc.h","inc-quoted.h"]
  let dir := "/repo/test-projects/basic/"
  let files ← names.mapM fun n => do
    let t ← IO.FS.readFile ⟨dir ++ n⟩
    return (Path.parse (dir ++ n).toList, utf8 t.toList)
  let icon := parseImg (← IO.FS.readFile "@TMP@/icon.txt")
  let eye := parseImg (← IO.FS.readFile "@TMP@/eye.txt")
  let imgs := [Path.parse (dir ++ "images/icon.gif").toList, Path.parse (dir ++ "images/eyecatch.png").toList]
  let fs : FS := ⟨fun p => files.any (fun f => f.1 == p) || imgs.contains p, fun _ => false, fun p => files.lookup p⟩
  let load : Text → Res Image := fun t =>
    if t.drop (t.length - 4) = ".gif".toList then .ok icon else .ok eye
  match assembleFile .checked plainSeg id load (fun _ => []) fs 10000 10000 (SourceFiles.new (Path.parse "/repo".toList)) (dir ++ main).toList with
  | .ok bs => IO.println s!"ok {bs.length}"; IO.FS.writeBinFile ⟨"@TMP@/" ++ main ++ ".vms"⟩ (ByteArray.mk bs.toArray)
  | .err _ => IO.println s!"err"
  | .panic => IO.println "panic"
  | .loop => IO.println "loop"
#eval go "basic.s"
#eval go "basic-quoted.s"
