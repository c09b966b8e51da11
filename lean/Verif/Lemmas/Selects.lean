import Verif.Lemmas.Codec
namespace Verif
open Derive Spec
theorem selects_iff (f : Form) (b : UInt8) : (row f).selects b = f.opTbl.contains b.toNat := by
  have h : Form.all.all (fun f => (List.range 256).all fun n => (row f).selects (UInt8.ofNat n) == f.opTbl.contains n) = true := by
    decide +kernel
  have := List.all_eq_true.mp (List.all_eq_true.mp h f f.mem_all) b.toNat (by simpa using UInt8.toNat_lt b)
  simpa using this
theorem docSize_eq (f : Form) : (row f).size = f.tbl.length := by
  have h : Form.all.all (fun f => (row f).size == f.tbl.length) = true := by decide +kernel
  simpa using List.all_eq_true.mp h f f.mem_all
end Verif
