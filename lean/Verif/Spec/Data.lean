import Verif.Spec.Assembly
/-
Specification of lines that contain only known data.
-/
namespace Verif.Spec

/-- A 16-bit word, low byte first. -/
def le16 (w : Nat) : List UInt8 := [UInt8.ofNat (w % 256), UInt8.ofNat (w / 256)]

/-- `Data stmts bs`: the lines are comments, `.byte` lines and `.word` lines of literals, and give the bytes `bs`. -/
inductive Data : List Stmt → List UInt8 → Prop where
  | nil : Data [] []
  | comment {t xs bs} : Data xs bs → Data (.comment t :: xs) bs
  | byte {r xs bs} (b : List UInt8) : Data xs bs →
      Data (.dir (.byte (b.map fun x => .expr (.number x.toNat r))) :: xs) (b ++ bs)
  | str {xs bs} (b : List UInt8) : Data xs bs → Data (.dir (.byte [.str b]) :: xs) (b ++ bs)
  | word {r xs bs} (ws : List Nat) : (∀ w ∈ ws, w < 65536) → Data xs bs →
      Data (.dir (.word (ws.map fun w : Nat => .number (w : Int) r)) :: xs) (ws.flatMap le16 ++ bs)

end Verif.Spec
