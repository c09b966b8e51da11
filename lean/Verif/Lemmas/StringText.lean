import Verif.Model.Parser
/-
Lemmas about bytes that are text.
-/
namespace Verif

theorem decodeUtf8_iff {bs : List UInt8} {t : Text} : decodeUtf8 bs = some t ↔ utf8 t = bs := by
  have e : ∀ t : Text, (String.ofList t).toByteArray = ⟨(utf8 t).toArray⟩ := by
    intro t
    simp [String.toByteArray_ofList, List.utf8Encode, utf8]
    exact ByteArray.ext (by simp)
  unfold decodeUtf8 String.fromUTF8?
  constructor
  · intro h
    split at h
    · rename_i hv
      simp only [Option.map_some, Option.some.injEq] at h
      have h2 : String.fromUTF8 ⟨bs.toArray⟩ hv = String.ofList t := by rw [← h, String.ofList_toList]
      have h3 := congrArg String.toByteArray h2
      rw [e] at h3
      have h4 : (⟨bs.toArray⟩ : ByteArray) = ⟨(utf8 t).toArray⟩ := h3
      injection h4 with h4
      injection h4 with h4
      exact h4.symm
    · cases h
  · rintro rfl
    have hv : ByteArray.IsValidUTF8 ⟨(utf8 t).toArray⟩ := by
      rw [← e]; exact (String.ofList t).isValidUTF8
    rw [dif_pos hv]
    simp only [Option.map_some, Option.some.injEq]
    have : String.fromUTF8 ⟨(utf8 t).toArray⟩ hv = String.ofList t := by
      apply String.toByteArray_inj.mp
      rw [e]; rfl
    rw [this, String.toList_ofList]

theorem stringText_utf8 (t : Text) : stringText (utf8 t) = t := by
  unfold stringText
  rw [decodeUtf8_iff.mpr rfl]
  rfl

end Verif
