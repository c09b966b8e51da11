import Verif.Lemmas.Json
import Verif.Props.Command
/-
Properties of the JSON text of an image: C74.
-/
namespace Verif.Props
open Verif.Spec Verif.Spec.Json

/-- **C74**: the JSON text of an image, compact or pretty, is a JSON document of the value of the image: its frames with
their delays and rows of colours. -/
theorem C74_json (pretty : Bool) (i : Image) : Document (jsonText pretty i) (imageValue i) :=
  ⟨[], _, [], white_nil, image_json pretty i 0, white_nil, by unfold jsonText; simp⟩

/-- **C74**: a text is a JSON document of at most one value, and the value has all of the image; so the image can be got
back from the text. -/
theorem C74_determines {pretty : Bool} {i : Image} {v : Value} (h : Document (jsonText pretty i) v) :
    v = imageValue i ∧ ∀ j, imageValue j = v → j = i := by
  have := document_unique h (C74_json pretty i)
  exact ⟨this, fun j hj => imageValue_inj j i (hj.trans this)⟩

/-- **C74**: the pretty text differs from the compact one only in spaces and line breaks, and the compact one has none. -/
theorem C74_layout (i : Image) : (jsonText true i).filter (fun c => c != ' ' && c != '\n') = jsonText false i ∧
    ∀ c ∈ jsonText false i, c ≠ ' ' ∧ c ≠ '\n' := by
  have h := image_squeezes i 0 0
  refine ⟨h, fun c hc => ?_⟩
  have h2 : c ∈ squeezed (i.json true 0) := by rw [h]; exact hc
  have := (List.mem_filter.mp h2).2
  simpa using this

/-- **C74**: the command `image` with the format `json` or `json-pretty` prints, or writes, a JSON document of the image. -/
theorem C74_command (h : Host) (fs : FS) (input format : Text) (i : Image) (hi : h.load input = .ok i)
    (hf : format = "json".toList ∨ format = "json-pretty".toList) :
    (∃ text, (run h fs (.image input (some format) none)).out = text ++ "\n".toList ∧
      (run h fs (.image input (some format) none)).exit = .code 0 ∧ Document text (imageValue i)) ∧
    ∀ output, ∃ text, ToWrite h fs (.image input (some format) (some output)) (h.cwd.join (Path.parse output)) (utf8 text) ∧
      Document text (imageValue i) := by
  have key : ∃ pretty, ImageText i (some format) (jsonText pretty i) := by
    rcases hf with rfl | rfl
    · exact ⟨false, .json⟩
    · exact ⟨true, .pretty⟩
  obtain ⟨pretty, hk⟩ := key
  refine ⟨?_, fun output => ⟨_, .image hi hk, C74_json pretty i⟩⟩
  obtain ⟨_, h1, h2⟩ := C70_prints h fs (.image input (some format) none) _ (.image hi hk)
  exact ⟨_, h1, h2, C74_json pretty i⟩

/-- An image with two frames -/
example : jsonText false ⟨[⟨(100, 1), [[⟨255, 0, 7, 255⟩]]⟩, ⟨(0, 0), []⟩]⟩ =
    "{\"frames\":[{\"delay\":[100,1],\"rows\":[[{\"red\":255,\"green\":0,\"blue\":7,\"alpha\":255}]]},{\"delay\":[0,0],\"rows\":[]}]}".toList := by
  decide +kernel

example : jsonText true ⟨[⟨(0, 0), [[]]⟩]⟩ =
    "{\n  \"frames\": [\n    {\n      \"delay\": [\n        0,\n        0\n      ],\n      \"rows\": [\n        []\n      ]\n    }\n  ]\n}".toList := by
  decide +kernel

end Verif.Props
