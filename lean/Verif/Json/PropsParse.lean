import Verif.Json.ParseSound
import Verif.Json.DecSkip
/-!
# Property theorems: any text (C39)
-/
namespace Verif.Json.Text
open Verif Verif.Json

/-- **C39**: whatever text the parser accepts, what it wrote is a complete document: it has a value, which is what the
readers see, and json_skip and the readers stop exactly at its end, whatever follows. -/
theorem C39_parsed_document (L : Libc) (hL : LibcOk L) (text rest doc : Bytes) (hb : text.length < 2 ^ 31)
    (h : parse L text = .ok (rest, doc)) :
    ∃ v, ∀ tail, decode (doc ++ tail) = .ok (v, tail) ∧ skip (doc ++ tail) = .ok tail := by
  obtain ⟨v, hd⟩ := parse_doc L hL text rest doc hb h
  exact ⟨v, fun tail => ⟨hd.decodes tail, hd.skips tail⟩⟩

/-- **C39**: on any text the parser ends, never reads beyond the text and never writes what it did not read, if every
backslash is followed by an escape it knows (C05 shows what happens otherwise); what is left is the end of the text. -/
theorem C39_any_text (L : Libc) (hL : LibcOk L) (text : Bytes) (h : EscOk text) :
    parse L text ≠ .error .ub ∧ ∀ rest doc, parse L text = .ok (rest, doc) → ∃ used, text = used ++ rest := by
  obtain ⟨h1, h2⟩ := loop_safe L hL (2 * text.length + 2) [.value] text [] h (by simp)
  refine ⟨h1, ?_⟩
  intro rest doc hp
  obtain ⟨p, hp⟩ := h2 rest doc hp
  exact ⟨p, hp.symm⟩

/-- **C39**: on any bytes that the reader accepts as a value, well-formed or not, json_skip stops where the reader stops. -/
theorem C39_skip_agrees (bs r : Bytes) (v : J) (h : decode bs = .ok (v, r)) : skip bs = .ok r := (dec_skip h).1

/-- the hypotheses are met: a C library that reads no reals, and the text `{"a":[1,"\\n"]}x` -/
example : LibcOk ⟨fun _ => [], fun _ => none⟩ ∧
    parse ⟨fun _ => [], fun _ => none⟩ [123, 34, 97, 34, 58, 91, 49, 44, 34, 92, 110, 34, 93, 125, 120] =
      .ok ([120], [78, 43, 97, 80, 6, 77, 1, 0, 0, 0, 10, 81, 79]) := by
  refine ⟨fun s b r h => ?_, by decide +kernel⟩
  cases h

example : EscOk [34, 92, 110, 34] := by
  intro pre c t h
  rcases pre with _ | ⟨a, _ | ⟨b, _ | ⟨d, pre⟩⟩⟩
  · simp at h
  · simp at h; obtain ⟨rfl, rfl, rfl⟩ := h; decide
  · simp at h
  · have := congrArg List.length h
    simp at this; omega

end Verif.Json.Text
