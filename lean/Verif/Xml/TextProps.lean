import Verif.Xml.Props
/-
C40: text of an element and the indentation of its end tag.
-/
namespace Verif.Xml
open Verif Verif.Str Verif.Xml.Spec Verif.Xml.ParserProofs Verif.Xml.WriterProofs

/-- A start element and whatever stands before: the innermost open element is `name`. -/
def Inside (w : W) (name : List Ch) : Prop := ∃ e st, w.stack = e :: st ∧ e.name = name

/-- Text written directly before the end of an element stays as it is: the end tag follows it at once, also if the element is indented. -/
theorem text_then_end (w w1 w2 : W) (name text : List Ch) (enc : Bool) (h : Inside w name)
    (h1 : w.writeCData text enc = .ok w1) (h2 : w1.endElement = .ok w2) :
    w2.out = w1.out ++ lit "</" ++ name ++ lit ">" := by
  obtain ⟨e, st, hs, rfl⟩ := h
  have hst : ∃ e' , w1.stack = e' :: st ∧ e'.name = e.name ∧ e'.hasContent = true ∧ e'.hasCharacters = true := by
    have hm : ∃ e', w.closeTag.markCharacters.stack = e' :: st ∧ e'.name = e.name ∧ e'.hasContent = true ∧ e'.hasCharacters = true := by
      have hc : ∃ e', w.closeTag.stack = e' :: st ∧ e'.name = e.name ∧ e'.hasContent = true := by
        unfold W.closeTag
        rw [hs]
        by_cases hh : e.hasContent = false
        · simp only [hh, if_true]; exact ⟨_, rfl, rfl, rfl⟩
        · simp only [hh, if_false]; exact ⟨e, hs, rfl, by simpa using hh⟩
      obtain ⟨e', hs', hn, hcont⟩ := hc
      unfold W.markCharacters
      rw [hs']
      by_cases hh : e'.hasCharacters = false
      · simp only [hh, if_true]; exact ⟨_, rfl, hn, hcont, rfl⟩
      · simp only [hh, if_false]; exact ⟨e', hs', hn, hcont, by simpa using hh⟩
    obtain ⟨e', hs', r⟩ := hm
    refine ⟨e', ?_, r⟩
    unfold W.writeCData at h1
    cases enc with
    | false =>
      simp only [Bool.false_eq_true, if_false, Except.ok.injEq] at h1
      rw [← h1]; exact hs'
    | true =>
      simp only [if_true, bind, Except.bind] at h1
      split at h1
      · cases h1
      · simp only [pure, Except.pure, Except.ok.injEq] at h1
        rw [← h1]; exact hs'
  obtain ⟨e', hs', hn, hcont, hchar⟩ := hst
  unfold W.endElement at h2
  rw [hs'] at h2
  simp only [hcont, hchar, Bool.true_eq_false, if_false, and_false, Except.ok.injEq] at h2
  rw [← h2, ← hn]
  simp [W.popped, W.endTag, W.write, List.append_assoc]
  rfl

/-- Base64 text that begins the content of an element stays as it is, too. -/
theorem base64_then_end (w w1 w2 : W) (e : Elem) (st : List Elem) (data : List Byte) (h : w.stack = e :: st) (hc : e.hasContent = false)
    (h1 : w.writeBase64 data = .ok w1) (h2 : w1.endElement = .ok w2) :
    w2.out = w1.out ++ lit "</" ++ e.name ++ lit ">" := by
  have hs' : w1.stack = { e with hasContent := true, hasCharacters := true } :: st := by
    unfold W.writeBase64 at h1
    simp only [bind, Except.bind] at h1
    split at h1
    · cases h1
    · simp only [pure, Except.pure, Except.ok.injEq] at h1
      rw [← h1]
      unfold W.closeTagCharacters
      rw [h]
      simp only [hc, if_true]; rfl
  unfold W.endElement at h2
  rw [hs'] at h2
  simp only [Bool.true_eq_false, if_false, and_false, Except.ok.injEq] at h2
  rw [← h2]
  simp [W.popped, W.endTag, W.write, List.append_assoc]
  rfl

/-- Violation: Base64 text after a child of an indented element is followed by a line break and spaces before the end tag, unlike text
written with `writeCData` at the same place: the text read back is longer. -/
theorem base64_indented :
    written [.startIndent, .startElement (lit "a"), .startElement (lit "b"), .endElement, .base64 [0, 0, 0], .endElement] =
      .ok (lit "<?xml version=\"1.0\" encoding=\"UTF-8\"?>\n\n   <a><b/>AAAA\n   </a>") ∧
    written [.startIndent, .startElement (lit "a"), .startElement (lit "b"), .endElement, .cdata (lit "AAAA") false, .endElement] =
      .ok (lit "<?xml version=\"1.0\" encoding=\"UTF-8\"?>\n\n   <a><b/>AAAA</a>") := by
  constructor <;> decide +kernel

-- an indented element that meets the hypotheses
example : let w : W := ⟨some 3, some false, [⟨lit "a", true, false, false⟩], []⟩
    Inside w (lit "a") ∧ (w.writeCData (lit "x") false).bind W.endElement =
      .ok ⟨some 3, some false, [], lit ">x</a>"⟩ :=
  ⟨⟨_, _, rfl, rfl⟩, by decide +kernel⟩

end Verif.Xml
