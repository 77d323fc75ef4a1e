import Verif.Xml.WriterProofs
import Verif.Charset.Utf8Props
/-
C39, C40: what the XML writer writes, and what the SAX parser reads.
-/
namespace Verif.Xml
open Verif Verif.Str Verif.Xml.Spec Verif.Xml.ParserProofs Verif.Xml.WriterProofs

/-! ### C40: the writer -/

/-- After `startDocument` no sequence of calls, with whatever arguments and in whatever order, fails. -/
theorem writer_total (cs : List Call) : ∃ out, written cs = .ok out := by
  have close : ∀ w : W, w.closeTag.indent = w.indent ∧ w.closeTag.last = w.last := by
    intro w; unfold W.closeTag; split
    · exact ⟨rfl, rfl⟩
    · split <;> exact ⟨rfl, rfl⟩
  have mark : ∀ w : W, w.markCharacters.indent = w.indent := by
    intro w; unfold W.markCharacters; split
    · rfl
    · split <;> rfl
  have close2 : ∀ w : W, w.closeTagCharacters.indent = w.indent := by
    intro w; unfold W.closeTagCharacters; split
    · rfl
    · split <;> rfl
  have one : ∀ (c : Call) (w : W), (∃ i, w.indent = some i) → (∃ b, w.last = some b) →
      ∃ w', c.exec w = .ok w' ∧ (∃ i, w'.indent = some i) ∧ ∃ b, w'.last = some b := by
    intro c w ⟨i, hi⟩ ⟨b, hb⟩
    obtain ⟨c1, c2⟩ := close w
    have wi : ∀ v : W, v.indent = some i → v.writeIndent = .ok (v.write (cNl :: List.replicate i.toNat cSpace)) := by
      intro v hv; unfold W.writeIndent; rw [hv]
    cases c with
    | startIndent =>
      simp only [Call.exec, W.startIndent, c1, hi]
      exact ⟨_, rfl, ⟨_, rfl⟩, ⟨_, rfl⟩⟩
    | endIndent =>
      simp only [Call.exec, W.endIndent, c1, hi]
      exact ⟨_, rfl, ⟨_, rfl⟩, ⟨_, rfl⟩⟩
    | startElement n =>
      cases b with
      | false =>
        simp only [Call.exec, W.startElement, c2, hb]
        exact ⟨_, rfl, ⟨i, c1.trans hi⟩, ⟨_, rfl⟩⟩
      | true =>
        simp only [Call.exec, W.startElement, c2, hb, wi _ (c1.trans hi), bind, Except.bind, pure, Except.pure]
        exact ⟨_, rfl, ⟨i, c1.trans hi⟩, ⟨_, rfl⟩⟩
    | endElement =>
      simp only [Call.exec, W.endElement]
      split
      · exact ⟨_, rfl, ⟨i, hi⟩, ⟨_, rfl⟩⟩
      · split
        · exact ⟨_, rfl, ⟨i, hi⟩, ⟨_, rfl⟩⟩
        · split
          · rw [wi _ hi]; exact ⟨_, rfl, ⟨i, hi⟩, ⟨_, rfl⟩⟩
          · exact ⟨_, rfl, ⟨i, hi⟩, ⟨_, rfl⟩⟩
    | cdata s e =>
      have hm : ∃ j, w.closeTag.markCharacters.indent = some j := ⟨i, by rw [mark, c1, hi]⟩
      cases e with
      | true =>
        simp only [Call.exec, W.writeCData, if_true, encode_eq, bind, Except.bind, pure, Except.pure]
        exact ⟨_, rfl, hm, ⟨_, rfl⟩⟩
      | false =>
        simp only [Call.exec, W.writeCData, Bool.false_eq_true, if_false]
        exact ⟨_, rfl, hm, ⟨_, rfl⟩⟩
    | base64 d =>
      simp only [Call.exec, W.writeBase64, Base64.encode_rfc4648, bind, Except.bind, pure, Except.pure]
      exact ⟨_, rfl, ⟨i, (close2 w).trans hi⟩, ⟨_, rfl⟩⟩
    | «attribute» n s =>
      simp only [Call.exec, W.writeAttribute]
      split
      · exact ⟨_, rfl, ⟨i, hi⟩, ⟨b, hb⟩⟩
      · split
        · exact ⟨_, rfl, ⟨i, hi⟩, ⟨b, hb⟩⟩
        · simp only [encode_eq, bind, Except.bind, pure, Except.pure]
          exact ⟨_, rfl, ⟨i, hi⟩, ⟨_, rfl⟩⟩
  have all : ∀ (cs : List Call) (w : W), (∃ i, w.indent = some i) → (∃ b, w.last = some b) → ∃ w', runCalls w cs = .ok w' := by
    intro cs
    induction cs with
    | nil => intro w _ _; exact ⟨w, rfl⟩
    | cons c cs ih =>
      intro w h1 h2
      obtain ⟨w1, e1, k1, k2⟩ := one c w h1 h2
      obtain ⟨w2, e2⟩ := ih w1 k1 k2
      exact ⟨w2, by simp only [runCalls, e1, bind, Except.bind]; exact e2⟩
  obtain ⟨w, hw⟩ := all cs W.new.startDocument ⟨_, rfl⟩ ⟨_, rfl⟩
  exact ⟨w.out, by simp only [written, hw, bind, Except.bind, pure, Except.pure]⟩

/-- **C40**  Every history of calls which closes all the elements it opens (with usable names, and with text to be
encoded) writes the XML declaration followed by a well-formed token list whose tags match in pairs; the list says what the
calls say, up to indentation in front of tags, and exactly what they say when no indentation was asked for. -/
theorem document_nested (cs : List Call) (hok : ∀ c ∈ cs, CallOk c) (hb : openAfter [] cs = []) :
    ∃ ts, written cs = .ok (lit "<?xml version=\"1.0\" encoding=\"UTF-8\"?>\n" ++ src ts) ∧ (∀ t ∈ ts, t.Ok) ∧
      nest ts [] = some [] ∧ Indented (said cs) (items ts) ∧ ((∀ c ∈ cs, isIndent c = false) → items ts = said cs) := by
  obtain ⟨w, ts, pend, new, e, hi, hn, hit, hd, hf⟩ := run_inv cs hok _ _ _ inv_start
  have hn' : names w = [] := by rw [hn]; exact hb
  cases pend with
  | some p =>
    obtain ⟨_, _, _, x, st, h1, _⟩ := hi.pendOk
    simp [names, h1] at hn'
  | none =>
    have hnew : items ts = new := by
      simpa [pendItems, items] using hit
    refine ⟨ts, ?_, hi.ok, ?_, ?_, ?_⟩
    · have := hi.out
      simp only [pendSrc, List.append_nil] at this
      simp only [written, e, bind, Except.bind, pure, Except.pure, this]
      rfl
    · rw [hi.nestEq, hn']; rfl
    · rw [hnew]; exact hd
    · intro h; rw [hnew]; exact hf flat_start h

/-- `<a k="1 < 2">` with indented content `<n:b>x & 'y'</n:b>`, `<c/>`, then binary data, a late attribute -/
def exCalls : List Call :=
  [.startElement [0x61], .attribute [0x6B] (lit "1 < 2"), .startIndent, .startElement [0x6E, 0x3A, 0x62], .cdata (lit "x & 'y'") true,
    .endElement, .startElement [0x63], .endElement, .endIndent, .base64 [1, 2, 3, 4], .attribute [0x64] (lit "z"), .endElement]

theorem name_ok (n : List Ch) (h0 : n ≠ []) (h : n.all (fun c => decide ((0x61 : Ch).toNat ≤ c.toNat ∨ c = 0x3A)) = true) : NameOk n := by
  have h : ∀ c ∈ n, (0x61 : Ch).toNat ≤ c.toNat ∨ c = 0x3A := by simpa using h
  refine ⟨h0, fun c hc => ?_⟩
  have ne : ∀ d : Ch, d.toNat < 0x61 → d ≠ 0x3A → c ≠ d := by
    intro d hd h3 e
    subst e
    have : (0x61 : Ch).toNat = 0x61 := rfl
    rcases h c hc with h | h
    · omega
    · exact h3 h
  refine ⟨?_, ne _ (by decide) (by decide), ne _ (by decide) (by decide), ne _ (by decide) (by decide), ne _ (by decide) (by decide),
    ne _ (by decide) (by decide), ne _ (by decide) (by decide), ne _ (by decide) (by decide), ne _ (by decide) (by decide), ne _ (by decide) (by decide)⟩
  rintro (e | e | e | e) <;> exact ne _ (by decide) (by decide) e

theorem exCalls_ok : ∀ c ∈ exCalls, CallOk c := by
  have n1 : NameOk [0x61] := name_ok _ (by decide) (by decide)
  have n2 : NameOk [0x6B] := name_ok _ (by decide) (by decide)
  have n3 : NameOk [0x6E, 0x3A, 0x62] := name_ok _ (by decide) (by decide)
  have n4 : NameOk [0x63] := name_ok _ (by decide) (by decide)
  have n5 : NameOk [0x64] := name_ok _ (by decide) (by decide)
  have c1 : CallOk (.startElement [0x61]) := n1
  have c2 : ∀ v, CallOk (.attribute [0x6B] v) := fun _ => n2
  have c3 : CallOk (.startElement [0x6E, 0x3A, 0x62]) := n3
  have c4 : CallOk (.startElement [0x63]) := n4
  have c5 : ∀ v, CallOk (.attribute [0x64] v) := fun _ => n5
  have c6 : ∀ v, CallOk (.cdata v true) := fun _ => rfl
  have c7 : CallOk .endElement ∧ CallOk .startIndent ∧ CallOk .endIndent ∧ ∀ d, CallOk (.base64 d) := ⟨trivial, trivial, trivial, fun _ => trivial⟩
  intro c hc
  unfold exCalls at hc
  rcases List.mem_cons.1 hc with h | hc; · rw [h]; exact c1
  rcases List.mem_cons.1 hc with h | hc; · rw [h]; exact c2 _
  rcases List.mem_cons.1 hc with h | hc; · rw [h]; exact c7.2.1
  rcases List.mem_cons.1 hc with h | hc; · rw [h]; exact c3
  rcases List.mem_cons.1 hc with h | hc; · rw [h]; exact c6 _
  rcases List.mem_cons.1 hc with h | hc; · rw [h]; exact c7.1
  rcases List.mem_cons.1 hc with h | hc; · rw [h]; exact c4
  rcases List.mem_cons.1 hc with h | hc; · rw [h]; exact c7.1
  rcases List.mem_cons.1 hc with h | hc; · rw [h]; exact c7.2.2.1
  rcases List.mem_cons.1 hc with h | hc; · rw [h]; exact c7.2.2.2 _
  rcases List.mem_cons.1 hc with h | hc; · rw [h]; exact c5 _
  rcases List.mem_cons.1 hc with h | hc; · rw [h]; exact c7.1
  cases hc

example : (∀ c ∈ exCalls, CallOk c) ∧ openAfter [] exCalls = [] := ⟨exCalls_ok, rfl⟩

/-- the five markup characters and their escapes -/
def escaped (c : Ch) : List Ch :=
  if c = chr '&' then lit "&amp;" else if c = chr '<' then lit "&lt;" else if c = chr '>' then lit "&gt;"
  else if c = chr '"' then lit "&quot;" else if c = chr '\'' then lit "&apos;" else [c]

/-- **C40**  Text and attribute values are written with every markup character escaped, character by character. -/
theorem text_escaped (s : List Ch) : encode s = .ok (s.flatMap escaped) := by
  rw [encode_eq, List.flatMap_map]
  congr 1
  have : (fun c => (pieceOf c).src) = escaped := by
    funext c
    unfold pieceOf escaped
    repeat' split
    all_goals first
      | rfl
      | decide +kernel
      | contradiction
  rw [this]

/-- no markup character is left in encoded text, but for the ampersands of the references -/
theorem text_without_markup (s r : List Ch) (h : encode s = .ok r) :
    chr '<' ∉ r ∧ chr '>' ∉ r ∧ chr '"' ∉ r ∧ chr '\'' ∉ r := by
  rw [text_escaped] at h
  cases h
  have key : ∀ d ∈ [chr '<', chr '>', chr '"', chr '\''], d ∉ s.flatMap escaped := by
    intro d hd hm
    rw [List.mem_flatMap] at hm
    obtain ⟨c, _, hc⟩ := hm
    have l1 : ∀ d ∈ [chr '<', chr '>', chr '"', chr '\''], d ∉ lit "&amp;" := by
      intro d hd; simp only [List.mem_cons, List.not_mem_nil, or_false] at hd; rcases hd with rfl | rfl | rfl | rfl <;> decide +kernel
    have l2 : ∀ d ∈ [chr '<', chr '>', chr '"', chr '\''], d ∉ lit "&lt;" := by
      intro d hd; simp only [List.mem_cons, List.not_mem_nil, or_false] at hd; rcases hd with rfl | rfl | rfl | rfl <;> decide +kernel
    have l3 : ∀ d ∈ [chr '<', chr '>', chr '"', chr '\''], d ∉ lit "&gt;" := by
      intro d hd; simp only [List.mem_cons, List.not_mem_nil, or_false] at hd; rcases hd with rfl | rfl | rfl | rfl <;> decide +kernel
    have l4 : ∀ d ∈ [chr '<', chr '>', chr '"', chr '\''], d ∉ lit "&quot;" := by
      intro d hd; simp only [List.mem_cons, List.not_mem_nil, or_false] at hd; rcases hd with rfl | rfl | rfl | rfl <;> decide +kernel
    have l5 : ∀ d ∈ [chr '<', chr '>', chr '"', chr '\''], d ∉ lit "&apos;" := by
      intro d hd; simp only [List.mem_cons, List.not_mem_nil, or_false] at hd; rcases hd with rfl | rfl | rfl | rfl <;> decide +kernel
    unfold escaped at hc
    split at hc
    · exact l1 d hd hc
    · split at hc
      · exact l2 d hd hc
      · split at hc
        · exact l3 d hd hc
        · split at hc
          · exact l4 d hd hc
          · split at hc
            · exact l5 d hd hc
            · rw [List.mem_singleton] at hc
              subst hc
              simp only [List.mem_cons, List.not_mem_nil, or_false] at hd
              rcases hd with h | h | h | h <;> first | exact absurd h (by assumption)
  exact ⟨key _ (by simp), key _ (by simp), key _ (by simp), key _ (by simp)⟩

/-- A writer used before `startDocument` reads an uninitialised member. -/
theorem before_startDocument (n : List Ch) :
    runCalls W.new [.startElement n] = .error .ub ∧ runCalls W.new [.startIndent] = .error .ub ∧ runCalls W.new [.endIndent] = .error .ub :=
  ⟨rfl, rfl, rfl⟩

/-- Attributes after content are dropped without notice. -/
theorem late_attribute_dropped : written [.startElement (lit "a"), .cdata (lit "x") true, .attribute (lit "k") (lit "v"), .endElement] =
    written [.startElement (lit "a"), .cdata (lit "x") true, .endElement] := by
  simp [written, runCalls, Call.exec, W.startElement, W.writeCData, W.writeAttribute, W.endElement, W.new, W.startDocument, W.closeTag, W.write, W.markCharacters,
    W.openTag, WriterProofs.encode_eq, bind, Except.bind, pure, Except.pure, W.endTag, W.popped]

/-- Text written with `xmlencode = false` goes out as it is, and may break the nesting. -/
theorem raw_text_unescaped : written [.startElement (lit "a"), .cdata (lit "</a>") false, .endElement] =
    .ok (lit "<?xml version=\"1.0\" encoding=\"UTF-8\"?>\n<a></a></a>") := by
  decide +kernel
end Verif.Xml
