import Verif.Charset.Pages
import Verif.Charset.Lemmas
/-
C19 (Windows-1252), C20 (Mac Roman), RawDecoder.
-/
namespace Verif.Charset.PageProps
open Verif Verif.Charset

theorem rawCount_ok (b : List Byte) : ∀ (pre rest : List Byte), (0 : Byte) ∉ b →
    rawCount (pre ++ (b ++ 0 :: rest)) pre.length = .ok (pre.length + b.length) := by
  induction b with
  | nil => intro pre rest _; rw [rawCount]; simp
  | cons x b ih =>
    intro pre rest h
    simp at h
    rw [rawCount]
    simp only [List.cons_append]
    rw [dif_pos (by simp)]
    have : (pre ++ x :: (b ++ 0 :: rest))[pre.length]'(by simp) = x := by simp
    rw [this, if_neg (by intro e; exact h.1 e.symm)]
    have := ih (pre ++ [x]) rest (by simpa using h.2)
    simp only [List.append_assoc, List.singleton_append, List.length_append, List.length_cons, List.length_nil, Nat.zero_add] at this
    rw [this]
    simp only [List.length_cons]; congr 1; omega

theorem pageDecode_ok (page : List Nat) (b rest : List Byte) (h : (0 : Byte) ∉ b) :
    pageDecode page (b ++ 0 :: rest) = .ok (b.map (pageAt page)) := by
  have := rawCount_ok b [] rest h
  simp only [List.nil_append, List.length_nil, Nat.zero_add] at this
  simp only [pageDecode, this, bind, Except.bind, pure, Except.pure]
  simp

theorem map_map_id {α β : Type} (f : α → β) (g : β → α) (l : List α) (h : ∀ x ∈ l, g (f x) = x) : (l.map f).map g = l := by
  induction l with
  | nil => rfl
  | cons a l ih =>
    simp only [List.map_cons]
    rw [h a (by simp), ih (fun x hx => h x (by simp [hx]))]

/-! ### Windows-1252 -/

/-- The Unicode consortium's table CP1252.TXT: 0x00-0x7F and 0xA0-0xFF as Latin-1, 0x80-0x9F as listed. -/
def cp1252 (b : Byte) : Option Nat :=
  if b.toNat < 0x80 ∨ 0xA0 ≤ b.toNat then some b.toNat
  else ([some 0x20AC, none, some 0x201A, some 0x0192, some 0x201E, some 0x2026, some 0x2020, some 0x2021,
         some 0x02C6, some 0x2030, some 0x0160, some 0x2039, some 0x0152, none, some 0x017D, none,
         none, some 0x2018, some 0x2019, some 0x201C, some 0x201D, some 0x2022, some 0x2013, some 0x2014,
         some 0x02DC, some 0x2122, some 0x0161, some 0x203A, some 0x0153, none, some 0x017E, some 0x0178] : List (Option Nat)).getD (b.toNat - 0x80) none

/-- Bytes Windows-1252 defines, NUL excepted. -/
def Defined (b : Byte) : Prop := b ≠ 0 ∧ (cp1252 b).isSome

theorem win_byte : ∀ b : Byte, (b ≠ 0 ∧ (cp1252 b).isSome) → win1252Enc1 (pageAt win1252Page b) = b := by decide +kernel

/-- **C19** Decoding any text of defined nonzero bytes and encoding the characters reproduces the bytes. -/
theorem win1252_roundtrip (b rest : List Byte) (h : ∀ x ∈ b, Defined x) :
    ∃ l, win1252Decode (b ++ 0 :: rest) = .ok l ∧ win1252Encode l = b ∧ l.length = b.length := by
  refine ⟨b.map (pageAt win1252Page), pageDecode_ok _ _ _ (fun h0 => (h 0 h0).1 rfl), ?_, by simp⟩
  exact map_map_id _ _ _ (fun x hx => win_byte x (h x hx))

example : ∀ x ∈ ([0x41, 0x80, 0x9F, 0xFC] : List Byte), Defined x := by
  intro x hx
  simp at hx
  rcases hx with rfl | rfl | rfl | rfl <;> exact ⟨by decide, by decide⟩

theorem win_std_byte : ∀ b : Byte, b ≠ 0x88 → ∀ n, cp1252 b = some n → (pageAt win1252Page b).toNat = n := by decide +kernel

/-- **C19** (partial: byte 0x88 excluded) The characters are those of the standard's table. -/
theorem win1252_standard_partial (b rest : List Byte) (h : ∀ x ∈ b, Defined x) (h8 : (0x88 : Byte) ∉ b) :
    ∃ l, win1252Decode (b ++ 0 :: rest) = .ok l ∧ l.map (fun c => some c.toNat) = b.map cp1252 := by
  refine ⟨b.map (pageAt win1252Page), pageDecode_ok _ _ _ (fun h0 => (h 0 h0).1 rfl), ?_⟩
  rw [List.map_map]
  apply List.map_congr_left
  intro x hx
  have hd := (h x hx).2
  obtain ⟨n, hn⟩ := Option.isSome_iff_exists.mp hd
  have := win_std_byte x (fun e => h8 (e ▸ hx)) n hn
  simp only [Function.comp]
  rw [hn, this]

/-- Violation: byte 0x88 (the circumflex, U+02C6) decodes to U+20C6, and U+02C6 encodes to 0xC6 ('Æ'). -/
theorem win1252_circumflex : win1252Decode [0x88, 0] = .ok [0x20C6] ∧ cp1252 0x88 = some 0x02C6 ∧ win1252Encode [0x02C6] = [0xC6] := by
  decide +kernel

/-- Violation of the reverse direction: characters without a place in the code page are not replaced by
a substitute but by an unrelated letter, e.g. U+0141 'Ł' by 'A'; the four undefined bytes all come
back as 0x8D. -/
theorem win1252_collisions : win1252Encode [0x0141] = [0x41] ∧
    (∀ x ∈ ([0x81, 0x8D, 0x8F, 0x90, 0x9D] : List Byte), win1252Encode [pageAt win1252Page x] = [0x8D]) := by
  constructor
  · decide +kernel
  · intro x hx
    simp at hx
    rcases hx with rfl | rfl | rfl | rfl | rfl <;> decide +kernel

theorem win_char : ∀ b : Byte, pageAt win1252Page b ≠ 0 → pageAt win1252Page (win1252Enc1 (pageAt win1252Page b)) = pageAt win1252Page b ∧
    win1252Enc1 (pageAt win1252Page b) ≠ 0 := by decide +kernel

/-- **C19** Encoding any text of characters of the code page and decoding the bytes reproduces the text. -/
theorem win1252_text_roundtrip (l : List Ch) (rest : List Byte) (h : ∀ c ∈ l, c ≠ 0 ∧ ∃ b, c = pageAt win1252Page b) :
    win1252Decode (win1252Encode l ++ 0 :: rest) = .ok l := by
  rw [win1252Decode, pageDecode_ok]
  · congr 1
    apply map_map_id
    intro c hc
    obtain ⟨h0, b, rfl⟩ := h c hc
    exact (win_char b h0).1
  · intro hm
    simp only [win1252Encode, List.mem_map] at hm
    obtain ⟨c, hc, e⟩ := hm
    obtain ⟨h0, b, rfl⟩ := h c hc
    exact (win_char b h0).2 e

/-! ### Mac Roman -/

/-- The upper half of Apple's table ROMAN.TXT (the lower half is ASCII). -/
def appleRomanHigh : List Nat :=
  [0x00C4, 0x00C5, 0x00C7, 0x00C9, 0x00D1, 0x00D6, 0x00DC, 0x00E1, 0x00E0, 0x00E2, 0x00E4, 0x00E3, 0x00E5, 0x00E7, 0x00E9, 0x00E8,
   0x00EA, 0x00EB, 0x00ED, 0x00EC, 0x00EE, 0x00EF, 0x00F1, 0x00F3, 0x00F2, 0x00F4, 0x00F6, 0x00F5, 0x00FA, 0x00F9, 0x00FB, 0x00FC,
   0x2020, 0x00B0, 0x00A2, 0x00A3, 0x00A7, 0x2022, 0x00B6, 0x00DF, 0x00AE, 0x00A9, 0x2122, 0x00B4, 0x00A8, 0x2260, 0x00C6, 0x00D8,
   0x221E, 0x00B1, 0x2264, 0x2265, 0x00A5, 0x00B5, 0x2202, 0x2211, 0x220F, 0x03C0, 0x222B, 0x00AA, 0x00BA, 0x03A9, 0x00E6, 0x00F8,
   0x00BF, 0x00A1, 0x00AC, 0x221A, 0x0192, 0x2248, 0x2206, 0x00AB, 0x00BB, 0x2026, 0x00A0, 0x00C0, 0x00C3, 0x00D5, 0x0152, 0x0153,
   0x2013, 0x2014, 0x201C, 0x201D, 0x2018, 0x2019, 0x00F7, 0x25CA, 0x00FF, 0x0178, 0x2044, 0x20AC, 0x2039, 0x203A, 0xFB01, 0xFB02,
   0x2021, 0x00B7, 0x201A, 0x201E, 0x2030, 0x00C2, 0x00CA, 0x00C1, 0x00CB, 0x00C8, 0x00CD, 0x00CE, 0x00CF, 0x00CC, 0x00D3, 0x00D4,
   0xF8FF, 0x00D2, 0x00DA, 0x00DB, 0x00D9, 0x0131, 0x02C6, 0x02DC, 0x00AF, 0x02D8, 0x02D9, 0x02DA, 0x00B8, 0x02DD, 0x02DB, 0x02C7]

def appleRoman (b : Byte) : Nat := if b.toNat < 0x80 then b.toNat else appleRomanHigh.getD (b.toNat - 0x80) 0

theorem mac_byte : ∀ b : Byte, b ≠ 0x7F → b ≠ 0x92 → b ≠ 0x93 → b ≠ 0xB0 → macEnc1 (pageAt macPage b) = b := by decide +kernel

/-- **C20** (partial: the bytes 0x7F, 0x92, 0x93, 0xB0 are excluded, see `mac_violations`.) -/
theorem mac_roundtrip_partial (b rest : List Byte)
    (h : ∀ x ∈ b, x ≠ 0 ∧ x ≠ 0x7F ∧ x ≠ 0x92 ∧ x ≠ 0x93 ∧ x ≠ 0xB0) :
    ∃ l, macDecode (b ++ 0 :: rest) = .ok l ∧ macEncode l = b := by
  refine ⟨b.map (pageAt macPage), pageDecode_ok _ _ _ (fun h0 => (h 0 h0).1 rfl), ?_⟩
  exact map_map_id _ _ _ (fun x hx => by
    obtain ⟨_, h1, h2, h3, h4⟩ := h x hx
    exact mac_byte x h1 h2 h3 h4)

example : ∀ x ∈ ([0x41, 0x8A, 0xFF] : List Byte), x ≠ 0 ∧ x ≠ 0x7F ∧ x ≠ 0x92 ∧ x ≠ 0x93 ∧ x ≠ 0xB0 := by
  intro x hx
  simp at hx
  rcases hx with rfl | rfl | rfl <;> decide

/-- Violation of C20: DEL becomes NUL, `í` and `ì` are exchanged, the infinity sign decodes to
U+211E, which cannot be encoded. -/
theorem mac_violations :
    macDecode [0x7F, 0x92, 0x93, 0xB0, 0] = .ok [0x7F, 0xEC, 0xED, 0x211E] ∧
    macEncode [0x7F, 0xEC, 0xED, 0x211E] = [0x00, 0x93, 0x92, 0x00] := by decide +kernel

theorem mac_std_byte : ∀ b : Byte, b ≠ 0x92 → b ≠ 0x93 → b ≠ 0xB0 → (pageAt macPage b).toNat = appleRoman b := by decide +kernel
theorem mac_enc_byte : ∀ b : Byte, b ≠ 0x7F → macEnc1 (BitVec.ofNat 16 (appleRoman b)) = b := by decide +kernel

/-- **C20** The decoder agrees with Apple's table except for three bytes. -/
theorem mac_decode_standard_partial (b rest : List Byte) (h : ∀ x ∈ b, x ≠ 0 ∧ x ≠ 0x92 ∧ x ≠ 0x93 ∧ x ≠ 0xB0) :
    ∃ l, macDecode (b ++ 0 :: rest) = .ok l ∧ l.map BitVec.toNat = b.map appleRoman := by
  refine ⟨b.map (pageAt macPage), pageDecode_ok _ _ _ (fun h0 => (h 0 h0).1 rfl), ?_⟩
  rw [List.map_map]
  apply List.map_congr_left
  intro x hx
  obtain ⟨_, h1, h2, h3⟩ := h x hx
  exact mac_std_byte x h1 h2 h3

/-- **C20** The encoder agrees with Apple's table everywhere but for DEL. -/
theorem mac_encode_standard (b : List Byte) (h : (0x7F : Byte) ∉ b) :
    macEncode (b.map (fun x => BitVec.ofNat 16 (appleRoman x))) = b :=
  map_map_id _ _ _ (fun x hx => mac_enc_byte x (fun e => h (e ▸ hx)))

/-! ### RawDecoder -/

/-- Raw decoding and encoding reproduces every text of nonzero bytes. -/
theorem raw_roundtrip (b rest : List Byte) (h : (0 : Byte) ∉ b) :
    ∃ l, rawDecode (b ++ 0 :: rest) = .ok l ∧ rawEncode l = b := by
  have := rawCount_ok b [] rest h
  simp only [List.nil_append, List.length_nil, Nat.zero_add] at this
  refine ⟨b.map (fun x => x.signExtend 16), ?_, ?_⟩
  · simp only [rawDecode, this, bind, Except.bind, pure, Except.pure]
    simp
  · exact map_map_id _ _ _ (fun x _ => by
      have : ∀ x : Byte, ((x.signExtend 16 : Ch).setWidth 8 : Byte) = x := by decide +kernel
      exact this x)

/-- … but bytes from 0x80 on do not become the characters U+0080–U+00FF: `char` is signed. -/
theorem raw_sign_extends : rawDecode [0xE4, 0] = .ok [0xFFE4] := by decide +kernel

end Verif.Charset.PageProps
