import Verif.Charset.Utf8Lemmas
/-
C17: UTF-8.  The specification of the byte format is Lean's own `String.utf8EncodeChar`
(Unicode, one scalar value to its UTF-8 bytes).
-/
namespace Verif.Charset.Utf8Props
open Verif Verif.Charset

/-- Text of the Basic Multilingual Plane as the library's 16-bit characters. -/
def ofChars (l : List Char) : List Ch := l.map (fun c => BitVec.ofNat 16 c.toNat)

/-- The bytes the UTF-8 standard assigns to a text. -/
def standardBytes (l : List Char) : List Byte := (l.flatMap String.utf8EncodeChar).map UInt8.toBitVec

theorem enc1_standard (c : Char) (h : c.toNat < 0x10000) :
    enc1 (BitVec.ofNat 16 c.toNat) = (String.utf8EncodeChar c).map UInt8.toBitVec := by
  have hn : (BitVec.ofNat 16 c.toNat).toNat = c.toNat := by simp; omega
  have hv : c.val.toNat = c.toNat := rfl
  unfold enc1 String.utf8EncodeChar
  simp only [hn, hv]
  generalize c.toNat = n at *
  by_cases h1 : n < 0x80
  · rw [if_pos h1, if_pos (show n ≤ 0x7f by omega)]
    simp only [List.map_cons, List.map_nil]
    congr 1
    apply BitVec.eq_of_toNat_eq
    simp
  · rw [if_neg h1, if_neg (show ¬ n ≤ 0x7f by omega)]
    by_cases h2 : n < 0x800
    · rw [if_pos h2, if_pos (show n ≤ 0x7ff by omega)]
      simp only [List.map_cons, List.map_nil]
      congr 1
      · apply BitVec.eq_of_toNat_eq
        simp [Nat.shiftRight_eq_div_pow]
        rw [and_1f, or_c0 _ (by omega)]
        omega
      · congr 1
        apply BitVec.eq_of_toNat_eq
        simp
        rw [and_3f, or_80 _ (by omega)]
        omega
    · rw [if_neg h2, if_neg (show ¬ n ≤ 0x7ff by omega), if_pos (show n ≤ 0xffff by omega)]
      simp only [List.map_cons, List.map_nil]
      congr 1
      · apply BitVec.eq_of_toNat_eq
        simp [Nat.shiftRight_eq_div_pow]
        rw [and_0f, or_e0 _ (by omega)]
        omega
      · congr 1
        · apply BitVec.eq_of_toNat_eq
          simp [Nat.shiftRight_eq_div_pow]
          rw [and_3f, or_80 _ (by omega)]
          omega
        · congr 1
          apply BitVec.eq_of_toNat_eq
          simp
          rw [and_3f, or_80 _ (by omega)]
          omega

/-- **C17** Encoding never fails and writes exactly the bytes the standard prescribes, for every
text of characters up to U+FFFF. -/
theorem encode_standard (l : List Char) (h : ∀ c ∈ l, c.toNat < 0x10000) :
    utf8Encode (ofChars l) = .ok (standardBytes l) := by
  rw [utf8Encode_eq]
  congr 1
  unfold ofChars standardBytes
  induction l with
  | nil => rfl
  | cons c l ih =>
    simp only [List.map_cons, List.flatMap_cons, List.map_append]
    rw [enc1_standard c (h c (by simp)), ih (fun d hd => h d (by simp [hd]))]

example : utf8Encode (ofChars ['a', 'ä', '€']) = .ok [0x61, 0xC3, 0xA4, 0xE2, 0x82, 0xAC] := by decide +kernel

/-- **C17** Encoding never fails, for any 16-bit characters at all. -/
theorem encode_total (l : List Ch) : ∃ b, utf8Encode l = .ok b := ⟨_, utf8Encode_eq l⟩

/-- **C17** (partial: the character NUL and a leading U+FEFF are excluded, see below.)  The encoded
bytes, in memory followed by the terminating zero and anything else, decode to the same characters –
for every list of 16-bit characters, surrogates included. -/
theorem roundtrip_partial (l : List Ch) (b rest : List Byte) (h0 : (0 : Ch) ∉ l) (hb : l.head? ≠ some 0xFEFF)
    (he : utf8Encode l = .ok b) : utf8Decode (b ++ 0 :: rest) = .ok l := by
  rw [utf8Encode_eq] at he
  cases he
  exact utf8Decode_ok l rest h0 hb

example : (0 : Ch) ∉ [0x61, 0xE4, 0x20AC, 0xD83D, 0xDE00] ∧ ([0x61, 0xE4, 0x20AC, 0xD83D, 0xDE00] : List Ch).head? ≠ some 0xFEFF := by
  decide

/-- **C17** Standard UTF-8 text up to U+FFFF, with or without a byte order mark, is read as the text. -/
theorem decode_standard (l : List Char) (rest : List Byte) (h : ∀ c ∈ l, c.toNat < 0x10000) (h0 : '\x00' ∉ l)
    (hb : l.head? ≠ some '\uFEFF') :
    utf8Decode (standardBytes l ++ 0 :: rest) = .ok (ofChars l) ∧
    utf8Decode ([0xEF, 0xBB, 0xBF] ++ (standardBytes l ++ 0 :: rest)) = .ok (ofChars l) := by
  have he := encode_standard l h
  rw [utf8Encode_eq] at he
  injection he with he
  have inj : ∀ c ∈ l, ∀ d : Char, d.toNat < 0x10000 → BitVec.ofNat 16 c.toNat = BitVec.ofNat 16 d.toNat → c = d := by
    intro c hc d hd e
    have e := congrArg BitVec.toNat e
    have := h c hc
    simp at e
    apply Char.ext
    apply UInt32.toNat.inj
    show c.toNat = d.toNat
    omega
  have h0' : (0 : Ch) ∉ ofChars l := by
    intro hm
    simp only [ofChars, List.mem_map] at hm
    obtain ⟨c, hc, e⟩ := hm
    exact h0 (inj c hc '\x00' (by decide) e ▸ hc)
  have hb' : (ofChars l).head? ≠ some 0xFEFF := by
    cases l with
    | nil => simp [ofChars]
    | cons c l =>
      intro e
      simp only [ofChars, List.map_cons, List.head?_cons, Option.some.injEq] at e
      have := inj c (by simp) '\uFEFF' (by decide) e
      simp [this] at hb
  rw [← he]
  exact ⟨utf8Decode_ok _ rest h0' hb', utf8Decode_bom_ok _ rest h0'⟩

example : (∀ c ∈ ['x', 'ß', '→'], c.toNat < 0x10000) ∧ '\x00' ∉ ['x', 'ß', '→'] ∧ ['x', 'ß', '→'].head? ≠ some '\uFEFF' := by
  decide

/-- **C17** Different texts have different UTF-8 bytes. -/
theorem encode_injective (l m : List Ch) (hl : (0 : Ch) ∉ l ∧ l.head? ≠ some 0xFEFF) (hm : (0 : Ch) ∉ m ∧ m.head? ≠ some 0xFEFF)
    (h : utf8Encode l = utf8Encode m) : l = m := by
  have h1 := roundtrip_partial l _ [] hl.1 hl.2 (utf8Encode_eq l)
  have h2 := roundtrip_partial m _ [] hm.1 hm.2 (utf8Encode_eq m)
  rw [utf8Encode_eq, utf8Encode_eq] at h
  injection h with h
  rw [h, h2] at h1
  injection h1 with h1
  exact h1.symm

/-- Round trip as the claim states it, for one string. -/
def RoundTrips (l : List Ch) : Prop := ∃ b, utf8Encode l = .ok b ∧ utf8Decode (b ++ [0]) = .ok l

/-- Violation of C17: a leading U+FEFF is lost. -/
theorem leading_feff_lost : ¬ RoundTrips [0xFEFF, 0x61] := by
  rintro ⟨b, h1, h2⟩
  rw [utf8Encode_eq] at h1
  injection h1 with h1
  subst h1
  revert h2; decide +kernel

/-- Violation of C17: a string with a NUL character is cut there (strings may contain NUL: the length
is stored). -/
theorem nul_truncates (l m : List Ch) (h0 : (0 : Ch) ∉ l) (hb : l.head? ≠ some 0xFEFF) :
    ¬ RoundTrips (l ++ 0 :: m) := by
  rintro ⟨b, h1, h2⟩
  rw [utf8Encode_eq] at h1
  injection h1 with h1
  subst h1
  have e : enc1 0 = [0] := by decide
  rw [List.flatMap_append, List.flatMap_cons, e, List.append_assoc, List.append_assoc, List.singleton_append,
    utf8Decode_ok l _ h0 hb] at h2
  injection h2 with h2
  have := congrArg List.length h2
  simp at this

/-- Violation of C17's standard bytes above U+FFFF: the surrogate pair of U+1F600 is written as two
three-byte sequences, not as the four bytes of the standard. -/
theorem supplementary_nonstandard :
    utf8Encode [0xD83D, 0xDE00] = .ok [0xED, 0xA0, 0xBD, 0xED, 0xB8, 0x80] ∧
    (String.utf8EncodeChar '😀').map UInt8.toBitVec = [0xF0, 0x9F, 0x98, 0x80] := by decide +kernel

/-- … and the standard bytes of U+1F600 are read as the single character U+F600. -/
theorem supplementary_misread : utf8Decode [0xF0, 0x9F, 0x98, 0x80, 0] = .ok [0xF600] := by decide +kernel

/-- Violation of memory safety: text that ends inside a multi-byte character is read past its
terminating zero. -/
theorem truncated_reads_outside (l : List Ch) (h0 : (0 : Ch) ∉ l) (hb : l.head? ≠ some 0xFEFF) :
    utf8Decode (l.flatMap enc1 ++ [0xC3, 0]) = .error .ub := by
  have hstep : ∀ n, utf8Count (l.flatMap enc1 ++ [0xC3, 0]) (l.flatMap enc1).length n = .error .ub := by
    intro n
    rw [utf8Count, dif_pos (by simp), getElem_at, if_neg (by decide), show leadLength 0xC3 = 2 by decide,
      utf8Count, dif_neg (by simp)]
  have hcount : ∀ (m : List Ch) (pre rest : List Byte) (n : Nat), (0 : Ch) ∉ m →
      utf8Count (pre ++ (m.flatMap enc1 ++ rest)) pre.length n =
        utf8Count (pre ++ (m.flatMap enc1 ++ rest)) (pre.length + (m.flatMap enc1).length) (n + m.length) := by
    intro m
    induction m with
    | nil => intro pre rest n _; simp
    | cons c m ih =>
      intro pre rest n h
      simp at h
      simp only [List.flatMap_cons, List.append_assoc]
      rw [utf8Count_step pre _ c (by intro e; exact h.1 e.symm)]
      have := ih (pre ++ enc1 c) rest (n + 1) (by simpa using h.2)
      simp only [List.append_assoc, List.length_append] at this
      rw [this]
      simp only [List.length_append, List.length_cons]
      rw [show pre.length + (enc1 c).length + (List.flatMap enc1 m).length = pre.length + ((enc1 c).length + (List.flatMap enc1 m).length) by omega,
        show n + 1 + m.length = n + (m.length + 1) by omega]
  have hc := hcount l [] [0xC3, 0] 0 h0
  simp only [List.nil_append, List.length_nil, Nat.zero_add] at hc
  have hs : utf8Start (l.flatMap enc1 ++ [0xC3, 0]) = .ok 0 := by
    cases l with
    | nil => rfl
    | cons c l =>
      have := utf8Start_ok (c :: l) [] hb
      simp only [List.flatMap_cons, List.append_assoc] at this ⊢
      rcases enc1_cases c with ⟨h1, he⟩ | ⟨h1, h2, he⟩ | ⟨h1, h2, he⟩ <;> rw [he] at this ⊢
      · have hl := lead1 c h1
        apply start_plain <;> (intro e; rw [e] at hl; revert hl; decide)
      · have ⟨ha, hb⟩ := lead2 (c >>> 6)
        apply start_plain <;> (intro e; rw [e] at hb; revert hb; decide)
      · simp only [List.cons_append, List.nil_append, utf8Start, rd_zero, rd_one, rd_two, bind, Except.bind] at this ⊢
        exact this
  simp only [utf8Decode, hs, bind, Except.bind, hc, hstep]

/-- Violation of memory safety: the bytes FF FE inside a text are counted as two characters but
skipped as none, so the second pass runs past the end. -/
theorem inner_bom_reads_outside : utf8Decode [0x61, 0xFF, 0xFE, 0] = .error .ub := by decide +kernel

end Verif.Charset.Utf8Props
