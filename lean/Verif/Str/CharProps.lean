import Verif.Str.PartProps
import Verif.Str.CmpProps
/-
C132: the classes of characters and the conversion between capital and small letters.
-/
namespace Verif.Str.CharProps
open Verif Verif.Str

/-- Character.cpp:75-81 -/
def isLetter (c : Ch) : Bool := isLowerCase c || isUpperCase c

/-! ### The first 128 characters -/

/-- what is the same as for the characters of Lean -/
def AsLean (c : Ch) (a : Char) : Prop :=
  isUpperCase c = a.isUpper ∧ isLowerCase c = a.isLower ∧ isDigit c = a.isDigit ∧ isLetter c = a.isAlpha ∧
    (toLowerCh c).toNat = a.toLower.toNat ∧ (toUpperCh c).toNat = a.toUpper.toNat ∧
    (isWhitespace c = true ↔ a.isWhitespace = true ∨ a = '\x08' ∨ a = '\x0c') ∧
    digitValue c = if a.isDigit then (a.toNat : Int) - '0'.toNat else -1
instance (c : Ch) (a : Char) : Decidable (AsLean c a) := by unfold AsLean; infer_instance

theorem ascii_all : ∀ n : Fin 128, AsLean (BitVec.ofNat 16 n.val) (Char.ofNat n.val) := by decide +kernel

/-- The ASCII characters are classified and converted as everywhere; `\b` and `\f` are white space, too. -/
theorem ascii_spec (c : Ch) (h : c.toNat < 128) : AsLean c (Char.ofNat c.toNat) := by
  have := ascii_all ⟨c.toNat, h⟩
  simpa only [BitVec.ofNat_toNat, BitVec.setWidth_eq] using this

/-! ### All characters -/

/-- No character belongs to two of the classes. -/
theorem classes_disjoint (c : Ch) :
    ¬ (isUpperCase c = true ∧ isLowerCase c = true) ∧ ¬ (isLetter c = true ∧ isDigit c = true) ∧
      ¬ (isLetter c = true ∧ isWhitespace c = true) ∧ ¬ (isDigit c = true ∧ isWhitespace c = true) := by
  have hw : isWhitespace c = true → c.toNat ≤ 0x20 := by
    unfold isWhitespace
    simp only [Bool.or_eq_true, beq_iff_eq]
    rintro (((((h | h) | h) | h) | h) | h) <;> rw [h] <;> decide
  unfold isLetter isUpperCase isLowerCase isDigit
  simp only [Bool.or_eq_true, decide_eq_true_eq]
  refine ⟨by omega, by omega, ?_, ?_⟩ <;> rintro ⟨h1, h2⟩ <;> have := hw h2 <;> omega

/-- The letters are those of ISO 8859-1 without the ordinal indicators and the micro sign: no letter of another script is one. -/
theorem isLetter_iff (c : Ch) : isLetter c = true ↔
    (0x41 ≤ c.toNat ∧ c.toNat ≤ 0x5a) ∨ (0x61 ≤ c.toNat ∧ c.toNat ≤ 0x7a) ∨
      (0xc0 ≤ c.toNat ∧ c.toNat ≤ 0xff ∧ c.toNat ≠ 0xd7 ∧ c.toNat ≠ 0xf7) := by
  unfold isLetter isUpperCase isLowerCase
  simp only [Bool.or_eq_true, decide_eq_true_eq]
  omega

theorem lit_eq {c : Ch} {n : Nat} (h : n < 65536) : c = BitVec.ofNat 16 n ↔ c.toNat = n := by
  rw [← BitVec.toNat_inj, BitVec.toNat_ofNat, Nat.mod_eq_of_lt (by omega)]

theorem lower_nat (c : Ch) : (toLowerCh c).toNat =
    if (0x41 ≤ c.toNat ∧ c.toNat ≤ 0x5a) ∨ c.toNat = 0xc4 ∨ c.toNat = 0xd6 ∨ c.toNat = 0xdc then c.toNat + 0x20 else c.toNat := by
  have e1 : c = 0xC4 ↔ c.toNat = 0xC4 := lit_eq (by decide)
  have e2 : c = 0xD6 ↔ c.toNat = 0xD6 := lit_eq (by decide)
  have e3 : c = 0xDC ↔ c.toNat = 0xDC := lit_eq (by decide)
  unfold toLowerCh
  simp only [e1, e2, e3]
  by_cases h1 : 0x41 ≤ c.toNat ∧ c.toNat ≤ 0x5a
  · rw [if_pos h1, if_pos (by omega), BitVec.toNat_add]
    show (c.toNat + 32) % 65536 = _
    omega
  rw [if_neg h1]
  by_cases h2 : c.toNat = 0xC4
  · rw [if_pos h2, if_pos (by omega)]; show 0xE4 = _; omega
  rw [if_neg h2]
  by_cases h3 : c.toNat = 0xD6
  · rw [if_pos h3, if_pos (by omega)]; show 0xF6 = _; omega
  rw [if_neg h3]
  by_cases h4 : c.toNat = 0xDC
  · rw [if_pos h4, if_pos (by omega)]; show 0xFC = _; omega
  rw [if_neg h4, if_neg (by omega)]

theorem upper_nat (c : Ch) : (toUpperCh c).toNat =
    if (0x61 ≤ c.toNat ∧ c.toNat ≤ 0x7a) ∨ c.toNat = 0xe4 ∨ c.toNat = 0xf6 ∨ c.toNat = 0xfc then c.toNat - 0x20 else c.toNat := by
  have e1 : c = 0xE4 ↔ c.toNat = 0xE4 := lit_eq (by decide)
  have e2 : c = 0xF6 ↔ c.toNat = 0xF6 := lit_eq (by decide)
  have e3 : c = 0xFC ↔ c.toNat = 0xFC := lit_eq (by decide)
  unfold toUpperCh
  simp only [e1, e2, e3]
  by_cases h1 : 0x61 ≤ c.toNat ∧ c.toNat ≤ 0x7a
  · rw [if_pos h1, if_pos (by omega), BitVec.toNat_sub]
    show (65536 - 32 + c.toNat) % 65536 = _
    omega
  rw [if_neg h1]
  by_cases h2 : c.toNat = 0xE4
  · rw [if_pos h2, if_pos (by omega)]; show 0xC4 = _; omega
  rw [if_neg h2]
  by_cases h3 : c.toNat = 0xF6
  · rw [if_pos h3, if_pos (by omega)]; show 0xD6 = _; omega
  rw [if_neg h3]
  by_cases h4 : c.toNat = 0xFC
  · rw [if_pos h4, if_pos (by omega)]; show 0xDC = _; omega
  rw [if_neg h4, if_neg (by omega)]

/-- Converting again changes nothing, and what was converted to the other case before does not matter. -/
theorem convert_twice (c : Ch) :
    toLowerCh (toLowerCh c) = toLowerCh c ∧ toUpperCh (toUpperCh c) = toUpperCh c ∧
      toLowerCh (toUpperCh c) = toLowerCh c ∧ toUpperCh (toLowerCh c) = toUpperCh c := by
  refine ⟨BitVec.eq_of_toNat_eq ?_, BitVec.eq_of_toNat_eq ?_, BitVec.eq_of_toNat_eq ?_, BitVec.eq_of_toNat_eq ?_⟩
  · simp only [lower_nat]; (repeat' split) <;> omega
  · simp only [upper_nat]; (repeat' split) <;> omega
  · simp only [lower_nat, upper_nat]; (repeat' split) <;> omega
  · simp only [lower_nat, upper_nat]; (repeat' split) <;> omega

/-- Only capital letters become other characters, the small letters they come from, and the other way round. -/
theorem convert_letters (c : Ch) :
    (toLowerCh c ≠ c → isUpperCase c = true ∧ isLowerCase (toLowerCh c) = true ∧ toUpperCh (toLowerCh c) = c) ∧
    (toUpperCh c ≠ c → isLowerCase c = true ∧ isUpperCase (toUpperCh c) = true ∧ toLowerCh (toUpperCh c) = c) := by
  constructor <;> intro h
  · have hn : (toLowerCh c).toNat ≠ c.toNat := fun e => h (BitVec.eq_of_toNat_eq e)
    rw [lower_nat] at hn
    split at hn
    · rename_i hc
      refine ⟨?_, ?_, BitVec.eq_of_toNat_eq ?_⟩
      · unfold isUpperCase; simp only [Bool.or_eq_true, decide_eq_true_eq]; omega
      · unfold isLowerCase; simp only [Bool.or_eq_true, decide_eq_true_eq, lower_nat]; rw [if_pos hc]; omega
      · rw [upper_nat, lower_nat, if_pos hc]; split <;> omega
    · exact absurd rfl hn
  · have hn : (toUpperCh c).toNat ≠ c.toNat := fun e => h (BitVec.eq_of_toNat_eq e)
    rw [upper_nat] at hn
    split at hn
    · rename_i hc
      refine ⟨?_, ?_, BitVec.eq_of_toNat_eq ?_⟩
      · unfold isLowerCase; simp only [Bool.or_eq_true, decide_eq_true_eq]; omega
      · unfold isUpperCase; simp only [Bool.or_eq_true, decide_eq_true_eq, upper_nat]; rw [if_pos hc]; omega
      · rw [lower_nat, upper_nat, if_pos hc]; split <;> omega
    · exact absurd rfl hn

/-- Which capital letters have a small letter: those of ASCII and Ä, Ö, Ü. -/
theorem toLower_partial (c : Ch) (h : isUpperCase c = true) :
    isLowerCase (toLowerCh c) = true ↔ c.toNat < 128 ∨ c.toNat = 0xc4 ∨ c.toNat = 0xd6 ∨ c.toNat = 0xdc := by
  unfold isUpperCase at h
  unfold isLowerCase
  simp only [Bool.or_eq_true, decide_eq_true_eq, lower_nat] at h ⊢
  split <;> omega

/-- The other capital letters of ISO 8859-1, which are capital letters for `isUpperCase`, stay capital letters, although their
small letters are letters for `isLowerCase`: À and à. -/
theorem toLower_misses : isUpperCase 0xC0 = true ∧ toLowerCh 0xC0 = 0xC0 ∧ isLowerCase 0xE0 = true ∧ toUpperCh 0xE0 = 0xE0 := by
  decide

/-- A small Greek or Cyrillic letter is no letter. -/
theorem isLetter_misses : isLetter 0x3B1 = false ∧ isLetter 0x436 = false := by decide

/-! ### Texts -/

/-- The same for texts: converting twice is converting once, the case before does not matter, and the results are the same text
up to case. -/
theorem texts_convert {s : Str} (hs : WF s) :
    ∃ l u ll lu, toLowerCase s = .ok l ∧ toUpperCase s = .ok u ∧ toLowerCase l = .ok ll ∧ toLowerCase u = .ok lu ∧
      chars ll = chars l ∧ chars lu = chars l ∧ equalsIgnoreCase s l = .ok true ∧ equalsIgnoreCase s u = .ok true ∧
      equalsIgnoreCase u l = .ok true := by
  obtain ⟨l, e1, w1, c1⟩ := PartProps.toLowerCase_spec hs
  obtain ⟨u, e2, w2, c2⟩ := PartProps.toUpperCase_spec hs
  obtain ⟨ll, e3, _, c3⟩ := PartProps.toLowerCase_spec w1
  obtain ⟨lu, e4, _, c4⟩ := PartProps.toLowerCase_spec w2
  have h1 : (chars l).map toLowerCh = chars l := by
    rw [c1, List.map_map]
    exact List.map_congr_left fun c _ => (convert_twice c).1
  have h2 : (chars u).map toLowerCh = chars l := by
    rw [c1, c2, List.map_map]
    exact List.map_congr_left fun c _ => (convert_twice c).2.2.1
  refine ⟨l, u, ll, lu, e1, e2, e3, e4, c3.trans h1, c4.trans h2, ?_, ?_, ?_⟩
  · rw [CmpProps.equalsIgnoreCase_iff hs w1, h1, c1]; simp
  · rw [CmpProps.equalsIgnoreCase_iff hs w2, h2, c1]; simp
  · rw [CmpProps.equalsIgnoreCase_iff w2 w1, h1, h2]; simp

/-- The texts À and à are not equal up to case. -/
theorem texts_miss : ∃ s t : Str, ofChars [0xC0] = .ok s ∧ ofChars [0xE0] = .ok t ∧ equalsIgnoreCase s t = .ok false :=
  ⟨_, _, rfl, rfl, rfl⟩

/-- a text to convert -/
example : ∃ s, ofChars [0x41, 0x62, 0xDC] = .ok s ∧ WF s ∧ ∃ l, toLowerCase s = .ok l ∧ chars l = [0x61, 0x62, 0xFC] := by
  obtain ⟨s, e, w, c, _⟩ := ofChars_ok [0x41, 0x62, 0xDC]
  obtain ⟨l, e1, _, c1⟩ := PartProps.toLowerCase_spec w
  exact ⟨s, e, w, l, e1, by rw [c1, c]; decide⟩

end Verif.Str.CharProps
