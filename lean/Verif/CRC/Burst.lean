import Verif.CRC.Props
/-
C53: bursts of up to 16 bits at any position.
-/
namespace Verif.CRC
open Verif

/-- the bits of a message, those of each byte from the lowest to the highest -/
def bitsOf : Buf → List Bool
  | [] => []
  | b :: l => (List.range 8).map b.getLsbD ++ bitsOf l

/-- two messages of the same length that differ somewhere, but only within 16 consecutive bits -/
structure Burst (x y : Buf) (k : Nat) : Prop where
  same : x.length = y.length
  differ : x ≠ y
  outside : ∀ i : Nat, i < k ∨ k + 16 ≤ i → (bitsOf x)[i]? = (bitsOf y)[i]?

namespace Burst

def bitv (b : Bool) : BitVec 16 := if b then 1#16 else 0#16

/-- feeding one bit -/
def feed (s : BitVec 16) (b : Bool) : BitVec 16 := Spec.shift (s ^^^ bitv b)

def shifts : Nat → BitVec 16 → BitVec 16
  | 0, x => x
  | n + 1, x => shifts n (Spec.shift x)

theorem shifts_xor (n : Nat) (x y : BitVec 16) : shifts n (x ^^^ y) = shifts n x ^^^ shifts n y := by
  induction n generalizing x y with
  | zero => rfl
  | succ n ih => simp only [shifts, shift_xor, ih]

theorem shifts_inj (n : Nat) {x y : BitVec 16} (h : shifts n x = shifts n y) : x = y := by
  induction n generalizing x y with
  | zero => exact h
  | succ n ih => exact shift_inj (ih h)

/-- up to 16 bits as a register -/
def reg : List Bool → BitVec 16
  | [] => 0#16
  | b :: l => bitv b ^^^ (reg l <<< 1)

theorem reg_bit : ∀ (l : List Bool) (i : Nat), i < 16 → (reg l).getLsbD i = (l[i]?).getD false := by
  intro l
  induction l with
  | nil => intro i hi; simp [reg]
  | cons b l ih =>
    intro i hi
    simp only [reg, BitVec.getLsbD_xor, BitVec.getLsbD_shiftLeft]
    cases i with
    | zero => cases b <;> simp [bitv]
    | succ i =>
      have hb : (bitv b).getLsbD (i + 1) = false := by
        cases b
        · simp [bitv]
        · simp [bitv, BitVec.getLsbD_one]
      rw [hb, ih (i + 1 - 1) (by omega)]
      simp [hi]

theorem shift_shl {y : BitVec 16} (h : y.getLsbD 15 = false) : Spec.shift (y <<< 1) = y := by
  unfold Spec.shift
  rw [if_neg (by simp)]
  apply BitVec.eq_of_getLsbD_eq
  intro i hi
  simp only [BitVec.getLsbD_ushiftRight, BitVec.getLsbD_shiftLeft]
  by_cases h15 : i = 15
  · subst h15; rw [h]; simp
  · have : 1 + i < 16 := by omega
    simp [this]

/-- feeding up to 16 bits is the same as feeding zeros with the bits in the register -/
theorem feed_reg : ∀ (l : List Bool) (s : BitVec 16), l.length ≤ 16 → l.foldl feed s = shifts l.length (s ^^^ reg l) := by
  intro l
  induction l with
  | nil => intro s _; simp [reg, shifts]
  | cons b l ih =>
    intro s h
    simp only [List.length_cons] at h
    have h15 : (reg l).getLsbD 15 = false := by
      rw [reg_bit l 15 (by omega), List.getElem?_eq_none (by omega)]
      rfl
    simp only [List.foldl_cons, List.length_cons, shifts, reg]
    rw [ih _ (by omega), ← BitVec.xor_assoc, shift_xor, shift_shl h15]
    rfl

theorem feed_inj (l : List Bool) {s t : BitVec 16} (h : l.foldl feed s = l.foldl feed t) : s = t := by
  induction l generalizing s t with
  | nil => exact h
  | cons b l ih => exact xor_right_inj (shift_inj (ih h))

/-- different blocks of up to 16 bits give different registers -/
theorem feed_differ {l m : List Bool} (hl : l.length ≤ 16) (he : l.length = m.length) (s : BitVec 16) (h : l.foldl feed s = m.foldl feed s) : l = m := by
  rw [feed_reg l s hl, feed_reg m s (by omega), ← he] at h
  have h1 := shifts_inj _ h
  have h2 : reg l = reg m := by
    rw [BitVec.xor_comm s, BitVec.xor_comm s] at h1
    exact xor_right_inj h1
  apply List.ext_getElem he
  intro i h3 h4
  have := congrArg (fun r => BitVec.getLsbD r i) h2
  simp only [reg_bit _ i (by omega)] at this
  rw [List.getElem?_eq_getElem h3, List.getElem?_eq_getElem h4] at this
  simpa using this

theorem reg_byte : ∀ b : Byte, reg ((List.range 8).map b.getLsbD) = b.setWidth 16 := by decide +kernel

/-- the register after a message, bit by bit -/
theorem crc_bits (l : Buf) (s : BitVec 16) : Spec.crc s l = (bitsOf l).foldl feed s := by
  induction l generalizing s with
  | nil => rfl
  | cons b l ih =>
    simp only [bitsOf, List.foldl_append]
    rw [feed_reg ((List.range 8).map b.getLsbD) s (by simp), reg_byte, show ((List.range 8).map b.getLsbD).length = 8 by simp]
    exact ih _

theorem bitsOf_length (l : Buf) : (bitsOf l).length = 8 * l.length := by
  induction l with
  | nil => rfl
  | cons b l ih => simp [bitsOf, ih]; omega

theorem byte_bits {a b : Byte} (h : (List.range 8).map a.getLsbD = (List.range 8).map b.getLsbD) : a = b := by
  have := congrArg reg h
  rw [reg_byte, reg_byte] at this
  have := congrArg (BitVec.setWidth 8) this
  simpa using this

theorem bitsOf_inj : ∀ {x y : Buf}, x.length = y.length → bitsOf x = bitsOf y → x = y := by
  intro x
  induction x with
  | nil => intro y h _; cases y with
    | nil => rfl
    | cons b y => simp at h
  | cons a x ih =>
    intro y h e
    cases y with
    | nil => simp at h
    | cons b y =>
      simp only [bitsOf] at e
      obtain ⟨h1, h2⟩ := List.append_inj e (by simp)
      rw [byte_bits h1, ih (by simpa using h) h2]

end Burst

open Burst

/-- **C53** Two messages of equal length that differ only within a window of 16 consecutive bits (the bits of each byte taken from the lowest to
the highest) have different CRC values, for every seed, every position of the window, and whatever stands before and after. -/
theorem crc8_detects_bit_burst (s : BitVec 16) (x y : Buf) (k : Nat) (h : Burst x y k) : crc8 s x ≠ crc8 s y := by
  intro he
  rw [crc8_eq, crc8_eq] at he
  injection he with he
  rw [crc_bits, crc_bits] at he
  have hlen : (bitsOf x).length = (bitsOf y).length := by rw [bitsOf_length, bitsOf_length, h.same]
  have hd : ∀ l : List Bool, l = l.take k ++ ((l.drop k).take 16 ++ l.drop (k + 16)) := by
    intro l
    rw [← List.drop_drop, List.take_append_drop, List.take_append_drop]
  have ht : (bitsOf x).take k = (bitsOf y).take k := by
    apply List.ext_getElem?
    intro i
    simp only [List.getElem?_take]
    split
    · exact h.outside i (Or.inl (by assumption))
    · rfl
  have hr : (bitsOf x).drop (k + 16) = (bitsOf y).drop (k + 16) := by
    apply List.ext_getElem?
    intro i
    simp only [List.getElem?_drop]
    exact h.outside _ (Or.inr (by omega))
  rw [hd (bitsOf x), hd (bitsOf y), ht, hr] at he
  simp only [List.foldl_append] at he
  have h1 := feed_inj _ he
  have h2 := feed_differ (by simp; omega) (by simp; omega) _ h1
  have : bitsOf x = bitsOf y := by rw [hd (bitsOf x), hd (bitsOf y), ht, hr, h2]
  exact h.differ (bitsOf_inj h.same this)

/-- … in particular every single wrong bit is detected. -/
theorem crc8_detects_bit (s : BitVec 16) (p q : Buf) (b : Byte) (i : Nat) (hi : i < 8) :
    crc8 s (p ++ [b] ++ q) ≠ crc8 s (p ++ [b ^^^ (1#8 <<< i)] ++ q) := by
  have hne : b ≠ b ^^^ (1#8 <<< i) := by
    intro e
    have := congrArg (fun r => BitVec.getLsbD r i) e
    simp [hi] at this
  refine crc8_detects_bit_burst s _ _ (8 * p.length) ⟨by simp, ?_, ?_⟩
  · intro e
    simp at e
    exact hne (by simpa using e)
  · have ha : ∀ (u v : Buf), bitsOf (u ++ v) = bitsOf u ++ bitsOf v := by
      intro u v
      induction u with
      | nil => rfl
      | cons a u ih => simp [bitsOf, ih]
    intro j hj
    rw [ha, ha, ha, ha]
    rcases hj with hj | hj
    · rw [List.getElem?_append_left (by simp [bitsOf_length]; omega), List.getElem?_append_left (by simp [bitsOf_length]; omega),
        List.getElem?_append_left (by simp [bitsOf_length]; omega), List.getElem?_append_left (by simp [bitsOf_length]; omega)]
    · rw [List.getElem?_append_right (by simp [bitsOf_length]; omega), List.getElem?_append_right (by simp [bitsOf_length]; omega)]
      simp [bitsOf_length]

/-- With the bits of each byte taken from the highest to the lowest, the same does not hold: in that order the bits 7 to 17 are a window of 11
bits. -/
theorem crc8_misses_high_first (s : BitVec 16) (p q : Buf) : crc8 s (p ++ [0x00, 0x00, 0x00] ++ q) = crc8 s (p ++ [0x01, 0xC1, 0xC0] ++ q) := by
  rw [crc8_eq, crc8_eq]
  simp only [Spec.crc, List.foldl_append, List.foldl_cons, List.foldl_nil]
  congr 2
  generalize p.foldl _ s = S
  simp only [shift8_xor]
  have : Spec.shift8 (Spec.shift8 (Spec.shift8 (BitVec.setWidth 16 (0x01 : Byte)))) ^^^ Spec.shift8 (Spec.shift8 (BitVec.setWidth 16 (0xC1 : Byte))) ^^^
      Spec.shift8 (BitVec.setWidth 16 (0xC0 : Byte)) = 0#16 := by decide +kernel
  have z : Spec.shift8 (BitVec.setWidth 16 (0x00 : Byte)) = 0#16 := by decide +kernel
  have z' : Spec.shift8 0#16 = 0#16 := by decide +kernel
  simp only [z, z', BitVec.xor_zero]
  rw [BitVec.xor_assoc, BitVec.xor_assoc, ← BitVec.xor_assoc (Spec.shift8 (Spec.shift8 (Spec.shift8 (BitVec.setWidth 16 (0x01 : Byte))))), this, BitVec.xor_zero]

/-- a burst across three bytes -/
example : Burst [0x12, 0x34, 0x56, 0x78] [0x12, 0x34 ^^^ 0x80, 0x56 ^^^ 0xFF, 0x78 ^^^ 0x41] 15 := by
  refine ⟨rfl, by decide, ?_⟩
  intro i hi
  by_cases h : i < 32
  · have : ∀ i : Fin 32, i.val < 15 ∨ 15 + 16 ≤ i.val → (bitsOf [0x12, 0x34, 0x56, 0x78])[i.val]? = (bitsOf [0x12, 0x34 ^^^ 0x80, 0x56 ^^^ 0xFF, 0x78 ^^^ 0x41])[i.val]? := by decide
    exact this ⟨i, h⟩ hi
  · rw [List.getElem?_eq_none (by simp [bitsOf_length]; omega), List.getElem?_eq_none (by simp [bitsOf_length]; omega)]

end Verif.CRC
