import Verif.CRC.Lemmas
/-
Property theorems for src/core/CRC.cpp (C04, C53).
-/
namespace Verif.CRC
open Verif

/-- C04: the table-driven code computes the bit-serial CRC, for every seed and message. -/
theorem crc8_bitwise (s : BitVec 16) (l : Buf) : crc8 s l = .ok (Spec.crc s l) := crc8_eq s l

/-- C04: the CRC of a concatenation is the CRC of the second part seeded with that of the first. -/
theorem crc8_append (s : BitVec 16) (l m : Buf) :
    crc8 s (l ++ m) = (match crc8 s l with | .ok t => crc8 t m | .error e => .error e) := by
  rw [crc8_eq, crc8_eq, Spec.crc, List.foldl_append]
  simp only [crc8_eq, Spec.crc]

/-- C53: two messages that differ in one or two adjacent bytes never share their CRC. -/
theorem crc8_detects_burst (s : BitVec 16) (p q : Buf) (a b a' b' : Byte) (h : (a, b) ≠ (a', b')) :
    crc8 s (p ++ [a, b] ++ q) ≠ crc8 s (p ++ [a', b'] ++ q) := by
  intro he
  simp only [crc8_eq, Spec.crc, List.foldl_append] at he
  injection he with he
  have h1 := crc_seed_inj q he
  simp only [List.foldl_cons, List.foldl_nil] at h1
  have h2 := shift8_inj h1
  rw [shift8_xor, shift8_xor] at h2
  have h3 : Spec.shift8 (BitVec.setWidth 16 (a ^^^ a')) = BitVec.setWidth 16 (b ^^^ b') := by
    rw [BitVec.setWidth_xor, BitVec.setWidth_xor, shift8_xor]
    generalize Spec.shift8 (p.foldl _ s) = S at h2
    apply xor_eq_zero
    have : S ^^^ Spec.shift8 (a.setWidth 16) ^^^ b.setWidth 16 ^^^
        (S ^^^ Spec.shift8 (a'.setWidth 16) ^^^ b'.setWidth 16) = 0#16 := by rw [h2, BitVec.xor_self]
    rw [← this]
    have e : S ^^^ Spec.shift8 (a.setWidth 16) ^^^ b.setWidth 16 ^^^
        (S ^^^ Spec.shift8 (a'.setWidth 16) ^^^ b'.setWidth 16) =
      (S ^^^ S) ^^^ (Spec.shift8 (a.setWidth 16) ^^^ Spec.shift8 (a'.setWidth 16) ^^^
        (b.setWidth 16 ^^^ b'.setWidth 16)) := by ac_rfl
    rw [e, BitVec.xor_self, BitVec.zero_xor]
  have h4 := table_high _ _ h3
  have x8 : ∀ {x y : BitVec 8}, x ^^^ y = 0#8 → x = y := by
    intro x y h
    have := congrArg (· ^^^ y) h
    simpa [BitVec.xor_assoc] using this
  have ha := x8 h4
  subst ha
  have h5 := xor_eq_zero (x := b.setWidth 16) (y := b'.setWidth 16) (by
    have := h2
    have := congrArg (fun t => (t ^^^ (b'.setWidth 16 : BitVec 16))) this
    generalize Spec.shift8 (p.foldl _ s) = S at h2
    have e := congrArg (fun t => (S ^^^ Spec.shift8 (a.setWidth 16)) ^^^ t ^^^ b'.setWidth 16) h2
    generalize S ^^^ Spec.shift8 (a.setWidth 16) = T at e
    have f1 : T ^^^ (T ^^^ b.setWidth 16) ^^^ b'.setWidth 16 = b.setWidth 16 ^^^ b'.setWidth 16 := by
      rw [← BitVec.xor_assoc, BitVec.xor_self, BitVec.zero_xor]
    have f2 : T ^^^ (T ^^^ b'.setWidth 16) ^^^ b'.setWidth 16 = 0#16 := by
      rw [← BitVec.xor_assoc, BitVec.xor_self, BitVec.zero_xor, BitVec.xor_self]
    rw [f1, f2] at e
    exact e)
  have hb : b = b' := by
    have := congrArg (BitVec.setWidth 8) h5
    simpa using this
  exact h (by rw [hb])

/-- Non-vacuity: the standard check value of this CRC ("123456789" ↦ 0xBB3D). -/
example : crc8 0#16 [0x31#8, 0x32#8, 0x33#8, 0x34#8, 0x35#8, 0x36#8, 0x37#8, 0x38#8, 0x39#8] = .ok 0xBB3D#16 := by
  decide +kernel
example : ((1#8, 2#8) : Byte × Byte) ≠ (1#8, 3#8) := by decide

end Verif.CRC
