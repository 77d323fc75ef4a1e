import Verif.CRC.Model
import Verif.CRC.Spec
namespace Verif.CRC
open Verif Spec

theorem shift_eq (x : BitVec 16) : shift x = (x >>> 1) ^^^ (if x.getLsbD 0 then 0xA001#16 else 0#16) := by
  unfold shift; split <;> simp

theorem shift_xor (x y : BitVec 16) : shift (x ^^^ y) = shift x ^^^ shift y := by
  rw [shift_eq, shift_eq, shift_eq]
  rw [BitVec.getLsbD_xor, BitVec.ushiftRight_xor_distrib]
  have e : ∀ u v : BitVec 16, u ^^^ 0xA001#16 ^^^ (v ^^^ 0xA001#16) = u ^^^ v := by
    intro u v
    have : u ^^^ 0xA001#16 ^^^ (v ^^^ 0xA001#16) = (0xA001#16 ^^^ 0xA001#16) ^^^ (u ^^^ v) := by ac_rfl
    rw [this, BitVec.xor_self, BitVec.zero_xor]
  cases x.getLsbD 0 <;> cases y.getLsbD 0
  · simp
  · simp; ac_rfl
  · simp; ac_rfl
  · simp [e]

theorem shift8_xor (x y : BitVec 16) : shift8 (x ^^^ y) = shift8 x ^^^ shift8 y := by
  simp only [shift8, shift_xor]

theorem table_ok : ∀ b : BitVec 8, crctable[b.toNat]? = some (shift8 (b.setWidth 16)) := by decide +kernel

theorem shift8_high : ∀ h : BitVec 8, shift8 (h.setWidth 16 <<< 8) = h.setWidth 16 := by decide +kernel

theorem split16 (x : BitVec 16) :
    x = ((x >>> 8).setWidth 8).setWidth 16 <<< 8 ^^^ (x.setWidth 8).setWidth 16 := by
  apply BitVec.eq_of_getLsbD_eq
  intro i hi
  simp only [BitVec.getLsbD_xor, BitVec.getLsbD_shiftLeft, BitVec.getLsbD_setWidth, BitVec.getLsbD_ushiftRight]
  by_cases h : i < 8
  · simp [h, hi]
  · have h1 : i - 8 < 8 := by omega
    have h2 : 8 + (i - 8) = i := by omega
    have h3 : i - 8 < 16 := by omega
    simp [h, hi, h1, h2, h3]

theorem round_eq (s : BitVec 16) (b : Byte) : round s b = .ok (shift8 (s ^^^ b.setWidth 16)) := by
  have hal : (b ^^^ (s &&& 0xFF#16).setWidth 8) &&& 0xFF#8 = b ^^^ s.setWidth 8 := by
    have m : ∀ x : Byte, x &&& 0xFF#8 = x := by decide +kernel
    rw [m, BitVec.setWidth_and]
    have := m (s.setWidth 8)
    simpa using this
  have hrd : ∀ x : Byte, rd crctable x.toNat = .ok (shift8 (x.setWidth 16)) := by
    intro x; rw [rd, table_ok]
  unfold round
  simp only [hal, hrd, bind, Except.bind, pure, Except.pure]
  congr 1
  have e1 : (s >>> 8) &&& 0xFF#16 = ((s >>> 8).setWidth 8).setWidth 16 := by
    apply BitVec.eq_of_getLsbD_eq
    intro i hi
    have : (0xFF#16).getLsbD i = decide (i < 8) := by
      have : ∀ i : Fin 16, (0xFF#16).getLsbD i.val = decide (i.val < 8) := by decide
      exact this ⟨i, hi⟩
    simp only [BitVec.getLsbD_and, this, BitVec.getLsbD_setWidth]
    by_cases h : i < 8 <;> simp [h, hi]
  conv => rhs; rw [split16 s]
  rw [BitVec.xor_assoc, shift8_xor, shift8_high, e1]
  congr 2
  rw [BitVec.setWidth_xor, BitVec.xor_comm]

theorem crc8_eq (s : BitVec 16) (l : Buf) : crc8 s l = .ok (crc s l) := by
  induction l generalizing s with
  | nil => rfl
  | cons b t ih =>
    simp only [crc8, round_eq, bind, Except.bind, ih]
    rfl

theorem shift_zero {z : BitVec 16} (h : shift z = 0#16) : z = 0#16 := by
  have hz := z.isLt
  unfold shift at h
  split at h
  · have : z >>> 1 = 0xA001#16 := by
      have := congrArg (· ^^^ 0xA001#16) h
      simpa [BitVec.xor_assoc] using this
    have := congrArg BitVec.toNat this
    simp [Nat.shiftRight_eq_div_pow] at this
    omega
  · rename_i hb
    have := congrArg BitVec.toNat h
    simp [Nat.shiftRight_eq_div_pow] at this
    simp [BitVec.getLsbD, Nat.testBit_zero] at hb
    apply BitVec.eq_of_toNat_eq
    simp
    omega

theorem xor_eq_zero {x y : BitVec 16} (h : x ^^^ y = 0#16) : x = y := by
  have := congrArg (· ^^^ y) h
  simpa [BitVec.xor_assoc] using this

theorem shift_inj {x y : BitVec 16} (h : shift x = shift y) : x = y := by
  apply xor_eq_zero
  apply shift_zero
  rw [shift_xor, h, BitVec.xor_self]

theorem shift8_inj {x y : BitVec 16} (h : shift8 x = shift8 y) : x = y := by
  unfold shift8 at h
  exact shift_inj (shift_inj (shift_inj (shift_inj (shift_inj (shift_inj (shift_inj (shift_inj h)))))))

theorem xor_right_inj {x y z : BitVec 16} (h : x ^^^ z = y ^^^ z) : x = y := by
  have := congrArg (· ^^^ z) h
  simpa [BitVec.xor_assoc] using this

theorem crc_seed_inj (l : List Byte) : ∀ {s t : BitVec 16}, crc s l = crc t l → s = t := by
  induction l with
  | nil => intro s t h; exact h
  | cons b r ih =>
    intro s t h
    exact xor_right_inj (shift8_inj (ih (s := shift8 (s ^^^ _)) (t := shift8 (t ^^^ _)) h))

theorem table_high : ∀ d : BitVec 8, ∀ e : BitVec 8, shift8 (d.setWidth 16) = e.setWidth 16 → d = 0#8 := by
  have key : ∀ d : BitVec 8, (shift8 (d.setWidth 16)).toNat < 256 → d = 0#8 := by decide +kernel
  intro d e h
  apply key
  rw [h]
  simp
  omega

end Verif.CRC
