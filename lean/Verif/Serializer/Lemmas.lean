import Verif.Serializer.Model
import Verif.Serializer.Spec
namespace Verif.Serializer
open Verif Spec

theorem ix32_eq {o k : Nat} (h : o + k < 2 ^ 32) : ix32 o k = o + k := Nat.mod_eq_of_lt h

theorem rd_app {α} (p w q : List α) (k : Nat) (h : k < w.length) :
    rd (p ++ w ++ q) (p.length + k) = .ok w[k] := by
  have : (p ++ w ++ q)[p.length + k]? = some w[k] := by
    rw [List.append_assoc, List.getElem?_append_right (by omega),
      List.getElem?_append_left (by omega)]
    simp [h]
  rw [rd, this]

theorem wr_app {α} (p w q : List α) (k : Nat) (x : α) (h : k < w.length) :
    wr (p ++ w ++ q) (p.length + k) x = .ok (p ++ w.set k x ++ q) := by
  rw [wr_ok (by simp; omega)]
  simp [h]

/-- Every buffer with room at `o` splits around the window. -/
theorem split_window {α} (b : List α) (o n : Nat) (h : o + n ≤ b.length) :
    ∃ p w q, b = p ++ w ++ q ∧ p.length = o ∧ w.length = n :=
  ⟨b.take o, (b.drop o).take n, b.drop (o + n), by
    rw [List.append_assoc]
    have : b.drop (o+n) = (b.drop o).drop n := by simp
    rw [this, List.take_append_drop, List.take_append_drop], by simp; omega, by simp; omega⟩

theorem splice_app (p w q bs : List Byte) (h : bs.length = w.length) :
    splice (p ++ w ++ q) p.length bs = p ++ bs ++ q := by
  simp [splice, h, List.drop_append]

theorem lo_eq {w} (v : BitVec w) : lo v = byteOf v 0 := by
  apply BitVec.eq_of_toNat_eq
  simp [lo, byteOf]

theorem byteOf_getLsbD {w} (v : BitVec w) (k i : Nat) :
    (byteOf v k).getLsbD i = (decide (i < 8) && v.getLsbD (8 * k + i)) := by
  have : (256:Nat) ^ k = 2 ^ (8*k) := by rw [Nat.pow_mul]
  rw [byteOf, this, ← Nat.shiftRight_eq_div_pow, BitVec.getLsbD_ofNat, Nat.testBit_shiftRight]
  rfl

theorem sar_lo {w} (v : BitVec w) (k : Nat) (h : 8 * k + 8 ≤ w) :
    (v.sshiftRight (8*k)).setWidth 8 = byteOf v k := by
  apply BitVec.eq_of_getLsbD_eq
  intro i hi
  rw [byteOf_getLsbD, BitVec.getLsbD_setWidth, BitVec.getLsbD_sshiftRight]
  have : ¬ (w ≤ i) := by omega
  have h2 : 8 * k + i < w := by omega
  simp [hi, this, h2]

theorem sar_sar {w} (v : BitVec w) (n : Nat) : (v.sshiftRight n).sshiftRight 8 = v.sshiftRight (n+8) := by
  rw [BitVec.sshiftRight_add]

theorem shr_lo {w} (v : BitVec w) (k : Nat) :
    (v >>> (8*k)).setWidth 8 = byteOf v k := by
  apply BitVec.eq_of_getLsbD_eq
  intro i hi
  rw [byteOf_getLsbD, BitVec.getLsbD_setWidth, BitVec.getLsbD_ushiftRight]

end Verif.Serializer

namespace Verif.Serializer
open Verif Spec

theorem lo0 {w} (v : BitVec w) : v.setWidth 8 = byteOf v 0 := lo_eq v

/-- Reassembling: bit `i` of a value is bit `i % 8` of byte `i / 8`. -/
theorem getLsbD_byteOf {w} (v : BitVec w) (i : Nat) :
    v.getLsbD i = (byteOf v (i / 8)).getLsbD (i % 8) := by
  rw [byteOf_getLsbD]
  have : 8 * (i / 8) + i % 8 = i := Nat.div_add_mod i 8
  have h2 : i % 8 < 8 := Nat.mod_lt _ (by omega)
  simp [this, h2]

theorem join16 (v : BitVec 16) :
    BitVec.setWidth 16 ((BitVec.setWidth 32 (byteOf v 1) <<< 8) ||| BitVec.setWidth 32 (byteOf v 0)) = v := by
  apply BitVec.eq_of_getLsbD_eq
  intro i hi
  simp only [BitVec.getLsbD_setWidth, BitVec.getLsbD_or, BitVec.getLsbD_shiftLeft, byteOf_getLsbD]
  by_cases h1 : i < 8
  · simp [h1, hi]; omega
  · have : 8 + (i - 8) = i := by omega
    have h3 : i - 8 < 8 := by omega
    have h4 : i < 32 := by omega
    have h5 : i - 8 < 32 := by omega
    simp [h1, hi, this, h3, h4, h5]

theorem join32 {w : Nat} (v : BitVec w) (k : Nat):
   (BitVec.setWidth 32 (byteOf v (k+3)) <<< 24) ||| (BitVec.setWidth 32 (byteOf v (k+2)) <<< 16) ||| (BitVec.setWidth 32 (byteOf v (k+1)) <<< 8) ||| BitVec.setWidth 32 (byteOf v k) = (v >>> (8 * k)).setWidth 32 := by
  apply BitVec.eq_of_getLsbD_eq
  intro i hi
  simp only [BitVec.getLsbD_setWidth, BitVec.getLsbD_or, BitVec.getLsbD_shiftLeft, byteOf_getLsbD, BitVec.getLsbD_ushiftRight]
  by_cases h1 : i < 8
  · have : i < 16 := by omega
    have : i < 24 := by omega
    simp [*]
  · by_cases h2 : i < 16
    · have : i < 24 := by omega
      have h3 : i - 8 < 8 := by omega
      have h5 : 8 * (k + 1) + (i - 8) = 8 * k + i := by omega
      have h6 : i - 8 < 32 := by omega
      simp [*]
    · by_cases h3 : i < 24
      · have h4 : i - 16 < 8 := by omega
        have h5 : 8 * (k + 2) + (i - 16) = 8 * k + i := by omega
        have h6 : i - 16 < 32 := by omega
        have h7 : ¬ i - 8 < 8 := by omega
        simp [*]
      · have h4 : i - 24 < 8 := by omega
        have h5 : 8 * (k + 3) + (i - 24) = 8 * k + i := by omega
        have h6 : i - 24 < 32 := by omega
        have h7 : ¬ i - 8 < 8 := by omega
        have h8 : ¬ i - 16 < 8 := by omega
        simp [*]

theorem join64 (v : BitVec 64) :
    (((v >>> 32).setWidth 32).setWidth 64 <<< 32) ||| ((v >>> 0).setWidth 32).setWidth 64 = v := by
  apply BitVec.eq_of_getLsbD_eq
  intro i hi
  simp only [BitVec.getLsbD_setWidth, BitVec.getLsbD_or, BitVec.getLsbD_shiftLeft,  BitVec.getLsbD_ushiftRight]
  by_cases h1 : i < 32
  · simp [*]
  · have : 32 + (i - 32) = i := by omega
    have h3 : i - 32 < 32 := by omega
    have h4 : i - 32 < 64 := by omega
    simp [*]

end Verif.Serializer

namespace Verif.Serializer
theorem shr_shr {w} (v : BitVec w) (n : Nat) : (v >>> n) >>> 8 = v >>> (n+8) := by
  rw [BitVec.shiftRight_add]
end Verif.Serializer

namespace Verif.Serializer
open Verif Spec
theorem rd_of {α} {b : List α} {i : Nat} {x : α} (h : b[i]? = some x) : rd b i = .ok x := by
  rw [rd, h]

theorem get_window {α} (p w q : List α) (k : Nat) (h : k < w.length) :
    (p ++ w ++ q)[p.length + k]? = some w[k] := by
  rw [List.append_assoc, List.getElem?_append_right (by omega),
      List.getElem?_append_left (by omega)]
  simp [h]

theorem deserializeBE32_get (b : Buf) (o : Nat) (x0 x1 x2 x3 : Byte) (ho : o + 4 ≤ 2 ^ 32)
    (h0 : b[o]? = some x0) (h1 : b[o+1]? = some x1) (h2 : b[o+2]? = some x2)
    (h3 : b[o+3]? = some x3) :
    deserializeBE32 b o = .ok ((x0.setWidth 32 <<< 24) ||| (x1.setWidth 32 <<< 16) |||
      (x2.setWidth 32 <<< 8) ||| x3.setWidth 32) := by
  simp only [deserializeBE32]
  repeat rw [ix32_eq (by omega)]
  rw [rd_of (i := o + 0) h0, rd_of h1, rd_of h2, rd_of h3]
  rfl

theorem deserializeLE32_get (b : Buf) (o : Nat) (x0 x1 x2 x3 : Byte) (ho : o + 4 ≤ 2 ^ 32)
    (h0 : b[o]? = some x0) (h1 : b[o+1]? = some x1) (h2 : b[o+2]? = some x2)
    (h3 : b[o+3]? = some x3) :
    deserializeLE32 b o = .ok ((x3.setWidth 32 <<< 24) ||| (x2.setWidth 32 <<< 16) |||
      (x1.setWidth 32 <<< 8) ||| x0.setWidth 32) := by
  simp only [deserializeLE32]
  repeat rw [ix32_eq (by omega)]
  rw [rd_of (i := o + 0) h0, rd_of h1, rd_of h2, rd_of h3]
  rfl

theorem join16' (v : BitVec 16) :
    (BitVec.setWidth 16 (byteOf v 1) <<< 8) ||| BitVec.setWidth 16 (byteOf v 0) = v := by
  have := join16 v
  simpa using this

theorem joinDouble (v : BitVec 64) :
    byteOf v 7 ++ byteOf v 6 ++ byteOf v 5 ++ byteOf v 4 ++ byteOf v 3 ++ byteOf v 2 ++
      byteOf v 1 ++ byteOf v 0 = v := by
  apply BitVec.eq_of_getLsbD_eq
  intro i hi
  simp only [BitVec.getLsbD_append, byteOf_getLsbD]
  grind
end Verif.Serializer
