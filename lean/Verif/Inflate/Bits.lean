import Verif.Inflate.Model
import Verif.Inflate.Spec
/-
Reading bits: the remaining bits of the input and how the read functions consume them.
-/
namespace Verif.Inflate
open Verif

/-- the bit position -/
def St.pos (s : St) : Nat := 8 * s.idx + s.bit

/-- what is left of the input -/
def St.bits (s : St) : List Bool := (bitsOf s.comp).drop s.pos

/-- the state after consuming `n` bits -/
def St.adv (s : St) (n : Nat) : St :=
  { s with idx := (s.pos + n) / 8, bit := (s.pos + n) % 8, totalIn := s.totalIn + ((s.pos + n) / 8 - s.idx) }

theorem byteBits_length (b : Byte) : (byteBits b).length = 8 := by simp [byteBits]

theorem bitsOf_length (l : List Byte) : (bitsOf l).length = 8 * l.length := by
  induction l with
  | nil => rfl
  | cons a l ih =>
    have : bitsOf (a :: l) = byteBits a ++ bitsOf l := rfl
    rw [this, List.length_append, byteBits_length, ih, List.length_cons]; omega

theorem bitsOf_get (l : List Byte) (i j : Nat) (hi : i < l.length) (hj : j < 8) : (bitsOf l)[8 * i + j]? = some (l[i].getLsbD j) := by
  induction l generalizing i with
  | nil => simp at hi
  | cons a l ih =>
    have e : bitsOf (a :: l) = byteBits a ++ bitsOf l := rfl
    rw [e]
    cases i with
    | zero =>
      rw [List.getElem?_append_left (by rw [byteBits_length]; omega)]
      simp [byteBits, hj]
    | succ i =>
      rw [List.getElem?_append_right (by rw [byteBits_length]; omega), byteBits_length]
      have : 8 * (i + 1) + j - 8 = 8 * i + j := by omega
      rw [this, ih i (by simpa using hi)]
      rfl

theorem pos_adv (s : St) (n : Nat) : (s.adv n).pos = s.pos + n := by
  simp only [St.adv, St.pos]; omega

theorem bits_adv (s : St) (n : Nat) : (s.adv n).bits = s.bits.drop n := by
  unfold St.bits
  rw [pos_adv, List.drop_drop]
  rfl

theorem adv_zero (s : St) (h : s.bit < 8) : s.adv 0 = s := by
  have h1 : (s.pos + 0) / 8 = s.idx := by unfold St.pos; omega
  have h2 : (s.pos + 0) % 8 = s.bit := by unfold St.pos; omega
  unfold St.adv
  rw [h1, h2, Nat.sub_self, Nat.add_zero]

theorem adv_adv (s : St) (a b : Nat) : (s.adv a).adv b = s.adv (a + b) := by
  have h1 : (s.adv a).pos + b = s.pos + (a + b) := by rw [pos_adv]; omega
  have hidx : s.idx ≤ s.pos / 8 := by unfold St.pos; omega
  have h2 : (s.adv a).idx = (s.pos + a) / 8 := rfl
  have h3 : (s.adv a).totalIn = s.totalIn + ((s.pos + a) / 8 - s.idx) := rfl
  show ({ (s.adv a) with idx := _, bit := _, totalIn := _ } : St) = _
  rw [h1, h2, h3]
  have : s.totalIn + ((s.pos + a) / 8 - s.idx) + ((s.pos + (a + b)) / 8 - (s.pos + a) / 8) = s.totalIn + ((s.pos + (a + b)) / 8 - s.idx) := by
    omega
  rw [this]
  rfl

theorem adv_bit (s : St) (n : Nat) : (s.adv n).bit < 8 := Nat.mod_lt _ (by decide)

theorem adv_fields (s : St) (n : Nat) : (s.adv n).comp = s.comp ∧ (s.adv n).out = s.out ∧ (s.adv n).cap = s.cap ∧ (s.adv n).null = s.null ∧
    (s.adv n).maxBits = s.maxBits ∧ (s.adv n).last = s.last := ⟨rfl, rfl, rfl, rfl, rfl, rfl⟩

theorem bits_head (s : St) {b : Bool} {r : List Bool} (hb : s.bit < 8) (h : s.bits = b :: r) :
    ∃ hi : s.idx < s.comp.length, s.comp[s.idx].getLsbD s.bit = b := by
  have h0 : s.bits[0]? = some b := by rw [h]; rfl
  unfold St.bits at h0
  rw [List.getElem?_drop, Nat.add_zero] at h0
  have hlt : s.pos < (bitsOf s.comp).length := (List.getElem?_eq_some_iff.1 h0).1
  rw [bitsOf_length] at hlt
  have hi : s.idx < s.comp.length := by unfold St.pos at hlt; omega
  have := bitsOf_get s.comp s.idx s.bit hi hb
  have e : s.pos = 8 * s.idx + s.bit := rfl
  rw [e, this] at h0
  exact ⟨hi, Option.some.inj h0⟩

theorem toNat_testBit (b : Bool) (j : Nat) : b.toNat.testBit j = (b && decide (j = 0)) := by
  cases b with
  | false => simp
  | true =>
    have := Nat.testBit_two_pow (n := 0) (m := j)
    show Nat.testBit 1 j = _
    rw [show (1 : Nat) = 2 ^ 0 from rfl, this]
    simp [eq_comm]

theorem mask_bit (n i : Nat) : ((1 <<< i) &&& n) >>> i = (n.testBit i).toNat := by
  apply Nat.eq_of_testBit_eq
  intro j
  rw [Nat.testBit_shiftRight, Nat.testBit_and, Nat.one_shiftLeft, Nat.testBit_two_pow, toNat_testBit]
  by_cases h : j = 0
  · subst h; simp
  · simp [h]

theorem nextBit_ok (s : St) {b : Bool} {r : List Bool} (hb : s.bit < 8) (h : s.bits = b :: r) :
    nextBit s = .ok (b.toNat, s.adv 1) := by
  obtain ⟨hi, hbit⟩ := bits_head s hb h
  have hm : ((1 <<< s.bit) &&& s.comp[s.idx].toNat) >>> s.bit = b.toNat := by
    rw [mask_bit, BitVec.testBit_toNat, hbit]
  unfold nextBit
  rw [rd_ok hi]
  simp only [bind, Except.bind, hm]
  have e : s.pos = 8 * s.idx + s.bit := rfl
  by_cases h7 : (s.bit + 1) % 8 = 0
  · rw [if_pos h7]
    have h1 : (s.pos + 1) / 8 = s.idx + 1 := by omega
    have h2 : (s.pos + 1) % 8 = 0 := by omega
    simp only [pure, Except.pure, St.adv, h1, h2]
    congr 3
    omega
  · rw [if_neg h7]
    have h1 : (s.pos + 1) / 8 = s.idx := by omega
    have h2 : (s.pos + 1) % 8 = s.bit + 1 := by omega
    simp only [pure, Except.pure, St.adv, h1, h2]
    congr 3
    omega

/-- the number with these bits, most significant first -/
def valM (c : Nat) : List Bool → Nat
  | [] => c
  | b :: w => valM (2 * c + b.toNat) w

theorem valM_append (c : Nat) (w v : List Bool) : valM c (w ++ v) = valM (valM c w) v := by
  induction w generalizing c with
  | nil => rfl
  | cons b w ih => exact ih _

theorem valM_bound (c : Nat) (w : List Bool) (n : Nat) (h : c < 2 ^ n) : valM c w < 2 ^ (n + w.length) := by
  induction w generalizing c n with
  | nil => exact h
  | cons b w ih =>
    have : 2 * c + b.toNat < 2 ^ (n + 1) := by rw [Nat.pow_succ]; have := Bool.toNat_le b; omega
    have := ih _ (n + 1) this
    simp only [valM, List.length_cons]
    rw [show n + (w.length + 1) = n + 1 + w.length from by omega]; exact this

theorem shl_or (c : Nat) (b : Bool) : (c <<< 1) ||| b.toNat = 2 * c + b.toNat := by
  rw [← Nat.shiftLeft_add_eq_or_of_lt (by have := Bool.toNat_le b; omega), Nat.shiftLeft_eq]
  omega

theorem u16_small {n : Nat} (h : n < 65536) : u16 n = n := Nat.mod_eq_of_lt h

theorem uintX_ok (w : List Bool) (c k : Nat) (s : St) (r : List Bool) (hb : s.bit < 8) (h : s.bits = w ++ r) (hc : c < 2 ^ k)
    (hk : k + w.length ≤ 16) : uintX w.length c s = .ok (valM c w, s.adv w.length) := by
  induction w generalizing c k s with
  | nil => simp only [List.length_nil, uintX, valM]; rw [adv_zero s hb]
  | cons b w ih =>
    have hk' : k + (w.length + 1) ≤ 16 := hk
    have hlt : 2 * c < 65536 := by
      have : 2 ^ (k + 1) ≤ 2 ^ 16 := Nat.pow_le_pow_right (by decide) (by omega)
      rw [Nat.pow_succ] at this
      omega
    simp only [List.length_cons, uintX]
    rw [nextBit_ok s hb h]
    simp only [bind, Except.bind]
    have e : u16 (c <<< 1) = c <<< 1 := u16_small (by rw [Nat.shiftLeft_eq]; omega)
    rw [e, shl_or]
    rw [ih (2 * c + b.toNat) (k + 1) (s.adv 1) (adv_bit s 1) (by rw [bits_adv, h]; rfl)
      (by rw [Nat.pow_succ]; have := Bool.toNat_le b; omega) (by omega)]
    rw [adv_adv, Nat.add_comm 1]
    rfl

/-- the number with these bits, least significant first, from bit `a` on -/
def valL (a : Nat) : List Bool → Nat
  | [] => 0
  | b :: w => b.toNat * 2 ^ a + valL (a + 1) w

theorem valL_bound (a : Nat) (w : List Bool) : valL a w + 2 ^ a ≤ 2 ^ (a + w.length) := by
  induction w generalizing a with
  | nil => simp [valL]
  | cons b w ih =>
    have := ih (a + 1)
    rw [Nat.pow_succ] at this
    have hb := Bool.toNat_le b
    have hm : b.toNat * 2 ^ a ≤ 2 ^ a := by
      calc b.toNat * 2 ^ a ≤ 1 * 2 ^ a := Nat.mul_le_mul_right _ hb
        _ = 2 ^ a := Nat.one_mul _
    simp only [valL, List.length_cons]
    rw [show a + (w.length + 1) = a + 1 + w.length from by omega]
    omega

theorem uintXR_ok (w : List Bool) (a c : Nat) (s : St) (r : List Bool) (hb : s.bit < 8) (h : s.bits = w ++ r) (hc : c < 2 ^ a)
    (hk : a + w.length ≤ 16) : uintXR w.length a c s = .ok (c + valL a w, s.adv w.length) := by
  induction w generalizing a c s with
  | nil => simp only [List.length_nil, uintXR, valL]; rw [adv_zero s hb]; rfl
  | cons b w ih =>
    have hk' : a + (w.length + 1) ≤ 16 := hk
    have hor : c ||| (b.toNat <<< a) = c + b.toNat * 2 ^ a := by
      rw [Nat.or_comm, ← Nat.shiftLeft_add_eq_or_of_lt hc, Nat.shiftLeft_eq, Nat.add_comm]
    have hbl := Bool.toNat_le b
    have hm : b.toNat * 2 ^ a ≤ 2 ^ a := by
      calc b.toNat * 2 ^ a ≤ 1 * 2 ^ a := Nat.mul_le_mul_right _ hbl
        _ = 2 ^ a := Nat.one_mul _
    have hlt : c + b.toNat * 2 ^ a < 2 ^ (a + 1) := by rw [Nat.pow_succ]; omega
    have h16 : 2 ^ (a + 1) ≤ 2 ^ 16 := Nat.pow_le_pow_right (by decide) (by omega)
    simp only [List.length_cons, uintXR]
    rw [nextBit_ok s hb h]
    simp only [bind, Except.bind]
    rw [hor, u16_small (by omega)]
    rw [ih (a + 1) _ (s.adv 1) (adv_bit s 1) (by rw [bits_adv, h]; rfl) hlt (by omega)]
    rw [adv_adv, Nat.add_comm 1]
    simp only [valL]
    rw [Nat.add_assoc]

theorem numBits_length (n c : Nat) : (numBits n c).length = n := by
  induction n generalizing c with
  | zero => rfl
  | succ n ih => simp [numBits, ih]

theorem codeBits_length (n c : Nat) : (codeBits n c).length = n := by
  induction n with
  | zero => rfl
  | succ n ih => simp [codeBits, ih]

theorem valL_numBits (n c a : Nat) (h : c < 2 ^ n) : valL a (numBits n c) = c * 2 ^ a := by
  induction n generalizing c a with
  | zero => have : c = 0 := by simpa using h
            subst this; simp [numBits, valL]
  | succ n ih =>
    have hd : c / 2 < 2 ^ n := by rw [Nat.pow_succ] at h; omega
    simp only [numBits, valL]
    rw [ih (c / 2) (a + 1) hd]
    have ht : (c.testBit 0).toNat = c % 2 := by
      rw [Nat.testBit_zero]; rcases Nat.mod_two_eq_zero_or_one c with h | h <;> simp [h]
    rw [ht, Nat.pow_succ]
    have h2 : c / 2 * (2 ^ a * 2) = 2 * (c / 2) * 2 ^ a := by
      rw [Nat.mul_comm (2 ^ a) 2, ← Nat.mul_assoc, Nat.mul_comm (c / 2) 2]
    rw [h2, ← Nat.add_mul]
    congr 1; omega

/-- reading a number -/
theorem nextUIntXR_ok (n c : Nat) (s : St) (r : List Bool) (hb : s.bit < 8) (h : s.bits = numBits n c ++ r) (hc : c < 2 ^ n) (hn : n ≤ 16) :
    nextUIntXR n s = .ok (c, s.adv n) := by
  have := uintXR_ok (numBits n c) 0 0 s r hb h (by decide) (by rw [numBits_length]; omega)
  rw [numBits_length, valL_numBits n c 0 hc] at this
  unfold nextUIntXR
  rw [this]; simp

theorem testBit_div (c n : Nat) : (c / 2).testBit n = c.testBit (n + 1) := by
  rw [Nat.testBit_succ]

theorem codeBits_snoc (n c : Nat) : codeBits (n + 1) c = codeBits n (c / 2) ++ [c.testBit 0] := by
  induction n with
  | zero => rfl
  | succ n ih =>
    show c.testBit (n + 1) :: codeBits (n + 1) c = (c / 2).testBit n :: codeBits n (c / 2) ++ [c.testBit 0]
    rw [ih, testBit_div]; rfl

theorem valM_codeBits (n c : Nat) (h : c < 2 ^ n) : valM 0 (codeBits n c) = c := by
  induction n generalizing c with
  | zero => have : c = 0 := by simpa using h
            subst this; rfl
  | succ n ih =>
    have hd : c / 2 < 2 ^ n := by rw [Nat.pow_succ] at h; omega
    rw [codeBits_snoc, valM_append, ih _ hd]
    have ht : (c.testBit 0).toNat = c % 2 := by
      rw [Nat.testBit_zero]; rcases Nat.mod_two_eq_zero_or_one c with h | h <;> simp [h]
    simp only [valM, ht]; omega

theorem nextUIntX_ok (n c : Nat) (s : St) (r : List Bool) (hb : s.bit < 8) (h : s.bits = codeBits n c ++ r) (hc : c < 2 ^ n) (hn : n ≤ 16) :
    nextUIntX n s = .ok (c, s.adv n) := by
  have := uintX_ok (codeBits n c) 0 0 s r hb h (by decide) (by rw [codeBits_length]; omega)
  rw [codeBits_length, valM_codeBits n c hc] at this
  exact this

end Verif.Inflate
