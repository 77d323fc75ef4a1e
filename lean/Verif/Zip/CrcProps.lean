import Verif.Zip.WriteLemmas
import Mathlib.Algebra.Polynomial.Div
import Mathlib.Algebra.Field.ZMod
import Mathlib.Tactic.ComputeDegree
import Mathlib.Algebra.CharP.Two
import Mathlib.RingTheory.Coprime.Lemmas
/-
C67: the CRC in an archive is CRC-32, as a remainder of polynomials over the field of two elements.
-/
namespace Verif.Zip
open Verif Polynomial

/-- the generator of CRC-32 (ISO 3309) -/
noncomputable def gen : (ZMod 2)[X] :=
  X ^ 32 + X ^ 26 + X ^ 23 + X ^ 22 + X ^ 16 + X ^ 12 + X ^ 11 + X ^ 10 + X ^ 8 + X ^ 7 + X ^ 5 + X ^ 4 + X ^ 2 + X + 1

noncomputable def coef (b : Bool) : (ZMod 2)[X] := if b then 1 else 0

/-- a message as a polynomial: its first bit is the highest coefficient -/
noncomputable def polyOf (bits : List Bool) : (ZMod 2)[X] := bits.foldl (fun p b => X * p + coef b) 0

/-- a CRC as a polynomial: the lowest bit belongs to X^31 -/
noncomputable def crcPoly (r : BitVec 32) : (ZMod 2)[X] := polyOf ((List.range 32).map fun i => r.getLsbD i)

theorem two_eq : (2 : (ZMod 2)[X]) = 0 := by
  have : (2 : (ZMod 2)[X]) = C (2 : ZMod 2) := by rw [map_ofNat]
  rw [this, show (2 : ZMod 2) = 0 from rfl, C_0]

theorem add_self (p : (ZMod 2)[X]) : p + p = 0 := by
  rw [← two_mul, two_eq, zero_mul]

theorem coef_xor (a b : Bool) : coef (a ^^ b) = coef a + coef b := by
  cases a <;> cases b <;> simp [coef, add_self]

theorem polyOf_snoc (l : List Bool) (b : Bool) : polyOf (l ++ [b]) = X * polyOf l + coef b := by
  simp [polyOf]

theorem polyOf_foldl (l : List Bool) (p : (ZMod 2)[X]) : l.foldl (fun p b => X * p + coef b) p = X ^ l.length * p + polyOf l := by
  induction l using List.reverseRecOn with
  | nil => simp [polyOf]
  | append_singleton l b ih =>
    rw [List.foldl_append, polyOf_snoc]
    simp only [List.foldl_cons, List.foldl_nil, ih, List.length_append, List.length_cons, List.length_nil]
    ring

theorem polyOf_append (l m : List Bool) : polyOf (l ++ m) = X ^ m.length * polyOf l + polyOf m := by
  rw [polyOf, List.foldl_append, polyOf_foldl]
  rfl

theorem polyOf_cons (b : Bool) (l : List Bool) : polyOf (b :: l) = X ^ l.length * coef b + polyOf l := by
  rw [← List.singleton_append, polyOf_append]
  simp [polyOf]

theorem polyOf_zipXor : ∀ (l m : List Bool), l.length = m.length → polyOf (List.zipWith (fun a b => a ^^ b) l m) = polyOf l + polyOf m := by
  intro l
  induction l with
  | nil => intro m h; cases m with
    | nil => simp [polyOf]
    | cons _ _ => simp at h
  | cons a l ih =>
    intro m h
    cases m with
    | nil => simp at h
    | cons b m =>
      simp only [List.length_cons, Nat.add_right_cancel_iff] at h
      rw [List.zipWith_cons_cons, polyOf_cons, polyOf_cons, polyOf_cons, ih m h, coef_xor, List.length_zipWith, h, Nat.min_self]
      ring

theorem crcPoly_xor (a b : BitVec 32) : crcPoly (a ^^^ b) = crcPoly a + crcPoly b := by
  unfold crcPoly
  rw [← polyOf_zipXor _ _ (by simp)]
  congr 1
  rw [List.zipWith_map, List.zipWith_self]
  simp

theorem crcPoly_shift (r : BitVec 32) : crcPoly (r >>> 1) + X ^ 32 * coef (r.getLsbD 0) = X * crcPoly r := by
  unfold crcPoly
  have h1 : (List.range 32).map (fun i => (r >>> 1).getLsbD i) = ((List.range 31).map fun i => r.getLsbD (i + 1)) ++ [false] := by
    have e1 : ((List.range 31).map fun i => (r >>> 1).getLsbD i) = (List.range 31).map fun i => r.getLsbD (i + 1) := by
      apply List.map_congr_left
      intro i _
      rw [BitVec.getLsbD_ushiftRight, Nat.add_comm]
    rw [List.range_succ, List.map_append, e1, List.map_singleton, BitVec.getLsbD_ushiftRight]
    simp
  have h2 : (List.range 32).map (fun i => r.getLsbD i) = r.getLsbD 0 :: (List.range 31).map fun i => r.getLsbD (i + 1) := by
    rw [List.range_succ_eq_map, List.map_cons, List.map_map]
    rfl
  rw [h1, h2, polyOf_snoc, polyOf_cons]
  simp only [List.length_map, List.length_range]
  have : coef false = 0 := by simp [coef]
  rw [this]
  ring

theorem crcPoly_gen : crcPoly 0xEDB88320 + X ^ 32 = gen := by
  have : (List.range 32).map (fun i => (0xEDB88320 : BitVec 32).getLsbD i) = [false, false, false, false, false, true, false, false, true, true, false, false, false, false,
    false, true, false, false, false, true, true, true, false, true, true, false, true, true, false, true, true, true] := by decide
  unfold crcPoly
  rw [this]
  simp only [polyOf, List.foldl_cons, List.foldl_nil, coef, gen]
  simp only [if_true, Bool.false_eq_true, if_false]
  ring

theorem crcStep_poly (r : BitVec 32) (b : Bool) : ∃ c, crcPoly (crcStep r b) = X * crcPoly r + X ^ 32 * coef b + c * gen := by
  have hs := crcPoly_shift r
  unfold crcStep
  by_cases h : r.getLsbD 0 ≠ b
  · refine ⟨1, ?_⟩
    rw [if_pos h, crcPoly_xor, ← hs, ← crcPoly_gen]
    have hb : coef (r.getLsbD 0) + coef b = 1 := by
      revert h
      cases r.getLsbD 0 <;> cases b <;> simp [coef]
    have e : crcPoly (r >>> 1) + X ^ 32 * coef (r.getLsbD 0) + X ^ 32 * coef b + (1 : (ZMod 2)[X]) * (crcPoly 0xEDB88320 + X ^ 32) =
        crcPoly (r >>> 1) + crcPoly 0xEDB88320 + X ^ 32 * (coef (r.getLsbD 0) + coef b) + X ^ 32 := by ring
    rw [e, hb, mul_one, add_assoc, add_self, add_zero]
  · refine ⟨0, ?_⟩
    rw [if_neg h, ← hs]
    have hb : r.getLsbD 0 = b := by simpa using h
    rw [hb, zero_mul, add_zero, add_assoc, add_self, add_zero]

theorem crcFold_poly (bits : List Bool) (r : BitVec 32) : ∃ c, crcPoly (bits.foldl crcStep r) = X ^ bits.length * crcPoly r + X ^ 32 * polyOf bits + c * gen := by
  induction bits using List.reverseRecOn with
  | nil => exact ⟨0, by simp [polyOf]⟩
  | append_singleton l b ih =>
    obtain ⟨c, hc⟩ := ih
    obtain ⟨d, hd⟩ := crcStep_poly (l.foldl crcStep r) b
    refine ⟨X * c + d, ?_⟩
    rw [List.foldl_append, List.foldl_cons, List.foldl_nil, hd, hc, polyOf_snoc, List.length_append]
    simp only [List.length_cons, List.length_nil]
    ring

theorem coef_degree (b : Bool) : (coef b).degree ≤ 0 := by
  cases b <;> simp [coef]

theorem polyOf_degree (l : List Bool) : (polyOf l).degree < (l.length : WithBot ℕ) := by
  induction l using List.reverseRecOn with
  | nil => simp [polyOf]
  | append_singleton l b ih =>
    rw [polyOf_snoc]
    refine lt_of_le_of_lt (degree_add_le _ _) (max_lt ?_ ?_)
    · by_cases h0 : polyOf l = 0
      · rw [h0, mul_zero, degree_zero]
        exact WithBot.bot_lt_coe _
      · rw [degree_eq_natDegree (mul_ne_zero X_ne_zero h0), natDegree_X_mul h0]
        rw [degree_eq_natDegree h0] at ih
        have := WithBot.coe_lt_coe.1 ih
        exact WithBot.coe_lt_coe.2 (by simpa using this)
    · exact lt_of_le_of_lt (coef_degree b) (WithBot.coe_lt_coe.2 (by simp))

theorem gen_monic : gen.Monic := by
  unfold gen
  monicity!

theorem gen_degree : gen.degree = 32 := by
  unfold gen
  compute_degree!

theorem bitsOf_length (l : List Byte) : (Inflate.bitsOf l).length = 8 * l.length := by
  induction l with
  | nil => rfl
  | cons a l ih => simp only [Inflate.bitsOf, List.flatMap_cons, List.length_append, List.length_cons] at ih ⊢; rw [ih]; simp [Inflate.byteBits]; omega

/-- **C67**: the value is the complement of the remainder of the message – with its first 32 bits inverted and 32 zero bits appended – on division
by the generator of CRC-32, for every message. -/
theorem crc32_remainder (data : List Byte) :
    crcPoly (~~~ crc32 data) = (X ^ 32 * polyOf (Inflate.bitsOf data) + X ^ (8 * data.length) * polyOf (List.replicate 32 true)) %ₘ gen := by
  rw [crc32_ok, stdCrc, BitVec.not_not]
  obtain ⟨c, hc⟩ := crcFold_poly (Inflate.bitsOf data) 0xFFFFFFFF
  have hones : crcPoly 0xFFFFFFFF = polyOf (List.replicate 32 true) := by
    unfold crcPoly
    congr 1
  rw [hones, bitsOf_length] at hc
  have hdeg : (crcPoly ((Inflate.bitsOf data).foldl crcStep 0xFFFFFFFF)).degree < gen.degree := by
    rw [gen_degree]
    have := polyOf_degree ((List.range 32).map fun i => ((Inflate.bitsOf data).foldl crcStep 0xFFFFFFFF : BitVec 32).getLsbD i)
    simpa [crcPoly] using this
  rw [← (modByMonic_eq_self_iff gen_monic).2 hdeg, hc, add_comm (X ^ 32 * _)]
  rw [add_modByMonic, mul_comm c, self_mul_modByMonic gen_monic, add_zero]

/-- the check value of CRC-32 -/
example : crc32 [0x31, 0x32, 0x33, 0x34, 0x35, 0x36, 0x37, 0x38, 0x39] = 0xCBF43926 := by decide +kernel

theorem polyOf_inj : ∀ (l m : List Bool), l.length = m.length → polyOf l = polyOf m → l = m := by
  intro l
  induction l using List.reverseRecOn with
  | nil => intro m h _; simpa using h.symm
  | append_singleton l a ih =>
    intro m h hp
    induction m using List.reverseRecOn with
    | nil => simp at h
    | append_singleton m b _ =>
      simp only [List.length_append, List.length_cons, List.length_nil, Nat.add_right_cancel_iff] at h
      rw [polyOf_snoc, polyOf_snoc] at hp
      have h0 := congrArg (fun p => p.coeff 0) hp
      have hab : a = b := by
        revert h0
        cases a <;> cases b <;> simp [coef]
      subst hab
      have := mul_left_cancel₀ X_ne_zero (add_right_cancel hp)
      rw [ih m h this]

theorem gen_coprime : IsCoprime gen X :=
  ⟨1, -(X ^ 31 + X ^ 25 + X ^ 22 + X ^ 21 + X ^ 15 + X ^ 11 + X ^ 10 + X ^ 9 + X ^ 7 + X ^ 6 + X ^ 4 + X ^ 3 + X + 1), by unfold gen; ring⟩

theorem bitsOf_inj {a b : List Byte} (h : Inflate.bitsOf a = Inflate.bitsOf b) : a = b := by
  induction a generalizing b with
  | nil =>
    have := congrArg List.length h
    rw [bitsOf_length, bitsOf_length] at this
    simp at this
    exact this.symm
  | cons x a ih =>
    cases b with
    | nil =>
      have := congrArg List.length h
      rw [bitsOf_length, bitsOf_length] at this
      simp at this
    | cons y b =>
      simp only [Inflate.bitsOf, List.flatMap_cons] at h ih
      obtain ⟨h1, h2⟩ := List.append_inj h (by simp [Inflate.byteBits])
      rw [ih h2]
      congr 1
      apply BitVec.eq_of_getLsbD_eq
      intro i hi
      have := congrArg (fun l => l[i]?) h1
      simpa [Inflate.byteBits, hi] using this

/-- **C67**: two messages of the same length have the same CRC exactly when the generator divides their difference. -/
theorem crc32_collides_iff (a b : List Byte) (h : a.length = b.length) :
    crc32 a = crc32 b ↔ gen ∣ polyOf (Inflate.bitsOf a) - polyOf (Inflate.bitsOf b) := by
  have ha := crc32_remainder a
  have hb := crc32_remainder b
  have hiff : crc32 a = crc32 b ↔ crcPoly (~~~ crc32 a) = crcPoly (~~~ crc32 b) := by
    constructor
    · intro he; rw [he]
    · intro he
      have hl := polyOf_inj _ _ (by simp) he
      have h1 : ~~~ crc32 a = ~~~ crc32 b := by
        apply BitVec.eq_of_getLsbD_eq
        intro i hi
        have := congrArg (fun l => l[i]?) hl
        simpa [hi] using this
      have := congrArg (fun x => ~~~ x) h1
      simpa using this
  rw [hiff, ha, hb, h, ← sub_eq_zero, ← sub_modByMonic, modByMonic_eq_zero_iff_dvd gen_monic]
  have e : X ^ 32 * polyOf (Inflate.bitsOf a) + X ^ (8 * b.length) * polyOf (List.replicate 32 true) -
      (X ^ 32 * polyOf (Inflate.bitsOf b) + X ^ (8 * b.length) * polyOf (List.replicate 32 true)) =
      X ^ 32 * (polyOf (Inflate.bitsOf a) - polyOf (Inflate.bitsOf b)) := by ring
  rw [e]
  have hcop : IsCoprime gen (X ^ 32) := gen_coprime.pow_right
  exact ⟨fun h => hcop.dvd_of_dvd_mul_left h, fun h => Dvd.dvd.mul_left h _⟩

/-- **C67**: damage confined to 32 consecutive bits always changes the CRC. -/
theorem crc32_detects_burst (a b : List Byte) (p u v q : List Bool) (ha : Inflate.bitsOf a = p ++ u ++ q) (hb : Inflate.bitsOf b = p ++ v ++ q)
    (hl : u.length = v.length) (h32 : u.length ≤ 32) (hne : a ≠ b) : crc32 a ≠ crc32 b := by
  have hlen : a.length = b.length := by
    have h1 := congrArg List.length ha
    have h2 := congrArg List.length hb
    rw [bitsOf_length] at h1 h2
    simp only [List.length_append] at h1 h2
    omega
  intro he
  have hd := (crc32_collides_iff a b hlen).1 he
  have e : polyOf (Inflate.bitsOf a) - polyOf (Inflate.bitsOf b) = X ^ q.length * (polyOf u - polyOf v) := by
    rw [ha, hb, polyOf_append, polyOf_append, polyOf_append, polyOf_append, hl]
    ring
  rw [e] at hd
  have hd2 : gen ∣ polyOf u - polyOf v := (show IsCoprime gen (X ^ q.length) from gen_coprime.pow_right).dvd_of_dvd_mul_left hd
  have hz : polyOf u - polyOf v = 0 := by
    by_contra h0
    have h1 := degree_le_of_dvd hd2 h0
    have h2 : (polyOf u - polyOf v).degree < (32 : WithBot ℕ) := by
      refine lt_of_le_of_lt (degree_sub_le _ _) (max_lt ?_ ?_)
      · exact lt_of_lt_of_le (polyOf_degree u) (by exact_mod_cast h32)
      · exact lt_of_lt_of_le (polyOf_degree v) (by exact_mod_cast hl ▸ h32)
    rw [gen_degree] at h1
    exact absurd (lt_of_le_of_lt h1 h2) (lt_irrefl _)
  have huv := polyOf_inj u v hl (sub_eq_zero.1 hz)
  exact hne (bitsOf_inj (by rw [ha, hb, huv]))

example : ∃ p u v q, Inflate.bitsOf [1, 0xF0, 7] = p ++ u ++ q ∧ Inflate.bitsOf [1, 0x3F, 6] = p ++ v ++ q ∧ u.length = v.length ∧ u.length ≤ 32 :=
  ⟨(Inflate.bitsOf [1, 0xF0, 7]).take 8, ((Inflate.bitsOf [1, 0xF0, 7]).drop 8).take 9, ((Inflate.bitsOf [1, 0x3F, 6]).drop 8).take 9, (Inflate.bitsOf [1, 0xF0, 7]).drop 17,
    by decide, by decide, by decide, by decide⟩

end Verif.Zip
