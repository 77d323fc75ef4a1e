import Verif.Inflate.Tree
/-
What the parts of the decompressor do with the bits of a valid stream.
-/
namespace Verif.Inflate
open Verif

/-- the state after consuming `n` bits and extending the output to `o` -/
def Step (s : St) (n : Nat) (o : List Byte) (s' : St) : Prop :=
  ∃ c, o.length ≤ c ∧ s.out.length ≤ o.length ∧ s' = { s.adv n with out := o, cap := c, totalOut := s.totalOut + (o.length - s.out.length) }

/-- the output buffer exists and is large enough for the output so far -/
structure Fit (s : St) : Prop where
  bit : s.bit < 8
  null : s.null = false
  cap : s.out.length ≤ s.cap

theorem Step.fit {s s' : St} {n : Nat} {o : List Byte} (h : Step s n o s') (hf : Fit s) : Fit s' := by
  obtain ⟨c, hc, _, rfl⟩ := h
  exact ⟨adv_bit s n, hf.null, hc⟩

theorem Step.out {s s' : St} {n : Nat} {o : List Byte} (h : Step s n o s') : s'.out = o := by
  obtain ⟨c, _, _, rfl⟩ := h; rfl

theorem Step.pos {s s' : St} {n : Nat} {o : List Byte} (h : Step s n o s') : s'.pos = s.pos + n := by
  obtain ⟨c, _, _, rfl⟩ := h; exact pos_adv s n

theorem Step.bits {s s' : St} {n : Nat} {o : List Byte} (h : Step s n o s') : s'.bits = s.bits.drop n := by
  obtain ⟨c, _, _, rfl⟩ := h; exact bits_adv s n

theorem Step.same {s s' : St} {n : Nat} {o : List Byte} (h : Step s n o s') :
    s'.comp = s.comp ∧ s'.maxBits = s.maxBits ∧ s'.last = s.last ∧ s'.wrap = s.wrap ∧ s'.eof = s.eof := by
  obtain ⟨c, _, _, rfl⟩ := h; exact ⟨rfl, rfl, rfl, rfl, rfl⟩

theorem Step.le {s s' : St} {n : Nat} {o : List Byte} (h : Step s n o s') : s.out.length ≤ o.length := by
  obtain ⟨c, _, h, _⟩ := h; exact h

theorem Step.trans {s s1 s2 : St} {n m : Nat} {o o2 : List Byte} (h1 : Step s n o s1) (h2 : Step s1 m o2 s2) : Step s (n + m) o2 s2 := by
  have ho := h1.out
  obtain ⟨c, hc, hl, rfl⟩ := h1
  obtain ⟨c2, hc2, hl2, rfl⟩ := h2
  simp only at ho hl2
  refine ⟨c2, hc2, by omega, ?_⟩
  rw [← adv_adv]
  have e : s.totalOut + (o.length - s.out.length) + (o2.length - o.length) = s.totalOut + (o2.length - s.out.length) := by omega
  rw [← e]
  rfl

theorem Step.adv (s : St) (hf : Fit s) (n : Nat) : Step s n s.out (s.adv n) :=
  ⟨s.cap, hf.cap, Nat.le_refl _, by simp [St.adv]⟩

theorem Step.refl (s : St) (hf : Fit s) : Step s 0 s.out s := by
  have := Step.adv s hf 0
  rwa [adv_zero s hf.bit] at this

theorem Fit.adv {s : St} (hf : Fit s) (n : Nat) : Fit (s.adv n) := ⟨adv_bit s n, hf.null, hf.cap⟩

/-! ### output -/

theorem write_ok (s : St) (hf : Fit s) (hp : 8 ≤ s.pos) (b : Byte) : ∃ s', write s b = .ok s' ∧ Step s 0 (s.out ++ [b]) s' := by
  have hidx : s.idx ≠ 0 := by have := hf.bit; unfold St.pos at hp; omega
  have hz := adv_zero s hf.bit
  unfold write checkCapacity
  by_cases hc : s.out.length < s.cap
  · rw [if_pos hc]
    refine ⟨{ s with out := s.out ++ [b], totalOut := s.totalOut + 1 }, ?_, s.cap, by simp; omega, by simp, ?_⟩
    · show put s b = _
      simp only [put, hf.null, hc, if_true]; rfl
    · rw [hz]; simp
  · rw [if_neg hc, if_neg hidx]
    have hcap := hf.cap
    obtain ⟨c, hcd⟩ : ∃ c, c = s.cap + max 4096 (s.cap * s.comp.length / s.idx) := ⟨_, rfl⟩
    have hlt : s.out.length < c := by rw [hcd]; omega
    rw [← hcd]
    refine ⟨{ s with cap := c, out := s.out ++ [b], totalOut := s.totalOut + 1 }, ?_, c, by simp; omega, by simp, ?_⟩
    · show put { s with cap := c } b = _
      simp only [put, hf.null, hlt, if_true]; rfl
    · rw [hz]; simp

theorem copyBack_ok (n : Nat) (d : Nat) (s : St) (hf : Fit s) (hp : 8 ≤ s.pos) (hd : 1 ≤ d) (hd2 : d ≤ s.out.length) :
    ∃ s', copyBack n (s.out.length - d) s = .ok s' ∧ Step s 0 (copyFrom n d s.out) s' := by
  induction n generalizing s with
  | zero => exact ⟨s, rfl, Step.refl s hf⟩
  | succ n ih =>
    have hlt : s.out.length - d < s.out.length := by omega
    obtain ⟨s1, h1, h2⟩ := write_ok s hf hp s.out[s.out.length - d]
    have ho := h2.out
    have := ih s1 (h2.fit hf) (by rw [h2.pos]; omega) (by rw [ho]; simp; omega)
    obtain ⟨s2, h3, h4⟩ := this
    refine ⟨s2, ?_, ?_⟩
    · unfold copyBack
      rw [rd_ok hlt]
      simp only [bind, Except.bind]
      rw [h1]
      simp only
      rw [← h3, ho]
      congr 1
      simp; omega
    · have := h2.trans h4
      rw [ho] at this
      unfold copyFrom
      rw [show s.out.getD (s.out.length - d) 0 = s.out[s.out.length - d] by simp [List.getD_eq_getElem?_getD, hlt]]
      exact this

theorem copyFrom_length (n d : Nat) (out : List Byte) : (copyFrom n d out).length = out.length + n := by
  induction n generalizing out with
  | zero => rfl
  | succ n ih => unfold copyFrom; rw [ih]; simp; omega

/-! ### the tables -/

theorem length_rows : ∀ r ∈ lengthTable, 257 ≤ r.1 ∧ r.1 ≤ 285 ∧ rd LENGTH_EXTRA (r.1 - 257) = .ok r.2.1 ∧ rd LENGTH_OFFSET (r.1 - 257) = .ok r.2.2.1 ∧
    r.2.2.2 - r.2.2.1 < 2 ^ r.2.1 ∧ r.2.1 ≤ 16 ∧ r.2.2.2 ≤ 258 := by
  decide +kernel

theorem dist_rows : ∀ r ∈ distTable, r.1 < 30 ∧ rd DIST_EXTRA r.1 = .ok r.2.1 ∧ rd DIST_OFFSET r.1 = .ok r.2.2.1 ∧
    r.2.2.2 - r.2.2.1 < 2 ^ r.2.1 ∧ r.2.1 ≤ 16 ∧ r.2.2.2 ≤ 32768 := by
  decide +kernel

theorem row_mem (t : List (Nat × Nat × Nat × Nat)) (n : Nat) (h : ∃ r ∈ t, r.2.2.1 ≤ n ∧ n ≤ r.2.2.2) :
    row t n ∈ t ∧ (row t n).2.2.1 ≤ n ∧ n ≤ (row t n).2.2.2 := by
  unfold row
  cases hf : t.find? fun r => r.2.2.1 ≤ n ∧ n ≤ r.2.2.2 with
  | none =>
    obtain ⟨r, hr, h1⟩ := h
    have := List.find?_eq_none.1 hf r hr
    simp at this; omega
  | some r =>
    have h1 := List.mem_of_find?_eq_some hf
    have h2 := List.find?_some hf
    simp only [decide_eq_true_eq] at h2
    exact ⟨h1, h2⟩

theorem length_covers (n : Nat) (h : 3 ≤ n) (h2 : n ≤ 258) : ∃ r ∈ lengthTable, r.2.2.1 ≤ n ∧ n ≤ r.2.2.2 := by
  have : ∀ n : Fin 259, 3 ≤ n.val → ∃ r ∈ lengthTable, r.2.2.1 ≤ n.val ∧ n.val ≤ r.2.2.2 := by decide +kernel
  exact this ⟨n, by omega⟩ h

theorem dist_covers (n : Nat) (h : 1 ≤ n) (h2 : n ≤ 32768) : ∃ r ∈ distTable, r.2.2.1 ≤ n ∧ n ≤ r.2.2.2 := by
  simp only [distTable, List.mem_cons, List.not_mem_nil, or_false, exists_eq_or_imp, exists_eq_left]
  omega

theorem readLength_ok (n : Nat) (h3 : 3 ≤ n) (h258 : n ≤ 258) (s : St) (hb : s.bit < 8) (r : List Bool)
    (h : s.bits = numBits (row lengthTable n).2.1 (n - (row lengthTable n).2.2.1) ++ r) :
    readLength (row lengthTable n).1 s = .ok (n, s.adv (row lengthTable n).2.1) := by
  obtain ⟨hm, h1, h2⟩ := row_mem lengthTable n (length_covers n h3 h258)
  obtain ⟨_, _, e1, e2, hlt, h16, hm⟩ := length_rows _ hm
  unfold readLength
  rw [e1]
  simp only [bind, Except.bind, pure, Except.pure]
  rw [nextUIntXR_ok _ _ s r hb h (by omega) h16]
  simp only
  rw [e2]
  simp only
  rw [u16_small (by omega), Nat.sub_add_cancel h1]

theorem readDistance_ok (n : Nat) (h3 : 1 ≤ n) (h258 : n ≤ 32768) (s : St) (hb : s.bit < 8) (r : List Bool)
    (h : s.bits = numBits (row distTable n).2.1 (n - (row distTable n).2.2.1) ++ r) :
    readDistance (row distTable n).1 s = .ok (n, s.adv (row distTable n).2.1) := by
  obtain ⟨hm, h1, h2⟩ := row_mem distTable n (dist_covers n h3 h258)
  obtain ⟨_, e1, e2, hlt, h16, hm⟩ := dist_rows _ hm
  unfold readDistance
  rw [e1]
  simp only [bind, Except.bind, pure, Except.pure]
  rw [nextUIntXR_ok _ _ s r hb h (by omega) h16]
  simp only
  rw [e2]
  simp only
  rw [u16_small (by omega), Nat.sub_add_cancel h1]

/-! ### the fixed codes -/

theorem fixedLit_len (v : Nat) (h : v < 288) : fixedLit.getD v 0 = if v < 144 then 8 else if v < 256 then 9 else if v < 280 then 7 else 8 := by
  have : ∀ v : Fin 288, fixedLit.getD v.val 0 = if v.val < 144 then 8 else if v.val < 256 then 9 else if v.val < 280 then 7 else 8 := by decide +kernel
  exact this ⟨v, h⟩

theorem fixedLit_canon (v : Nat) (h : v < 288) :
    canon fixedLit v = if v < 144 then 0x30 + v else if v < 256 then 0x190 + (v - 144) else if v < 280 then v - 256 else 0xC0 + (v - 280) := by
  have hl := fixedLit_len v h
  have h0 : fixedLit.getD v 0 ≠ 0 := by rw [hl]; split <;> (try split) <;> (try split) <;> simp
  rw [canon_eq fixedLit v h0]
  have : ∀ v : Fin 288, start fixedLit (fixedLit.getD v.val 0) + (fixedLit.take v.val).count (fixedLit.getD v.val 0) =
      if v.val < 144 then 0x30 + v.val else if v.val < 256 then 0x190 + (v.val - 144) else if v.val < 280 then v.val - 256 else 0xC0 + (v.val - 280) := by
    decide +kernel
  exact this ⟨v, h⟩

theorem fixedDist_word (v : Nat) (h : v < 30) : codeWord fixedDist v = codeBits 5 v := by
  have hl : ∀ v : Fin 32, fixedDist.getD v.val 0 = 5 := by decide +kernel
  have hl := hl ⟨v, by omega⟩
  unfold codeWord
  rw [canon_eq _ _ (by rw [hl]; simp)]
  simp only at hl
  rw [hl]
  have : ∀ v : Fin 32, start fixedDist 5 + (fixedDist.take v.val).count 5 = v.val := by decide +kernel
  have := this ⟨v, by omega⟩
  simp only at this
  rw [this]

theorem testBit0 (c : Nat) : (c.testBit 0).toNat = c % 2 := by
  rw [Nat.testBit_zero]
  have := Nat.mod_two_eq_zero_or_one c
  rcases this with h | h <;> simp [h]

theorem shl_or_bit (c : Nat) (h : c < 512) : u16 ((c / 2) <<< 1) ||| (c.testBit 0).toNat = c := by
  rw [u16_small (by rw [Nat.shiftLeft_eq]; omega), shl_or, testBit0]; omega

theorem nextFixedCode_ok (v : Nat) (hv : v < 288) (s : St) (hb : s.bit < 8) (r : List Bool) (h : s.bits = codeWord fixedLit v ++ r) :
    nextFixedCode s = .ok (v, s.adv (codeWord fixedLit v).length) := by
  have hl := fixedLit_len v hv
  have hc := fixedLit_canon v hv
  obtain ⟨c, hcd⟩ : ∃ c, c = canon fixedLit v := ⟨_, rfl⟩
  unfold codeWord at h ⊢
  rw [hl] at h ⊢
  rw [← hcd] at h hc ⊢
  rw [codeBits_length]
  unfold nextFixedCode
  by_cases h7 : 256 ≤ v ∧ v < 280
  · rw [if_neg (by omega), if_neg (by omega), if_pos (by omega)] at h hc ⊢
    rw [nextUIntX_ok 7 c s r hb h (by omega) (by omega)]
    simp only [bind, Except.bind, pure, Except.pure]
    rw [if_pos (by omega), u16_small (by omega)]
    congr 2; omega
  · by_cases h9 : 144 ≤ v ∧ v < 256
    · rw [if_neg (by omega), if_pos (by omega)] at h hc ⊢
      rw [codeBits_snoc 8, codeBits_snoc 7, List.append_assoc, List.append_assoc] at h
      rw [nextUIntX_ok 7 (c / 2 / 2) s _ hb h (by omega) (by omega)]
      simp only [bind, Except.bind, pure, Except.pure]
      rw [if_neg (by omega)]
      unfold fixedLong
      have hb1 : (s.adv 7).bits = (c / 2).testBit 0 :: (c.testBit 0 :: r) := by
        rw [bits_adv, h, List.drop_append_of_le_length (by rw [codeBits_length]; omega), List.drop_of_length_le (by rw [codeBits_length]; omega)]
        simp
      rw [nextBit_ok _ (adv_bit _ _) hb1]
      simp only [bind, Except.bind, pure, Except.pure]
      rw [shl_or_bit _ (by omega), if_neg (by omega), if_neg (by omega)]
      have hb2 : ((s.adv 7).adv 1).bits = c.testBit 0 :: r := by rw [bits_adv, hb1]; rfl
      rw [nextBit_ok _ (adv_bit _ _) hb2]
      simp only
      rw [shl_or_bit _ (by omega), if_pos (by omega), adv_adv, adv_adv, show c - 256 = v by omega]
    · have e8 : (if v < 144 then 8 else if v < 256 then 9 else if v < 280 then 7 else 8) = 8 := by
        by_cases h1 : v < 144
        · rw [if_pos h1]
        · rw [if_neg h1, if_neg (by omega), if_neg (by omega)]
      rw [e8] at h ⊢
      rw [codeBits_snoc 7, List.append_assoc] at h
      have hcr : (0x30 ≤ c ∧ c ≤ 0xBF ∧ v = c - 0x30) ∨ (0xC0 ≤ c ∧ c ≤ 0xC7 ∧ v = c + 0x58) := by
        by_cases h1 : v < 144
        · rw [if_pos h1] at hc; omega
        · rw [if_neg h1, if_neg (by omega), if_neg (by omega)] at hc; omega
      rw [nextUIntX_ok 7 (c / 2) s _ hb h (by omega) (by omega)]
      simp only [bind, Except.bind, pure, Except.pure]
      rw [if_neg (by omega)]
      unfold fixedLong
      have hb1 : (s.adv 7).bits = c.testBit 0 :: r := by
        rw [bits_adv, h, List.drop_append_of_le_length (by rw [codeBits_length]; omega), List.drop_of_length_le (by rw [codeBits_length]; omega)]
        simp
      rw [nextBit_ok _ (adv_bit _ _) hb1]
      simp only [bind, Except.bind, pure, Except.pure]
      rw [shl_or_bit _ (by omega), adv_adv]
      rcases hcr with ⟨a1, a2, a3⟩ | ⟨a1, a2, a3⟩
      · rw [if_neg (by omega), if_pos (by omega), a3]
      · rw [if_pos (by omega), u16_small (by omega), a3]

end Verif.Inflate
