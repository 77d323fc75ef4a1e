import Verif.DoubleFmt.Model
import Verif.DoubleFmt.Spec
import Verif.DateFmt.Lemmas
import Verif.Fp.Val
import Mathlib.Tactic.Linarith
import Mathlib.Tactic.FieldSimp
import Mathlib.Tactic.Positivity
import Mathlib.Tactic.NormNum
/-
Lemmas for C94.
-/
namespace Verif.DoubleFmt
open Verif Verif.Str Verif.Num Verif.Fp Verif.Math.Fl Verif.DoubleFmt.Spec

/-! ### the text -/

theorem padded_zero (w : Nat) : padded w 0 = List.replicate w 0x30 := by
  induction w with
  | zero => rfl
  | succ w ih =>
    show padded w (0 / 10) ++ [BitVec.ofNat 16 (48 + 0 % 10)] = _
    rw [show 0 / 10 = 0 from rfl, ih, List.replicate_succ']
    rfl

theorem dec_length_pos (n : Nat) : 1 ≤ (dec n).length := by
  unfold DateFmt.Spec.dec; split <;> simp

theorem pad_padded (w : Nat) : ∀ n : Nat, 1 ≤ w → n < 10 ^ w → padZeros w (dec n) = padded w n := by
  induction w with
  | zero => intro n h; omega
  | succ w ih =>
    intro n _ hn
    show _ = padded w (n / 10) ++ [BitVec.ofNat 16 (48 + n % 10)]
    by_cases h10 : n < 10
    · rw [DateFmt.dec1 h10, show n / 10 = 0 by omega, show n % 10 = n by omega, padded_zero]
      unfold padZeros
      congr 2
      simp
    · have hw : 1 ≤ w := by
        rcases Nat.eq_zero_or_pos w with h | h
        · subst h; simp at hn; omega
        · exact h
      rw [DateFmt.dec2 (by omega), ← ih (n / 10) hw (by rw [Nat.pow_succ] at hn; omega)]
      unfold padZeros
      rw [← List.append_assoc]
      congr 3
      simp only [List.length_append, List.length_cons, List.length_nil]
      omega

theorem padded_length (w : Nat) : ∀ n : Nat, (padded w n).length = w := by
  induction w with
  | zero => intro n; rfl
  | succ w ih => intro n; show (padded w (n / 10) ++ _).length = _; simp [ih]

/-- a number with decimal places that are not all 0 has one -/
theorem padded_ne (w : Nat) : ∀ n : Nat, n < 10 ^ w → n ≠ 0 → ∃ c ∈ padded w n, c ≠ 0x30 := by
  induction w with
  | zero => intro n h h0; simp at h; omega
  | succ w ih =>
    intro n h h0
    by_cases hd : n % 10 = 0
    · obtain ⟨c, hc, hn⟩ := ih (n / 10) (by rw [Nat.pow_succ] at h; omega) (by omega)
      exact ⟨c, List.mem_append_left _ hc, hn⟩
    · refine ⟨_, List.mem_append_right _ (List.mem_singleton.2 rfl), ?_⟩
      intro e
      have := congrArg BitVec.toNat e
      rw [BitVec.toNat_ofNat, show ((0x30 : Ch)).toNat = 48 from rfl] at this
      omega

theorem stripRev_drop (l : List Ch) (h : ∃ c ∈ l, c ≠ 0x30) : stripRev l = l.dropWhile (· = 0x30) := by
  induction l with
  | nil => simp at h
  | cons c l ih =>
    cases l with
    | nil =>
      obtain ⟨d, hd, hn⟩ := h
      rw [List.mem_singleton] at hd
      subst hd
      rw [List.dropWhile_cons_of_neg (by simpa using hn)]; rfl
    | cons d r =>
      unfold stripRev
      by_cases hc : c = 0x30
      · have h2 : ∃ c ∈ d :: r, c ≠ 0x30 := by
          obtain ⟨e, he, hn⟩ := h
          rcases List.mem_cons.1 he with h' | h'
          · exact absurd (h' ▸ hc) hn
          · exact ⟨e, h', hn⟩
        rw [if_pos hc, ih h2, List.dropWhile_cons_of_pos (a := c) (by simpa using hc)]
      · rw [if_neg hc, List.dropWhile_cons_of_neg (by simpa using hc)]

theorem assemble_fixed (neg : Bool) (B D p : Nat) (hp : 1 ≤ p) (hD : D < 10 ^ p) :
    assemble neg B D p false = .ok (fixedText neg (B * 10 ^ p + D) p) := by
  have h1 : (B * 10 ^ p + D) / 10 ^ p = B := by
    rw [Nat.mul_comm, Nat.mul_add_div (by positivity), Nat.div_eq_of_lt hD]; rfl
  have h2 : (B * 10 ^ p + D) % 10 ^ p = D := by
    rw [Nat.mul_comm, Nat.mul_add_mod, Nat.mod_eq_of_lt hD]
  unfold assemble fixedText Spec.sign
  rw [DateFmt.valueOf_dec, DateFmt.valueOf_dec, h1, h2]
  simp only [bind, Except.bind, pure, Except.pure, strip]
  rw [if_pos (Or.inr trivial)]
  simp only [Bool.false_eq_true, if_false]
  rw [pad_padded p D hp hD]
  cases neg <;> rfl

theorem assemble_short (neg : Bool) (B D p : Nat) (hD : D < 10 ^ p) :
    assemble neg B D p true = .ok (shortText neg (B * 10 ^ p + D) p) := by
  have h1 : (B * 10 ^ p + D) / 10 ^ p = B := by
    rw [Nat.mul_comm, Nat.mul_add_div (by positivity), Nat.div_eq_of_lt hD]; rfl
  have h2 : (B * 10 ^ p + D) % 10 ^ p = D := by
    rw [Nat.mul_comm, Nat.mul_add_mod, Nat.mod_eq_of_lt hD]
  unfold assemble shortText Spec.sign
  rw [DateFmt.valueOf_dec, DateFmt.valueOf_dec, h1, h2]
  simp only [bind, Except.bind, pure, Except.pure, strip]
  by_cases h0 : D = 0
  · subst h0
    rw [if_neg (by simp), if_pos rfl]
    cases neg <;> simp
  · have hp : 1 ≤ p := by
      rcases Nat.eq_zero_or_pos p with h | h
      · subst h; simp at hD; omega
      · exact h
    rw [if_pos (Or.inl (by omega)), if_neg h0]
    simp only [if_true]
    rw [pad_padded p D hp hD, stripRev_drop]
    · unfold List.rdropWhile
      cases neg <;> simp
    · obtain ⟨c, hc, hn⟩ := padded_ne p D hD h0
      exact ⟨c, List.mem_reverse.2 hc, hn⟩

end Verif.DoubleFmt
