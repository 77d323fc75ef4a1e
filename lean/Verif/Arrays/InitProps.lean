import Verif.Arrays.Props
/-
C49: the constructor with a buffer.
-/
namespace Verif.Arrays.Props
open Verif Verif.Arrays

/-- The constructor with a buffer and a length succeeds exactly if the buffer has that many bytes; the block then holds them and one 0
behind them. -/
theorem init_sized (buffer : List Byte) (n : Nat) :
    (n ≤ buffer.length → ∃ b, BA.init (some buffer) n = .ok b ∧ b.size = n ∧ b.block = (buffer.take n ++ [0]).map some) ∧
    (buffer.length < n → BA.init (some buffer) n = .error .ub) := by
  have e : BA.init (some buffer) n = BA.initSized buffer n := by
    unfold BA.init
    simp only
    rw [if_neg (by omega), Int.toNat_natCast]
  rw [e]
  unfold BA.initSized
  refine ⟨fun h => ?_, fun h => ?_⟩
  · rw [if_pos h]
    exact ⟨_, rfl, rfl, by simp [BA.block]⟩
  · rw [if_neg (by omega)]

/-- With a negative length the buffer is read up to its first 0, which must exist. -/
theorem init_terminated (l rest : List Byte) (h : ∀ x ∈ l, x ≠ 0) (size : Int) (hs : size < 0) :
    ∃ b, BA.init (some (l ++ 0 :: rest)) size = .ok b ∧ b.size = l.length ∧ b.block = (l ++ [0]).map some := by
  unfold BA.init
  simp only
  rw [if_pos hs, strlen_ok l rest h 0 (by omega)]
  simp only [bind, Except.bind]
  unfold BA.initSized
  rw [if_pos (by simp)]
  exact ⟨_, rfl, rfl, by simp [BA.block]⟩

example : BA.init (some [7, 8]) 2 = .ok ⟨some [some 7, some 8, some 0], 2⟩ := by rfl

end Verif.Arrays.Props
