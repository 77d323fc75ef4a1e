import Verif.Guess.Props
/-
C88: the guess for all streams, also those of fewer than three bytes.
-/
namespace Verif.Guess
open Verif Verif.Guess.Spec

/-- The streams that end inside of a mark. -/
def Cut (b : List Byte) : Prop := b = [] ∨ b = [0xFE] ∨ b = [0xFF] ∨ b = [0xEF] ∨ b = [0xEF, 0xBB]

instance (b : List Byte) : Decidable (Cut b) := by unfold Cut; infer_instance

/-- The result for every stream: bytes behind the end are read exactly for the empty stream and those that end inside of a mark;
all others have a result. -/
theorem guess_all (signed : Bool) (os : Os) (b : List Byte) : guess signed os b =
    if Cut b then .error .ub
    else .ok (if [0xFE, 0xFF] <+: b then lit "UTF-16BE" else if [0xFF, 0xFE] <+: b then lit "UTF-16LE"
      else if [0xEF, 0xBB, 0xBF] <+: b then lit "UTF-8"
      else if HalfZero b 0 then lit "UTF-16BE" else if HalfZero b 1 then lit "UTF-16LE" else guessRest signed os b) := by
  obtain ⟨u1, u2, u3, u4, u5⟩ := empty_stream signed os
  match b with
  | [] => rw [u1, if_pos (.inl rfl)]
  | [x] =>
    by_cases h1 : x = 0xFE
    · subst h1; rw [u2, if_pos (by decide)]
    by_cases h2 : x = 0xFF
    · subst h2; rw [u3, if_pos (by decide)]
    by_cases h3 : x = 0xEF
    · subst h3; rw [u4, if_pos (by decide)]
    rw [if_neg (by unfold Cut; simp; exact ⟨h1, h2, h3⟩)]
    have r0 : rd [x] 0 = .ok x := rfl
    simp only [guess, starts2, starts3, r0, bind, Except.bind, body_ok]
    rw [if_neg h1, if_neg h2, if_neg h3]
    simp [List.cons_prefix_cons]
  | [x, y] =>
    by_cases h : x = 0xEF ∧ y = 0xBB
    · obtain ⟨rfl, rfl⟩ := h; rw [u5, if_pos (by decide)]
    rw [if_neg (by unfold Cut; simp; tauto)]
    have hx : [0xEF, 0xBB] <+: [x, y] ↔ x = 0xEF ∧ y = 0xBB := by
      simp only [List.cons_prefix_cons, List.nil_prefix, and_true]
      exact and_congr eq_comm eq_comm
    have s3 : starts3 [x, y] 0xEF 0xBB 0xBF = .ok false := by
      simp only [starts3, starts2_ok (b := [x, y]) (by simp), bind, Except.bind]
      rw [if_neg (by rw [decide_eq_true_iff, hx]; exact h)]
    have h3 : ¬ ([0xEF, 0xBB, 0xBF] : List Byte) <+: [x, y] := fun e => by
      have := e.length_le
      simp at this
    simp only [guess, s3, starts2_ok (b := [x, y]) (by simp), bind, Except.bind, body_ok]
    rw [if_neg h3]
    by_cases h1 : ([0xFE, 0xFF] : List Byte) <+: [x, y]
    · rw [decide_eq_true h1, if_pos rfl, if_pos h1]
    · rw [decide_eq_false h1, if_neg (by simp), if_neg h1]
      by_cases h2 : ([0xFF, 0xFE] : List Byte) <+: [x, y]
      · rw [decide_eq_true h2, if_pos rfl, if_pos h2]
      · rw [decide_eq_false h2, if_neg (by simp), if_neg h2, if_neg (by simp)]
  | x :: y :: z :: t =>
    rw [if_neg (by unfold Cut; simp), guess_exact _ _ _ (by simp)]

/-- Bytes behind the end are read exactly for these five streams. -/
theorem guess_ub_iff (signed : Bool) (os : Os) (b : List Byte) :
    guess signed os b = .error .ub ↔ b = [] ∨ b = [0xFE] ∨ b = [0xFF] ∨ b = [0xEF] ∨ b = [0xEF, 0xBB] := by
  rw [guess_all]
  by_cases h : Cut b
  · rw [if_pos h]; exact ⟨fun _ => h, fun _ => rfl⟩
  · rw [if_neg h]; exact ⟨fun e => absurd e (by intro hh; cases hh), fun e => absurd e h⟩

/-- The guess never fails in another way. -/
theorem guess_no_other_error (signed : Bool) (os : Os) (b : List Byte) : guess signed os b = .error .ub ∨ ∃ n, guess signed os b = .ok n := by
  rw [guess_all]
  split
  · exact .inl rfl
  · exact .inr ⟨_, rfl⟩

/-- Two bytes without mark and without zeros, from which nothing is read behind the end. -/
example : ¬ Cut [0x41, 0x42] ∧ ¬ ([0xFE, 0xFF] : List Byte) <+: [0x41, 0x42] ∧ guess true .linux [0x41, 0x42] = .ok (lit "ASCII") :=
  ⟨by decide, by decide, by decide +kernel⟩

end Verif.Guess
