import Verif.Base
/-
The bubble sort that occurs with the same statements in ByteArray::sort (src/core/ByteArray.cpp:148-174),
StringList::sort (src/core/StringList.cpp:110-138), Array<T>::sort, Array<T*>::sort and
FloatArray::Sort (include/core/Array.h:86-113, 209-236, 330-356).  `gt a b` is the test that triggers
the exchange: `a1 > a2` or `a1.compareTo(a2) > 0`.
-/
namespace Verif.Sort
open Verif
variable {α : Type}

/-- ByteArray.cpp:156-170: `for(i = 0; i < n - 1; ++i)`; returns `newn` and the data. -/
def pass (gt : α → α → Bool) (n i newn : Nat) (v : List α) : Res (Nat × List α) :=
  if i + 1 < n then do
    let a1 ← rd v i
    let a2 ← rd v (i + 1)
    if gt a1 a2 then
      let v ← wr v i a2
      let v ← wr v (i + 1) a1
      pass gt n (i + 1) (i + 1) v
    else pass gt n (i + 1) newn v
  else .ok (newn, v)
termination_by n - i

theorem pass_newn (gt : α → α → Bool) (n i newn : Nat) (v : List α) (m : Nat) (w : List α)
    (h : pass gt n i newn v = .ok (m, w)) : m = newn ∨ m < n := by
  induction hk : n - i generalizing i newn v with
  | zero => rw [pass, if_neg (by omega)] at h; cases h; exact Or.inl rfl
  | succ k ih =>
    rw [pass] at h
    split at h
    · cases h1 : rd v i with
      | error e => rw [h1] at h; cases h
      | ok a1 =>
        rw [h1] at h
        simp only [bind, Except.bind] at h
        cases h2 : rd v (i + 1) with
        | error e => rw [h2] at h; cases h
        | ok a2 =>
          rw [h2] at h
          simp only at h
          split at h
          · cases h3 : wr v i a2 with
            | error e => rw [h3] at h; cases h
            | ok v1 =>
              rw [h3] at h
              simp only at h
              cases h4 : wr v1 (i + 1) a1 with
              | error e => rw [h4] at h; cases h
              | ok v2 =>
                rw [h4] at h
                simp only at h
                rcases ih _ _ _ h (by omega) with h | h
                · right; omega
                · exact Or.inr h
          · exact ih _ _ _ h (by omega)
    · cases h; exact Or.inl rfl

/-- ByteArray.cpp:153-173: `do … while(n > 1)` -/
def sortLoop (gt : α → α → Bool) (n : Nat) (v : List α) : Res (List α) :=
  match h : pass gt n 0 1 v with
  | .error e => .error e
  | .ok (newn, v) => if newn > 1 then sortLoop gt newn v else .ok v
termination_by n
decreasing_by
  rcases pass_newn gt n 0 1 _ newn v h with h | h <;> omega

/-- ByteArray.cpp:148-174 `sort`; `size` is the number of elements, the block may be longer. -/
def sort (gt : α → α → Bool) (size : Nat) (v : List α) : Res (List α) :=
  if size < 1 then .ok v else sortLoop gt size v

end Verif.Sort
