import Verif.Fp.Val
/-
What the theorems of Verif/FpVec say about rounding errors.  `val x` is the rational number a finite double stands for.
-/
namespace Verif.FpVec
open Verif Verif.Fp

/-- the relative error of one rounding -/
def u : ℚ := 1 / 2 ^ 53
/-- the error of one rounding of a product that underflows: half of the smallest positive double -/
def eta : ℚ := 1 / 2 ^ 1075
/-- no intermediate result that is at most this large overflows -/
def huge : ℚ := 2 ^ 1023

/-- at most this much is lost by underflow in `n` products and their sum -/
def lost (n : Nat) : ℚ := n * (1 + u) ^ n * eta

/-- `r` is a finite double and differs from `e`, a sum of `n` terms with absolute values that add up to `a`, by no more
than `n` roundings can cause -/
def Near (r : F64) (e a : ℚ) (n : Nat) : Prop := Finite r ∧ |val r - e| ≤ ((1 + u) ^ n - 1) * a + lost n

/-- the permanent of the absolute values, by expansion along the first row: the sum of the absolute values of all products
that make up the determinant -/
def perm : Nat → (Nat → Nat → ℚ) → ℚ
  | 0, _ => 1
  | n + 1, g => ((List.range (n + 1)).map fun j => |g 0 j| * perm n fun i k => g (i + 1) (if k < j then k else k + 1)).sum

/-- the matrix without the row `i` and the column `j` -/
def minor (i j : Nat) (g : Nat → Nat → ℚ) : Nat → Nat → ℚ :=
  fun a b => g (if a < i then a else a + 1) (if b < j then b else b + 1)

/-- how far the computed determinant of `n` rows can be off (`det2_error`, `det3_error`, `det4_error`): the elements are at
most `B`, and the products the determinant is made of have absolute values that add up to `p` -/
def detErr (B p : ℚ) : Nat → ℚ
  | 0 => 0
  | 1 => 0
  | 2 => ((1 + u) ^ 2 - 1) * p + lost 2
  | 3 => ((1 + u) ^ 7 - 1) * p + 18 * (1 + u) ^ 7 * B * eta
  | _ => ((1 + u) ^ 12 - 1) * p + 120 * (1 + u) ^ 12 * B ^ 2 * eta

/-- `r` was computed for the element `x` of an inverse, of a matrix with the determinant `D`: the computed cofactor is off by
`eC` and the computed determinant by `eD` -/
def Off (r : F64) (x D eC eD : ℚ) : Prop :=
  Finite r ∧ |val r - x| ≤ 3 * (eC / |D| + |x| * (eD / |D| + 2 * u)) + eta

end Verif.FpVec
