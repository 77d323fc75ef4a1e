import Verif.Fp.Model
import Mathlib.Analysis.SpecialFunctions.Trigonometric.Inverse
import Mathlib.Analysis.SpecialFunctions.Complex.Arg
/-
The numbers of the geometric code.

The code is modelled once, for any type `K` with the operations of `double` (`Arith`), and used with
two types:

* `F64`, the IEEE doubles of Verif/Fp/Model.lean: what the program computes, with every rounding;
* `X`, the real numbers with an error value: what the program would compute without rounding.
  `X.nan` stands for NaN and for infinities (division by zero, roots of negative numbers); it
  spreads through all operations and makes all comparisons false.

The functions of libm (`Libm`) are only available for `X`.
-/
namespace Verif.Exact
open Verif

/-- the operations of `double` that are used -/
class Arith (K : Type) extends Add K, Sub K, Mul K, Div K, Neg K where
  /-- the decimal constant `n / d` -/
  lit : Int → Nat → K
  lt : K → K → Bool
  le : K → K → Bool
  eq : K → K → Bool
  abs : K → K
  nan : K

/-- `sqrt`, `cos`, `sin`, `acos`, `atan2` -/
class Libm (K : Type) extends Arith K where
  sqrt : K → K
  cos : K → K
  sin : K → K
  acos : K → K
  /-- arguments: y, x -/
  atan2 : K → K → K
  /-- `M_PI` -/
  pi : K

instance : Arith Fp.F64 where
  lit := Fp.lit
  lt := Fp.lt
  le := Fp.le
  eq := Fp.eq
  abs := Fp.abs
  nan := .nan

/-- a real number or an error -/
inductive X where
  | nan
  | r (x : ℝ)

namespace X

noncomputable section
open Classical

def map2 (f : ℝ → ℝ → ℝ) : X → X → X
  | r a, r b => r (f a b)
  | _, _ => nan
def rel (p : ℝ → ℝ → Prop) : X → X → Bool
  | r a, r b => decide (p a b)
  | _, _ => false
def map (f : ℝ → ℝ) : X → X
  | r a => r (f a)
  | nan => nan
def div : X → X → X
  | r a, r b => if b = 0 then nan else r (a / b)
  | _, _ => nan
def sqrt : X → X
  | r a => if a < 0 then nan else r (Real.sqrt a)
  | nan => nan
def acos : X → X
  | r a => if a < -1 ∨ 1 < a then nan else r (Real.arccos a)
  | nan => nan

instance : Libm X where
  add := map2 (· + ·)
  sub := map2 (· - ·)
  mul := map2 (· * ·)
  div := div
  neg := map (- ·)
  lit n d := r (n / d)
  lt := rel (· < ·)
  le := rel (· ≤ ·)
  eq := rel (· = ·)
  abs := map (|·|)
  nan := nan
  sqrt := sqrt
  cos := map Real.cos
  sin := map Real.sin
  acos := acos
  atan2 := map2 fun y x => Complex.arg ⟨x, y⟩
  pi := r Real.pi

end

@[simp] theorem add_r (a b : ℝ) : r a + r b = r (a + b) := rfl
@[simp] theorem sub_r (a b : ℝ) : r a - r b = r (a - b) := rfl
@[simp] theorem mul_r (a b : ℝ) : r a * r b = r (a * b) := rfl
@[simp] theorem neg_r (a : ℝ) : -(r a) = r (-a) := rfl
theorem div_r (a : ℝ) {b : ℝ} (h : b ≠ 0) : r a / r b = r (a / b) := by
  show div (r a) (r b) = _
  simp [div, h]
theorem div_zero (a : ℝ) : r a / r 0 = nan := by
  show div (r a) (r 0) = _
  simp [div]
@[simp] theorem abs_r (a : ℝ) : Arith.abs (r a) = r |a| := rfl
@[simp] theorem lit_r (n : Int) (d : Nat) : (Arith.lit n d : X) = r (n / d) := rfl
@[simp] theorem nan_eq : (Arith.nan : X) = nan := rfl
theorem lt_r (a b : ℝ) : Arith.lt (r a) (r b) = true ↔ a < b := by
  show rel _ _ _ = true ↔ _
  simp [rel]
theorem le_r (a b : ℝ) : Arith.le (r a) (r b) = true ↔ a ≤ b := by
  show rel _ _ _ = true ↔ _
  simp [rel]
theorem eq_r (a b : ℝ) : Arith.eq (r a) (r b) = true ↔ a = b := by
  show rel _ _ _ = true ↔ _
  simp [rel]
theorem sqrt_r {a : ℝ} (h : 0 ≤ a) : Libm.sqrt (r a) = r (Real.sqrt a) := by
  show sqrt (r a) = _
  simp [sqrt, not_lt.2 h]
@[simp] theorem cos_r (a : ℝ) : Libm.cos (r a) = r (Real.cos a) := rfl
@[simp] theorem sin_r (a : ℝ) : Libm.sin (r a) = r (Real.sin a) := rfl
theorem acos_r {a : ℝ} (h : -1 ≤ a) (h1 : a ≤ 1) : Libm.acos (r a) = r (Real.arccos a) := by
  show acos (r a) = _
  simp [acos, not_lt.2 h, not_lt.2 h1]
@[simp] theorem pi_r : (Libm.pi : X) = r Real.pi := rfl

end X

variable {K : Type} [Arith K]

/-! ### Comparison with tolerance -/

/-- include/core/Math.h:44 -/
def RESABS : K := Arith.lit 1 1000000
/-- Math.cpp:81-85 -/
def isEqual (v1 v2 : K) : Bool := let d := v2 - v1; Arith.lt d RESABS && Arith.lt (-(RESABS : K)) d
/-- Math.cpp:87-91 -/
def isNotEqual (v1 v2 : K) : Bool := let d := v2 - v1; !(Arith.lt d RESABS && Arith.lt (-(RESABS : K)) d)
/-- Math.cpp:93-96 -/
def isLess (v1 v2 : K) : Bool := Arith.le (v1 + RESABS) v2
/-- Math.cpp:98-101 -/
def isLessEqual (v1 v2 : K) : Bool := Arith.lt v1 (v2 + RESABS)
/-- Math.cpp:103-106 -/
def isGreater (v1 v2 : K) : Bool := Arith.le (v2 + RESABS) v1
/-- Math.cpp:108-111 -/
def isGreaterEqual (v1 v2 : K) : Bool := Arith.lt (v2 - RESABS) v1
/-- Math.cpp:113-116 `d != d` -/
def isNaN (d : K) : Bool := !(Arith.eq d d)

namespace X

theorem isEqual_r (a b : ℝ) : isEqual (r a) (r b) = true ↔ |a - b| < 1 / 10 ^ 6 := by
  simp only [isEqual, RESABS, sub_r, lit_r, neg_r, Bool.and_eq_true, lt_r]
  rw [abs_lt]
  norm_num
  constructor <;> rintro ⟨h1, h2⟩ <;> constructor <;> linarith
theorem isNotEqual_r (a b : ℝ) : isNotEqual (r a) (r b) = true ↔ 1 / 10 ^ 6 ≤ |a - b| := by
  have := isEqual_r a b
  simp only [isEqual] at this
  simp only [isNotEqual, Bool.not_eq_true', ← Bool.not_eq_true, this, not_lt]
theorem isLess_r (a b : ℝ) : isLess (r a) (r b) = true ↔ a + 1 / 10 ^ 6 ≤ b := by
  simp only [isLess, RESABS, add_r, lit_r, le_r]; norm_num
theorem isLessEqual_r (a b : ℝ) : isLessEqual (r a) (r b) = true ↔ a < b + 1 / 10 ^ 6 := by
  simp only [isLessEqual, RESABS, add_r, lit_r, lt_r]; norm_num
theorem isGreater_r (a b : ℝ) : isGreater (r a) (r b) = true ↔ b + 1 / 10 ^ 6 ≤ a := by
  simp only [isGreater, RESABS, add_r, lit_r, le_r]; norm_num
theorem isGreaterEqual_r (a b : ℝ) : isGreaterEqual (r a) (r b) = true ↔ b - 1 / 10 ^ 6 < a := by
  simp only [isGreaterEqual, RESABS, sub_r, lit_r, lt_r]; norm_num
theorem isNaN_iff (a : X) : isNaN a = true ↔ a = nan := by
  cases a with
  | nan => exact ⟨fun _ => rfl, fun _ => rfl⟩
  | r a =>
    have : Arith.eq (r a) (r a) = true := (eq_r a a).2 rfl
    simp [isNaN, this]

end X
end Verif.Exact
