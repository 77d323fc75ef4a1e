/-
Common vocabulary of the model.

C++ behaviour that has no defined result is never assumed away: it is the
distinct outcome `Fault.ub`.  A thrown `jm::Exception` is `Fault.thrown`.
-/
namespace Verif

/-- Abnormal outcomes of a modelled C++ call.
 * `ub`     – undefined behaviour (access outside an object, signed overflow …);
 * `thrown` – a `jm::Exception` (include/core/Exception.h) leaves the call. -/
inductive Fault where
  | ub
  | thrown
deriving DecidableEq, Repr

/-- Result of a modelled C++ call. -/
abbrev Res := Except Fault

instance instDecidableEqRes {α : Type} [DecidableEq α] : DecidableEq (Except Fault α) := fun a b =>
  match a, b with
  | .ok x, .ok y => if h : x = y then isTrue (by rw [h]) else isFalse (by intro e; cases e; exact h rfl)
  | .error x, .error y => if h : x = y then isTrue (by rw [h]) else isFalse (by intro e; cases e; exact h rfl)
  | .ok _, .error _ => isFalse (by intro e; cases e)
  | .error _, .ok _ => isFalse (by intro e; cases e)

/-- `uint8` (include/core/Types.h). -/
abbrev Byte := BitVec 8

/-- A raw memory block as seen through a `uint8*` pointer to its start. -/
abbrev Buf := List Byte

/-- Reading `buffer[i]` through a raw pointer: outside the block it is UB. -/
def rd {α : Type} (b : List α) (i : Nat) : Res α :=
  match b[i]? with
  | some x => .ok x
  | none => .error .ub

/-- Writing `buffer[i] = x` through a raw pointer: outside the block it is UB. -/
def wr {α : Type} (b : List α) (i : Nat) (x : α) : Res (List α) :=
  if i < b.length then .ok (b.set i x) else .error .ub

theorem rd_ok {α} {b : List α} {i : Nat} (h : i < b.length) : rd b i = .ok b[i] := by
  simp [rd, h]

theorem rd_ub {α} {b : List α} {i : Nat} (h : b.length ≤ i) : rd b i = .error .ub := by
  simp [rd, h]

theorem wr_ok {α} {b : List α} {i : Nat} {x : α} (h : i < b.length) :
    wr b i x = .ok (b.set i x) := by
  simp [wr, h]

/-- `ret[index++] = x` into a block of `cap` elements of which the first `index` have
been written (`out`); writing at or beyond `cap` is UB. -/
def emit {α : Type} (cap : Nat) (out : List α) (x : α) : Res (List α) :=
  if out.length < cap then .ok (out ++ [x]) else .error .ub

theorem emit_ok {α} {cap : Nat} {out : List α} {x : α} (h : out.length < cap) :
    emit cap out x = .ok (out ++ [x]) := by
  simp [emit, h]

end Verif
