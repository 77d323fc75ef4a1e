import Verif.MemStream.Model
/-
Specification, independent of the code: a tape of fixed length with a cursor, and the log of all writes.
-/
namespace Verif.MemStream.Spec
open Verif Verif.MemStream

structure Tape where
  init : List Byte
  /-- the writes, latest first: where and what -/
  log : List (Nat × List Byte)
  pos : Nat
  /-- end of the farthest write since the last `open` -/
  high : Nat

/-- the byte last written at `q`, or the initial one -/
def lastByte (init : List Byte) : List (Nat × List Byte) → Nat → Option Byte
  | [], q => init[q]?
  | (p, bs) :: log, q => if p ≤ q ∧ q < p + bs.length then bs[q - p]? else lastByte init log q

/-- the `n` bytes from `p` on -/
def slice (init : List Byte) (log : List (Nat × List Byte)) (p n : Nat) : List Byte :=
  (List.range n).filterMap (fun i => lastByte init log (p + i))

def Tape.new (init : List Byte) : Tape := ⟨init, [], 0, 0⟩

def inI64 (x : Int) : Prop := -(2 ^ 63) ≤ x ∧ x < 2 ^ 63

/-- What every client must respect: its own buffer is as long as it says, and int64 does not overflow. -/
def ClientOk (t : Tape) : Op → Prop
  | .read b n => n ≤ b.length ∧ inI64 (t.pos + n)
  | .write b n => 0 ≤ n ∧ n ≤ b.length ∧ inI64 (t.pos + n)
  | .move d => inI64 (t.pos + d)
  | _ => True

/-- What a client must respect in addition because the code does not: writes fit, no negative position. -/
def CodeOk (t : Tape) : Op → Prop
  | .write _ n => t.pos + n ≤ t.init.length
  | .seek q => 0 ≤ q
  | .move d => 0 ≤ t.pos + d
  | _ => True

/-- the cursor goes to `q` if there is a byte there, otherwise it stays -/
def goTo (t : Tape) (q : Int) : Tape := if q < t.init.length then { t with pos := q.toNat } else t

/-- one call on the tape -/
def step (t : Tape) : Op → Out × Tape
  | .openS => (⟨0, [], 0⟩, { t with pos := 0, high := 0 })
  | .close => (⟨0, [], 0⟩, { t with pos := 0 })
  | .read b n =>
    let k := min n.toNat (t.init.length - t.pos)
    (⟨k, slice t.init t.log t.pos k ++ b.drop k, (t.pos + k : Nat)⟩, { t with pos := t.pos + k })
  | .write b n =>
    let k := n.toNat
    (⟨n, [], (t.pos + k : Nat)⟩,
      { t with log := (t.pos, b.take k) :: t.log, pos := t.pos + k, high := max t.high (t.pos + k) })
  | .seek q => (⟨0, [], (goTo t q).pos⟩, goTo t q)
  | .move d => (⟨0, [], (goTo t (t.pos + d)).pos⟩, goTo t (t.pos + d))

def run (t : Tape) : List Op → List Out × Tape
  | [] => ([], t)
  | o :: os => ((step t o).1 :: (run (step t o).2 os).1, (run (step t o).2 os).2)

/-- every call of the history satisfies `P` at the state it is made in -/
def All (P : Tape → Op → Prop) (t : Tape) : List Op → Prop
  | [] => True
  | o :: os => P t o ∧ All P (step t o).2 os

end Verif.MemStream.Spec
