import Verif.Mat.Model
import Verif.Str.Concat
/-
C136: printing a Vector or a Matrix (Vector.cpp:105-111, Matrix.cpp:484-496).  `fmt` is the text std::ostream writes for a double (a
parameter).  The text is what the stream receives; undefined behaviour in the middle is undefined behaviour of the whole.
C137: the text of an Exception on Linux (Exception.cpp:13-63, 54-74, 139-203).
-/
namespace Verif.Print
open Verif

/-- the bytes of an ASCII text -/
def asc (s : String) : List Byte := s.toList.map fun c => BitVec.ofNat 8 c.toNat

/-- the inner loops: the elements with the given indices, each followed by a blank -/
def elements {K : Type} (fmt : K → List Byte) (data : List K) : List Nat → Res (List Byte)
  | [] => .ok []
  | a :: as => do
    let x ← rd data a
    let rest ← elements fmt data as
    return fmt x ++ (asc " " ++ rest)

/-- Vector.cpp:105-111 -/
def vector {K : Type} (fmt : K → List Byte) (v : Verif.Mx.Vec K) : Res (List Byte) := do
  let t ← elements fmt v.data (List.range v.m)
  return asc "[ " ++ (t ++ asc " ]")

/-- Matrix.cpp:486-494: the loop over the rows; the element in row r and column c is `data[r + c * m]` -/
def rows {K : Type} (fmt : K → List Byte) (A : Verif.Mx.Mat K) : List Nat → Res (List Byte)
  | [] => .ok []
  | r :: rs => do
    let t ← elements fmt A.data ((List.range A.n).map fun c => r + c * A.m)
    let rest ← rows fmt A rs
    return asc "[ " ++ (t ++ (asc " ]\n" ++ rest))

/-- Matrix.cpp:484-496 -/
def matrix {K : Type} (fmt : K → List Byte) (A : Verif.Mx.Mat K) : Res (List Byte) := rows fmt A (List.range A.m)

/-! ### Exception -/

open Verif.Str Verif.Str.Concat

/-- Exception.h:88-107, without the thread id -/
structure Exc where
  msg : Str
  addrlen : Nat
  syms : List Str

/-- the symbols `0 … n-1` as strings (Exception.cpp:36-39; `symbols` is the array `backtrace_symbols` returns, `none` if it has no
memory; the names are given as characters, the decoding of the C strings is C09) -/
def takeSyms (symbols : Option (List (List Ch))) : List Nat → Res (List Str)
  | [] => .ok []
  | a :: as => do
    let l ← (match symbols with | none => .error .ub | some l => .ok l)
    let c ← rd l a
    let s ← ofChars c
    let rest ← takeSyms symbols as
    return s :: rest

/-- Exception.cpp:13-52 on Linux: the message is logged; `frames` is what `backtrace` returns (at most 10) -/
def create (log : List (List Ch)) (msg : Str) (frames : Nat) (symbols : Option (List (List Ch))) : Res (Exc × List (List Ch)) := do
  let m ← copyCtor msg
  let s ← takeSyms symbols (List.range frames)
  return (⟨m, frames, s⟩, log ++ [chars m])

/-- Exception.cpp:54-64: the copy made by `throw` and `catch` by value; nothing is logged -/
def copy (e : Exc) : Res Exc := do
  let m ← copyCtor e.msg
  return ⟨m, e.addrlen, e.syms⟩

/-- a string literal as operand -/
def literal (s : String) : Res Str := ofChars (s.toList.map fun c => BitVec.ofNat 16 c.toNat)

/-- Exception.cpp:156-192 (Linux branch): one line for every frame -/
def frameItems (syms : List Str) : List Nat → Res (List Item)
  | [] => .ok []
  | i :: is => do
    let line ← rd syms i
    let a ← literal "\ta"
    let b ← literal "\r\n"
    let rest ← frameItems syms is
    return .text a :: .text line :: .text b :: rest

/-- Exception.cpp:139-203 on Linux: all operands in order (the temporaries are built before, which makes no difference) -/
def trace (e : Exc) : Res Str := do
  let h1 ← literal "Exception in thread \""
  let h2 ← literal "\""
  let sep ← literal " : "
  let fs ← frameItems e.syms ((List.range (e.addrlen - 1)).map (· + 1))
  outs empty ((.text h1 :: .text h2 :: (if e.msg.len > 0 then [.text sep, .text e.msg] else [])) ++ (.char 13 :: .char 10 :: fs))

end Verif.Print
