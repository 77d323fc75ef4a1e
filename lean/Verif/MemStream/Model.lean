import Verif.Base
/-
Model of src/core/MemoryStream.cpp.
 * `mem` is the block behind `mStream`, `len` is `mStreamlength` as given by the caller.
 * Values of type int64 are integers; a sum that leaves int64 is UB.
 * The buffer of the caller is a separate block (a buffer that overlaps the stream is not modelled).
 * Ownership of the block (`mStreamOwner`, freed in the destructor) is not modelled.
-/
namespace Verif.MemStream
open Verif

/-- include/core/MemoryStream.h:50, 118-133 -/
structure MS where
  mem : List Byte
  len : Int
  pos : Int
  wlen : Int
deriving DecidableEq

/-- a signed 64 bit result -/
def i64 (x : Int) : Res Int := if -(2 ^ 63) ≤ x ∧ x < 2 ^ 63 then .ok x else .error .ub

/-- `memcpy(&dst[di], &src[si], n)`; a negative `n` is converted to a size beyond every block -/
def memcpy (dst : List Byte) (di : Int) (src : List Byte) (si n : Int) : Res (List Byte) :=
  if 0 ≤ n ∧ 0 ≤ di ∧ di + n ≤ dst.length ∧ 0 ≤ si ∧ si + n ≤ src.length then
    .ok (dst.take di.toNat ++ (src.drop si.toNat).take n.toNat ++ dst.drop (di + n).toNat)
  else .error .ub

/-- MemoryStream.cpp:36-43 -/
def MS.new (mem : List Byte) (len : Int) : MS := ⟨mem, len, 0, 0⟩

/-- MemoryStream.cpp:50-55 -/
def MS.openS (s : MS) : MS := { s with pos := 0, wlen := 0 }

/-- MemoryStream.cpp:62-65 -/
def MS.close (s : MS) : MS := { s with pos := 0 }

/-- MemoryStream.cpp:69, 101: `(mPosition + length < mStreamlength) ? length : mStreamlength - mPosition` -/
def MS.available (s : MS) (length : Int) : Res Int := do
  let e ← i64 (s.pos + length)
  if e < s.len then return length else i64 (s.len - s.pos)

/-- MemoryStream.cpp:67-75 `read` (also `readFully`, 77-80): the result, the caller's buffer and the stream -/
def MS.read (s : MS) (buffer : List Byte) (length : Int) : Res (Int × List Byte × MS) := do
  let available ← s.available length
  if available > 0 then
    let b ← memcpy buffer 0 s.mem s.pos available
    return (available, b, { s with pos := s.pos + available })
  else return (0, buffer, s)

/-- MemoryStream.cpp:82-85 -/
def MS.seek (s : MS) (newPosition : Int) : MS :=
  { s with pos := if newPosition < s.len then newPosition else s.pos }

/-- MemoryStream.cpp:87-91 -/
def MS.move (s : MS) (offset : Int) : Res MS := do
  let newPosition ← i64 (s.pos + offset)
  return { s with pos := if newPosition < s.len then newPosition else s.pos }

/-- MemoryStream.cpp:98-105 -/
def MS.write (s : MS) (buffer : List Byte) (length : Int) : Res (Int × MS) := do
  let available ← s.available length
  let m ← memcpy s.mem s.pos buffer 0 length
  let p ← i64 (s.pos + available)
  return (available, { s with mem := m, pos := p, wlen := if p > s.wlen then p else s.wlen })

/-- MemoryStream.cpp:93-96 -/
def MS.position (s : MS) : Int := s.pos

/-- MemoryStream.cpp:107-110 -/
def MS.size (s : MS) : Int := s.len

/-! ### a client: any sequence of calls -/

inductive Op where
  | openS
  | close
  | read (buffer : List Byte) (length : Int)
  | write (buffer : List Byte) (length : Int)
  | seek (position : Int)
  | move (offset : Int)

/-- what the client sees of a call: the result, and for a read its buffer; `position()` is asked after every call -/
structure Out where
  result : Int
  buffer : List Byte
  position : Int
deriving DecidableEq

def step (s : MS) : Op → Res (Out × MS)
  | .openS => .ok (⟨0, [], s.openS.position⟩, s.openS)
  | .close => .ok (⟨0, [], s.close.position⟩, s.close)
  | .read b n => do
    let r ← s.read b n
    return (⟨r.1, r.2.1, r.2.2.position⟩, r.2.2)
  | .write b n => do
    let r ← s.write b n
    return (⟨r.1, [], r.2.position⟩, r.2)
  | .seek p => .ok (⟨0, [], (s.seek p).position⟩, s.seek p)
  | .move d => do
    let r ← s.move d
    return (⟨0, [], r.position⟩, r)

def run (s : MS) : List Op → Res (List Out × MS)
  | [] => .ok ([], s)
  | o :: os => do
    let r ← step s o
    let q ← run r.2 os
    return (r.1 :: q.1, q.2)

end Verif.MemStream
