import Verif.Own.Block
/-
C96: constructors, copy constructor, assignment, destructor and the writing members of the value types of the library,
as far as memory is concerned.  Sizes are natural numbers: `new T[n]` with a negative `n` throws and allocation
failures are not modelled.
-/
namespace Verif.Own
open Verif
variable {α : Type}

/-- the data members of a class with one block: number of elements, number of cells, pointer -/
structure Obj where
  size : Nat
  cap : Nat
  ptr : Option Nat
deriving DecidableEq

/-- calls that take another object -/
inductive Assign where
  | assign

namespace ByteArray

/-- ByteArray.cpp:36-51, 81-88, 101-112: no argument; bytes from a buffer or an initializer list; a length and a byte -/
inductive Args where
  | null
  | bytes (l : List Byte)
  | filled (n : Nat) (c : Byte)

/-- ByteArray.cpp:176-179 `fill`, 189-194 `set` -/
inductive Call where
  | set (i : Nat) (x : Byte)
  | fill (c : Byte)

/-- ByteArray.cpp:176-179 -/
def fillLoop (c : Byte) (p : Option Nat) (n i : Nat) (h : Mem Byte) : Res (Mem Byte) :=
  if i < n then do
    let h ← wrCell h p i (some c)
    fillLoop c p n (i + 1) h
  else .ok h
termination_by n - i

/-- ByteArray.cpp:36-88, 101-112.  The terminator is written before or after the bytes; here before, as in 75-78 and
85-87. -/
def make (a : Args) (h : Mem Byte) : Res (Mem Byte × Obj) :=
  match a with
  | .null => .ok (h, ⟨0, 0, none⟩)
  | .bytes l => do
    let (h, p) := newArr none (l.length + 1) h
    let h ← wrCell h (some p) l.length (some 0)
    let h ← fillFrom l (some p) 0 h
    return (h, ⟨l.length, l.length + 1, some p⟩)
  | .filled n c => do
    let (h, p) := newArr none (n + 1) h
    let h ← wrCell h (some p) n (some 0)
    let h ← fillLoop c (some p) n 0 h
    return (h, ⟨n, n + 1, some p⟩)

/-- ByteArray.cpp:90-99 -/
def copy (o : Obj) (h : Mem Byte) : Res (Mem Byte × Obj) := do
  let (h, q) := newArr none o.cap h
  let h ← copyLoop true o.ptr (some q) o.cap 0 h
  return (h, ⟨o.size, o.cap, some q⟩)

/-- ByteArray.cpp:255-271 `operator=` -/
def assign (same : Bool) (o other : Obj) (h : Mem Byte) : Res (Mem Byte × Obj) :=
  if same then .ok (h, o)
  else do
    let h ← deleteArr h o.ptr
    let (h, q) := newArr none other.cap h
    let h ← copyLoop true other.ptr (some q) other.cap 0 h
    return (h, ⟨other.size, other.cap, some q⟩)

/-- ByteArray.cpp:176-179, 189-194 -/
def call (m : Call) (o : Obj) (h : Mem Byte) : Res (Mem Byte × Obj) :=
  match m with
  | .set i x => do
    let h ← wrCell h o.ptr i (some x)
    return (h, o)
  | .fill c => do
    let h ← fillLoop c o.ptr o.size 0 h
    return (h, o)

/-- ByteArray.cpp:115-120 -/
def dtor (o : Obj) (h : Mem Byte) : Res (Mem Byte) := deleteArr h o.ptr

/-- ByteArray.cpp:122-125 `size`, 182-187 `get` -/
def observe (o : Obj) (h : Mem Byte) : Res (List (Option Byte)) := readAll h o.ptr o.size 0

def cls : Cls Args Call Assign Obj Byte (List (Option Byte)) := ⟨make, copy, call, fun .assign => assign, dtor, observe⟩

/-- ByteArray.cpp:230-233: zeroes in the new part -/
def zeroLoop (p : Option Nat) (n i : Nat) (h : Mem Byte) : Res (Mem Byte) := fillLoop 0 p n i h

/-- ByteArray.cpp:216-240 `resize`: the old block is given back with `delete`, although it came from `new[]` -/
def resize (newSize : Nat) (o : Obj) (h : Mem Byte) : Res (Mem Byte × Obj) :=
  if newSize < o.cap then do
    let h ← wrCell h o.ptr newSize (some 0)
    return (h, { o with size := newSize })
  else do
    let (h, q) := newArr none (newSize + 1) h
    let h ← copyLoop true o.ptr (some q) o.size 0 h
    let h ← zeroLoop (some q) newSize o.size h
    let h ← deleteOne h o.ptr
    return (h, ⟨newSize, newSize + 1, some q⟩)

end ByteArray

namespace CharArray
abbrev Ch := BitVec 16

/-- Charset.cpp:46-50, 59-63: nothing, or a number of characters -/
inductive Args where
  | null
  | sized (n : Nat)

/-- writing through the public member `buffer` -/
inductive Call where
  | set (i : Nat) (c : Ch)

/-- Charset.cpp:46-50, 59-63; the constructor of `Char` writes 0 (CharArray.h:47-50) -/
def make (a : Args) (h : Mem Ch) : Res (Mem Ch × Obj) :=
  match a with
  | .null => .ok (h, ⟨0, 0, none⟩)
  | .sized n =>
    let (h, p) := newArr (some 0) n h
    .ok (h, ⟨n, n, some p⟩)

/-- Charset.cpp:52-57 -/
def copy (o : Obj) (h : Mem Ch) : Res (Mem Ch × Obj) := do
  let (h, q) := newArr (some 0) o.size h
  let h ← memcpy (some q) 0 o.ptr o.size h
  return (h, ⟨o.size, o.size, some q⟩)

/-- Charset.cpp:77-86 -/
def assign (same : Bool) (o other : Obj) (h : Mem Ch) : Res (Mem Ch × Obj) :=
  if same then .ok (h, o)
  else do
    let h ← deleteArr h o.ptr
    let (h, q) := newArr (some 0) other.size h
    let h ← memcpy (some q) 0 other.ptr other.size h
    return (h, ⟨other.size, other.size, some q⟩)

/-- CharArray.h: `buffer[i] = c` -/
def call (m : Call) (o : Obj) (h : Mem Ch) : Res (Mem Ch × Obj) :=
  match m with
  | .set i c => do
    let h ← wrCell h o.ptr i (some c)
    return (h, o)

/-- Charset.cpp:65-73 -/
def dtor (o : Obj) (h : Mem Ch) : Res (Mem Ch) := deleteArr h o.ptr

/-- the public members: `none` when `buffer` is null -/
def observe (o : Obj) (h : Mem Ch) : Res (Option (List (Option Ch))) :=
  if o.ptr = none then .ok none
  else do
    let l ← readAll h o.ptr o.size 0
    return some l

def cls : Cls Args Call Assign Obj Ch (Option (List (Option Ch))) := ⟨make, copy, call, fun .assign => assign, dtor, observe⟩

end CharArray

namespace Array

/-- Array.h:122-127: `set` -/
inductive Call (α : Type) where
  | set (i : Nat) (x : α)

/-- Array.h:52-63: a number of elements (0 for the constructor without argument); `init` is what the constructor of `T`
leaves in an element, `none` for numbers and pointers.  `Array<T*>` (176-186) and `FloatArray` (295-305) are the same with
`init = none`. -/
def make (init : Option α) (n : Nat) (h : Mem α) : Res (Mem α × Obj) :=
  let (h, p) := newArr init n h
  .ok (h, ⟨n, n, some p⟩)

/-- Array.h:65-73; also 188-196 and 307-315 -/
def copy (init : Option α) (o : Obj) (h : Mem α) : Res (Mem α × Obj) := do
  let (h, q) := newArr init o.size h
  let h ← copyLoop false o.ptr (some q) o.size 0 h
  return (h, ⟨o.size, o.size, some q⟩)

/-- Array.h:136-151; also 260-275 and 390-405 -/
def assign (init : Option α) (same : Bool) (o other : Obj) (h : Mem α) : Res (Mem α × Obj) :=
  if same then .ok (h, o)
  else do
    let h ← deleteArr h o.ptr
    let (h, q) := newArr init other.size h
    let h ← copyLoop false other.ptr (some q) other.size 0 h
    return (h, ⟨other.size, other.size, some q⟩)

/-- Array.h:122-127 `set` -/
def call (m : Call α) (o : Obj) (h : Mem α) : Res (Mem α × Obj) :=
  match m with
  | .set i x =>
    if i ≥ o.size then .error .thrown
    else do
      let h ← wrCell h o.ptr i (some x)
      return (h, o)

/-- Array.h:75-79; also 198-202 and 330-334 -/
def dtor (o : Obj) (h : Mem α) : Res (Mem α) := deleteArr h o.ptr

/-- Array.h:81-84 `size`, 115-120 `get` -/
def observe (o : Obj) (h : Mem α) : Res (List (Option α)) := readAll h o.ptr o.size 0

def cls (init : Option α) : Cls Nat (Call α) Assign Obj α (List (Option α)) :=
  ⟨make init, copy init, call, fun .assign => assign init, dtor, observe⟩

end Array

namespace Str
abbrev Ch := BitVec 16

/-- String.cpp:36-42, 44-139: the empty string; the characters the decoder found -/
inductive Args where
  | empty
  | chars (l : List Ch)

/-- String.cpp:510-517 `setCharAt`, 528-534 `append(Char)`, 602-611 `clear` -/
inductive Call where
  | set (i : Nat) (c : Ch)
  | append (c : Ch)
  | clear

/-- String.cpp:1233-1245 `operator=`, 519-526 `append(const String&)` -/
inductive Binary where
  | assign
  | append

/-- String.cpp:153-155, 165-167 -/
def round16 (n : Nat) : Nat := if n % 16 ≠ 0 then n + (16 - n % 16) else n

/-- String.cpp:36-42; 150-158 `copy(CharArray)`: the characters are copied from the decoder's array -/
def make (a : Args) (h : Mem Ch) : Res (Mem Ch × Obj) :=
  match a with
  | .empty =>
    let (h, p) := newArr (some 0) 16 h
    .ok (h, ⟨0, 16, some p⟩)
  | .chars l => do
    let (h, p) := newArr (some 0) (round16 l.length) h
    let h ← fillFrom l (some p) 0 h
    return (h, ⟨l.length, round16 l.length, some p⟩)

/-- String.cpp:52-59 -/
def copy (o : Obj) (h : Mem Ch) : Res (Mem Ch × Obj) := do
  let (h, q) := newArr (some 0) o.cap h
  let h ← memcpy (some q) 0 o.ptr o.size h
  return (h, ⟨o.size, o.cap, some q⟩)

/-- String.cpp:1233-1245 -/
def assign (same : Bool) (o other : Obj) (h : Mem Ch) : Res (Mem Ch × Obj) :=
  if same then .ok (h, o)
  else do
    let h ← deleteArr h o.ptr
    let (h, q) := newArr (some 0) other.cap h
    let h ← memcpy (some q) 0 other.ptr other.size h
    return (h, ⟨other.size, other.cap, some q⟩)

/-- String.cpp:160-173 -/
def checkCapacity (more : Nat) (o : Obj) (h : Mem Ch) : Res (Mem Ch × Obj) :=
  if o.size + more < o.cap then .ok (h, o)
  else do
    let (h, q) := newArr (some 0) (round16 (o.size + more)) h
    let h ← memcpy (some q) 0 o.ptr o.size h
    let h ← deleteArr h o.ptr
    return (h, ⟨o.size, round16 (o.size + more), some q⟩)

/-- String.cpp:519-526: `another` is looked at again after `checkCapacity`; when it is the string itself it has the new
block then -/
def append (same : Bool) (o other : Obj) (h : Mem Ch) : Res (Mem Ch × Obj) :=
  if other.size = 0 then .ok (h, o)
  else do
    let r ← checkCapacity other.size o h
    let src := if same then r.2 else other
    let h ← memcpy r.2.ptr r.2.size src.ptr src.size r.1
    return (h, ⟨r.2.size + src.size, r.2.cap, r.2.ptr⟩)

/-- String.cpp:510-517, 528-534, 602-617 -/
def call (m : Call) (o : Obj) (h : Mem Ch) : Res (Mem Ch × Obj) :=
  match m with
  | .set i c =>
    if i ≥ o.size then .error .thrown
    else do
      let h ← wrCell h o.ptr i (some c)
      return (h, o)
  | .append c => do
    let r ← checkCapacity 1 o h
    let h ← wrCell r.1 r.2.ptr r.2.size (some c)
    return (h, { r.2 with size := r.2.size + 1 })
  | .clear =>
    if o.cap > 16 then do
      let h ← deleteArr h o.ptr
      let (h, q) := newArr (some 0) 16 h
      return (h, ⟨0, 16, some q⟩)
    else .ok (h, { o with size := 0 })

def binary : Binary → Bool → Obj → Obj → Mem Ch → Res (Mem Ch × Obj)
  | .assign => assign
  | .append => append

/-- String.cpp:141-148 -/
def dtor (o : Obj) (h : Mem Ch) : Res (Mem Ch) := deleteArr h o.ptr

/-- String.cpp:210-213 `size`, 502-508 `charAt` -/
def observe (o : Obj) (h : Mem Ch) : Res (List (Option Ch)) := readAll h o.ptr o.size 0

def cls : Cls Args Call Binary Obj Ch (List (Option Ch)) := ⟨make, copy, call, binary, dtor, observe⟩

end Str

namespace StrList

/-- StringList.cpp:37-58 -/
inductive Args (α : Type) where
  | empty
  | sized (n : Nat)
  | single (s : α)

/-- StringList.cpp:83-87 `append`, 162-167 `set`, 169-172 `clear`, 78-81 `reserve` -/
inductive Call (α : Type) where
  | append (s : α)
  | set (i : Nat) (s : α)
  | clear
  | reserve (n : Nat)

/-- StringList.cpp:187: `while(mLength < mSize + size)mLength += 8` -/
def grow (cap need : Nat) : Nat := if cap < need then grow (cap + 8) need else cap
termination_by need - cap

variable (e : α)

/-- StringList.cpp:184-192; `e` is the empty string -/
def checkSize (more : Nat) (o : Obj) (h : Mem α) : Res (Mem α × Obj) :=
  if o.size + more < o.cap then .ok (h, o)
  else do
    let (h, q) := newArr (some e) (grow o.cap (o.size + more)) h
    let h ← copyLoop false o.ptr (some q) o.size 0 h
    let h ← deleteArr h o.ptr
    return (h, ⟨o.size, grow o.cap (o.size + more), some q⟩)

/-- StringList.cpp:83-87, the string is not an element of the list -/
def append (s : α) (o : Obj) (h : Mem α) : Res (Mem α × Obj) := do
  let r ← checkSize e 1 o h
  let h ← wrCell r.1 r.2.ptr r.2.size (some s)
  return (h, { r.2 with size := r.2.size + 1 })

/-- StringList.cpp:83-87, called with a reference to an element of the list itself: `list.append(list[i])` -/
def appendElement (i : Nat) (o : Obj) (h : Mem α) : Res (Mem α × Obj) := do
  let ref := o.ptr
  let r ← checkSize e 1 o h
  let s ← rdCell r.1 ref i
  let s ← defined s
  let h ← wrCell r.1 r.2.ptr r.2.size (some s)
  return (h, { r.2 with size := r.2.size + 1 })

/-- StringList.cpp:37-58 -/
def make (a : Args α) (h : Mem α) : Res (Mem α × Obj) :=
  match a with
  | .empty =>
    let (h, p) := newArr (some e) 8 h
    .ok (h, ⟨0, 8, some p⟩)
  | .sized n =>
    let (h, p) := newArr (some e) n h
    .ok (h, ⟨n, n, some p⟩)
  | .single s =>
    let (h, p) := newArr (some e) 8 h
    append e s ⟨0, 8, some p⟩ h

/-- StringList.cpp:60-69 -/
def copy (o : Obj) (h : Mem α) : Res (Mem α × Obj) := do
  let (h, q) := newArr (some e) o.cap h
  let h ← copyLoop false o.ptr (some q) o.size 0 h
  return (h, ⟨o.size, o.cap, some q⟩)

/-- StringList.cpp:201-217 -/
def assign (same : Bool) (o other : Obj) (h : Mem α) : Res (Mem α × Obj) :=
  if same then .ok (h, o)
  else do
    let h ← deleteArr h o.ptr
    let (h, q) := newArr (some e) other.cap h
    let h ← copyLoop false other.ptr (some q) other.size 0 h
    return (h, ⟨other.size, other.cap, some q⟩)

/-- StringList.cpp:78-87, 162-172 -/
def call (m : Call α) (o : Obj) (h : Mem α) : Res (Mem α × Obj) :=
  match m with
  | .append s => append e s o h
  | .set i s =>
    if i ≥ o.size then .error .thrown
    else do
      let h ← wrCell h o.ptr i (some s)
      return (h, o)
  | .clear => .ok (h, { o with size := 0 })
  | .reserve n => checkSize e n o h

/-- StringList.cpp:71-76 -/
def dtor (o : Obj) (h : Mem α) : Res (Mem α) := deleteArr h o.ptr

/-- StringList.cpp:105-108 `size`, 155-160 `get` -/
def observe (o : Obj) (h : Mem α) : Res (List (Option α)) := readAll h o.ptr o.size 0

def cls : Cls (Args α) (Call α) Assign Obj α (List (Option α)) :=
  ⟨make e, copy e, call e, fun .assign => assign e, dtor, observe⟩

end StrList

namespace Vec

/-- Vector.cpp:36-47 -/
inductive Args where
  | null
  | sized (n : Nat)

/-- writing through the public member `data` -/
inductive Call (α : Type) where
  | set (i : Nat) (x : α)

/-- Vector.cpp:46: `for(a = 0; a < m; a++)data[a] = 0.0` is `fillFrom` with as many zeroes -/
def make (zero : α) (a : Args) (h : Mem α) : Res (Mem α × Obj) :=
  match a with
  | .null => .ok (h, ⟨0, 0, none⟩)
  | .sized n => do
    let (h, p) := newArr none n h
    let h ← fillFrom (List.replicate n zero) (some p) 0 h
    return (h, ⟨n, n, some p⟩)

/-- Vector.cpp:49-58 -/
def copy (o : Obj) (h : Mem α) : Res (Mem α × Obj) :=
  if o.size > 0 then do
    let (h, q) := newArr none o.size h
    let h ← copyLoop false o.ptr (some q) o.size 0 h
    return (h, ⟨o.size, o.size, some q⟩)
  else .ok (h, ⟨o.size, 0, none⟩)

/-- Vector.cpp:113-128: what is done is what the copy constructor does, after the old block was given back -/
def assign (same : Bool) (o other : Obj) (h : Mem α) : Res (Mem α × Obj) :=
  if same then .ok (h, o)
  else do
    let h ← deleteArr h o.ptr
    copy other h

/-- Vector.h: `data[i] = x` -/
def call (m : Call α) (o : Obj) (h : Mem α) : Res (Mem α × Obj) :=
  match m with
  | .set i x => do
    let h ← wrCell h o.ptr i (some x)
    return (h, o)

/-- Vector.cpp:60-65 -/
def dtor (o : Obj) (h : Mem α) : Res (Mem α) := deleteArr h o.ptr

def observe (o : Obj) (h : Mem α) : Res (List (Option α)) := readAll h o.ptr o.size 0

def cls (zero : α) : Cls Args (Call α) Assign Obj α (List (Option α)) := ⟨make zero, copy, call, fun .assign => assign, dtor, observe⟩

end Vec

namespace Mat

/-- Matrix.h: rows `m`, columns `n`, `data` -/
structure MObj where
  m : Nat
  n : Nat
  ptr : Option Nat

/-- Matrix.cpp:36-40, 80-92: no argument; rows and columns; one value -/
inductive Args (α : Type) where
  | null
  | sized (m n : Nat)
  | value (x : α)

/-- Matrix.cpp:138-142 `set`, 154-161 `zeros` -/
inductive Call (α : Type) where
  | set (row col : Nat) (x : α)
  | zeros

/-- Matrix.cpp:36-40, 80-92, 131-136, 154-161 -/
def make (zero : α) (a : Args α) (h : Mem α) : Res (Mem α × MObj) :=
  match a with
  | .null => .ok (h, ⟨0, 0, none⟩)
  | .sized m n => do
    let (h, p) := newArr none (m * n) h
    let h ← fillFrom (List.replicate (m * n) zero) (some p) 0 h
    return (h, ⟨m, n, some p⟩)
  | .value x => do
    let (h, p) := newArr none 1 h
    let h ← wrCell h (some p) 0 (some x)
    return (h, ⟨1, 1, some p⟩)

/-- Matrix.cpp:94-111.  The loop counter is a uint32, so fewer than 2^32 cells are assumed. -/
def copy (o : MObj) (h : Mem α) : Res (Mem α × MObj) :=
  if o.m * o.n > 0 then do
    let (h, q) := newArr none (o.m * o.n) h
    let h ← copyLoop false o.ptr (some q) (o.m * o.n) 0 h
    return (h, ⟨o.m, o.n, some q⟩)
  else .ok (h, ⟨o.m, o.n, none⟩)

/-- Matrix.cpp:841-861 -/
def assign (same : Bool) (o other : MObj) (h : Mem α) : Res (Mem α × MObj) :=
  if same then .ok (h, o)
  else do
    let h ← deleteArr h o.ptr
    copy other h

/-- Matrix.cpp:138-142, 154-161 -/
def call (zero : α) (c : Call α) (o : MObj) (h : Mem α) : Res (Mem α × MObj) :=
  match c with
  | .set row col x => do
    let h ← wrCell h o.ptr (row + col * o.m) (some x)
    return (h, o)
  | .zeros => do
    let h ← fillFrom (List.replicate (o.m * o.n) zero) o.ptr 0 h
    return (h, o)

/-- Matrix.cpp:122-129 -/
def dtor (o : MObj) (h : Mem α) : Res (Mem α) := deleteArr h o.ptr

/-- rows, columns and the cells, column by column -/
def observe (o : MObj) (h : Mem α) : Res (Nat × Nat × List (Option α)) := do
  let l ← readAll h o.ptr (o.m * o.n) 0
  return (o.m, o.n, l)

def cls (zero : α) : Cls (Args α) (Call α) Assign MObj α (Nat × Nat × List (Option α)) :=
  ⟨make zero, copy, call zero, fun .assign => assign, dtor, observe⟩

end Mat

end Verif.Own
