import Verif.Lists.Tokenizer
import Verif.Sort.Model
/-
Model of src/core/StringList.cpp.  Element strings are character lists (their own behaviour is the subject of
Verif/Str); allocation failure and int64 overflow of the sizes are not modelled.
-/
namespace Verif.Lists
open Verif Verif.Str

/-- include/core/String.h:790-799: `data` is the block `mData` of `mLength` strings. -/
structure SList where
  data : List (List Ch)
  size : Nat
deriving DecidableEq

/-- A `const String&` argument: a string outside the list, or one of its own slots. -/
inductive SArg where
  | ext (s : List Ch)
  | own (i : Nat)

/-- Reading through the reference. -/
def SList.deref (l : SList) : SArg → Res (List Ch)
  | .ext s => .ok s
  | .own i => rd l.data i

/-- StringList.cpp:37-42 -/
def SList.new : SList := ⟨List.replicate 8 [], 0⟩

/-- StringList.cpp:44-49, for `size ≥ 0` -/
def SList.ofSize (n : Nat) : SList := ⟨List.replicate n [], n⟩

/-- StringList.cpp:187: `while(mLength < mSize + size)mLength += 8` -/
def growLen (len need : Nat) : Nat := if len < need then growLen (len + 8) need else len
termination_by need - len

/-- StringList.cpp:189: the copy loop into a new block -/
def copyFrom (src : List (List Ch)) (n i : Nat) (dst : List (List Ch)) : Res (List (List Ch)) :=
  if i < n then do
    let x ← rd src i
    let dst ← wr dst i x
    copyFrom src n (i + 1) dst
  else .ok dst
termination_by n - i

/-- StringList.cpp:184-192 `checkSize`; the flag tells whether the old block was freed. -/
def SList.checkSize (l : SList) (size : Int) : Res (Bool × SList) :=
  if (l.size : Int) + size < l.data.length then .ok (false, l)
  else do
    let d ← copyFrom l.data l.size 0 (List.replicate (growLen l.data.length ((l.size : Int) + size).toNat) [])
    return (true, ⟨d, l.size⟩)

/-- StringList.cpp:78-81 `reserve` -/
def SList.reserve (l : SList) (size : Int) : Res SList := do
  let r ← l.checkSize size
  return r.2

/-- reading the argument after `checkSize`: a reference into the freed block dangles -/
def SList.derefAfter (l : SList) (freed : Bool) : SArg → Res (List Ch)
  | .ext s => .ok s
  | .own i => if freed then .error .ub else rd l.data i

/-- StringList.cpp:83-87 `append` (also `operator<<`, 218-222) -/
def SList.append (l : SList) (a : SArg) : Res SList := do
  let r ← l.checkSize 1
  let s ← r.2.derefAfter r.1 a
  let d ← wr r.2.data r.2.size s
  return ⟨d, r.2.size + 1⟩

/-- StringList.cpp:95-98: the inner loop of `remove` -/
def shiftDown (size i2 : Nat) (d : List (List Ch)) : Res (List (List Ch)) :=
  if i2 < size then do
    let x ← rd d i2
    let d ← wr d (i2 - 1) x
    shiftDown size (i2 + 1) d
  else .ok d
termination_by size - i2

/-- StringList.cpp:89-103 `remove`; the argument is read again at every comparison. -/
def SList.removeLoop (l : SList) (a : SArg) (index : Nat) : Res SList :=
  if h : index < l.size then do
    let x ← rd l.data index
    let s ← l.deref a
    if x = s then
      let d ← shiftDown l.size (index + 1) l.data
      SList.removeLoop ⟨d, l.size - 1⟩ a index
    else SList.removeLoop l a (index + 1)
  else .ok l
termination_by l.size - index
decreasing_by all_goals omega

def SList.remove (l : SList) (a : SArg) : Res SList := l.removeLoop a 0

/-- the comparison of two strings (String::compareTo, Verif/Str/CmpProps) on character lists -/
def chCmp : List Ch → List Ch → Int
  | [], [] => 0
  | [], _ :: _ => -1
  | _ :: _, [] => 1
  | a :: l, b :: m => if a.toNat < b.toNat then -1 else if b.toNat < a.toNat then 1 else chCmp l m

/-- StringList.cpp:110-136 `sort` -/
def SList.sort (l : SList) : Res SList := do
  let d ← Sort.sort (fun a b => decide (chCmp a b > 0)) l.size l.data
  return ⟨d, l.size⟩

/-- StringList.cpp:148-149 -/
def joinStep (divider : Ch) (index : Nat) (result x : List Ch) : List Ch :=
  (if index > 0 then result ++ [divider] else result) ++ x

/-- StringList.cpp:146-150: the loop of `join` -/
def SList.joinLoop (l : SList) (divider : Ch) (index : Nat) (result : List Ch) : Res (List Ch) :=
  if index < l.size then do
    let x ← rd l.data index
    l.joinLoop divider (index + 1) (joinStep divider index result x)
  else .ok result
termination_by l.size - index

/-- StringList.cpp:138-153 `join` -/
def SList.join (l : SList) (divider : Ch) : Res (List Ch) := l.joinLoop divider 0 []

/-- StringList.cpp:155-160 `get`, 194-199 `operator[]` -/
def SList.get (l : SList) (index : Int) : Res (List Ch) :=
  if index < 0 ∨ index ≥ l.size then .error .thrown else rd l.data index.toNat

/-- StringList.cpp:162-167 `set` -/
def SList.set (l : SList) (index : Int) (a : SArg) : Res SList :=
  if index < 0 ∨ index ≥ l.size then .error .thrown
  else do
    let s ← l.deref a
    let d ← wr l.data index.toNat s
    return ⟨d, l.size⟩

/-- StringList.cpp:169-172 `clear` -/
def SList.clear (l : SList) : SList := ⟨l.data, 0⟩

/-- StringList.cpp:174-181 `contains` -/
def SList.containsFrom (l : SList) (s : List Ch) (index : Nat) : Res Bool :=
  if index < l.size then do
    let x ← rd l.data index
    if x = s then return true else l.containsFrom s (index + 1)
  else .ok false
termination_by l.size - index

def SList.contains (l : SList) (s : List Ch) : Res Bool := l.containsFrom s 0

/-- StringList.cpp:60-69 the copy constructor, 201-216 `operator=` from another list -/
def SList.copy (other : SList) : Res SList := do
  let d ← copyFrom other.data other.size 0 (List.replicate other.data.length [])
  return ⟨d, other.size⟩

end Verif.Lists
