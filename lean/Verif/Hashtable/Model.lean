import Verif.Base
/-
Model of src/core/Hashtable.cpp.

 * A `void*` value is a number, `0` being `nullptr`.
 * The singly linked chain of `HashtableEntry` behind `mData[i]` is a Lean list (the `next`
   pointers are abstracted; entries are never shared between chains in the code).
 * `K` is the content of a key string.  The value that `key.hashCode()` /
   `key.constHashCode()` returns at the call is passed separately (`hash : int64`), because in
   the code it is *not* a function of the content (see Verif/HString).
 * `mLoadfactor` is the constant 0.75, exactly representable; products with table lengths
   below 2^51 are exact in `double`, so `std::ceil(n * 0.75) = (3 n + 3) / 4`.
 * `int64` overflow of lengths is out of scope (memory is exhausted long before).
-/
namespace Verif.Hashtable
open Verif

abbrev Ptr := Nat
def nullptr : Ptr := 0

/-- Hashtable.h:143-158 `HashtableEntry` -/
structure Entry (K : Type) where
  hash : BitVec 64
  key : K
  value : Ptr
deriving DecidableEq, Repr

/-- Hashtable.h:161-176 data members -/
structure Table (K : Type) where
  data : List (List (Entry K))
  arrLength : Nat
  dataLength : Nat
  threshold : Nat
deriving DecidableEq, Repr

variable {K : Type} [DecidableEq K]

/-- Hashtable.cpp:36-47 constructor (`7 * 0.75f` converted to `int64` is 5). -/
def init : Table K := { data := List.replicate 7 [], arrLength := 7, dataLength := 0, threshold := 7 * 3 / 4 }

/-- Hashtable.cpp:61, 76, 95, 115, 190: `(hash & 0x7FFFFFFF) % mArrLength` -/
def bucket (hash : BitVec 64) (arrLength : Nat) : Nat := (hash &&& 0x7FFFFFFF#64).toNat % arrLength

/-- Hashtable.cpp:64, 98, 121: `(e->hash == hash) && e->key.equals(key)` -/
def hit (hash : BitVec 64) (key : K) (e : Entry K) : Bool := e.hash == hash && decide (e.key = key)

/-- Hashtable.cpp:62-70: walk the chain; on a hit replace the value. -/
def replaceIn (hash : BitVec 64) (key : K) (value : Ptr) : List (Entry K) → Option (Ptr × List (Entry K))
  | [] => none
  | e :: rest =>
    if hit hash key e then some (e.value, { e with value := value } :: rest)
    else (replaceIn hash key value rest).map (fun r => (r.1, e :: r.2))

/-- Hashtable.cpp:186-195: move one chain into the new array, each entry to the front. -/
def moveChain (newLength : Nat) : List (Entry K) → List (List (Entry K)) → Res (List (List (Entry K)))
  | [], newData => .ok newData
  | e :: rest, newData => do
    let index := bucket e.hash newLength
    let c ← rd newData index
    let newData ← wr newData index (e :: c)
    moveChain newLength rest newData

/-- Hashtable.cpp:182-196: all chains in order. -/
def moveAll (newLength : Nat) : List (List (Entry K)) → List (List (Entry K)) → Res (List (List (Entry K)))
  | [], newData => .ok newData
  | c :: rest, newData => do
    let newData ← moveChain newLength c newData
    moveAll newLength rest newData

/-- Hashtable.cpp:168-199 `rehash` -/
def rehash (t : Table K) : Res (Table K) := do
  let newLength := t.arrLength * 2 + 1
  let newData ← moveAll newLength t.data (List.replicate newLength [])
  return { data := newData, arrLength := newLength, dataLength := t.dataLength, threshold := (newLength * 3 + 3) / 4 }

/-- Hashtable.cpp:73-77: enlarge the table when the threshold is reached. -/
def grow (t : Table K) : Res (Table K) := if t.dataLength ≥ t.threshold then rehash t else .ok t

/-- Hashtable.cpp:57-89 `put` -/
def put (t : Table K) (hash : BitVec 64) (key : K) (value : Ptr) : Res (Table K × Ptr) := do
  let index := bucket hash t.arrLength
  let chain ← rd t.data index
  match replaceIn hash key value chain with
  | some (old, chain') =>
    let data ← wr t.data index chain'
    return ({ t with data := data }, old)
  | none =>
    let t ← grow t
    let index := bucket hash t.arrLength
    let e ← rd t.data index
    let data ← wr t.data index ({ hash := hash, key := key, value := value } :: e)
    return ({ t with data := data, dataLength := t.dataLength + 1 }, nullptr)

/-- Hashtable.cpp:96-104: the value of the first hit in a chain. -/
def findIn (hash : BitVec 64) (key : K) : List (Entry K) → Ptr
  | [] => nullptr
  | e :: rest => if hit hash key e then e.value else findIn hash key rest

/-- Hashtable.cpp:91-105 `get` -/
def get (t : Table K) (hash : BitVec 64) (key : K) : Res Ptr := do
  let chain ← rd t.data (bucket hash t.arrLength)
  return findIn hash key chain

/-- Hashtable.cpp:107-110 `containsKey` -/
def containsKey (t : Table K) (hash : BitVec 64) (key : K) : Res Bool := do
  let v ← get t hash key
  return decide (v ≠ nullptr)

/-- Hashtable.cpp:117-141: unlink the first hit of a chain. -/
def unlink (hash : BitVec 64) (key : K) : List (Entry K) → Option (Ptr × List (Entry K))
  | [] => none
  | e :: rest =>
    if hit hash key e then some (e.value, rest)
    else (unlink hash key rest).map (fun r => (r.1, e :: r.2))

/-- Hashtable.cpp:112-145 `remove` -/
def remove (t : Table K) (hash : BitVec 64) (key : K) : Res (Table K × Ptr) := do
  let index := bucket hash t.arrLength
  let chain ← rd t.data index
  match unlink hash key chain with
  | some (old, chain') =>
    let data ← wr t.data index chain'
    return ({ t with data := data, dataLength := t.dataLength - 1 }, old)
  | none => return (t, nullptr)

/-- Hashtable.cpp:147-161 `clear`: every chain is freed, the array keeps its length. -/
def clear (t : Table K) : Table K :=
  { t with data := t.data.map (fun _ => []), dataLength := 0 }

/-- Hashtable.cpp:163-166 `size` -/
def size (t : Table K) : Nat := t.dataLength

/-! ### Iterator (Hashtable.cpp:212-247) -/

/-- Hashtable.h:181-211: `entry` is the not yet delivered rest of the current chain. -/
structure Iter (K : Type) where
  table : Table K
  entry : List (Entry K)
  index : Nat

/-- Hashtable.cpp:201-209, 216-222 -/
def iterator (t : Table K) : Iter K := { table := t, entry := [], index := 0 }

/-- Hashtable.cpp:226-229 = 235-238: skip empty chains. -/
def skip (it : Iter K) : Res (Iter K) :=
  if it.entry = [] ∧ it.index < it.table.arrLength then do
    let c ← rd it.table.data it.index
    skip { it with entry := c, index := it.index + 1 }
  else .ok it
termination_by it.table.arrLength - it.index

/-- Hashtable.cpp:224-231 `hasNext` -/
def hasNext (it : Iter K) : Res (Iter K × Bool) := do
  let it ← skip it
  return (it, decide (it.entry ≠ []))

/-- Hashtable.cpp:233-247 `next`; `none` is the returned `nullptr` at the end (the key iterator
delivers `&last->key`, the value iterator `last->value`). -/
def next (it : Iter K) : Res (Iter K × Option (Entry K)) := do
  let it ← skip it
  match it.entry with
  | e :: rest => return ({ it with entry := rest }, some e)
  | [] => return (it, none)

end Verif.Hashtable
