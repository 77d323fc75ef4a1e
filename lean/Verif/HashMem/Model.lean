import Verif.Heap
import Verif.Hashtable.Model
/-
Model of src/core/Hashtable.cpp with its memory: the entries (`new HashtableEntry`), the arrays of chain heads
(`new HashtableEntry*[n]`), the `next` pointers, and iterators holding pointers into the table.

 * Addresses are `Nat`, `nullptr` is `none`; reading, writing or deleting what was never allocated or is freed
   already is undefined behaviour (`Verif/Heap.lean`).
 * `hf` is the hash code of a key's content (C07 tells when `String` meets this).
 * A walk along `next` pointers is bounded by the number of entries ever allocated; a longer walk runs in a circle
   for ever (an endless loop without effect, undefined in C++) and is the same fault.
 * Numbers as in Verif/Hashtable: `0.75` is exact, lengths do not overflow.
-/
namespace Verif.HashMem
open Verif
open Verif.Hashtable (bucket)

/-- values are pointers of the client, `0` is `nullptr` -/
abbrev Ptr := Nat

/-- Hashtable.h:143-158 `HashtableEntry` -/
structure Node (K : Type) where
  hash : BitVec 64
  key : K
  value : Ptr
  next : Option Nat

/-- The memory: the entries and the arrays. -/
structure Mem (K : Type) where
  nodes : Heap (Node K)
  arrays : Heap (List (Option Nat))

/-- Hashtable.h:161-176: the members of a table; `data` is the address of the array. -/
structure Tab where
  data : Nat
  arrLength : Nat
  dataLength : Nat
  threshold : Nat

variable {K : Type} [DecidableEq K]

/-- Hashtable.cpp:36-47 constructor -/
def init (m : Mem K) : Mem K × Tab :=
  let r := m.arrays.alloc (List.replicate 7 none)
  (⟨m.nodes, r.1⟩, ⟨r.2, 7, 0, 7 * 3 / 4⟩)

/-- A parameter `const String&`: a string of the client, or the key inside an entry (what a key iterator delivers,
Hashtable.cpp:244 `&(last->key)`). -/
inductive KeyArg (K : Type) where
  | val (k : K)
  | at (p : Nat)

/-- reading the parameter -/
def readKey (nodes : Heap (Node K)) : KeyArg K → Res K
  | .val k => .ok k
  | .at p => do
    let e ← nodes.load p
    return e.key

/-- Hashtable.cpp:64, 98, 121: `(e->hash == hash) && e->key.equals(key)` -/
def hits (nodes : Heap (Node K)) (hash : BitVec 64) (key : KeyArg K) (e : Node K) : Res Bool :=
  if e.hash = hash then do
    let k ← readKey nodes key
    return decide (e.key = k)
  else .ok false

/-- Hashtable.cpp:62-70, 96-102, 117-141: walk along the chain to the first hit; the answer is the predecessor (`prev`),
the address and the entry. -/
def walk (nodes : Heap (Node K)) (hash : BitVec 64) (key : KeyArg K) : Nat → Option Nat → Option Nat →
    Res (Option (Option Nat × Nat × Node K))
  | _, _, none => .ok none
  | 0, _, some _ => .error .ub
  | n + 1, prev, some p => do
    let e ← nodes.load p
    let b ← hits nodes hash key e
    if b then return some (prev, p, e) else walk nodes hash key n (some p) e.next

/-- Hashtable.cpp:186-195: move one chain to the array at `nd`, each entry to the front of its new chain. -/
def moveChain (newLength nd : Nat) : Nat → Mem K → Option Nat → Res (Mem K)
  | _, m, none => .ok m
  | 0, _, some _ => .error .ub
  | n + 1, m, some p => do
    let e ← m.nodes.load p
    let arr ← m.arrays.load nd
    let c ← rd arr (bucket e.hash newLength)
    let nodes ← m.nodes.store p { e with next := c }
    let arr ← wr arr (bucket e.hash newLength) (some p)
    let arrays ← m.arrays.store nd arr
    moveChain newLength nd n ⟨nodes, arrays⟩ e.next

/-- Hashtable.cpp:182-196: the chains `a`, `a + 1`, … of the old array at `od`. -/
def moveAll (newLength od nd : Nat) : Nat → Nat → Mem K → Res (Mem K)
  | 0, _, m => .ok m
  | k + 1, a, m => do
    let arr ← m.arrays.load od
    let p ← rd arr a
    let m ← moveChain newLength nd m.nodes.length m p
    moveAll newLength od nd k (a + 1) m

/-- Hashtable.cpp:168-199 `rehash` -/
def rehash (m : Mem K) (t : Tab) : Res (Mem K × Tab) := do
  let newLength := t.arrLength * 2 + 1
  let r := m.arrays.alloc (List.replicate newLength none)
  let m ← moveAll newLength t.data r.2 t.arrLength 0 ⟨m.nodes, r.1⟩
  let arrays ← m.arrays.free t.data
  return (⟨m.nodes, arrays⟩, ⟨r.2, newLength, t.dataLength, (newLength * 3 + 3) / 4⟩)

/-- Hashtable.cpp:73-77 -/
def grow (m : Mem K) (t : Tab) : Res (Mem K × Tab) := if t.dataLength ≥ t.threshold then rehash m t else .ok (m, t)

/-- Hashtable.cpp:79-88: the new entry at the head of its chain -/
def insert (m : Mem K) (t : Tab) (hash : BitVec 64) (key : K) (value : Ptr) : Res (Mem K × Tab × Ptr) := do
  let arr ← m.arrays.load t.data
  let e ← rd arr (bucket hash t.arrLength)
  let r := m.nodes.alloc ⟨hash, key, value, e⟩
  let arr ← wr arr (bucket hash t.arrLength) (some r.2)
  let arrays ← m.arrays.store t.data arr
  return (⟨r.1, arrays⟩, { t with dataLength := t.dataLength + 1 }, 0)

/-- Hashtable.cpp:57-89 `put` (the key is passed by value) -/
def put (hf : K → BitVec 64) (m : Mem K) (t : Tab) (key : K) (value : Ptr) : Res (Mem K × Tab × Ptr) := do
  let arr ← m.arrays.load t.data
  let p ← rd arr (bucket (hf key) t.arrLength)
  let r ← walk m.nodes (hf key) (.val key) m.nodes.length none p
  match r with
  | some (_, p, e) =>
    let nodes ← m.nodes.store p { e with value := value }
    return (⟨nodes, m.arrays⟩, t, e.value)
  | none =>
    let r ← grow m t
    insert r.1 r.2 (hf key) key value

/-- Hashtable.cpp:91-105 `get` -/
def get (hf : K → BitVec 64) (m : Mem K) (t : Tab) (key : KeyArg K) : Res Ptr := do
  let k ← readKey m.nodes key
  let arr ← m.arrays.load t.data
  let p ← rd arr (bucket (hf k) t.arrLength)
  let r ← walk m.nodes (hf k) key m.nodes.length none p
  match r with
  | some (_, _, e) => return e.value
  | none => return 0

/-- Hashtable.cpp:107-110 `containsKey` -/
def containsKey (hf : K → BitVec 64) (m : Mem K) (t : Tab) (key : KeyArg K) : Res Bool := do
  let v ← get hf m t key
  return decide (v ≠ 0)

/-- Hashtable.cpp:124-131: the pointer to the removed entry becomes the pointer to its successor. -/
def relink (m : Mem K) (t : Tab) (index : Nat) (prev next : Option Nat) : Res (Mem K) :=
  match prev with
  | some q => do
    let f ← m.nodes.load q
    let nodes ← m.nodes.store q { f with next := next }
    return ⟨nodes, m.arrays⟩
  | none => do
    let arr ← m.arrays.load t.data
    let arr ← wr arr index next
    let arrays ← m.arrays.store t.data arr
    return ⟨m.nodes, arrays⟩

/-- Hashtable.cpp:112-145 `remove` -/
def remove (hf : K → BitVec 64) (m : Mem K) (t : Tab) (key : KeyArg K) : Res (Mem K × Tab × Ptr) := do
  let k ← readKey m.nodes key
  let arr ← m.arrays.load t.data
  let p ← rd arr (bucket (hf k) t.arrLength)
  let r ← walk m.nodes (hf k) key m.nodes.length none p
  match r with
  | some (prev, p, e) =>
    let m ← relink m t (bucket (hf k) t.arrLength) prev e.next
    let nodes ← m.nodes.free p
    return (⟨nodes, m.arrays⟩, { t with dataLength := t.dataLength - 1 }, e.value)
  | none => return (m, t, 0)

/-- Hashtable.cpp:152-157: delete the entries of one chain. -/
def freeChain : Nat → Heap (Node K) → Option Nat → Res (Heap (Node K))
  | _, nodes, none => .ok nodes
  | 0, _, some _ => .error .ub
  | n + 1, nodes, some p => do
    let e ← nodes.load p
    let nodes ← nodes.free p
    freeChain n nodes e.next

/-- Hashtable.cpp:149-159: the chains `i`, `i + 1`, … -/
def clearLoop (data : Nat) : Nat → Nat → Mem K → Res (Mem K)
  | 0, _, m => .ok m
  | k + 1, i, m => do
    let arr ← m.arrays.load data
    let p ← rd arr i
    let nodes ← freeChain m.nodes.length m.nodes p
    let arr ← wr arr i none
    let arrays ← m.arrays.store data arr
    clearLoop data k (i + 1) ⟨nodes, arrays⟩

/-- Hashtable.cpp:147-161 `clear` -/
def clear (m : Mem K) (t : Tab) : Res (Mem K × Tab) := do
  let m ← clearLoop t.data t.arrLength 0 m
  return (m, { t with dataLength := 0 })

/-- Hashtable.cpp:163-166 `size` -/
def size (t : Tab) : Nat := t.dataLength

/-- Hashtable.cpp:49-55 destructor -/
def destroy (m : Mem K) (t : Tab) : Res (Mem K) := do
  let r ← clear m t
  let arrays ← r.1.arrays.free t.data
  return ⟨r.1.nodes, arrays⟩

/-! ### Iterator (Hashtable.cpp:212-247) -/

/-- Hashtable.h:204-210 (the pointer to the table is the parameter `t` of the functions: the table of *now*) -/
structure It where
  retKey : Bool
  entry : Option Nat
  last : Option Nat
  index : Nat

/-- Hashtable.cpp:201-209, 216-222 `keys`, `values` -/
def iterator (retKey : Bool) : It := ⟨retKey, none, none, 0⟩

/-- Hashtable.cpp:226-229 = 235-238: go to the next chain that is not empty; the first argument is `mArrLength - index`,
the number of chains left, so that `index < mArrLength` means it is not `0` (`skip_eq`). -/
def skipN (m : Mem K) (t : Tab) : Nat → It → Res It
  | 0, it => .ok it
  | n + 1, it =>
    if it.entry = none then do
      let arr ← m.arrays.load t.data
      let p ← rd arr it.index
      skipN m t n { it with entry := p, index := it.index + 1 }
    else .ok it

/-- Hashtable.cpp:226-229 = 235-238 -/
def skip (m : Mem K) (t : Tab) (it : It) : Res It := skipN m t (t.arrLength - it.index) it

/-- the loop as it is written -/
theorem skip_eq (m : Mem K) (t : Tab) (it : It) : skip m t it =
    if it.entry = none ∧ it.index < t.arrLength then do
      let arr ← m.arrays.load t.data
      let p ← rd arr it.index
      skip m t { it with entry := p, index := it.index + 1 }
    else .ok it := by
  by_cases h : it.index < t.arrLength
  · obtain ⟨n, hn⟩ : ∃ n, t.arrLength - it.index = n + 1 := ⟨t.arrLength - it.index - 1, by omega⟩
    have h2 : t.arrLength - (it.index + 1) = n := by omega
    by_cases he : it.entry = none
    · simp only [skip, hn, skipN, he, h, and_self, if_true, h2]
    · simp only [skip, hn, skipN, he, false_and, if_false]
  · have : t.arrLength - it.index = 0 := by omega
    rw [if_neg (fun x => h x.2), skip, this, skipN]

/-- Hashtable.cpp:224-231 `hasNext` -/
def hasNext (m : Mem K) (t : Tab) (it : It) : Res (It × Bool) := do
  let it ← skip m t it
  return (it, it.entry.isSome)

/-- Hashtable.cpp:233-247: what `next` returns: the address of a key (in the entry with that address), a value or `nullptr`. -/
inductive Item where
  | keyOf (p : Nat)
  | value (v : Ptr)
  | null
deriving DecidableEq

/-- Hashtable.cpp:244 -/
def item (retKey : Bool) (p : Nat) (e : Node K) : Item := if retKey then .keyOf p else .value e.value

/-- Hashtable.cpp:233-247 `next` -/
def next (m : Mem K) (t : Tab) (it : It) : Res (It × Item) := do
  let it ← skip m t it
  match it.entry with
  | some p =>
    let e ← m.nodes.load p
    return ({ it with last := some p, entry := e.next }, item it.retKey p e)
  | none => return (it, .null)

end Verif.HashMem
