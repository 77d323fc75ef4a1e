import Verif.Heap
import Verif.Diff.Model
/-
Model of the objects of the diff (src/core/DiffDistance.cpp, DiffDiag.cpp, DiffBacktrace.cpp) in memory, and of the report
(src/core/DiffInfo.cpp:505-554).

 * There are three heaps: diagonals, backtrace steps and DiffDistance objects.  The two vectors of a DiffDistance are created in
   its constructor and deleted in its destructor only; they are part of the object here.
 * The objects compared are values (their pointers are stored, never retained or released); `eqv` is `Object::equals`,
   `name` `displayName`, `typ` `typeid` and `info` the lines `printDiffInfo` prints.
 * `calc` and what `solve` prints to cout are left out.
 * Recursion and loops carry a bound; running out of it is `ub`, which the theorems exclude.
-/
namespace Verif.DiffMem
open Verif Verif.Diff

variable {α : Type}

/-- one of the two vectors of a DiffDistance -/
inductive Which where
  | u
  | v
deriving DecidableEq, Repr

/-- include/core/DiffDiag.h:73-105; `mDistance` is left out -/
structure Diag where
  mU : Which
  mV : Which
  below : Option Nat
  above : Option Nat
  offset : Int
  elems : List Nat
deriving DecidableEq, Repr

/-- DiffDiag.cpp:37-48 -/
def newDiag (mU mV : Which) (offset : Int) : Diag := ⟨mU, mV, none, none, offset, [offset.natAbs]⟩

/-- DiffDiag.cpp:57-65 -/
def aboveH (H : Heap Diag) (p : Nat) : Res (Nat × Heap Diag) := do
  let d ← H.load p
  match d.above with
  | some q => return (q, H)
  | none =>
    let n := H.alloc (newDiag d.mU d.mV (if d.offset ≥ 0 then d.offset + 1 else d.offset - 1))
    let H1 ← n.1.store p { d with above := some n.2 }
    let a ← H1.load n.2
    let H2 ← H1.store n.2 { a with below := some p }
    return (n.2, H2)

/-- DiffDiag.cpp:67-78 -/
def belowH (H : Heap Diag) (p : Nat) : Res (Nat × Heap Diag) := do
  let d ← H.load p
  match d.below with
  | some q => return (q, H)
  | none =>
    let n := H.alloc (newDiag d.mV d.mU (-1))
    let H1 ← n.1.store p { d with below := some n.2 }
    let a ← H1.load n.2
    let H2 ← H1.store n.2 { a with below := some p }
    return (n.2, H2)

def pick (c : Ctx α) : Which → List α
  | .u => c.u
  | .v => c.v

/-- DiffDiag.cpp:142-145 -/
def objU (c : Ctx α) (H : Heap Diag) (p i : Nat) : Res α := do
  let d ← H.load p
  at1 (pick c d.mU) i
/-- DiffDiag.cpp:147-150 -/
def objV (c : Ctx α) (H : Heap Diag) (p i : Nat) : Res α := do
  let d ← H.load p
  at1 (pick c d.mV) (d.offset.natAbs + i)

/-- DiffDiag.cpp:85-91 `leftEntry`, with `ent` for `entry` -/
def leftH (ent : Heap Diag → Nat → Nat → Res (Nat × Heap Diag)) (H : Heap Diag) (p i : Nat) : Res (Nat × Heap Diag) := do
  let b ← belowH H p
  let d ← b.2.load p
  ent b.2 b.1 (if d.offset = 0 then i - 1 else i)
/-- DiffDiag.cpp:80-83 `upperEntry` -/
def upperH (ent : Heap Diag → Nat → Nat → Res (Nat × Heap Diag)) (H : Heap Diag) (p i : Nat) : Res (Nat × Heap Diag) := do
  let a ← aboveH H p
  ent a.2 a.1 (i - 1)

/-- DiffDiag.cpp:109-134: the value of the next element -/
def cellStepH (ent : Heap Diag → Nat → Nat → Res (Nat × Heap Diag)) (c : Ctx α) (H : Heap Diag) (p i lu : Nat) :
    Res (Nat × Heap Diag) := do
  let o1 ← objU c H p i
  let o2 ← objV c H p i
  if c.eqv o1 o2 then return (lu, H)
  else
    let l ← leftH ent H p i
    if l.1 < lu then return (l.1 + 1, l.2)
    else
      let u ← upperH ent l.2 p i
      return ((if lu < u.1 then lu else u.1) + 1, u.2)

/-- DiffDiag.cpp:137: `mElements->push_back(x)` -/
def pushH (H : Heap Diag) (p x : Nat) : Res (Heap Diag) := do
  let d ← H.load p
  H.store p { d with elems := d.elems ++ [x] }

/-- DiffDiag.cpp:99-139 -/
def entryLoopH (ent : Heap Diag → Nat → Nat → Res (Nat × Heap Diag)) (c : Ctx α) (p j : Nat) :
    Nat → Heap Diag → Nat → Res (Nat × Heap Diag)
  | 0, _, _ => .error .ub
  | fuel + 1, H, x => do
    let d ← H.load p
    if d.elems.length ≤ j then
      let r ← cellStepH ent c H p d.elems.length x
      let H' ← pushH r.2 p r.1
      entryLoopH ent c p j fuel H' r.1
    else return (x, H)

/-- DiffDiag.cpp:93-140 -/
def entryH (c : Ctx α) : Nat → Heap Diag → Nat → Nat → Res (Nat × Heap Diag)
  | 0, _, _, _ => .error .ub
  | fuel + 1, H, p, j => do
    let d ← H.load p
    match d.elems[j]? with
    | some x => return (x, H)
    | none =>
      match d.elems[d.elems.length - 1]? with
      | none => .error .thrown
      | some x => entryLoopH (entryH c fuel) c p j (j + 2) H x

/-- DiffBacktrace.cpp:91-144 -/
def opAtH (c : Ctx α) (fuel : Nat) (H : Heap Diag) (p i : Nat) : Res (DOp × Heap Diag) := do
  let d ← H.load p
  if i = 0 then return (if d.offset = 0 then .start else if d.offset > 0 then .add else .delete, H)
  else
    let o1 ← objU c H p i
    let o2 ← objV c H p i
    if c.eqv o1 o2 then return (.equal, H)
    else
      let me ← entryH c fuel H p i
      let w ← leftH (entryH c fuel) me.2 p i
      let nw ← entryH c fuel w.2 p (i - 1)
      if me.1 = 1 + w.1 then return (if d.offset ≥ 0 then .add else .delete, nw.2)
      else if me.1 = 1 + nw.1 then return (.modified, nw.2)
      else return (if d.offset ≥ 0 then .delete else .add, nw.2)

/-- DiffBacktrace.cpp:149-212: the step, the heap, and the next diagonal and index -/
def moveH (c : Ctx α) (H : Heap Diag) (p i : Nat) : DOp → Res (Step α × Heap Diag × Option (Nat × Nat))
  | .equal => .ok (⟨.equal, none, none⟩, H, some (p, i - 1))
  | .modified => do
    let a ← objU c H p i
    let b ← objV c H p i
    return (⟨.modified, some a, some b⟩, H, some (p, i - 1))
  | .add => do
    let d ← H.load p
    let a ← objV c H p i
    if d.offset = 0 then
      let q ← belowH H p
      return (⟨.add, some a, none⟩, q.2, some (q.1, i - 1))
    else if d.offset ≥ 0 then
      let q ← belowH H p
      return (⟨.add, some a, none⟩, q.2, some (q.1, i))
    else
      let q ← aboveH H p
      return (⟨.add, some a, none⟩, q.2, some (q.1, i - 1))
  | .delete => do
    let d ← H.load p
    let a ← objV c H p i
    if d.offset = 0 then
      let q ← aboveH H p
      return (⟨.delete, some a, none⟩, q.2, some (q.1, i - 1))
    else if d.offset ≥ 0 then
      let q ← aboveH H p
      return (⟨.delete, some a, none⟩, q.2, some (q.1, i - 1))
    else
      let q ← belowH H p
      return (⟨.delete, some a, none⟩, q.2, some (q.1, i))
  | .start => .ok (⟨.start, none, none⟩, H, none)

/-- include/core/DiffBacktrace.h: one step of the result; `mSize` is left out -/
structure BT (α : Type) where
  step : Step α
  prev : Option Nat
  next : Option Nat

/-- DiffBacktrace.cpp:82-216: the loop; `stack` has its back first -/
def backLoop (c : Ctx α) (ef : Nat) : Nat → Heap Diag → Heap (BT α) → Nat → Nat → List Nat → Res (Heap Diag × Heap (BT α) × List Nat)
  | 0, _, _, _, _, _ => .error .ub
  | fuel + 1, H, B, p, i, stack => do
    let op ← opAtH c ef H p i
    let r ← moveH c op.2 p i op.1
    let n := B.alloc (⟨r.1, none, none⟩ : BT α)
    match r.2.2 with
    | none => return (r.2.1, n.1, n.2 :: stack)
    | some (p, i) => backLoop c ef fuel r.2.1 n.1 p i (n.2 :: stack)

/-- DiffBacktrace.cpp:221-228 -/
def link : Heap (BT α) → Nat → List Nat → Res (Heap (BT α))
  | B, _, [] => .ok B
  | B, step, q :: rest => do
    let s ← B.load step
    let B1 ← B.store step { s with next := some q }
    let n ← B1.load q
    let B2 ← B1.store q { n with prev := some step }
    link B2 q rest

/-- DiffBacktrace.cpp:218-231 -/
def finish (B : Heap (BT α)) : List Nat → Res (Nat × Heap (BT α))
  | [] => .error .ub
  | top :: rest => do
    let B' ← link B top rest
    return (top, B')

/-- DiffDistance.cpp:101-109: from the main diagonal to the one of the last element -/
def climb : Nat → Heap Diag → Nat → Res (Nat × Heap Diag)
  | 0, H, p => .ok (p, H)
  | n + 1, H, p => do
    let q ← aboveH H p
    climb n q.2 q.1

/-- DiffDistance.cpp:94-110; `~lba` is `-lba - 1` -/
def findDiag (c : Ctx α) (H : Heap Diag) : Res (Nat × Heap Diag) := do
  let lba : Int := c.v.length - c.u.length
  let m := H.alloc (newDiag .u .v 0)
  if lba ≥ 0 then climb lba.toNat m.1 m.2
  else
    let b ← belowH m.1 m.2
    climb (-lba - 1).toNat b.2 b.1

/-- include/core/DiffDistance.h -/
structure DD (α : Type) where
  u : List α
  v : List α
  diagonal : Option Nat
  distance : Nat

structure World (α : Type) where
  diags : Heap Diag
  steps : Heap (BT α)
  dists : Heap (DD α)
  /-- the variables of the client that hold results of `solve` -/
  reports : List (Option Nat)

/-- DiffDistance.cpp:78-124 (`(int)` of the smaller length needs lengths below 2^31) -/
def solveH (eqv : α → α → Bool) (w : World α) (h : Nat) : Res (World α) := do
  let d ← w.dists.load h
  let c : Ctx α := ⟨d.u, d.v, eqv⟩
  let fuel := d.u.length + d.v.length + 1
  let m ← findDiag c w.diags
  let e ← entryH c fuel m.2 m.1 (min d.u.length d.v.length)
  let l ← backLoop c fuel fuel e.2 w.steps m.1 (min d.u.length d.v.length) []
  let f ← finish l.2.1 l.2.2
  let D ← w.dists.store h { d with diagonal := some m.1, distance := e.1 }
  return ⟨l.1, f.2, D, w.reports ++ [some f.1]⟩

/-- DiffDistance.cpp:55-66 -/
def clearH (w : World α) (h : Nat) : Res (World α) := do
  let d ← w.dists.load h
  let H ← match d.diagonal with
    | none => .ok w.diags
    | some p => w.diags.free p
  let D ← w.dists.store h ⟨[], [], none, 0⟩
  return { w with diags := H, dists := D }

/-- DiffDistance.cpp:48-53 -/
def deleteDist (w : World α) (h : Nat) : Res (World α) := do
  let w' ← clearH w h
  let D ← w'.dists.free h
  return { w' with dists := D }

/-- DiffBacktrace.cpp:56-65: the destructor deletes the next step first -/
def deleteStep : Nat → Heap (BT α) → Nat → Res (Heap (BT α))
  | 0, _, _ => .error .ub
  | fuel + 1, B, p => do
    let s ← B.load p
    match s.next with
    | none => B.free p
    | some q =>
      let B' ← deleteStep fuel B q
      B'.free p

/-- what `print` needs to know of the objects -/
structure Show (α : Type) where
  name : α → List Char
  typ : α → Nat
  info : α → Option α → List (List Char)

/-- DiffInfo.cpp:505-554: the lines -/
def printStep (sh : Show α) : Step α → List (List Char)
  | ⟨op, o1, o2⟩ =>
    match o1, o2 with
    | none, none => []
    | some a, some b =>
      if sh.typ a ≠ sh.typ b ∧ op = .modified then ["R ".toList ++ sh.name a ++ " -> ".toList ++ sh.name b ++ ":".toList]
      else
        match op with
        | .add => ["A ".toList ++ sh.name a]
        | .delete => ["D ".toList ++ sh.name a]
        | .modified => ("M ".toList ++ sh.name a) :: sh.info a (some b)
        | _ => []
    | none, some _ => ["<nullptr_PROBLEM>".toList]
    | some a, none =>
      match op with
      | .add => ["A ".toList ++ sh.name a]
      | .delete => ["D ".toList ++ sh.name a]
      | .modified => ("M ".toList ++ sh.name a) :: sh.info a none
      | _ => []

/-- DiffBacktrace.cpp:68-80 -/
def printFrom (sh : Show α) : Nat → Heap (BT α) → Nat → Res (List (List Char))
  | 0, _, _ => .error .ub
  | fuel + 1, B, p => do
    let s ← B.load p
    match s.next with
    | none => return printStep sh s.step
    | some q =>
      let r ← printFrom sh fuel B q
      return printStep sh s.step ++ r

/-- what a client can do; `h` names a DiffDistance, `r` the result of the `r`-th `solve` (or copy) -/
inductive Call (α : Type) where
  | create
  | addU (h : Nat) (x : α)
  | addV (h : Nat) (x : α)
  | solve (h : Nat)
  | distance (h : Nat)
  | clear (h : Nat)
  | destroy (h : Nat)
  | print (r : Nat)
  | drop (r : Nat)

inductive Out where
  | nothing
  | number (n : Nat)
  | text (l : List (List Char))
deriving DecidableEq, Repr

/-- a variable of the client that holds a result which has not been deleted -/
def held (l : List (Option Nat)) (r : Nat) : Res Nat :=
  match l[r]? with
  | some (some p) => .ok p
  | _ => .error .ub

/-- DiffDistance.cpp:37-46 (`create`), 68-76 (`addU`, `addV`), 127-130 (`distance`) and the functions above -/
def call (eqv : α → α → Bool) (sh : Show α) (w : World α) : Call α → Res (World α × Out)
  | .create => .ok ({ w with dists := (w.dists.alloc ⟨[], [], none, 0⟩).1 }, .nothing)
  | .addU h x => do
    let d ← w.dists.load h
    let D ← w.dists.store h { d with u := d.u ++ [x] }
    return ({ w with dists := D }, .nothing)
  | .addV h x => do
    let d ← w.dists.load h
    let D ← w.dists.store h { d with v := d.v ++ [x] }
    return ({ w with dists := D }, .nothing)
  | .solve h => do
    let w' ← solveH eqv w h
    return (w', .nothing)
  | .distance h => do
    let d ← w.dists.load h
    return (w, .number d.distance)
  | .clear h => do
    let w' ← clearH w h
    return (w', .nothing)
  | .destroy h => do
    let w' ← deleteDist w h
    return (w', .nothing)
  | .print r => do
    let p ← held w.reports r
    let l ← printFrom sh (w.steps.length + 1) w.steps p
    return (w, .text l)
  | .drop r => do
    let p ← held w.reports r
    let B ← deleteStep (w.steps.length + 1) w.steps p
    return ({ w with steps := B, reports := w.reports.set r none }, .nothing)

/-- a history of calls and what they return -/
def run (eqv : α → α → Bool) (sh : Show α) : World α → List (Call α) → Res (World α × List Out)
  | w, [] => .ok (w, [])
  | w, c :: cs => do
    let r ← call eqv sh w c
    let s ← run eqv sh r.1 cs
    return (s.1, r.2 :: s.2)

def World.init : World α := ⟨[], [], [], []⟩

/-- DiffBacktrace.cpp:46-54: the copy constructor; the copy is a new variable of the client -/
def copyReport (w : World α) (r : Nat) : Res (World α) := do
  let p ← held w.reports r
  let s ← w.steps.load p
  let n := w.steps.alloc s
  return { w with steps := n.1, reports := w.reports ++ [some n.2] }

end Verif.DiffMem
