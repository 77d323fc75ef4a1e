import Verif.ObjCopy.Model
/-
C121, specification: who holds how many references. Nothing here speaks of counters.
-/
namespace Verif.ObjCopy
open Verif

/-- What the program knows: the number of objects created, the references it holds on each, those it has given to the pool, the
marks it has set, the class of each object (own copying or not), in which session (between `init` and `quit`) it was made,
the number of the present session and whether the library is running. -/
structure Book where
  next : Nat
  own : Nat → Nat
  pool : List Nat
  mark : Nat → Bool
  userCopy : Nat → Bool
  born : Nat → Nat
  session : Nat
  running : Bool

/-- at the beginning -/
def Book.start : Book := ⟨0, fun _ => 0, [], fun _ => false, fun _ => false, fun _ => 0, 0, false⟩

/-- the references to an object -/
def Book.refs (b : Book) (o : Nat) : Nat := b.own o + b.pool.count o

def set {β : Type} (f : Nat → β) (o : Nat) (x : β) : Nat → β := fun i => if i = o then x else f i

/-- a new object: one reference, no mark -/
def Book.add (b : Book) (userCopy : Bool) : Book :=
  { b with next := b.next + 1, own := set b.own b.next 1, mark := set b.mark b.next false, userCopy := set b.userCopy b.next userCopy,
           born := set b.born b.next b.session }

/-- What every call should do. Copies are objects of their own; assigning changes no reference and no mark. -/
def Book.act (b : Book) : Act → Book
  | .init => { b with running := true }
  | .quit => if b.running then { b with running := false, session := b.session + 1, pool := [] } else b
  | .create u => b.add u
  | .copy src => b.add (b.userCopy src)
  | .assign _ _ => b
  | .retain o => { b with own := set b.own o (b.own o + 1) }
  | .release o => { b with own := set b.own o (b.own o - 1) }
  | .autorelease o => { b with own := set b.own o (b.own o - 1), pool := b.pool ++ [o] }
  | .mark o x => { b with mark := set b.mark o x }
  | .drain => { b with pool := [] }

def Book.run (b : Book) : List Act → Book
  | [] => b
  | a :: l => (b.act a).run l

/-- the program may use an object: it holds a reference, and the library has not been shut down since the object was made -/
def Book.Usable (b : Book) (o : Nat) : Prop := o < b.next ∧ 0 < b.own o ∧ b.running = true ∧ b.born o = b.session

/-- The rules: objects are made while the library runs and are only used with a reference to them, in the session they were made
in. Objects whose copying is left to the compiler are only copied if there is one unmarked reference to the source, and
only assigned if source and target have equally many references and equal marks. -/
def Book.Allowed (b : Book) : Act → Prop
  | .init => True
  | .quit => True
  | .create _ => b.running = true
  | .copy src => b.Usable src ∧ (b.userCopy src = true ∨ b.refs src = 1 ∧ b.mark src = false)
  | .assign dst src => b.Usable dst ∧ b.Usable src ∧ b.userCopy src = b.userCopy dst ∧
      (b.userCopy dst = true ∨ b.refs src = b.refs dst ∧ b.mark src = b.mark dst)
  | .retain o => b.Usable o ∧ b.refs o + 1 < 2 ^ 31
  | .release o => b.Usable o
  | .autorelease o => b.Usable o
  | .mark o _ => b.Usable o
  | .drain => b.running = true

def Book.Legal (b : Book) : List Act → Prop
  | [] => True
  | a :: l => b.Allowed a ∧ (b.act a).Legal l

/-- the object exists -/
def Alive (s : State) (o : Nat) : Prop := ∃ x, s.objs[o]? = some (some x)

/-- `referenceCount()` -/
def countOf (s : State) (o : Nat) : Res Nat := do let x ← s.objs.load o; return (RefCount.refCount x.raw).toNat

/-- `highBit()` -/
def markOf (s : State) (o : Nat) : Res Bool := do let x ← s.objs.load o; return RefCount.highBit x.raw

end Verif.ObjCopy
