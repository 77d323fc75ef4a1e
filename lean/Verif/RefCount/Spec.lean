import Verif.RefCount.Model
/-
What a user of the library expects of `retain`, `release`, `autorelease` and `drain`: statements about the events that can
be seen from outside (a trace), independent of mutexes, counters and frames.
-/
namespace Verif.RefCount

/-- how many releases object `o` has got, from clients and from the pool -/
def releases (tr : List Ev) (o : Nat) : Nat := tr.count (.released o) + tr.count (.poolReleased o)

/-- how many references to `o` there have been: one from the constructor, one for each `retain` -/
def references (tr : List Ev) (o : Nat) : Nat := tr.count (.created o) + tr.count (.retained o)

/-- does the event use object `o`? -/
def uses (o : Nat) : Ev → Bool
  | .retained p | .released p | .added p | .poolReleased p | .destroyed p | .created p => p == o
  | .drained => false

/-- every object is created once and destroyed at most once, -/
structure Lifecycle (tr : List Ev) : Prop where
  createdOnce : ∀ o, tr.count (.created o) ≤ 1
  destroyedOnce : ∀ o, tr.count (.destroyed o) ≤ 1
  /-- never released more often than referenced, -/
  bounded : ∀ o, releases tr o ≤ references tr o
  /-- destroyed only when every reference has been released, and not used any more afterwards -/
  last : ∀ o p q, tr = p ++ .destroyed o :: q → releases p o = references p o ∧ 0 < references p o ∧ ∀ e ∈ q, uses o e = false

/-- no thread is inside a call -/
def Idle (s : State) : Prop := ∀ t ∈ s.thr, t.stack = []

/-- whenever `drain` returns, every object that has been put into the pool has been released by the pool exactly as often
as it was put in -/
def DrainedAll (tr : List Ev) : Prop :=
  ∀ p q, tr = p ++ .drained :: q → ∀ o, p.count (.added o) = p.count (.poolReleased o)

end Verif.RefCount
