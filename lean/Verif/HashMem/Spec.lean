import Verif.Hashtable.Spec
/-
Specification of iterating over a table that is changed meanwhile: the map, and the keys still to be delivered.
-/
namespace Verif.HashMem.Spec
open Verif

/-- What a client can do with a table and one iterator over it. -/
inductive Op (K : Type) where
  | tab (op : Hashtable.Spec.Op K)
  | next
  | hasNext

/-- The answers; `key none` is the `nullptr` of a key iterator at the end. -/
inductive Out (K : Type) where
  | tab (o : Hashtable.Spec.Out)
  | key (k : Option K)
  | value (v : Nat)
  | more (b : Bool)

/-- The map and the keys the iterator still has to deliver. -/
structure St (K : Type) where
  map : Hashtable.Spec.Map K
  todo : K → Prop

variable {K : Type} [DecidableEq K]

/-- A key iterator shows the key, a value iterator the value. -/
def shown (retKey : Bool) (k : K) (v : Nat) : Out K := if retKey then .key (some k) else .value v

/-- Both answer `nullptr` at the end. -/
def theEnd (retKey : Bool) : Out K := if retKey then .key none else .value 0

/-- Every key still to be delivered is delivered once, with the value of now. -/
inductive Step (retKey : Bool) : St K → Op K → St K → Out K → Prop
  | tab {m m' U op o} : Hashtable.Spec.Step m op m' o → Step retKey ⟨m, U⟩ (.tab op) ⟨m', U⟩ (.tab o)
  | next {m U k v} : U k → m k = some v → Step retKey ⟨m, U⟩ .next ⟨m, fun x => U x ∧ x ≠ k⟩ (shown retKey k v)
  | done {m U} : (∀ k, ¬ U k) → Step retKey ⟨m, U⟩ .next ⟨m, U⟩ (theEnd retKey)
  | hasNext {m U b} : (b = true ↔ ∃ k, U k) → Step retKey ⟨m, U⟩ .hasNext ⟨m, U⟩ (.more b)

/-- What a client may do between two deliveries: give a present key another value, remove what was delivered already
(or is absent), clear when all was delivered, and ask anything. -/
def Permitted (s : St K) : Op K → Prop
  | .tab (.put k _) => s.map k ≠ none
  | .tab (.remove k) => ¬ s.todo k
  | .tab .clear => ∀ k, ¬ s.todo k
  | _ => True

/-- The answers up to the first step that is not permitted. -/
inductive Trace (retKey : Bool) : St K → List (Op K) → List (Out K) → St K → Prop
  | nil (s) : Trace retKey s [] [] s
  | stop {s op ops} : ¬ Permitted s op → Trace retKey s (op :: ops) [] s
  | cons {s s1 s2 op o ops os} : Permitted s op → Step retKey s op s1 o → Trace retKey s1 ops os s2 →
      Trace retKey s (op :: ops) (o :: os) s2

/-- Without removing (but with arbitrary `put`): what is delivered is present at that moment, with its value. -/
inductive WStep (retKey : Bool) : Hashtable.Spec.Map K → Op K → Hashtable.Spec.Map K → Out K → Prop
  | tab {m m' op o} : Hashtable.Spec.Step m op m' o → WStep retKey m (.tab op) m' (.tab o)
  | next {m k v} : m k = some v → WStep retKey m .next m (shown retKey k v)
  | done {m} : WStep retKey m .next m (theEnd retKey)
  | hasNext {m b} : WStep retKey m .hasNext m (.more b)

inductive WSteps (retKey : Bool) : Hashtable.Spec.Map K → List (Op K) → Hashtable.Spec.Map K → List (Out K) → Prop
  | nil (m) : WSteps retKey m [] m []
  | cons {m m1 m2 op o ops os} : WStep retKey m op m1 o → WSteps retKey m1 ops m2 os → WSteps retKey m (op :: ops) m2 (o :: os)

/-- no `remove`, no `clear` -/
def Additive : Op K → Prop
  | .tab (.remove _) => False
  | .tab .clear => False
  | _ => True

end Verif.HashMem.Spec
