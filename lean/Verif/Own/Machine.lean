import Verif.Heap
/-
C96: value types and the memory they hold.  A program works on variables of one class of the library: it constructs
them, copies them, changes them, assigns one to another and destroys them, in any order.  `Cls` is what the class
does to the memory; `Val` is what the user has in mind: every variable simply has a value of its own.
-/
namespace Verif.Own
open Verif

/-- memory of the process, as far as the class uses it: blocks allocated with `new T[n]`; a cell that was never
written is `none`.  Reading a freed block, or freeing it once more, is undefined behaviour (Verif/Heap.lean). -/
abbrev Mem (α : Type) := Heap (List (Option α))

/-- what the members of a class do; `O` are the data members of an object, `A` the arguments of its constructors,
`M` the calls that change it, `B` those that take another object of the class, whose first argument tells whether
it is the object itself (`this == &another`) -/
structure Cls (A M B O α V : Type) where
  make : A → Mem α → Res (Mem α × O)
  copy : O → Mem α → Res (Mem α × O)
  mutate : M → O → Mem α → Res (Mem α × O)
  binary : B → Bool → O → O → Mem α → Res (Mem α × O)
  dtor : O → Mem α → Res (Mem α)
  /-- the value read through the getters of the class -/
  observe : O → Mem α → Res V

/-- what the user expects: `none` where the call is outside of what the class offers (an index out of range) -/
structure Val (A M B V : Type) where
  make : A → Option V
  copy : V → Option V
  mutate : M → V → Option V
  binary : B → V → V → Option V

/-- one statement of the program; variables are numbered in the order of their construction -/
inductive Op (A M B : Type) where
  | make (a : A)
  | copy (x : Nat)
  | mutate (x : Nat) (m : M)
  | binary (x y : Nat) (b : B)
  | destroy (x : Nat)

/-- the variables (`none`: destroyed) and the memory -/
structure World (O α : Type) where
  heap : Mem α
  vars : List (Option O)

variable {A M B O α V : Type}

/-- the object behind a variable; using a destroyed or unknown one is undefined -/
def World.obj (w : World O α) (x : Nat) : Res O := Heap.load w.vars x

/-- one statement, in memory -/
def step (C : Cls A M B O α V) (w : World O α) : Op A M B → Res (World O α)
  | .make a => do
    let r ← C.make a w.heap
    return ⟨r.1, w.vars ++ [some r.2]⟩
  | .copy x => do
    let o ← w.obj x
    let r ← C.copy o w.heap
    return ⟨r.1, w.vars ++ [some r.2]⟩
  | .mutate x m => do
    let o ← w.obj x
    let r ← C.mutate m o w.heap
    return ⟨r.1, w.vars.set x (some r.2)⟩
  | .binary x y b => do
    let o ← w.obj x
    let o' ← w.obj y
    let r ← C.binary b (x == y) o o' w.heap
    return ⟨r.1, w.vars.set x (some r.2)⟩
  | .destroy x => do
    let o ← w.obj x
    let h ← C.dtor o w.heap
    return ⟨h, w.vars.set x none⟩

/-- a program, in memory -/
def run (C : Cls A M B O α V) (w : World O α) : List (Op A M B) → Res (World O α)
  | [] => .ok w
  | o :: os => do
    let w ← step C w o
    run C w os

/-- nothing constructed, nothing allocated -/
def World.start : World O α := ⟨[], []⟩

/-- the value of a variable -/
def valueOf (vs : List (Option V)) (x : Nat) : Option V := (vs[x]?).join

/-- one statement, on values -/
def vstep (S : Val A M B V) (vs : List (Option V)) : Op A M B → Option (List (Option V))
  | .make a => (S.make a).map (fun v => vs ++ [some v])
  | .copy x => ((valueOf vs x).bind S.copy).map (fun v => vs ++ [some v])
  | .mutate x m => ((valueOf vs x).bind (S.mutate m)).map (fun v => vs.set x (some v))
  | .binary x y b => ((valueOf vs x).bind (fun v => (valueOf vs y).bind (S.binary b v))).map (fun v => vs.set x (some v))
  | .destroy x => (valueOf vs x).map (fun _ => vs.set x none)

/-- a program, on values -/
def vrun (S : Val A M B V) (vs : List (Option V)) : List (Op A M B) → Option (List (Option V))
  | [] => some vs
  | o :: os => (vstep S vs o).bind (fun vs => vrun S vs os)

/-- the property: a program that makes sense on values runs in memory without touching memory that is not there,
every variable has the value it should have, and when all variables are destroyed no memory is left over -/
def Refines (C : Cls A M B O α V) (S : Val A M B V) : Prop :=
  ∀ (os : List (Op A M B)) (vs : List (Option V)), vrun S [] os = some vs →
    ∃ w, run C World.start os = .ok w ∧
      (∀ x v, valueOf vs x = some v → ∃ o, w.obj x = .ok o ∧ C.observe o w.heap = .ok v) ∧
      ((∀ x, valueOf vs x = none) → Heap.AllFreed w.heap)

/-! ### the general proof -/

/-- `h'` comes from `h` by replacing the blocks `old` by the blocks `new` -/
structure Changed (h : Mem α) (old : List Nat) (h' : Mem α) (new : List Nat) : Prop where
  len : h.length ≤ h'.length
  same : ∀ p, p < h.length → p ∉ old → h'[p]? = h[p]?
  fresh : ∀ p ∈ new, p ∈ old ∨ h.length ≤ p
  noleak : ∀ p b, h'[p]? = some (some b) → p ∈ new ∨ (p < h.length ∧ p ∉ old)

/-- what each member has to do for `Refines` -/
structure Sound (C : Cls A M B O α V) (S : Val A M B V) (owns : O → List Nat) (Rep : Mem α → O → V → Prop) : Prop where
  live : ∀ {h o v}, Rep h o v → ∀ p ∈ owns o, ∃ b, h[p]? = some (some b)
  frame : ∀ {h h' o v}, Rep h o v → (∀ p ∈ owns o, h'[p]? = h[p]?) → Rep h' o v
  reads : ∀ {h o v}, Rep h o v → C.observe o h = .ok v
  make : ∀ {h a v}, S.make a = some v → ∃ h' o, C.make a h = .ok (h', o) ∧ Changed h [] h' (owns o) ∧ Rep h' o v
  copy : ∀ {h o v v'}, Rep h o v → S.copy v = some v' → ∃ h' o', C.copy o h = .ok (h', o') ∧ Changed h [] h' (owns o') ∧ Rep h' o' v'
  mutate : ∀ {h o v m v'}, Rep h o v → S.mutate m v = some v' →
    ∃ h' o', C.mutate m o h = .ok (h', o') ∧ Changed h (owns o) h' (owns o') ∧ Rep h' o' v'
  binary : ∀ {h o v o2 v2 b v'}, Rep h o v → Rep h o2 v2 → (∀ p ∈ owns o, p ∉ owns o2) → S.binary b v v2 = some v' →
    ∃ h' o', C.binary b false o o2 h = .ok (h', o') ∧ Changed h (owns o) h' (owns o') ∧ Rep h' o' v'
  binarySelf : ∀ {h o v b v'}, Rep h o v → S.binary b v v = some v' →
    ∃ h' o', C.binary b true o o h = .ok (h', o') ∧ Changed h (owns o) h' (owns o') ∧ Rep h' o' v'
  dtor : ∀ {h o v}, Rep h o v → ∃ h', C.dtor o h = .ok h' ∧ Changed h (owns o) h' []

/-- the invariant between memory and values -/
structure Inv (owns : O → List Nat) (Rep : Mem α → O → V → Prop) (w : World O α) (vs : List (Option V)) : Prop where
  len : w.vars.length = vs.length
  rel : ∀ (x : Nat) v, vs[x]? = some (some v) → ∃ o, w.vars[x]? = some (some o) ∧ Rep w.heap o v
  dead : ∀ (x : Nat), vs[x]? = some none → w.vars[x]? = some none
  disj : ∀ (x y : Nat) o o', x ≠ y → w.vars[x]? = some (some o) → w.vars[y]? = some (some o') → ∀ p ∈ owns o, p ∉ owns o'
  noleak : ∀ (p : Nat) b, w.heap[p]? = some (some b) → ∃ (x : Nat) (o : O), w.vars[x]? = some (some o) ∧ p ∈ owns o

theorem value_iff {vs : List (Option V)} {x : Nat} {v : V} : valueOf vs x = some v ↔ vs[x]? = some (some v) := by
  unfold valueOf
  cases vs[x]? with
  | none => simp
  | some o => cases o <;> simp

theorem Inv.back {owns : O → List Nat} {Rep : Mem α → O → V → Prop} {w : World O α} {vs : List (Option V)} (i : Inv owns Rep w vs)
    {x : Nat} {o : O} (e : w.vars[x]? = some (some o)) : ∃ v, vs[x]? = some (some v) ∧ Rep w.heap o v := by
  have hx : x < vs.length := by rw [← i.len]; exact (List.getElem?_eq_some_iff.1 e).1
  cases hv : vs[x]? with
  | none => rw [List.getElem?_eq_none_iff] at hv; omega
  | some r =>
    cases r with
    | none => rw [i.dead x hv] at e; simp at e
    | some v =>
      obtain ⟨o', ho, hr⟩ := i.rel x v hv
      rw [e] at ho
      simp only [Option.some.injEq] at ho
      exact ⟨v, rfl, ho ▸ hr⟩

section
variable {C : Cls A M B O α V} {S : Val A M B V} {owns : O → List Nat} {Rep : Mem α → O → V → Prop}

/-- every other variable survives a change of blocks that are not its own -/
theorem keep (s : Sound C S owns Rep) {h h' : Mem α} {old new : List Nat} (c : Changed h old h' new) {o : O} {v : V}
    (r : Rep h o v) (d : ∀ p ∈ owns o, p ∉ old) : Rep h' o v := by
  apply s.frame r
  intro p hp
  obtain ⟨b, hb⟩ := s.live r p hp
  exact c.same p (Heap.lt_of_live hb) (d p hp)

theorem inv_new (s : Sound C S owns Rep) {w : World O α} {vs : List (Option V)} (i : Inv owns Rep w vs)
    {h' : Mem α} {o : O} {v : V} (c : Changed w.heap [] h' (owns o)) (r : Rep h' o v) :
    Inv owns Rep ⟨h', w.vars ++ [some o]⟩ (vs ++ [some v]) := by
  have hf : ∀ p ∈ owns o, w.heap.length ≤ p := fun p hp => by
    rcases c.fresh p hp with h | h
    · cases h
    · exact h
  have hlt : ∀ (x : Nat) o', w.vars[x]? = some (some o') → ∀ p ∈ owns o', p < w.heap.length := by
    intro x o' e p hp
    obtain ⟨v', _, r'⟩ := i.back e
    obtain ⟨b, hb⟩ := s.live r' p hp
    exact Heap.lt_of_live hb
  constructor
  · simp [i.len]
  · intro x v' e
    by_cases hx : x < vs.length
    · rw [List.getElem?_append_left hx] at e
      obtain ⟨o', e', r'⟩ := i.rel x v' e
      refine ⟨o', ?_, keep s c r' (by simp)⟩
      show (w.vars ++ [some o])[x]? = _
      rw [List.getElem?_append_left (by rw [i.len]; exact hx)]
      exact e'
    · have hxe : x = vs.length := by
        have := (List.getElem?_eq_some_iff.1 e).1
        simp at this
        omega
      subst hxe
      simp at e
      subst e
      exact ⟨o, by simp [← i.len], r⟩
  · intro x e
    have hx : x < vs.length := by
      refine Decidable.byContradiction (fun hx => ?_)
      have hxe : x = vs.length := by
        have := (List.getElem?_eq_some_iff.1 e).1
        simp at this
        omega
      subst hxe
      simp at e
    rw [List.getElem?_append_left hx] at e
    show (w.vars ++ [some o])[x]? = _
    rw [List.getElem?_append_left (by rw [i.len]; exact hx)]
    exact i.dead x e
  · intro x y o1 o2 hxy e1 e2 p hp1 hp2
    simp only [List.getElem?_append] at e1 e2
    split at e1 <;> split at e2
    · exact i.disj x y o1 o2 hxy e1 e2 p hp1 hp2
    · rename_i h1 h2
      have : o2 = o := by
        cases hk : y - w.vars.length with
        | zero => rw [hk] at e2; simpa using e2.symm
        | succ k => rw [hk] at e2; simp at e2
      subst this
      have := hf p hp2
      have := hlt x o1 e1 p hp1
      omega
    · rename_i h1 h2
      have : o1 = o := by
        cases hk : x - w.vars.length with
        | zero => rw [hk] at e1; simpa using e1.symm
        | succ k => rw [hk] at e1; simp at e1
      subst this
      have := hf p hp1
      have := hlt y o2 e2 p hp2
      omega
    · rename_i h1 h2
      have a : x - w.vars.length < 1 := (List.getElem?_eq_some_iff.1 e1).1
      have b : y - w.vars.length < 1 := (List.getElem?_eq_some_iff.1 e2).1
      omega
  · intro p b e
    rcases c.noleak p b e with h | ⟨h1, h2⟩
    · exact ⟨w.vars.length, o, by simp, h⟩
    · have e2 : w.heap[p]? = some (some b) := by rw [← c.same p h1 h2]; exact e
      obtain ⟨x, o', e', hp⟩ := i.noleak p b e2
      refine ⟨x, o', ?_, hp⟩
      show (w.vars ++ [some o])[x]? = _
      rw [List.getElem?_append_left (List.getElem?_eq_some_iff.1 e').1]
      exact e'

theorem inv_set (s : Sound C S owns Rep) {w : World O α} {vs : List (Option V)} (i : Inv owns Rep w vs)
    {x : Nat} {o : O} (ex : w.vars[x]? = some (some o))
    {h' : Mem α} {o' : O} {v' : V} (c : Changed w.heap (owns o) h' (owns o')) (r : Rep h' o' v') :
    Inv owns Rep ⟨h', w.vars.set x (some o')⟩ (vs.set x (some v')) := by
  have hx : x < w.vars.length := (List.getElem?_eq_some_iff.1 ex).1
  have hx2 : x < vs.length := by rw [← i.len]; exact hx
  have hlt : ∀ (y : Nat) o', w.vars[y]? = some (some o') → ∀ p ∈ owns o', p < w.heap.length := by
    intro y o' e p hp
    obtain ⟨v', _, r'⟩ := i.back e
    obtain ⟨b, hb⟩ := s.live r' p hp
    exact Heap.lt_of_live hb
  have key : ∀ (y : Nat) o2, y ≠ x → w.vars[y]? = some (some o2) → ∀ p ∈ owns o', p ∉ owns o2 := by
    intro y o2 hy e p hp hp2
    rcases c.fresh p hp with h | h
    · exact i.disj x y o o2 (fun e => hy e.symm) ex e p h hp2
    · have := hlt y o2 e p hp2
      omega
  constructor
  · simp [i.len]
  · intro y v e
    by_cases hy : x = y
    · subst hy
      rw [List.getElem?_set_self hx2] at e
      simp at e
      subst e
      exact ⟨o', by simp [hx], r⟩
    · rw [List.getElem?_set_ne hy] at e
      obtain ⟨o2, e2, r2⟩ := i.rel y v e
      refine ⟨o2, ?_, keep s c r2 (i.disj y x o2 o (fun e => hy e.symm) e2 ex)⟩
      show (w.vars.set x (some o'))[y]? = _
      rw [List.getElem?_set_ne hy]
      exact e2
  · intro y e
    by_cases hy : x = y
    · subst hy
      rw [List.getElem?_set_self hx2] at e
      simp at e
    · rw [List.getElem?_set_ne hy] at e
      show (w.vars.set x (some o'))[y]? = _
      rw [List.getElem?_set_ne hy]
      exact i.dead y e
  · intro y z o1 o2 hyz e1 e2 p hp1 hp2
    simp only at e1 e2
    by_cases hy : x = y
    · subst hy
      rw [List.getElem?_set_ne hyz] at e2
      rw [List.getElem?_set_self hx] at e1
      simp at e1
      subst e1
      exact key z o2 (fun e => hyz e.symm) e2 p hp1 hp2
    · rw [List.getElem?_set_ne hy] at e1
      by_cases hz : x = z
      · subst hz
        rw [List.getElem?_set_self hx] at e2
        simp at e2
        subst e2
        exact key y o1 hyz e1 p hp2 hp1
      · rw [List.getElem?_set_ne hz] at e2
        exact i.disj y z o1 o2 hyz e1 e2 p hp1 hp2
  · intro p b e
    rcases c.noleak p b e with h | ⟨h1, h2⟩
    · exact ⟨x, o', by simp [hx], h⟩
    · have e2 : w.heap[p]? = some (some b) := by rw [← c.same p h1 h2]; exact e
      obtain ⟨y, o2, e3, hp⟩ := i.noleak p b e2
      refine ⟨y, o2, ?_, hp⟩
      have hy : x ≠ y := by
        intro hy
        subst hy
        rw [ex] at e3
        simp at e3
        subst e3
        exact h2 hp
      show (w.vars.set x (some o'))[y]? = _
      rw [List.getElem?_set_ne hy]
      exact e3

theorem inv_del (s : Sound C S owns Rep) {w : World O α} {vs : List (Option V)} (i : Inv owns Rep w vs)
    {x : Nat} {o : O} (ex : w.vars[x]? = some (some o))
    {h' : Mem α} (c : Changed w.heap (owns o) h' []) :
    Inv owns Rep ⟨h', w.vars.set x none⟩ (vs.set x none) := by
  have hx : x < w.vars.length := (List.getElem?_eq_some_iff.1 ex).1
  have hx2 : x < vs.length := by rw [← i.len]; exact hx
  constructor
  · simp [i.len]
  · intro y v e
    have hy : x ≠ y := by
      intro hy
      subst hy
      rw [List.getElem?_set_self hx2] at e
      simp at e
    rw [List.getElem?_set_ne hy] at e
    obtain ⟨o2, e2, r2⟩ := i.rel y v e
    refine ⟨o2, ?_, keep s c r2 (i.disj y x o2 o (fun e => hy e.symm) e2 ex)⟩
    show (w.vars.set x none)[y]? = _
    rw [List.getElem?_set_ne hy]
    exact e2
  · intro y e
    show (w.vars.set x none)[y]? = _
    by_cases hy : x = y
    · subst hy
      rw [List.getElem?_set_self hx]
    · rw [List.getElem?_set_ne hy] at e
      rw [List.getElem?_set_ne hy]
      exact i.dead y e
  · intro y z o1 o2 hyz e1 e2 p hp1 hp2
    simp only at e1 e2
    have hy : x ≠ y := by
      intro hy
      subst hy
      rw [List.getElem?_set_self hx] at e1
      simp at e1
    have hz : x ≠ z := by
      intro hy
      subst hy
      rw [List.getElem?_set_self hx] at e2
      simp at e2
    rw [List.getElem?_set_ne hy] at e1
    rw [List.getElem?_set_ne hz] at e2
    exact i.disj y z o1 o2 hyz e1 e2 p hp1 hp2
  · intro p b e
    rcases c.noleak p b e with h | ⟨h1, h2⟩
    · cases h
    · have e2 : w.heap[p]? = some (some b) := by rw [← c.same p h1 h2]; exact e
      obtain ⟨y, o2, e3, hp⟩ := i.noleak p b e2
      refine ⟨y, o2, ?_, hp⟩
      have hy : x ≠ y := by
        intro hy
        subst hy
        rw [ex] at e3
        simp at e3
        subst e3
        exact h2 hp
      show (w.vars.set x none)[y]? = _
      rw [List.getElem?_set_ne hy]
      exact e3

theorem step_inv (s : Sound C S owns Rep) {w : World O α} {vs vs' : List (Option V)} (i : Inv owns Rep w vs)
    {op : Op A M B} (e : vstep S vs op = some vs') : ∃ w', step C w op = .ok w' ∧ Inv owns Rep w' vs' := by
  cases op with
  | make a =>
    simp only [vstep, Option.map_eq_some_iff] at e
    obtain ⟨v, ev, rfl⟩ := e
    obtain ⟨h', o, eo, c, r⟩ := s.make (h := w.heap) ev
    exact ⟨_, by simp only [step, eo, bind, Except.bind, pure, Except.pure], inv_new s i c r⟩
  | copy x =>
    simp only [vstep, Option.map_eq_some_iff, Option.bind_eq_some_iff] at e
    obtain ⟨v', ⟨v, ev, em⟩, rfl⟩ := e
    obtain ⟨o, eo, r⟩ := i.rel x v (value_iff.1 ev)
    obtain ⟨h', o', e', c, r'⟩ := s.copy r em
    exact ⟨_, by simp only [step, World.obj, Heap.load_ok eo, e', bind, Except.bind, pure, Except.pure], inv_new s i c r'⟩
  | mutate x m =>
    simp only [vstep, Option.map_eq_some_iff, Option.bind_eq_some_iff] at e
    obtain ⟨v', ⟨v, ev, em⟩, rfl⟩ := e
    obtain ⟨o, eo, r⟩ := i.rel x v (value_iff.1 ev)
    obtain ⟨h', o', e', c, r'⟩ := s.mutate r em
    exact ⟨_, by simp only [step, World.obj, Heap.load_ok eo, e', bind, Except.bind, pure, Except.pure], inv_set s i eo c r'⟩
  | binary x y b =>
    simp only [vstep, Option.map_eq_some_iff, Option.bind_eq_some_iff] at e
    obtain ⟨v', ⟨v, ev, v2, ev2, em⟩, rfl⟩ := e
    obtain ⟨o, eo, r⟩ := i.rel x v (value_iff.1 ev)
    obtain ⟨o2, eo2, r2⟩ := i.rel y v2 (value_iff.1 ev2)
    by_cases hxy : x = y
    · subst hxy
      rw [eo] at eo2
      rw [ev] at ev2
      simp only [Option.some.injEq] at eo2 ev2
      subst eo2
      subst ev2
      obtain ⟨h', o', e', c, r'⟩ := s.binarySelf r em
      exact ⟨_, by simp only [step, World.obj, Heap.load_ok eo, beq_self_eq_true, e', bind, Except.bind, pure, Except.pure], inv_set s i eo c r'⟩
    · obtain ⟨h', o', e', c, r'⟩ := s.binary r r2 (i.disj x y o o2 hxy eo eo2) em
      have hb : (x == y) = false := by simpa using hxy
      exact ⟨_, by simp only [step, World.obj, Heap.load_ok eo, Heap.load_ok eo2, hb, e', bind, Except.bind, pure, Except.pure], inv_set s i eo c r'⟩
  | destroy x =>
    simp only [vstep, Option.map_eq_some_iff] at e
    obtain ⟨v, ev, rfl⟩ := e
    obtain ⟨o, eo, r⟩ := i.rel x v (value_iff.1 ev)
    obtain ⟨h', e', c⟩ := s.dtor r
    exact ⟨_, by simp only [step, World.obj, Heap.load_ok eo, e', bind, Except.bind, pure, Except.pure], inv_del s i eo c⟩

theorem run_inv (s : Sound C S owns Rep) (os : List (Op A M B)) : ∀ {w : World O α} {vs vs' : List (Option V)},
    Inv owns Rep w vs → vrun S vs os = some vs' → ∃ w', run C w os = .ok w' ∧ Inv owns Rep w' vs' := by
  induction os with
  | nil =>
    intro w vs vs' i e
    simp only [vrun, Option.some.injEq] at e
    exact ⟨w, rfl, e ▸ i⟩
  | cons o os ih =>
    intro w vs vs' i e
    simp only [vrun, Option.bind_eq_some_iff] at e
    obtain ⟨vs1, e1, e2⟩ := e
    obtain ⟨w1, s1, i1⟩ := step_inv s i e1
    obtain ⟨w2, s2, i2⟩ := ih i1 e2
    exact ⟨w2, by simp only [run, s1, bind, Except.bind]; exact s2, i2⟩

theorem inv_start : Inv owns Rep (World.start : World O α) ([] : List (Option V)) := by
  constructor
  · rfl
  · intro x v e; simp at e
  · intro x e; simp at e
  · intro x y o o' _ e; simp [World.start] at e
  · intro p b e; simp [World.start] at e

theorem refines (s : Sound C S owns Rep) : Refines C S := by
  intro os vs e
  obtain ⟨w, ew, i⟩ := run_inv s os inv_start e
  refine ⟨w, ew, ?_, ?_⟩
  · intro x v ev
    obtain ⟨o, eo, r⟩ := i.rel x v (value_iff.1 ev)
    exact ⟨o, Heap.load_ok eo, s.reads r⟩
  · intro hn c hc
    obtain ⟨p, hp, e⟩ := List.getElem_of_mem hc
    cases hcv : c with
    | none => rfl
    | some b =>
      subst hcv
      obtain ⟨x, o, eo, _⟩ := i.noleak p b (by rw [List.getElem?_eq_getElem hp, e])
      obtain ⟨v, ev, _⟩ := i.back eo
      have := hn x
      rw [value_iff.2 ev] at this
      cases this
end

end Verif.Own
