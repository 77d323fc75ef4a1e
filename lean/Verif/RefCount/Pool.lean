import Verif.Heap
/-
AutoreleasePool.cpp at the level of its linked entries: the chain behaves as the list of objects that
Verif/RefCount/Model.lean uses, every entry is deleted exactly once and nothing leaks.  All of this runs under mPoolMutex.
What `release` does to the object is not visible here: it cannot touch the entries (they are private and locked); the
objects released are returned in order.
-/
namespace Verif.RefCount.Pool
open Verif

/-- AutoreleasePool.h:73-77 PoolEntry -/
structure Entry where
  object : Option Nat
  next : Option Nat

/-- AutoreleasePool.h:80-83 -/
structure P where
  pool : Nat
  top : Nat

/-- AutoreleasePool.cpp:37-45 constructor -/
def P.new (h : Heap Entry) : Heap Entry × P := ((h.alloc ⟨none, none⟩).1, ⟨(h.alloc ⟨none, none⟩).2, (h.alloc ⟨none, none⟩).2⟩)

/-- AutoreleasePool.cpp:76-85 `add` (:79-81 the new entry, :82 mTop->next = entry, :83 mTop = entry) -/
def P.add (h : Heap Entry) (s : P) (o : Nat) : Res (Heap Entry × P) := do
  let a := h.alloc ⟨some o, none⟩
  let e ← a.1.load s.top
  let h' ← a.1.store s.top { e with next := some a.2 }
  return (h', { s with top := a.2 })

/-- AutoreleasePool.cpp:64: the object of an entry; calling `release` on a null object is undefined -/
def obj : Option Nat → Res Nat
  | some o => .ok o
  | none => .error .ub

/-- AutoreleasePool.cpp:61-69 the loop; the result is the objects released -/
def drainLoop : Nat → Heap Entry → Option Nat → Res (Heap Entry × List Nat)
  | _, h, none => .ok (h, [])
  | 0, _, some _ => .error .ub
  | fuel + 1, h, some p => do
    let e ← h.load p
    let o ← obj e.object
    let h' ← h.free p
    let r ← drainLoop fuel h' e.next
    return (r.1, o :: r.2)

/-- AutoreleasePool.cpp:56-74 `drain` -/
def P.drain (h : Heap Entry) (s : P) : Res (Heap Entry × P × List Nat) := do
  let e ← h.load s.pool
  let r ← drainLoop (h.length + 1) h e.next
  let d ← r.1.load s.pool
  let h' ← r.1.store s.pool { d with next := none }
  return (h', { s with top := s.pool }, r.2)

/-- AutoreleasePool.cpp:47-54 destructor -/
def P.close (h : Heap Entry) (s : P) : Res (Heap Entry × List Nat) := do
  let r ← s.drain h
  let h' ← r.1.free r.2.1.pool
  return (h', r.2.2)

/-- calls on the pool -/
inductive Op where
  | add (o : Nat)
  | drain

/-- a history of calls: the objects released, in order -/
def runOps : List Op → Heap Entry → P → Res (Heap Entry × P × List Nat)
  | [], h, s => .ok (h, s, [])
  | .add o :: l, h, s => do
    let r ← s.add h o
    runOps l r.1 r.2
  | .drain :: l, h, s => do
    let r ← s.drain h
    let q ← runOps l r.1 r.2.1
    return (q.1, q.2.1, r.2.2 ++ q.2.2)

/-- the specification: a list of objects -/
def specOps : List Op → List Nat → List Nat × List Nat
  | [], l => (l, [])
  | .add o :: t, l => specOps t (l ++ [o])
  | .drain :: t, l => ((specOps t []).1, l ++ (specOps t []).2)

/-! ### proof -/

inductive Chain (h : Heap Entry) : Option Nat → List Nat → List Nat → Prop
  | nil : Chain h none [] []
  | cons {p o : Nat} {n : Option Nat} {ps l : List Nat} (e : h[p]? = some (some ⟨some o, n⟩)) (c : Chain h n ps l) :
      Chain h (some p) (p :: ps) (o :: l)

def lastOf (d : Nat) (ps : List Nat) : Nat := (d :: ps).getLast (by simp)

structure Inv (h : Heap Entry) (s : P) (ps l : List Nat) : Prop where
  head : ∃ n, h[s.pool]? = some (some ⟨none, n⟩) ∧ Chain h n ps l
  top : s.top = lastOf s.pool ps
  nodup : (s.pool :: ps).Nodup
  rest : ∀ p, p < h.length → p ∉ s.pool :: ps → h[p]? = some none

theorem Chain.frame {h h' : Heap Entry} {n : Option Nat} {ps l : List Nat} (c : Chain h n ps l)
    (e : ∀ p ∈ ps, h'[p]? = h[p]?) : Chain h' n ps l := by
  induction c with
  | nil => exact .nil
  | cons hp _ ih => exact .cons (by rw [e _ (by simp)]; exact hp) (ih (fun p hp => e p (by simp [hp])))

theorem Chain.lt {h : Heap Entry} {n : Option Nat} {ps l : List Nat} (c : Chain h n ps l) : ∀ p ∈ ps, p < h.length := by
  induction c with
  | nil => simp
  | cons e _ ih =>
    intro p hp
    rcases List.mem_cons.1 hp with h | h
    · subst h; exact Heap.lt_of_live e
    · exact ih p h

theorem Chain.len {h : Heap Entry} {n : Option Nat} {ps l : List Nat} (c : Chain h n ps l) : ps.length = l.length := by
  induction c with
  | nil => rfl
  | cons _ _ ih => simp [ih]

/-- storing `some a` into the last entry's next, `a` holding the new object, appends -/
theorem Chain.snoc {h h' : Heap Entry} {n : Option Nat} {ps l : List Nat} (c : Chain h n ps l) (hne : ps ≠ []) (a o : Nat)
    (ha : h'[a]? = some (some ⟨some o, none⟩))
    (hl : ∀ x, h[ps.getLast hne]? = some (some x) → h'[ps.getLast hne]? = some (some { x with next := some a }))
    (he : ∀ p ∈ ps, p ≠ ps.getLast hne → h'[p]? = h[p]?) (hn : ps.Nodup) : Chain h' n (ps ++ [a]) (l ++ [o]) := by
  induction c with
  | nil => exact absurd rfl hne
  | @cons p o' n ps l e c ih =>
    cases ps with
    | nil =>
      cases c
      have := hl _ e
      exact .cons this (.cons ha .nil)
    | cons q ps =>
      have hlast : (p :: q :: ps).getLast hne = (q :: ps).getLast (by simp) := List.getLast_cons (by simp)
      have hp : p ≠ (q :: ps).getLast (by simp) := by
        intro h
        have hm : p ∈ q :: ps := by
          rw [h]; exact List.getLast_mem _
        exact (List.nodup_cons.1 hn).1 hm
      refine .cons (by rw [he p (by simp) (by rw [hlast]; exact hp)]; exact e) (ih (by simp) ?_ ?_ (List.nodup_cons.1 hn).2)
      · intro x hx; rw [← hlast] at hx ⊢; exact hl x hx
      · intro p' hp' hne'; exact he p' (by simp [hp']) (by rw [hlast]; exact hne')

theorem lastOf_append (d : Nat) (ps : List Nat) (a : Nat) : lastOf d (ps ++ [a]) = a := by
  have h : ∀ (l : List Nat) (hl : l ++ [a] ≠ []), (l ++ [a]).getLast hl = a := fun l hl => List.getLast_concat
  exact h (d :: ps) (by simp)

theorem lastOf_mem (d : Nat) (ps : List Nat) : lastOf d ps ∈ d :: ps := List.getLast_mem _

theorem live {h : Heap Entry} {s : P} {ps l : List Nat} (i : Inv h s ps l) : ∀ p ∈ s.pool :: ps, ∃ x, h[p]? = some (some x) := by
  obtain ⟨n, hn, c⟩ := i.head
  have : ∀ {n : Option Nat} {ps l : List Nat}, Chain h n ps l → ∀ p ∈ ps, ∃ x, h[p]? = some (some x) := by
    intro n ps l c
    induction c with
    | nil => simp
    | cons e _ ih =>
      intro p hp
      rcases List.mem_cons.1 hp with h | h
      · subst h; exact ⟨_, e⟩
      · exact ih p h
  intro p hp
  rcases List.mem_cons.1 hp with h' | h'
  · subst h'; exact ⟨_, hn⟩
  · exact this c p h'

theorem get_alloc {α : Type} (h : Heap α) (x y : α) (p q : Nat) (hp : p < h.length) :
    ((h.alloc x).1.set p (some y))[q]? =
      if q = p then some (some y) else if q = h.length then some (some x) else h[q]? := by
  unfold Heap.alloc
  by_cases h1 : q = p
  · subst h1; rw [if_pos rfl, List.getElem?_set_self (by simp; omega)]
  · rw [if_neg h1, List.getElem?_set_ne (Ne.symm h1)]
    by_cases h2 : q = h.length
    · subst h2; rw [if_pos rfl]; simp
    · rw [if_neg h2]
      by_cases h3 : q < h.length
      · rw [List.getElem?_append_left h3]
      · rw [List.getElem?_eq_none (by simp; omega), List.getElem?_eq_none (by omega)]

theorem add_ok {h : Heap Entry} {s : P} {ps l : List Nat} (i : Inv h s ps l) (o : Nat) :
    ∃ h' s' ps', s.add h o = .ok (h', s') ∧ Inv h' s' ps' (l ++ [o]) := by
  obtain ⟨x, hx⟩ := live i s.top (by rw [i.top]; exact lastOf_mem _ _)
  have hlt := Heap.lt_of_live hx
  have hx' : (h.alloc ⟨some o, none⟩).1[s.top]? = some (some x) := by
    show (h ++ [some ⟨some o, none⟩])[s.top]? = _
    rw [List.getElem?_append_left hlt]; exact hx
  obtain ⟨n, hn, c⟩ := i.head
  obtain ⟨h', hh'⟩ : ∃ h', h' = (h.alloc ⟨some o, none⟩).1.set s.top (some { x with next := some h.length }) := ⟨_, rfl⟩
  have hget := get_alloc h ⟨some o, none⟩ { x with next := some h.length } s.top
  rw [← hh'] at hget
  have hget : ∀ q, h'[q]? = if q = s.top then some (some { x with next := some h.length }) else if q = h.length then some (some ⟨some o, none⟩) else h[q]? :=
    fun q => hget q hlt
  have hlen : h'.length = h.length + 1 := by rw [hh']; simp [Heap.alloc]
  have hall : ∀ p ∈ s.pool :: ps, p < h.length := by
    intro p hp; obtain ⟨y, hy⟩ := live i p hp; exact Heap.lt_of_live hy
  have hnew : h'[h.length]? = some (some ⟨some o, none⟩) := by
    rw [hget, if_neg (by omega), if_pos rfl]
  refine ⟨h', { s with top := h.length }, ps ++ [h.length], ?_, ?_, ?_, ?_, ?_⟩
  · simp only [P.add, Heap.load_ok hx', bind, Except.bind, Heap.store_ok hx', pure, Except.pure]
    rw [hh']; rfl
  · cases ps with
    | nil =>
      have ht : s.top = s.pool := i.top
      cases c
      refine ⟨some h.length, ?_, .cons hnew .nil⟩
      show h'[s.pool]? = _
      rw [hget, if_pos ht.symm]
      rw [ht] at hx; rw [hn] at hx
      simp at hx; subst hx; rfl
    | cons q ps =>
      have ht : s.top = (q :: ps).getLast (by simp) := by
        rw [i.top]; unfold lastOf; exact List.getLast_cons (by simp)
      have htm : s.top ∈ q :: ps := by rw [ht]; exact List.getLast_mem _
      have hpt : s.pool ≠ s.top := by
        intro h; rw [← h] at htm; exact (List.nodup_cons.1 i.nodup).1 htm
      refine ⟨n, ?_, ?_⟩
      · show h'[s.pool]? = _
        rw [hget, if_neg hpt, if_neg (by have := hall s.pool (by simp); omega)]; exact hn
      · refine c.snoc (by simp) h.length o hnew ?_ ?_ (List.nodup_cons.1 i.nodup).2
        · intro y hy
          rw [← ht] at hy ⊢
          rw [hget, if_pos rfl]
          rw [hx] at hy; simp at hy; subst hy; rfl
        · intro p hp hne
          rw [← ht] at hne
          rw [hget, if_neg hne, if_neg (by have := hall p (by simp [hp]); omega)]
  · rw [lastOf_append]
  · rw [← List.cons_append]
    refine List.nodup_append.2 ⟨i.nodup, by simp, ?_⟩
    intro a ha b hb
    have := hall a ha
    simp at hb
    omega
  · intro p hp hn'
    show h'[p]? = _
    have hn' : p ∉ s.pool :: (ps ++ [h.length]) := hn'
    have h1 : p ∉ s.pool :: ps := by intro h; apply hn'; rw [← List.cons_append]; exact List.mem_append_left _ h
    have h2 : p ≠ h.length := by intro h; apply hn'; simp [h]
    have h3 : p ≠ s.top := by intro h; apply h1; rw [h, i.top]; exact lastOf_mem _ _
    rw [hget, if_neg h3, if_neg h2]
    exact i.rest p (by omega) h1

theorem drainLoop_ok (fuel : Nat) (h : Heap Entry) (n : Option Nat) (ps l : List Nat) (c : Chain h n ps l) (hnd : ps.Nodup)
    (hf : l.length ≤ fuel) :
    ∃ h', drainLoop fuel h n = .ok (h', l) ∧ h'.length = h.length ∧ (∀ p ∈ ps, h'[p]? = some none) ∧ ∀ p, p ∉ ps → h'[p]? = h[p]? := by
  induction fuel generalizing h n ps l with
  | zero =>
    cases c with
    | nil => exact ⟨h, by unfold drainLoop; rfl, rfl, by simp, fun _ _ => rfl⟩
    | cons _ _ => simp at hf
  | succ fuel ih =>
    cases c with
    | nil => exact ⟨h, by unfold drainLoop; rfl, rfl, by simp, fun _ _ => rfl⟩
    | @cons p o n ps l e c =>
      have hp := (List.nodup_cons.1 hnd).1
      obtain ⟨h', h1, h2, h3, h4⟩ := ih (h.set p none) n ps l
        (c.frame (fun q hq => by rw [List.getElem?_set_ne (by intro h; subst h; exact hp hq)]))
        (List.nodup_cons.1 hnd).2 (by simp at hf; omega)
      refine ⟨h', ?_, by rw [h2]; simp, ?_, ?_⟩
      · simp only [drainLoop, Heap.load_ok e, bind, Except.bind, obj, Heap.free_ok e, h1, pure, Except.pure]
      · intro q hq
        rcases List.mem_cons.1 hq with hq | hq
        · subst hq; rw [h4 q hp, List.getElem?_set_self (Heap.lt_of_live e)]
        · exact h3 q hq
      · intro q hq
        have hq1 : q ∉ ps := fun h => hq (by simp [h])
        have hq2 : p ≠ q := fun h => hq (by simp [h])
        rw [h4 q hq1, List.getElem?_set_ne hq2]

theorem nodup_len {n : Nat} {ps : List Nat} (hn : ps.Nodup) (hp : ∀ p ∈ ps, p < n) : ps.length ≤ n := by
  have := hn.length_le_of_subset (l₂ := List.range n) (fun p h => List.mem_range.2 (hp p h))
  simpa using this

theorem drain_ok {h : Heap Entry} {s : P} {ps l : List Nat} (i : Inv h s ps l) :
    ∃ h' s', s.drain h = .ok (h', s', l) ∧ Inv h' s' [] [] := by
  obtain ⟨n, hn, c⟩ := i.head
  have hnd := List.nodup_cons.1 i.nodup
  have hlen : l.length ≤ h.length + 1 := by rw [← c.len]; have := nodup_len hnd.2 c.lt; omega
  obtain ⟨h1, e1, e2, e3, e4⟩ := drainLoop_ok (h.length + 1) h n ps l c hnd.2 hlen
  have hd : h1[s.pool]? = some (some ⟨none, n⟩) := by rw [e4 _ hnd.1]; exact hn
  refine ⟨h1.set s.pool (some ⟨none, none⟩), { s with top := s.pool }, ?_, ⟨none, ?_, .nil⟩, rfl, by simp, ?_⟩
  · simp only [P.drain, Heap.load_ok hn, bind, Except.bind, e1, Heap.load_ok hd, Heap.store_ok hd, pure, Except.pure]
  · exact List.getElem?_set_self (Heap.lt_of_live hd)
  · intro p hp hne
    have hne : p ≠ s.pool := by simpa using hne
    rw [List.getElem?_set_ne (Ne.symm hne)]
    by_cases hps : p ∈ ps
    · exact e3 p hps
    · rw [e4 p hps]
      refine i.rest p (by simp [e2] at hp; exact hp) (by simp [hne, hps])

theorem new_ok : Inv (P.new []).1 (P.new []).2 [] [] := by
  refine ⟨⟨none, rfl, .nil⟩, rfl, by simp, ?_⟩
  intro p hp hne
  simp [P.new, Heap.alloc] at hp hne
  omega

theorem runOps_ok (ops : List Op) (h : Heap Entry) (s : P) (ps l : List Nat) (i : Inv h s ps l) :
    ∃ h' s' ps', runOps ops h s = .ok (h', s', (specOps ops l).2) ∧ Inv h' s' ps' (specOps ops l).1 := by
  induction ops generalizing h s ps l with
  | nil => exact ⟨h, s, ps, rfl, i⟩
  | cons op ops ih =>
    cases op with
    | add o =>
      obtain ⟨h1, s1, ps1, e1, i1⟩ := add_ok i o
      obtain ⟨h2, s2, ps2, e2, i2⟩ := ih h1 s1 ps1 _ i1
      exact ⟨h2, s2, ps2, by simp only [runOps, e1, bind, Except.bind, e2, specOps], i2⟩
    | drain =>
      obtain ⟨h1, s1, e1, i1⟩ := drain_ok i
      obtain ⟨h2, s2, ps2, e2, i2⟩ := ih h1 s1 [] [] i1
      exact ⟨h2, s2, ps2, by simp only [runOps, e1, bind, Except.bind, e2, specOps, pure, Except.pure], i2⟩

/-- **C28 (entries)**: for every history of `add` and `drain` on a new pool and its destructor, the objects released are
exactly those added, each once and in the order of addition (`drain` releases those added since the last one, the
destructor the rest); no entry is touched after its deletion and every entry is deleted. -/
theorem pool_entries (ops : List Op) :
    ∃ h s h' , runOps ops (P.new []).1 (P.new []).2 = .ok (h, s, (specOps ops []).2) ∧
      s.close h = .ok (h', (specOps ops []).1) ∧ h'.AllFreed := by
  obtain ⟨h, s, ps, e, i⟩ := runOps_ok ops _ _ [] [] new_ok
  obtain ⟨h1, s1, e1, i1⟩ := drain_ok i
  obtain ⟨n, hn, c⟩ := i1.head
  refine ⟨h, s, h1.set s1.pool none, e, ?_, ?_⟩
  · simp only [P.close, e1, bind, Except.bind, Heap.free_ok hn, pure, Except.pure]
  · intro x hx
    obtain ⟨p, hp⟩ := List.mem_iff_getElem?.1 hx
    have hlt := (List.getElem?_eq_some_iff.1 hp).1
    by_cases hpp : s1.pool = p
    · subst hpp
      rw [List.getElem?_set_self (Heap.lt_of_live hn)] at hp
      simpa using hp.symm
    · rw [List.getElem?_set_ne hpp] at hp
      have := i1.rest p (by simpa using hlt) (by simp; exact fun h => hpp h.symm)
      rw [this] at hp
      simpa using hp.symm

/-- what is released and what stays is together what was added, in order -/
def addedOf : List Op → List Nat
  | [] => []
  | .add o :: l => o :: addedOf l
  | .drain :: l => addedOf l

theorem spec_all (ops : List Op) (l : List Nat) : (specOps ops l).2 ++ (specOps ops l).1 = l ++ addedOf ops := by
  induction ops generalizing l with
  | nil => simp [specOps, addedOf]
  | cons op ops ih =>
    cases op with
    | add o => simp [specOps, addedOf, ih]
    | drain => simp [specOps, addedOf, ih]

example : (specOps [.add 3, .add 4, .drain, .add 5] []) = ([5], [3, 4]) := rfl

end Verif.RefCount.Pool
