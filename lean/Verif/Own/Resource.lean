import Verif.Heap
/-
C96: `jm::Resource` (Resource.cpp:37-78) shares its stream: copies count references.  The heap holds the reference
counts of the streams (Object.cpp:53-83); a stream is deleted when its count reaches 0.
-/
namespace Verif.Own.Res
open Verif

/-- a program on variables of type Resource -/
inductive Op where
  | make
  | copy (x : Nat)
  | assign (x y : Nat)
  | destroy (x : Nat)

/-- the counts of the streams and the stream of each variable (`none`: destroyed) -/
structure World where
  heap : Heap Nat
  vars : List (Option Nat)

/-- Object.cpp:75-82 `retain` -/
def retain (h : Heap Nat) (p : Nat) : Res (Heap Nat) := do
  let c ← h.load p
  h.store p (c + 1)

/-- Object.cpp:53-73 `release` -/
def release (h : Heap Nat) (p : Nat) : Res (Heap Nat) := do
  let c ← h.load p
  let h ← h.store p (c - 1)
  if c - 1 = 0 then h.free p else .ok h

/-- Resource.cpp:37-52 (not on Android: the stream is never null), 54-58, 60-69, 71-78 -/
def step (w : World) : Op → Res World
  | .make =>
    let (h, p) := w.heap.alloc 1
    .ok ⟨h, w.vars ++ [some p]⟩
  | .copy x => do
    let p ← Heap.load w.vars x
    let h ← retain w.heap p
    return ⟨h, w.vars ++ [some p]⟩
  | .assign x y => do
    let _ ← Heap.load w.vars x
    let q ← Heap.load w.vars y
    if x = y then .ok w
    else do
      let h ← retain w.heap q
      return ⟨h, w.vars.set x (some q)⟩
  | .destroy x => do
    let p ← Heap.load w.vars x
    let h ← release w.heap p
    return ⟨h, w.vars.set x none⟩

def run (w : World) : List Op → Res World
  | [] => .ok w
  | o :: os => do
    let w ← step w o
    run w os

def start : World := ⟨[], []⟩

/-- what the user expects: which stream (numbered in the order of creation) each variable has -/
structure Names where
  streams : Nat
  vars : List (Option Nat)

def nstep (v : Names) : Op → Option Names
  | .make => some ⟨v.streams + 1, v.vars ++ [some v.streams]⟩
  | .copy x => ((v.vars[x]?).join).map (fun p => ⟨v.streams, v.vars ++ [some p]⟩)
  | .assign x y => ((v.vars[x]?).join).bind (fun _ => ((v.vars[y]?).join).map (fun q => ⟨v.streams, v.vars.set x (some q)⟩))
  | .destroy x => ((v.vars[x]?).join).map (fun _ => ⟨v.streams, v.vars.set x none⟩)

def nrun (v : Names) : List Op → Option Names
  | [] => some v
  | o :: os => (nstep v o).bind (fun v => nrun v os)

/-- a stream overwritten by an assignment from another variable -/
def lostStep (p : Nat) (v : Names) : Op → Nat
  | .assign x y => if x ≠ y ∧ v.vars[x]? = some (some p) then 1 else 0
  | _ => 0

/-- how often a stream was overwritten by an assignment from another variable along the program -/
def lost (p : Nat) (v : Names) : List Op → Nat
  | [] => 0
  | o :: os =>
    lostStep p v o + (match nstep v o with
      | some v => lost p v os
      | none => 0)

/-- number of variables that have the stream -/
def users (vars : List (Option Nat)) (p : Nat) : Nat := vars.count (some p)

/-- the memory of a stream with that many references: none means deleted -/
def cell (n : Nat) : Option (Option Nat) := if n = 0 then some none else some (some n)

/-- a stream is alive exactly when somebody uses it or it was lost; `k p` is how often it was lost -/
structure Inv (w : World) (v : Names) (k : Nat → Nat) : Prop where
  vars : w.vars = v.vars
  len : w.heap.length = v.streams
  bound : ∀ p, some p ∈ v.vars → p < v.streams
  kbound : ∀ p, v.streams ≤ p → k p = 0
  count : ∀ p, p < v.streams → w.heap[p]? = cell (users v.vars p + k p)

theorem join_iff {l : List (Option Nat)} {x p : Nat} : (l[x]?).join = some p ↔ l[x]? = some (some p) := by
  cases l[x]? with
  | none => simp
  | some o => cases o <;> simp

theorem users_append (l : List (Option Nat)) (a : Option Nat) (p : Nat) : users (l ++ [a]) p = users l p + if a = some p then 1 else 0 := by
  unfold users
  rw [List.count_append, List.count_singleton]
  simp

theorem users_set (l : List (Option Nat)) (x : Nat) (a b : Option Nat) (e : l[x]? = some b) (p : Nat) :
    users (l.set x a) p + (if b = some p then 1 else 0) = users l p + if a = some p then 1 else 0 := by
  unfold users
  induction l generalizing x with
  | nil => simp at e
  | cons y l ih =>
    cases x with
    | zero =>
      simp only [List.getElem?_cons_zero, Option.some.injEq] at e
      subst e
      simp only [List.set_cons_zero, List.count_cons, beq_iff_eq]
      split <;> split <;> omega
    | succ x =>
      simp only [List.getElem?_cons_succ] at e
      have := ih x e
      simp only [List.set_cons_succ, List.count_cons, beq_iff_eq]
      omega

theorem users_pos {l : List (Option Nat)} {x p : Nat} (e : l[x]? = some (some p)) : 0 < users l p := by
  unfold users
  exact List.count_pos_iff.2 (List.mem_of_getElem? e)

theorem live_of_user {w : World} {v : Names} {k : Nat → Nat} (i : Inv w v k) {x p : Nat} (e : v.vars[x]? = some (some p)) :
    w.heap[p]? = some (some (users v.vars p + k p)) := by
  have hp := i.bound p (List.mem_of_getElem? e)
  have hu := users_pos e
  rw [i.count p hp, cell, if_neg (by omega)]

theorem retain_ok {h : Heap Nat} {p c : Nat} (e : h[p]? = some (some c)) : retain h p = .ok (h.set p (some (c + 1))) := by
  simp only [retain, Heap.load_ok e, bind, Except.bind]
  rw [Heap.store_ok e]

theorem release_ok {h : Heap Nat} {p c : Nat} (e : h[p]? = some (some c)) :
    release h p = .ok (h.set p (if c - 1 = 0 then none else some (c - 1))) := by
  simp only [release, Heap.load_ok e, bind, Except.bind]
  rw [Heap.store_ok e]
  simp only
  have hp := Heap.lt_of_live e
  by_cases h0 : c - 1 = 0
  · rw [if_pos h0, if_pos h0, Heap.free_ok (x := c - 1) (by rw [List.getElem?_set_self hp]), List.set_set]
  · rw [if_neg h0, if_neg h0]

theorem getElem?_set_cases {α : Type} (l : List α) (p q : Nat) (a : α) (hp : p < l.length) :
    (l.set p a)[q]? = if p = q then some a else l[q]? := by
  by_cases h : p = q
  · subst h; simp [hp]
  · rw [if_neg h, List.getElem?_set_ne h]

theorem step_inv {w : World} {v v' : Names} {k : Nat → Nat} (i : Inv w v k) {o : Op} (e : nstep v o = some v') :
    ∃ w', step w o = .ok w' ∧ Inv w' v' (fun p => k p + lostStep p v o) := by
  cases o with
  | make =>
    simp only [nstep, Option.some.injEq] at e
    subst e
    refine ⟨_, rfl, ?_⟩
    constructor
    · simp [i.vars, i.len, Heap.alloc]
    · simp [Heap.alloc, i.len]
    · intro p hp
      simp only [List.mem_append, List.mem_singleton, Option.some.injEq] at hp
      rcases hp with hp | hp
      · have := i.bound p hp; (try simp only); omega
      · (try simp only); omega
    · intro p hp
      simp only at hp
      simp [lostStep, i.kbound p (by omega)]
    · intro p hp
      simp only at hp
      simp only [Heap.alloc, lostStep, users_append, Option.some.injEq, Nat.add_zero]
      by_cases h : p < v.streams
      · rw [List.getElem?_append_left (by rw [i.len]; exact h), i.count p h, if_neg (by omega : ¬ v.streams = p)]
        simp
      · have hpe : p = v.streams := by omega
        subst hpe
        have hu : users v.vars v.streams = 0 := by
          unfold users
          rw [List.count_eq_zero]
          intro hm
          have := i.bound _ hm
          omega
        rw [hu, i.kbound v.streams (Nat.le_refl _), ← i.len]
        simp [cell]
  | copy x =>
    simp only [nstep, Option.map_eq_some_iff] at e
    obtain ⟨p, ep, rfl⟩ := e
    rw [join_iff] at ep
    have hl := live_of_user i ep
    have hp := Heap.lt_of_live hl
    refine ⟨_, by simp only [step, i.vars, Heap.load_ok ep, bind, Except.bind, retain_ok hl]; rfl, ?_⟩
    constructor
    · simp [i.vars]
    · simp [i.len]
    · intro q hq
      simp only [List.mem_append, List.mem_singleton, Option.some.injEq] at hq
      rcases hq with hq | hq
      · exact i.bound q hq
      · subst hq; rw [i.len] at hp; exact hp
    · intro q hq
      simp [lostStep, i.kbound q hq]
    · intro q hq
      simp only [lostStep, users_append, Option.some.injEq, Nat.add_zero]
      rw [getElem?_set_cases _ _ _ _ hp]
      by_cases h : p = q
      · subst h
        simp [cell]
        omega
      · rw [if_neg h, i.count q hq]
        simp [h]
  | assign x y =>
    simp only [nstep, Option.bind_eq_some_iff, Option.map_eq_some_iff] at e
    obtain ⟨p, ep, q, eq, rfl⟩ := e
    rw [join_iff] at ep eq
    by_cases hxy : x = y
    · subst hxy
      rw [ep] at eq
      simp only [Option.some.injEq] at eq
      subst eq
      have hs : v.vars.set x (some p) = v.vars := by
        have hx := (List.getElem?_eq_some_iff.1 ep).1
        rw [List.getElem?_eq_getElem hx] at ep
        simp only [Option.some.injEq] at ep
        rw [← ep, List.set_getElem_self]
      refine ⟨w, by simp only [step, i.vars, Heap.load_ok ep, bind, Except.bind, if_true], ?_⟩
      rw [hs]
      simpa [lostStep] using i
    · have hl := live_of_user i eq
      have hq := Heap.lt_of_live hl
      refine ⟨_, by simp only [step, i.vars, Heap.load_ok ep, Heap.load_ok eq, bind, Except.bind, if_neg hxy, retain_ok hl]; rfl, ?_⟩
      have hbp := i.bound p (List.mem_of_getElem? ep)
      have hbq := i.bound q (List.mem_of_getElem? eq)
      have hus := users_set v.vars x (some q) (some p) ep
      constructor
      · simp
      · simp [i.len]
      · intro r hr
        rcases List.mem_or_eq_of_mem_set hr with h | h
        · exact i.bound r h
        · simp only [Option.some.injEq] at h; subst h; exact hbq
      · intro r hr
        simp only at hr
        have : ¬ p = r := by omega
        simp [lostStep, i.kbound r hr, ep, this]
      · intro r hr
        simp only at hr
        have hur := hus r
        simp only [Option.some.injEq] at hur
        simp only [lostStep, ep, Option.some.injEq, ne_eq, hxy, not_false_eq_true, true_and]
        rw [getElem?_set_cases _ _ _ _ hq]
        have key : users (v.vars.set x (some q)) r + (k r + if p = r then 1 else 0) = users v.vars r + k r + if q = r then 1 else 0 := by omega
        rw [key]
        by_cases h : q = r
        · subst h
          simp [cell]
        · rw [if_neg h, i.count r hr, if_neg h]
          simp
  | destroy x =>
    simp only [nstep, Option.map_eq_some_iff] at e
    obtain ⟨p, ep, rfl⟩ := e
    rw [join_iff] at ep
    have hl := live_of_user i ep
    have hp := Heap.lt_of_live hl
    have hu := users_pos ep
    refine ⟨_, by simp only [step, i.vars, Heap.load_ok ep, bind, Except.bind, release_ok hl]; rfl, ?_⟩
    have hus := users_set v.vars x none (some p) ep
    constructor
    · simp
    · simp [i.len]
    · intro r hr
      rcases List.mem_or_eq_of_mem_set hr with h | h
      · exact i.bound r h
      · cases h
    · intro q hq
      simp [lostStep, i.kbound q hq]
    · intro q hq
      simp only at hq
      have hur := hus q
      simp only [Option.some.injEq, reduceCtorEq, if_false, Nat.add_zero] at hur
      simp only [lostStep, Nat.add_zero]
      rw [getElem?_set_cases _ _ _ _ hp]
      by_cases h : p = q
      · subst h
        rw [if_pos rfl] at hur
        rw [if_pos rfl]
        have hk : users (v.vars.set x none) p + k p = users v.vars p + k p - 1 := by omega
        rw [hk, cell]
        by_cases h0 : users v.vars p + k p - 1 = 0
        · rw [if_pos h0, if_pos h0]
        · rw [if_neg h0, if_neg h0]
      · rw [if_neg h] at hur ⊢
        simp only [Nat.add_zero] at hur
        rw [i.count q hq, hur]

theorem lost_cons (p : Nat) (v v' : Names) (o : Op) (os : List Op) (e : nstep v o = some v') :
    lost p v (o :: os) = lostStep p v o + lost p v' os := by
  cases o <;> simp [lost, lostStep, e]

theorem run_inv (os : List Op) : ∀ {w : World} {v v' : Names} {k : Nat → Nat}, Inv w v k → nrun v os = some v' →
    ∃ w', run w os = .ok w' ∧ Inv w' v' (fun p => k p + lost p v os) := by
  induction os with
  | nil =>
    intro w v v' k i e
    simp only [nrun, Option.some.injEq] at e
    subst e
    exact ⟨w, rfl, by simpa [lost] using i⟩
  | cons o os ih =>
    intro w v v' k i e
    simp only [nrun, Option.bind_eq_some_iff] at e
    obtain ⟨v1, e1, e2⟩ := e
    obtain ⟨w1, s1, i1⟩ := step_inv i e1
    obtain ⟨w2, s2, i2⟩ := ih i1 e2
    refine ⟨w2, by simp only [run, s1, bind, Except.bind]; exact s2, ?_⟩
    have : (fun p => k p + lost p v (o :: os)) = fun p => k p + lostStep p v o + lost p v1 os := by
      funext p
      rw [lost_cons p v v1 o os e1]
      omega
    rw [this]
    exact i2

theorem inv_start : Inv start ⟨0, []⟩ (fun _ => 0) := by
  constructor
  · rfl
  · rfl
  · intro p hp; simp at hp
  · intro p _; rfl
  · intro p hp; simp at hp

end Verif.Own.Res
