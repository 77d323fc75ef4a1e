import Verif.Stack.Model
/-
C16: Stack is last-in first-out.
-/
namespace Verif.Stack.Props
open Verif Verif.Stack
variable {α : Type}

/-! ### Specification -/

inductive Op (α : Type) where
  | push (x : α)
  | pop
  | top
  | setTop (x : α)
  | top2
  | top3
  | size
  | hasElements
  | reverse
  | clear

inductive Out (α : Type) where
  | unit
  | val (x : α)
  | num (n : BitVec 32)
  | bool (b : Bool)
  | exception
deriving DecidableEq

/-- The calls on a list whose head is the top.  `none`: the caller took from an empty stack. -/
def spec : Op α → List α → Option (List α × Out α)
  | .push x, l => some (x :: l, .unit)
  | .pop, [] => none
  | .pop, x :: l => some (l, .val x)
  | .top, [] => none
  | .top, x :: l => some (x :: l, .val x)
  | .setTop _, [] => none
  | .setTop y, _ :: l => some (y :: l, .unit)
  | .top2, l => some (l, match l[1]? with | some y => .val y | none => .exception)
  | .top3, l => some (l, match l[2]? with | some y => .val y | none => .exception)
  | .size, l => some (l, .num (BitVec.ofNat 32 l.length))
  | .hasElements, l => some (l, .bool (!l.isEmpty))
  | .reverse, l => some (l.reverse, .unit)
  | .clear, _ => some ([], .unit)

def specRun : List (Op α) → List α → Option (List α × List (Out α))
  | [], l => some (l, [])
  | o :: os, l => match spec o l with
    | none => none
    | some (l, r) => match specRun os l with
      | none => none
      | some (l, rs) => some (l, r :: rs)

/-- One call on the modelled stack. -/
def step (h : Heap (Node α)) (s : Stk) : Op α → Res ((Heap (Node α) × Stk) × Out α)
  | .push x => .ok (s.push h x, .unit)
  | .pop => do let r ← s.pop h; return (r.2, .val r.1)
  | .top => do let r ← s.getTop h; return ((h, s), .val r)
  | .setTop x => do let r ← s.setTop h x; return ((r, s), .unit)
  | .top2 => match s.top2 h with
    | .ok r => .ok ((h, s), .val r)
    | .error .thrown => .ok ((h, s), .exception)
    | .error .ub => .error .ub
  | .top3 => match s.top3 h with
    | .ok r => .ok ((h, s), .val r)
    | .error .thrown => .ok ((h, s), .exception)
    | .error .ub => .error .ub
  | .size => .ok ((h, s), .num s.count)
  | .hasElements => .ok ((h, s), .bool s.hasElements)
  | .reverse => do let r ← s.reverse h; return (r, .unit)
  | .clear => do let r ← s.clear h; return (r, .unit)

def run : List (Op α) → Heap (Node α) → Stk → Res ((Heap (Node α) × Stk) × List (Out α))
  | [], h, s => .ok ((h, s), [])
  | o :: os, h, s => do
    let r ← step h s o
    let q ← run os r.1.1 r.1.2
    return (q.1, r.2 :: q.2)

/-! ### Proof -/

/-- `ps` are the addresses of the elements from the pointer `t` down, holding `l` -/
inductive Chain (h : Heap (Node α)) : Option Nat → List Nat → List α → Prop
  | nil : Chain h none [] []
  | cons (p : Nat) (n : Node α) (ps : List Nat) (l : List α) : h[p]? = some (some n) → Chain h n.prev ps l →
      Chain h (some p) (p :: ps) (n.data :: l)

theorem Chain.frame {h h' : Heap (Node α)} {t : Option Nat} {ps : List Nat} {l : List α} (c : Chain h t ps l)
    (e : ∀ p ∈ ps, h'[p]? = h[p]?) : Chain h' t ps l := by
  induction c with
  | nil => exact .nil
  | cons p n ps l hp _ ih => exact .cons p n ps l ((e p (by simp)).trans hp) (ih (fun q hq => e q (by simp [hq])))

theorem Chain.lt {h : Heap (Node α)} {t : Option Nat} {ps : List Nat} {l : List α} (c : Chain h t ps l) : ∀ p ∈ ps, p < h.length := by
  induction c with
  | nil => simp
  | cons p n ps l hp _ ih =>
    intro q hq
    rcases List.mem_cons.1 hq with rfl | hq
    · exact Heap.lt_of_live hp
    · exact ih q hq

theorem Chain.len {h : Heap (Node α)} {t : Option Nat} {ps : List Nat} {l : List α} (c : Chain h t ps l) : ps.length = l.length := by
  induction c with
  | nil => rfl
  | cons p n ps l hp _ ih => simp [ih]

theorem Chain.isSome {h : Heap (Node α)} {t : Option Nat} {ps : List Nat} {l : List α} (c : Chain h t ps l) : t.isSome = !l.isEmpty := by
  cases c <;> rfl

theorem nodup_len {n : Nat} {ps : List Nat} (hn : ps.Nodup) (hp : ∀ p ∈ ps, p < n) : ps.length ≤ n := by
  have := hn.length_le_of_subset (l₂ := List.range n) (fun p h => List.mem_range.2 (hp p h))
  simpa using this

/-- the stack holds `l`, its elements are distinct, and they are the only live objects on the heap -/
structure Inv (h : Heap (Node α)) (s : Stk) (l : List α) : Prop where
  chain : ∃ ps, Chain h s.top ps l ∧ ps.Nodup ∧ ∀ p n, h[p]? = some (some n) → p ∈ ps
  count : s.count = BitVec.ofNat 32 l.length

theorem push_ok {h : Heap (Node α)} {s : Stk} {l : List α} (i : Inv h s l) (x : α) : Inv (s.push h x).1 (s.push h x).2 (x :: l) := by
  obtain ⟨⟨ps, c, nd, own⟩, hc⟩ := i
  refine ⟨⟨h.length :: ps, ?_, ?_, ?_⟩, ?_⟩
  · refine .cons h.length ⟨s.top, x⟩ ps l ?_ ?_
    · simp [Stk.push, Heap.alloc]
    · exact c.frame (fun p hp => by simp [Stk.push, Heap.alloc, List.getElem?_append_left (c.lt p hp)])
  · refine List.nodup_cons.2 ⟨fun hm => ?_, nd⟩
    exact absurd (c.lt _ hm) (by omega)
  · intro p n hp
    simp only [Stk.push, Heap.alloc] at hp
    by_cases hlt : p < h.length
    · rw [List.getElem?_append_left hlt] at hp
      exact List.mem_cons_of_mem _ (own p n hp)
    · have : p < (h ++ [some (⟨s.top, x⟩ : Node α)]).length := Heap.lt_of_live hp
      have : p = h.length := by simp at this; omega
      simp [this]
  · simp only [Stk.push, hc, List.length_cons]
    apply BitVec.eq_of_toNat_eq
    simp

theorem pop_ok {h : Heap (Node α)} {s : Stk} {x : α} {l : List α} (i : Inv h s (x :: l)) :
    ∃ h' s', s.pop h = .ok (x, h', s') ∧ Inv h' s' l ∧ h'.length = h.length := by
  obtain ⟨⟨ps, c, nd, own⟩, hc⟩ := i
  obtain ⟨t, cnt⟩ := s
  simp only at c hc
  cases c with
  | cons p n ps l hp c =>
    refine ⟨h.set p none, ⟨n.prev, cnt - 1⟩, ?_, ⟨⟨ps, ?_, ?_, ?_⟩, ?_⟩, by simp⟩
    · simp only [Stk.pop, ld, del, Heap.load_ok hp, Heap.free_ok hp, bind, Except.bind, pure, Except.pure]
    · refine c.frame (fun q hq => ?_)
      have : p ≠ q := fun e => (List.nodup_cons.1 nd).1 (e ▸ hq)
      rw [List.getElem?_set_ne this]
    · exact (List.nodup_cons.1 nd).2
    · intro q m hq
      by_cases e : p = q
      · subst e
        rw [List.getElem?_set_self (Heap.lt_of_live hp)] at hq
        cases hq
      · rw [List.getElem?_set_ne e] at hq
        rcases List.mem_cons.1 (own q m hq) with h | h
        · exact absurd h.symm e
        · exact h
    · simp only [hc, List.length_cons]
      apply BitVec.eq_of_toNat_eq
      have h1 : (1 : BitVec 32).toNat = 1 := rfl
      simp only [BitVec.toNat_sub, BitVec.toNat_ofNat, h1]
      omega

theorem clearLoop_ok (fuel : Nat) (h : Heap (Node α)) (s : Stk) (l : List α) (i : Inv h s l) (hf : l.length < fuel) :
    ∃ h' s', Stk.clearLoop fuel h s = .ok (h', s') ∧ Inv h' s' [] := by
  induction l generalizing fuel h s with
  | nil =>
    obtain ⟨ps, c, nd, own⟩ := i.chain
    cases fuel with
    | zero => omega
    | succ fuel =>
      have : s.hasElements = false := by simpa [Stk.hasElements] using c.isSome
      exact ⟨h, s, by simp [Stk.clearLoop, this], i⟩
  | cons x l ih =>
    cases fuel with
    | zero => omega
    | succ fuel =>
      obtain ⟨ps, c, nd, own⟩ := i.chain
      have : s.hasElements = true := by simpa [Stk.hasElements] using c.isSome
      obtain ⟨h', s', h1, h2, _⟩ := pop_ok i
      obtain ⟨h'', s'', h3, h4⟩ := ih fuel h' s' h2 (by simp at hf; omega)
      exact ⟨h'', s'', by simp [Stk.clearLoop, this, h1, h3, bind, Except.bind], h4⟩

theorem inv_fuel {h : Heap (Node α)} {s : Stk} {l : List α} (i : Inv h s l) : l.length < h.length + 1 := by
  obtain ⟨ps, c, nd, own⟩ := i.chain
  have := nodup_len nd c.lt
  have := c.len
  omega

theorem revLoop_ok (fuel : Nat) (h : Heap (Node α)) (t u : Option Nat) (ps qs : List Nat) (l m : List α)
    (c : Chain h t ps l) (d : Chain h u qs m) (nd : (ps ++ qs).Nodup) (own : ∀ p n, h[p]? = some (some n) → p ∈ ps ++ qs)
    (hf : l.length < fuel) :
    ∃ h' r rs, revLoop fuel h t u = .ok (h', r) ∧ Chain h' r rs (l.reverse ++ m) ∧ rs.Nodup ∧
      ∀ p n, h'[p]? = some (some n) → p ∈ rs := by
  induction fuel generalizing h t u ps qs l m with
  | zero => omega
  | succ fuel ih =>
    cases c with
    | nil => exact ⟨h, u, qs, rfl, by simpa using d, by simpa using nd, by simpa using own⟩
    | cons p n ps l hp c =>
      simp only [revLoop, Heap.load_ok hp, Heap.store_ok hp, bind, Except.bind]
      have nd' : p ∉ ps ∧ p ∉ qs := by
        have := (List.nodup_cons.1 nd).1
        simpa using this
      have e1 : Chain (h.set p (some { n with prev := u })) n.prev ps l :=
        c.frame (fun q hq => List.getElem?_set_ne (fun e : p = q => nd'.1 (e ▸ hq)))
      have e2 : Chain (h.set p (some { n with prev := u })) (some p) (p :: qs) (n.data :: m) := by
        refine .cons p { n with prev := u } qs m ?_ ?_
        · rw [List.getElem?_set_self (Heap.lt_of_live hp)]
        · exact d.frame (fun q hq => List.getElem?_set_ne (fun e : p = q => nd'.2 (e ▸ hq)))
      obtain ⟨h', r, rs, h1, h2, h3, h4⟩ := ih _ _ _ ps (p :: qs) l (n.data :: m) e1 e2
        ((List.perm_middle (a := p) (l₁ := ps) (l₂ := qs)).nodup_iff.2 nd) (by
          intro q k hq
          by_cases e : p = q
          · simp [e]
          · rw [List.getElem?_set_ne e] at hq
            have := own q k hq
            simp at this ⊢
            rcases this with h | h | h
            · exact absurd h.symm e
            · exact .inl h
            · exact .inr (.inr h)) (by simp at hf; omega)
      exact ⟨h', r, rs, h1, by simpa using h2, h3, h4⟩

theorem step_ok (h : Heap (Node α)) (s : Stk) (l : List α) (o : Op α) (i : Inv h s l) (l' : List α) (r : Out α)
    (e : spec o l = some (l', r)) : ∃ h' s', step h s o = .ok ((h', s'), r) ∧ Inv h' s' l' := by
  obtain ⟨ps, c, nd, own⟩ := i.chain
  cases o with
  | push x => cases e; exact ⟨_, _, rfl, push_ok i x⟩
  | pop =>
    cases l with
    | nil => cases e
    | cons x l =>
      cases e
      obtain ⟨h', s', h1, h2, _⟩ := pop_ok i
      exact ⟨h', s', by simp only [step, h1, bind, Except.bind, pure, Except.pure], h2⟩
  | top =>
    cases l with
    | nil => cases e
    | cons x l =>
      cases e
      refine ⟨h, s, ?_, i⟩
      obtain ⟨t, cnt⟩ := s
      cases c with
      | cons p n ps l hp c => simp only [step, Stk.getTop, ld, Heap.load_ok hp, bind, Except.bind, pure, Except.pure]
  | setTop y =>
    cases l with
    | nil => cases e
    | cons x l =>
      cases e
      obtain ⟨t, cnt⟩ := s
      cases c with
      | cons p n ps l hp c =>
        refine ⟨h.set p (some { n with data := y }), ⟨some p, cnt⟩, ?_, ⟨p :: ps, ?_, nd, ?_⟩, ?_⟩
        · simp only [step, Stk.setTop, Heap.load_ok hp, Heap.store_ok hp, bind, Except.bind, pure, Except.pure]
        · refine .cons p { n with data := y } ps l (by rw [List.getElem?_set_self (Heap.lt_of_live hp)]) ?_
          exact c.frame (fun q hq => List.getElem?_set_ne (fun e : p = q => (List.nodup_cons.1 nd).1 (e ▸ hq)))
        · intro q k hq
          by_cases e : p = q
          · simp [e]
          · rw [List.getElem?_set_ne e] at hq; exact own q k hq
        · simpa using i.count
  | top2 =>
    refine ⟨h, s, ?_, by cases e; exact i⟩
    obtain ⟨t, cnt⟩ := s
    cases c with
    | nil => cases e; rfl
    | cons p n ps l hp c =>
      obtain ⟨np, nd'⟩ := n
      simp only at c
      cases c with
      | nil => cases e; simp [step, Stk.top2, Heap.load_ok hp, bind, Except.bind]
      | cons q m ps l hq c => cases e; simp [step, Stk.top2, Heap.load_ok hp, Heap.load_ok hq, bind, Except.bind, pure, Except.pure]
  | top3 =>
    refine ⟨h, s, ?_, by cases e; exact i⟩
    obtain ⟨t, cnt⟩ := s
    cases c with
    | nil => cases e; rfl
    | cons p n ps l hp c =>
      obtain ⟨np, nd'⟩ := n
      simp only at c
      cases c with
      | nil => cases e; simp [step, Stk.top3, Heap.load_ok hp, bind, Except.bind]
      | cons q m ps l hq c =>
        obtain ⟨mp, md⟩ := m
        simp only at c
        cases c with
        | nil => cases e; simp [step, Stk.top3, Heap.load_ok hp, Heap.load_ok hq, bind, Except.bind]
        | cons w k ps l hw c =>
          cases e; simp [step, Stk.top3, Heap.load_ok hp, Heap.load_ok hq, Heap.load_ok hw, bind, Except.bind, pure, Except.pure]
  | size => cases e; exact ⟨h, s, by simp [step, i.count], i⟩
  | hasElements => cases e; exact ⟨h, s, by simp [step, Stk.hasElements, c.isSome], i⟩
  | reverse =>
    cases e
    obtain ⟨h', r, rs, h1, h2, h3, h4⟩ := revLoop_ok (h.length + 1) h s.top none ps [] l [] c .nil (by simpa using nd)
      (by simpa using own) (inv_fuel i)
    refine ⟨h', ⟨r, s.count⟩, by simp only [step, Stk.reverse, h1, bind, Except.bind, pure, Except.pure], ⟨rs, by simpa using h2, h3, h4⟩, ?_⟩
    simpa using i.count
  | clear =>
    cases e
    obtain ⟨h', s', h1, h2⟩ := clearLoop_ok (h.length + 1) h s l i (inv_fuel i)
    exact ⟨h', s', by simp only [step, Stk.clear, h1, bind, Except.bind, pure, Except.pure], h2⟩

theorem run_ok (os : List (Op α)) (h : Heap (Node α)) (s : Stk) (l l' : List α) (outs : List (Out α)) (i : Inv h s l)
    (e : specRun os l = some (l', outs)) : ∃ h' s', run os h s = .ok ((h', s'), outs) ∧ Inv h' s' l' := by
  induction os generalizing h s l outs with
  | nil => cases e; exact ⟨h, s, rfl, i⟩
  | cons o os ih =>
    simp only [specRun] at e
    split at e
    · cases e
    · rename_i l1 r h1
      split at e
      · cases e
      · rename_i l2 rs h2
        cases e
        obtain ⟨h', s', h3, h4⟩ := step_ok h s l o i l1 r h1
        obtain ⟨h'', s'', h5, h6⟩ := ih h' s' l1 rs h4 h2
        exact ⟨h'', s'', by simp only [run, h3, h5, bind, Except.bind, pure, Except.pure], h6⟩

theorem inv_new : Inv ([] : Heap (Node α)) Stk.new [] := ⟨⟨[], .nil, List.nodup_nil, by simp⟩, rfl⟩

theorem inv_nil_freed {h : Heap (Node α)} {s : Stk} (i : Inv h s []) : h.AllFreed := by
  obtain ⟨ps, c, nd, own⟩ := i.chain
  intro x hx
  obtain ⟨p, hp⟩ := List.mem_iff_getElem?.1 hx
  cases x with
  | none => rfl
  | some n =>
    have := own p n hp
    have hl := c.len
    simp at hl
    simp [hl] at this

/-! ### Theorems -/

/-- C16: whatever calls are made on a new stack, as long as nothing is taken from an empty one, the stack
reports what the list does (the size modulo 2^32, its type); and destroying it then frees every element. -/
theorem history (os : List (Op α)) (l : List α) (outs : List (Out α)) (e : specRun os [] = some (l, outs)) :
    ∃ h s, run os [] Stk.new = .ok ((h, s), outs) ∧ ∃ h' s', s.clear h = .ok (h', s') ∧ h'.AllFreed := by
  obtain ⟨h, s, h1, h2⟩ := run_ok os [] Stk.new [] l outs inv_new e
  obtain ⟨h', s', h3, h4⟩ := clearLoop_ok (h.length + 1) h s l h2 (inv_fuel h2)
  exact ⟨h, s, h1, h', s', h3, inv_nil_freed h4⟩

/-- Taking from, or looking at, an empty stack is undefined behaviour: nothing checks for it. -/
theorem take_from_empty (h : Heap (Node α)) (c : BitVec 32) (x : α) :
    Stk.pop h ⟨none, c⟩ = .error .ub ∧ Stk.getTop h ⟨none, c⟩ = .error .ub ∧ Stk.setTop h ⟨none, c⟩ x = .error .ub := by
  exact ⟨rfl, rfl, rfl⟩

/-- The class has no copy constructor of its own: a copy of a non-empty stack shares the elements, and
destroying both frees them twice. -/
theorem copy_double_free (os : List (Op α)) (l : List α) (outs : List (Out α)) (e : specRun os [] = some (l, outs)) (hl : l ≠ []) :
    ∃ h s, run os [] Stk.new = .ok ((h, s), outs) ∧
      ∃ h' s', s.clear h = .ok (h', s') ∧ (Stk.copy s).clear h' = .error .ub := by
  obtain ⟨h, s, h1, h2⟩ := run_ok os [] Stk.new [] l outs inv_new e
  obtain ⟨h', s', h3, h4⟩ := clearLoop_ok (h.length + 1) h s l h2 (inv_fuel h2)
  refine ⟨h, s, h1, h', s', h3, ?_⟩
  have hf := inv_nil_freed h4
  obtain ⟨ps, c, nd, own⟩ := h2.chain
  have hs : s.hasElements = true := by
    have := c.isSome
    cases l with
    | nil => exact absurd rfl hl
    | cons x l => simpa [Stk.hasElements] using this
  have hload : ld h' s.top = .error .ub := by
    cases s.top with
    | none => rfl
    | some p =>
      simp only [ld, Heap.load]
      split
      · rename_i x hx
        have := hf _ (List.mem_of_getElem? hx)
        cases this
      · rfl
  simp [Stk.copy, Stk.clear, Stk.clearLoop, hs, Stk.pop, hload, bind, Except.bind]

example : specRun [Op.push 1, .push 2, .push 3, .reverse, .pop, .top2, .top3, .size] ([] : List Nat) =
    some ([2, 3], [.unit, .unit, .unit, .unit, .val 1, .val 3, .exception, .num 2]) := by decide +kernel

end Verif.Stack.Props
