import Verif.LinkedList.IterKeep
/-
Where the cursor and the iterators are after each call.
-/
namespace Verif.LinkedList.Iter
open Verif Verif.Undo Verif.LinkedList
open Verif.LinkedList.Spec (Op Out)

/-- the address `a` is that of the element the cursor is before -/
def CurOk (ns : List (Nat × Nat)) : Option Nat → Nat → Prop
  | some k, a => ∃ d, ns[k]? = some (a, d)
  | none, a => a = 0

/-- the iterator with the address `a` is at this position -/
def PosOk (s : S) (ns : List (Nat × Nat)) : Pos → Nat → Prop
  | .before k, a => ∃ d, ns[k]? = some (a, d)
  | .fin, a => a = 0
  | .gone d, a => 8 ≤ a ∧ a % 3 = 2 ∧ a + 3 ≤ s.brk ∧ a ∉ ns.map Prod.fst ∧ (s.um = true → s.u.mem (a + 1) = 0 ∧ s.u.mem (a + 2) = d)

theorem curOk_head (A B : List (Nat × Nat)) : CurOk (A ++ B) (norm (A ++ B).length A.length) (headA B 0) := by
  cases B with
  | nil => simp [norm, CurOk, headA]
  | cons x B =>
    rw [norm, if_pos (by simp)]
    exact ⟨x.2, by simp [headA]⟩

/-! ### the cursor after a search -/

theorem find_cur_loop {s : S} {rest : List (Nat × Nat)} {p : Nat} (hs : Seg s.u.mem p rest 0) (ha : ∀ x ∈ rest, Alive s x.1) (data fuel : Nat)
    (hf : rest.length < fuel) (hc : s.cur = headA rest 0) :
    (data ∉ rest.map Prod.snd ∧ findLoop fuel s data = .ok (none, { s with cur := 0 })) ∨
    (∃ A t B, rest = A ++ (t, data) :: B ∧ data ∉ A.map Prod.snd ∧ findLoop fuel s data = .ok (some t, { s with cur := headA B 0 })) := by
  induction fuel generalizing s rest p with
  | zero => omega
  | succ fuel ih =>
    cases rest with
    | nil =>
      refine Or.inl ⟨by simp, ?_⟩
      simp only [findLoop, hasNext, hc, headA, bne_self_eq_false, Bool.false_eq_true, if_false]
      rw [show (0 : Nat) = s.cur from hc.symm]
    | cons x r =>
      obtain ⟨e, d⟩ := x
      have hal := ha (e, d) (List.mem_cons_self ..)
      have hne : hasNext s = true := by
        unfold hasNext; rw [hc]; simp only [headA]; simpa using hal.1
      simp only [findLoop, hne, if_true, nextElement_ok hs hal hc, bind, Except.bind, pure, Except.pure]
      rw [ldE_ok _ e 2 (show Alive { s with cur := headA r 0 } e from hal)]
      have hd : s.u.mem (e + 2) = d := hs.2.2.1
      simp only [hd]
      by_cases hdd : d = data
      · subst hdd
        exact Or.inr ⟨[], e, r, rfl, by simp, by simp⟩
      · rw [if_neg hdd]
        rcases ih (s := { s with cur := headA r 0 }) (rest := r) (p := e) hs.2.2.2 (fun x hx => ha x (List.mem_cons_of_mem _ hx))
          (by simp at hf; omega) rfl with ⟨h1, h2⟩ | ⟨A, t, B, h1, h2, h3⟩
        · refine Or.inl ⟨?_, h2⟩
          simp only [List.map_cons, List.mem_cons, not_or]
          exact ⟨fun e => hdd e.symm, h1⟩
        · subst h1
          refine Or.inr ⟨(e, d) :: A, t, B, rfl, ?_, h3⟩
          simp only [List.map_cons, List.mem_cons, not_or]
          exact ⟨fun e => hdd e.symm, h2⟩

theorem find_cur {s : S} {ns : List (Nat × Nat)} (i : SInv s ns) (data : Nat) :
    (data ∉ ns.map Prod.snd ∧ findLoop s.brk (rewind s) data = .ok (none, { s with cur := 0 })) ∨
    (∃ A t B, ns = A ++ (t, data) :: B ∧ data ∉ A.map Prod.snd ∧ findLoop s.brk (rewind s) data = .ok (some t, { s with cur := headA B 0 })) :=
  find_cur_loop (s := rewind s) i.rep.seg (fun x hx => i.alive hx) data s.brk i.len i.rep.start

theorem swapLoop_cur (n : Nat) (a b : Nat) : ∀ (fuel : Nat) (s : S) (ns rest : List (Nat × Nat)) (p k : Nat) (i j : Option Nat) (e1 e2 : Nat),
    ns.drop k = rest → Seg s.u.mem p rest 0 → (∀ x ∈ rest, Alive s x.1) → s.cur = headA rest 0 →
    (∀ n, i = some n → n < k) → (∀ n, j = some n → n < k) → (i = none ∨ j = none) → (e1 = 0 ↔ i = none) → (e2 = 0 ↔ j = none) →
    ∀ r, swapLoop fuel s a b e1 e2 = .ok r →
      r.2.2.cur = match Spec.scan a b (rest.map Prod.snd) k i j with
        | some (i, j) => headA (ns.drop (max i j + 1)) 0
        | none => 0 := by
  intro fuel
  induction fuel with
  | zero => intro s ns rest p k i j e1 e2 _ _ _ _ _ _ _ _ _ r h; cases h
  | succ fuel ih =>
    intro s ns rest p k i j e1 e2 hdrop hs ha hc hi hj hij z1 z2 r h
    cases rest with
    | nil =>
      simp only [swapLoop, hasNext, hc, headA, bne_self_eq_false, Bool.false_eq_true, if_false] at h
      cases h
      exact hc
    | cons x q =>
      obtain ⟨e, d⟩ := x
      have hal := ha (e, d) (List.mem_cons_self ..)
      have hne : hasNext s = true := by
        unfold hasNext; rw [hc]; simp only [headA]; simpa using hal.1
      have hdrop' : ns.drop (k + 1) = q := by
        have := congrArg (List.drop 1) hdrop
        rw [List.drop_drop] at this
        simpa [Nat.add_comm] using this
      simp only [swapLoop, hne, if_true, nextElement_ok hs hal hc, bind, Except.bind, pure, Except.pure] at h
      rw [ldE_ok _ e 2 (show Alive { s with cur := headA q 0 } e from hal)] at h
      have hd : s.u.mem (e + 2) = d := hs.2.2.1
      simp only [hd] at h
      simp only [List.map_cons, Spec.scan]
      have f : ∀ (c : Nat) (o : Option Nat) (w : Nat), (∀ n, o = some n → n < k) → (w = 0 ↔ o = none) →
          (∀ n, (if d = c then some k else o) = some n → n < k + 1) ∧
          ((if d = c then e else w) = 0 ↔ (if d = c then some k else o) = none) := by
        intro c o w h1 h2
        split
        · exact ⟨fun n h => by cases h; omega, by simpa using hal.1⟩
        · exact ⟨fun n h => by have := h1 n h; omega, h2⟩
      obtain ⟨bi, zi⟩ := f a i e1 hi z1
      obtain ⟨bj, zj⟩ := f b j e2 hj z2
      have hmax : ∀ n1 n2, (if d = a then some k else i) = some n1 → (if d = b then some k else j) = some n2 → max n1 n2 = k := by
        intro n1 n2 h1 h2
        have l1 := bi n1 h1
        have l2 := bj n2 h2
        have : n1 = k ∨ n2 = k := by
          rcases hij with rfl | rfl
          · left
            split at h1
            · cases h1; rfl
            · cases h1
          · right
            split at h2
            · cases h2; rfl
            · cases h2
        omega
      generalize hi' : (if d = a then some k else i) = i' at *
      generalize hj' : (if d = b then some k else j) = j' at *
      generalize (if d = a then e else e1) = e1' at *
      generalize (if d = b then e else e2) = e2' at *
      have recu := fun (hij : i' = none ∨ j' = none) h => ih { s with cur := headA q 0 } ns q e (k + 1) i' j' e1' e2' hdrop' hs.2.2.2
        (fun x hx => ha x (List.mem_cons_of_mem _ hx)) rfl bi bj hij zi zj r h
      cases hi2 : i' with
      | none =>
        rw [if_neg (by rintro ⟨g, _⟩; exact g (zi.2 hi2))] at h
        have := recu (Or.inl hi2) h
        rw [hi2] at this
        exact this
      | some n1 =>
        cases hj2 : j' with
        | none =>
          rw [if_neg (by rintro ⟨_, g⟩; exact g (zj.2 hj2))] at h
          have := recu (Or.inr hj2) h
          rw [hi2, hj2] at this
          exact this
        | some n2 =>
          rw [if_pos ⟨(fun g => by have q := hi2.symm.trans (zi.1 g); cases q), (fun g => by have q := hj2.symm.trans (zj.1 g); cases q)⟩] at h
          cases h
          show headA q 0 = headA (List.drop (max n1 n2 + 1) ns) 0
          rw [hmax n1 n2 hi2 hj2, hdrop']

/-! ### what stays -/

/-- cells of elements outside the list -/
def Out3 (s : S) (ns : List (Nat × Nat)) (a : Nat) : Prop := 8 ≤ a ∧ a < s.brk ∧ ∀ x ∈ ns, ∀ f, f < 3 → a ≠ x.1 + f

theorem gone_keep {s s' : S} {ns ns' : List (Nat × Nat)} (i : SInv s ns) {d a : Nat} (h : PosOk s ns (.gone d) a) (hum : s'.um = s.um) (hb : s.brk ≤ s'.brk)
    (hk : s.um = true → ∀ a, Out3 s ns a → s'.u.mem a = s.u.mem a)
    (hsub : ∀ x ∈ ns'.map Prod.fst, x ∈ ns.map Prod.fst ∨ s.brk ≤ x) : PosOk s' ns' (.gone d) a := by
  obtain ⟨h1, h2, h3, h4, h5⟩ := h
  refine ⟨h1, h2, by omega, ?_, ?_⟩
  · intro hm
    rcases hsub a hm with h | h
    · exact h4 h
    · omega
  · intro hu
    have hu' := hum ▸ hu
    have k : ∀ f, f < 3 → Out3 s ns (a + f) := by
      intro f hf
      refine ⟨by omega, by omega, ?_⟩
      intro x hx g hg e
      have := i.rep.addr x hx
      have : a = x.1 := by omega
      exact h4 (this ▸ mem_addr hx)
    rw [hk hu' _ (k 1 (by omega)), hk hu' _ (k 2 (by omega))]
    exact h5 hu'

theorem out_low {s : S} {ns : List (Nat × Nat)} {a : Nat} (h : a < 8) : ¬ Out3 s ns a := fun k => by have := k.1; omega
theorem out_mem {s : S} {ns : List (Nat × Nat)} {x : Nat × Nat} (h : x ∈ ns) (f : Nat) (hf : f < 3) : ¬ Out3 s ns (x.1 + f) :=
  fun k => k.2.2 x h f hf rfl
theorem out_new {s : S} {ns : List (Nat × Nat)} (f : Nat) : ¬ Out3 s ns (s.brk + f) := fun k => by have := k.2.1; omega

theorem idx_mid {A B : List (Nat × Nat)} {t d : Nat} (h : d ∉ A.map Prod.snd) : ((A ++ (t, d) :: B).map Prod.snd).idxOf d = A.length := by
  rw [List.map_append, List.map_cons, List.idxOf_append, if_neg h]
  simp

theorem get_mid {A B : List (Nat × Nat)} {x : Nat × Nat} (k : Nat) : (A ++ x :: B)[k]? =
    if k < A.length then A[k]? else if k = A.length then some x else B[k - (A.length + 1)]? := by
  split
  · rename_i h; rw [List.getElem?_append_left h]
  · rename_i h
    rw [List.getElem?_append_right (by omega)]
    split
    · rename_i h2; subst h2; simp
    · rw [show k - A.length = (k - (A.length + 1)) + 1 by omega, List.getElem?_cons_succ]

theorem get_app {A B : List (Nat × Nat)} (k : Nat) : (A ++ B)[k]? = if k < A.length then A[k]? else B[k - A.length]? := by
  split
  · rename_i h; rw [List.getElem?_append_left h]
  · rename_i h; rw [List.getElem?_append_right (by omega)]

end Verif.LinkedList.Iter
