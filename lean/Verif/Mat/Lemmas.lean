import Verif.Mat.Model
/-
Loops over memory blocks, for the proofs about matrices.
-/
namespace Verif.Mx
open Verif Verif.Exact

section loops
variable {K P : Type}

/-- one step of a loop: the element `pos p` is replaced by a function of its old value -/
def upd (pos : P → Nat) (w : P → K → K) (z : K) (d : List K) (p : P) : List K :=
  d.set (pos p) (w p (d.getD (pos p) z))

variable {pos : P → Nat} {w : P → K → K} {z : K}

theorem upd_length (l : List P) (d : List K) : (l.foldl (upd pos w z) d).length = d.length := by
  induction l generalizing d with
  | nil => rfl
  | cons p t ih => rw [List.foldl_cons, ih]; simp [upd]

theorem upd_miss (l : List P) (d : List K) (k : Nat) (h : ∀ p ∈ l, pos p ≠ k) :
    (l.foldl (upd pos w z) d)[k]? = d[k]? := by
  induction l generalizing d with
  | nil => rfl
  | cons p t ih =>
    rw [List.foldl_cons, ih _ (fun q hq => h q (List.mem_cons_of_mem _ hq))]
    unfold upd
    rw [List.getElem?_set_ne (h p List.mem_cons_self)]

theorem upd_hit (l : List P) (d : List K) (p : P) (hp : p ∈ l) (hn : l.Nodup)
    (hinj : ∀ q ∈ l, pos q = pos p → q = p) (hlen : pos p < d.length) :
    (l.foldl (upd pos w z) d)[pos p]? = some (w p (d.getD (pos p) z)) := by
  induction l generalizing d with
  | nil => exact absurd hp List.not_mem_nil
  | cons q t ih =>
    rw [List.nodup_cons] at hn
    rw [List.foldl_cons]
    by_cases hq : q = p
    · subst hq
      rw [upd_miss]
      · unfold upd
        rw [List.getElem?_set_self hlen]
      · intro s hs e
        have := hinj s (List.mem_cons_of_mem _ hs) e
        exact hn.1 (this ▸ hs)
    · have ht : p ∈ t := by
        rcases List.mem_cons.1 hp with h | h
        · exact absurd h.symm hq
        · exact h
      rw [ih _ ht hn.2 (fun s hs => hinj s (List.mem_cons_of_mem _ hs)) (by simp [upd]; exact hlen)]
      have hne : pos q ≠ pos p := fun e => hq (hinj q List.mem_cons_self e)
      unfold upd
      rw [List.getD_eq_getElem?_getD, List.getElem?_set_ne hne, ← List.getD_eq_getElem?_getD]

theorem foldlM_upd {f : List K → P → Res (List K)} {n : Nat} (l : List P) (d : List K) (hd : d.length = n)
    (hf : ∀ d p, p ∈ l → d.length = n → f d p = .ok (upd pos w z d p)) :
    l.foldlM f d = .ok (l.foldl (upd pos w z) d) := by
  induction l generalizing d with
  | nil => rfl
  | cons p t ih =>
    rw [List.foldlM_cons, List.foldl_cons, hf d p List.mem_cons_self hd]
    exact ih _ (by simp [upd]; exact hd) (fun d q hq h => hf d q (List.mem_cons_of_mem _ hq) h)

theorem foldlM_ok {S : Type} {f : S → P → Res S} {g : S → P → S} (l : List P) (s : S)
    (h : ∀ s, ∀ p ∈ l, f s p = .ok (g s p)) : l.foldlM f s = .ok (l.foldl g s) := by
  induction l generalizing s with
  | nil => rfl
  | cons p t ih =>
    rw [List.foldlM_cons, List.foldl_cons, h s p List.mem_cons_self]
    exact ih _ (fun s q hq => h s q (List.mem_cons_of_mem _ hq))

theorem mapM_ok {Q : Type} {f : P → Res Q} {g : P → Q} (l : List P) (h : ∀ p ∈ l, f p = .ok (g p)) :
    l.mapM f = .ok (l.map g) := by
  induction l with
  | nil => rfl
  | cons p t ih =>
    rw [List.mapM_cons, h p List.mem_cons_self, ih (fun q hq => h q (List.mem_cons_of_mem _ hq))]
    rfl

/-- two nested loops are one loop over the pairs -/
theorem foldlM_nested {S : Type} {f : S → Nat → Nat → Res S} (rows : List Nat) (cols : List Nat) (s : S) :
    rows.foldlM (fun s r => cols.foldlM (fun s c => f s r c) s) s =
      (rows.flatMap fun r => cols.map fun c => (r, c)).foldlM (fun s p => f s p.1 p.2) s := by
  induction rows generalizing s with
  | nil => rfl
  | cons r t ih =>
    rw [List.foldlM_cons, List.flatMap_cons, List.foldlM_append, List.foldlM_map]
    simp only [← ih]

theorem mem_pairs {rows cols : Nat} {p : Nat × Nat} :
    (p ∈ (List.range rows).flatMap fun r => (List.range cols).map fun c => (r, c)) ↔ p.1 < rows ∧ p.2 < cols := by
  simp only [List.mem_flatMap, List.mem_range, List.mem_map]
  constructor
  · rintro ⟨r, hr, c, hc, rfl⟩; exact ⟨hr, hc⟩
  · rintro ⟨h1, h2⟩; exact ⟨p.1, h1, p.2, h2, rfl⟩

theorem nodup_pairs (rows cols : Nat) :
    ((List.range rows).flatMap fun r => (List.range cols).map fun c => (r, c)).Nodup := by
  have : ((List.range rows).flatMap fun r => (List.range cols).map fun c => (r, c)) =
      (List.range rows) ×ˢ (List.range cols) := rfl
  rw [this]
  exact List.nodup_range.product List.nodup_range

theorem idx_inj {m i j i' j' : Nat} (h : i < m) (h' : i' < m) (e : i + j * m = i' + j' * m) : i = i' ∧ j = j' := by
  have hm : 0 < m := by omega
  have e1 : i = i' := by
    have := congrArg (· % m) e
    simpa [Nat.mod_eq_of_lt h, Nat.mod_eq_of_lt h'] using this
  subst e1
  have : j * m = j' * m := by omega
  exact ⟨rfl, Nat.eq_of_mul_eq_mul_right hm this⟩

theorem idx_lt {m n i j : Nat} (h : i < m) (h' : j < n) : i + j * m < m * n := by
  have : (j + 1) * m ≤ n * m := Nat.mul_le_mul_right m h'
  rw [Nat.mul_comm m n]
  rw [Nat.add_mul] at this
  omega

theorem rdI_nat (d : List K) (i : Nat) : rdI d (i : Int) = rd d i := by
  unfold rdI; rw [if_neg (by omega)]; rfl
theorem wrI_nat (d : List K) (i : Nat) (v : K) : wrI d (i : Int) v = wr d i v := by
  unfold wrI; rw [if_neg (by omega)]; rfl

theorem rd_some {d : List K} {i : Nat} {v : K} : rd d i = .ok v ↔ d[i]? = some v := by
  unfold rd
  cases d[i]? <;> simp

end loops

namespace Mat
set_option linter.unusedSectionVars false
variable {K : Type} [Arith K]

/-- `A` is the `m` × `n` matrix with the elements `f i j`, as seen through `get`. -/
structure Is (A : Mat K) (m n : Nat) (f : Nat → Nat → K) : Prop where
  rows : A.m = m
  cols : A.n = n
  size : A.data.length = m * n
  get : ∀ i j, i < m → j < n → A.get (i : Int) (j : Int) = .ok (f i j)

theorem get_nat (A : Mat K) (i j : Nat) : A.get i j = rd A.data (i + j * A.m) := by
  unfold Mat.get
  rw [show ((i : Int) + (j : Int) * (A.m : Int)) = ((i + j * A.m : Nat) : Int) by push_cast; ring, rdI_nat]

theorem Is.intro {A : Mat K} {m n : Nat} {f : Nat → Nat → K} (h1 : A.m = m) (h2 : A.n = n)
    (h3 : A.data.length = m * n) (h4 : ∀ i j, i < m → j < n → A.data[i + j * m]? = some (f i j)) : Is A m n f :=
  ⟨h1, h2, h3, fun i j hi hj => by rw [get_nat, rd_some, h1]; exact h4 i j hi hj⟩

theorem Is.elem {A : Mat K} {m n : Nat} {f : Nat → Nat → K} (h : Is A m n f) {i j : Nat} (hi : i < m) (hj : j < n) :
    A.data[i + j * m]? = some (f i j) := by
  have := h.get i j hi hj
  rw [get_nat, rd_some, h.rows] at this
  exact this

theorem Is.rd {A : Mat K} {m n : Nat} {f : Nat → Nat → K} (h : Is A m n f) {i j : Nat} (hi : i < m) (hj : j < n) :
    rd A.data (i + j * m) = .ok (f i j) := rd_some.2 (h.elem hi hj)

/-- every matrix with a block of the right size is such a matrix -/
theorem is_self (A : Mat K) (h : A.data.length = A.m * A.n) :
    Is A A.m A.n (fun i j => elems A.data (i + j * A.m)) := by
  refine .intro rfl rfl h ?_
  intro i j hi hj
  have hl : i + j * A.m < A.data.length := by rw [h]; exact idx_lt hi hj
  unfold elems
  rw [List.getD_eq_getElem?_getD, List.getElem?_eq_getElem hl]; rfl

theorem Is.congr {A : Mat K} {m n : Nat} {f g : Nat → Nat → K} (h : Is A m n f)
    (e : ∀ i j, i < m → j < n → f i j = g i j) : Is A m n g :=
  ⟨h.rows, h.cols, h.size, fun i j hi hj => by rw [h.get i j hi hj, e i j hi hj]⟩

/-- two matrices with the same elements are the same -/
theorem Is.ext {A B : Mat K} {m n : Nat} {f : Nat → Nat → K} (h : Is A m n f) (h' : Is B m n f) : A = B := by
  have hd : A.data = B.data := by
    apply List.ext_getElem?
    intro k
    by_cases hk : k < m * n
    · have hm : 0 < m := by
        rcases Nat.eq_zero_or_pos m with h0 | h0
        · rw [h0] at hk; omega
        · exact h0
      have e : k % m + k / m * m = k := by rw [Nat.mul_comm]; exact Nat.mod_add_div k m
      have h1 : k % m < m := Nat.mod_lt _ hm
      have h2 : k / m < n := by rw [Nat.div_lt_iff_lt_mul hm, Nat.mul_comm]; exact hk
      have a := h.elem h1 h2
      have b := h'.elem h1 h2
      rw [e] at a b
      rw [a, b]
    · rw [List.getElem?_eq_none (by rw [h.size]; omega), List.getElem?_eq_none (by rw [h'.size]; omega)]
  cases A; cases B
  simp only at hd
  have := h.rows; have := h.cols; have := h'.rows; have := h'.cols
  simp_all

/-- a loop over the rows and columns -/
theorem fill_spec (rows cols : Nat) (at' : Nat → Nat → Int) (pos : Nat → Nat → Nat) (v : Nat → Nat → Res K)
    (f : Nat → Nat → K) (d : List K)
    (hpos : ∀ r c, r < rows → c < cols → at' r c = (pos r c : Int)) (hv : ∀ r c, r < rows → c < cols → v r c = .ok (f r c))
    (hlt : ∀ r c, r < rows → c < cols → pos r c < d.length)
    (hinj : ∀ r c r' c', r < rows → c < cols → r' < rows → c' < cols → pos r c = pos r' c' → r = r' ∧ c = c') :
    ∃ d', fill rows cols at' v d = .ok d' ∧ d'.length = d.length ∧
      (∀ r c, r < rows → c < cols → d'[pos r c]? = some (f r c)) ∧
      (∀ k, (∀ r c, r < rows → c < cols → pos r c ≠ k) → d'[k]? = d[k]?) := by
  refine ⟨((List.range rows).flatMap fun r => (List.range cols).map fun c => (r, c)).foldl
    (upd (fun p => pos p.1 p.2) (fun p _ => f p.1 p.2) zero) d, ?_, upd_length _ _, ?_, ?_⟩
  · unfold fill
    rw [foldlM_nested (f := fun d r c => do
      let x ← v r c
      wrI d (at' r c) x)]
    refine foldlM_upd (n := d.length) _ d rfl ?_
    intro d' p hp hd'
    rw [mem_pairs] at hp
    rw [hv _ _ hp.1 hp.2, hpos _ _ hp.1 hp.2]
    simp only [bind, Except.bind]
    rw [wrI_nat, wr_ok (by rw [hd']; exact hlt _ _ hp.1 hp.2)]
    rfl
  · intro r c hr hc
    refine upd_hit (pos := fun p : Nat × Nat => pos p.1 p.2) (w := fun p _ => f p.1 p.2) _ d (r, c) (mem_pairs.2 ⟨hr, hc⟩)
      (nodup_pairs _ _) ?_ (hlt _ _ hr hc)
    intro q hq e
    rw [mem_pairs] at hq
    obtain ⟨h1, h2⟩ := hinj _ _ _ _ hq.1 hq.2 hr hc e
    exact Prod.ext h1 h2
  · intro k hk
    refine upd_miss _ _ _ ?_
    intro p hp
    rw [mem_pairs] at hp
    exact hk _ _ hp.1 hp.2

end Mat
end Verif.Mx
