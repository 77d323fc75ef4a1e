import Verif.Arrays.Model
import Verif.Sort.Props
/-
C49: ByteArray edits are list edits; C58: Array bounds.
-/
namespace Verif.Arrays.Props
open Verif Verif.Arrays

/-! ### Specification -/

/-- Calls on a ByteArray. -/
inductive Op where
  | get (i : Int)
  | set (i : Int) (x : Byte)
  | fill (x : Byte)
  | replaceVal (old new : Byte)
  | resize (n : Int)
  | sort
  | copyAssign
  | size
  | equalsList (l : List Byte)

inductive Out where
  | unit
  | byte (x : Byte)
  | int (n : Int)
  | bool (b : Bool)
deriving DecidableEq

/-- What the calls do to a list of bytes, for indices inside and sizes not negative.  After a resize the
bytes both sizes have in common are unchanged; nothing is said of the others. -/
inductive Does : Op → List Byte → List Byte → Out → Prop
  | get (i : Nat) (l : List Byte) (h : i < l.length) : Does (.get i) l l (.byte l[i])
  | set (i : Nat) x (l : List Byte) : i < l.length → Does (.set i x) l (l.set i x) .unit
  | fill x (l : List Byte) : Does (.fill x) l (List.replicate l.length x) .unit
  | replaceVal old new (l : List Byte) : Does (.replaceVal old new) l (l.map (fun x => if x = old then new else x)) .unit
  | resize (n : Nat) (l l' : List Byte) : l'.length = n → l'.take l.length = l.take n → Does (.resize n) l l' .unit
  | sort (l l' : List Byte) : l'.Perm l → l'.Pairwise (fun a b => a.toNat ≤ b.toNat) → Does .sort l l' .unit
  | copyAssign (l : List Byte) : Does .copyAssign l l .unit
  | size (l : List Byte) : Does .size l l (.int l.length)
  | equalsList m (l : List Byte) : Does (.equalsList m) l l (.bool (decide (l = m)))

/-- A call is proper if its index is inside or its size is not negative. -/
def Proper : Op → List Byte → Prop
  | .get i, l => 0 ≤ i ∧ i < l.length
  | .set i _, l => 0 ≤ i ∧ i < l.length
  | .resize n, _ => 0 ≤ n
  | _, _ => True

/-- One call; reading an indeterminate byte as a value is UB. -/
def step (b : BA) : Op → Res (BA × Out)
  | .get i => do
    let c ← b.get i
    match c with
    | some x => return (b, .byte x)
    | none => .error .ub
  | .set i x => do let r ← b.set i x; return (r, .unit)
  | .fill x => do let r ← b.fill x; return (r, .unit)
  | .replaceVal o n => do let r ← b.replaceVal o n; return (r, .unit)
  | .resize n => do let r ← b.resize n; return (r, .unit)
  | .sort => do let r ← b.sort; return (r, .unit)
  | .copyAssign => .ok (b.copy, .unit)
  | .size => .ok (b, .int b.size)
  | .equalsList l => do let r ← b.eq (BA.ofList l); return (b, .bool r)

/-- The bytes a user can see. -/
def Holds (b : BA) (l : List Byte) : Prop := b.size = l.length ∧ b.block.take l.length = l.map some

/-! ### Proof -/

structure Inv (b : BA) (l : List Byte) : Prop where
  size : b.size = l.length
  vals : b.block.take l.length = l.map some
  room : l.length < b.block.length ∨ (l = [] ∧ b.block = [])
  init : ∀ i, i + 1 < b.block.length → ∃ x, b.block[i]? = some (some x)

theorem block_upd {b : BA} {v : List Cell} {n : Int} (h : v.length = b.block.length) :
    (⟨b.mem.map (fun _ => v), n⟩ : BA).block = v := by
  obtain ⟨mem, sz⟩ := b
  cases mem with
  | none => simp [BA.block] at h ⊢; exact h
  | some w => simp [BA.block]

theorem Inv.get {b : BA} {l : List Byte} (i : Inv b l) {k : Nat} (hk : k < l.length) : b.block[k]? = some (some l[k]) := by
  have := congrArg (·[k]?) i.vals
  simp only [List.getElem?_take, hk, if_true, List.getElem?_map] at this
  rw [this]; simp [hk]

theorem Inv.le {b : BA} {l : List Byte} (i : Inv b l) : l.length ≤ b.block.length := by
  rcases i.room with h | ⟨h, h'⟩
  · omega
  · simp [h]

/-- building the invariant of an updated array from a pointwise description -/
theorem inv_of_get {b : BA} {l l' : List Byte} {v : List Cell} (i : Inv b l) (hl : l'.length = l.length)
    (hv : v.length = b.block.length) (h1 : ∀ k (h : k < l'.length), v[k]? = some (some l'[k]))
    (h2 : ∀ k, l'.length ≤ k → v[k]? = b.block[k]?) : Inv ⟨b.mem.map (fun _ => v), b.size⟩ l' := by
  refine ⟨by rw [i.size, hl], ?_, ?_, ?_⟩
  · rw [block_upd hv]
    apply List.ext_getElem?
    intro k
    rw [List.getElem?_take, List.getElem?_map]
    split
    · rename_i hk; rw [h1 k hk]; simp [hk]
    · rename_i hk; rw [List.getElem?_eq_none (by omega)]; rfl
  · rw [block_upd hv, hl]
    rcases i.room with h | ⟨h, h'⟩
    · left; omega
    · right
      refine ⟨List.eq_nil_of_length_eq_zero (by simp [hl, h]), List.eq_nil_of_length_eq_zero (by simp [hv, h'])⟩
  · rw [block_upd hv]
    intro k hk
    by_cases h : k < l'.length
    · exact ⟨_, h1 k h⟩
    · rw [h2 k (by omega)]; exact i.init k (by omega)

theorem rdI_ok {α : Type} {v : List α} {i : Nat} {x : α} (h : v[i]? = some x) : rdI v (i : Int) = .ok x := by
  simp [rdI, rd, h]

theorem wrI_ok {α : Type} {v : List α} {i : Nat} {x : α} (h : i < v.length) : wrI v (i : Int) x = .ok (v.set i x) := by
  simp [wrI, wr, h]

theorem fillLoop_ok (ch : Byte) (size : Nat) (index : Nat) (v : List Cell) (h : size ≤ v.length) :
    ∃ v', fillLoop ch size index v = .ok v' ∧ v'.length = v.length ∧
      ∀ j, v'[j]? = if index ≤ j ∧ j < size then some (some ch) else v[j]? := by
  generalize hs : (size : Int) = sz
  fun_induction fillLoop ch sz index v with
  | case1 index v hi ih =>
    rw [wr_ok (by omega)]
    obtain ⟨v', h1, h2, h3⟩ := ih (v.set index (some ch)) (by simpa using h)
    refine ⟨v', h1, by simpa using h2, ?_⟩
    intro j
    rw [h3 j]
    by_cases hj : index = j
    · subst hj
      rw [if_neg (by omega), if_pos (by omega), List.getElem?_set_self (by omega)]
    · rw [List.getElem?_set_ne hj]
      by_cases h' : index + 1 ≤ j ∧ j < size
      · rw [if_pos h', if_pos (by omega)]
      · rw [if_neg h', if_neg (by omega)]
  | case2 index v hi => exact ⟨v, rfl, rfl, fun j => by rw [if_neg (by omega)]⟩

theorem replaceValLoop_ok (old new : Byte) (size : Nat) (index : Nat) (v : List Cell) (h : size ≤ v.length) :
    ∃ v', replaceValLoop old new size index v = .ok v' ∧ v'.length = v.length ∧
      ∀ j, v'[j]? = if index ≤ j ∧ j < size then v[j]?.map (replaceOne old new) else v[j]? := by
  generalize hs : (size : Int) = sz
  fun_induction replaceValLoop old new sz index v with
  | case1 index v hi ih =>
    rw [rd_ok (by omega)]
    simp only [bind, Except.bind]
    rw [wr_ok (by omega)]
    obtain ⟨v', h1, h2, h3⟩ := ih (v.set index (replaceOne old new v[index])) (by simpa using h)
    refine ⟨v', h1, by simpa using h2, ?_⟩
    intro j
    rw [h3 j]
    by_cases hj : index = j
    · subst hj
      rw [if_neg (by omega), if_pos (by omega), List.getElem?_set_self (by omega), List.getElem?_eq_getElem (by omega)]
      rfl
    · rw [List.getElem?_set_ne hj]
      by_cases h' : index + 1 ≤ j ∧ j < size
      · rw [if_pos h', if_pos (by omega)]
      · rw [if_neg h', if_neg (by omega)]
  | case2 index v hi => exact ⟨v, rfl, rfl, fun j => by rw [if_neg (by omega)]⟩

theorem growCopy_ok (old : List Cell) (size : Nat) (index : Nat) (v : List Cell) (h : size ≤ v.length) (ho : size ≤ old.length) :
    ∃ v', growCopy old size index v = .ok v' ∧ v'.length = v.length ∧
      ∀ j, v'[j]? = if index ≤ j ∧ j < size then old[j]? else v[j]? := by
  generalize hs : (size : Int) = sz
  fun_induction growCopy old sz index v with
  | case1 index v hi ih =>
    rw [rd_ok (by omega)]
    simp only [bind, Except.bind]
    rw [wr_ok (by omega)]
    obtain ⟨v', h1, h2, h3⟩ := ih (v.set index old[index]) (by simpa using h)
    refine ⟨v', h1, by simpa using h2, ?_⟩
    intro j
    rw [h3 j]
    by_cases hj : index = j
    · subst hj
      rw [if_neg (by omega), if_pos (by omega), List.getElem?_set_self (by omega), List.getElem?_eq_getElem (by omega)]
    · rw [List.getElem?_set_ne hj]
      by_cases h' : index + 1 ≤ j ∧ j < size
      · rw [if_pos h', if_pos (by omega)]
      · rw [if_neg h', if_neg (by omega)]
  | case2 index v hi => exact ⟨v, rfl, rfl, fun j => by rw [if_neg (by omega)]⟩

theorem growZero_ok (size : Nat) (index : Nat) (v : List Cell) (h : size ≤ v.length) :
    ∃ v', growZero size index v = .ok v' ∧ v'.length = v.length ∧
      ∀ j, v'[j]? = if index ≤ j ∧ j < size then some (some 0) else v[j]? := by
  generalize hs : (size : Int) = sz
  fun_induction growZero sz index v with
  | case1 index v hi ih =>
    rw [wr_ok (by omega)]
    obtain ⟨v', h1, h2, h3⟩ := ih (v.set index (some 0)) (by simpa using h)
    refine ⟨v', h1, by simpa using h2, ?_⟩
    intro j
    rw [h3 j]
    by_cases hj : index = j
    · subst hj
      rw [if_neg (by omega), if_pos (by omega), List.getElem?_set_self (by omega)]
    · rw [List.getElem?_set_ne hj]
      by_cases h' : index + 1 ≤ j ∧ j < size
      · rw [if_pos h', if_pos (by omega)]
      · rw [if_neg h', if_neg (by omega)]
  | case2 index v hi => exact ⟨v, rfl, rfl, fun j => by rw [if_neg (by omega)]⟩

theorem eqLoop_ok (a b : BA) (l m : List Byte) (ia : Inv a l) (ib : Inv b m) (hl : l.length = m.length) (index : Nat) :
    eqLoop a.block b.block a.size index = .ok (decide (l.drop index = m.drop index)) := by
  have h1 := ia.size
  generalize hs : a.size = sz
  generalize hv : a.block = v
  generalize hw : b.block = w
  fun_induction eqLoop v w sz index with
  | case1 index hi ih =>
    have g1 := ia.get (k := index) (by omega)
    have g2 := ib.get (k := index) (by omega)
    rw [hv] at g1; rw [hw] at g2
    simp only [rd, g1, g2, bind, Except.bind]
    rw [List.drop_eq_getElem_cons (show index < l.length by omega), List.drop_eq_getElem_cons (show index < m.length by omega)]
    by_cases he : l[index] = m[index]
    · simp only [he, ih, List.cons.injEq, true_and, ne_eq, not_true_eq_false, if_false]
    · simp only [List.cons.injEq, he, false_and, decide_false, ne_eq, Option.some.injEq, not_false_eq_true, if_true, pure, Except.pure]
  | case2 index hi =>
    rw [List.drop_eq_nil_of_le (by omega), List.drop_eq_nil_of_le (by omega)]; simp

theorem ofList_inv (l : List Byte) : Inv (BA.ofList l) l := by
  refine ⟨rfl, by simp [BA.ofList, BA.block], ?_, ?_⟩
  · left; simp [BA.ofList, BA.block]
  · intro i hi
    simp only [BA.ofList, BA.block, Option.getD_some, List.length_append, List.length_map, List.length_singleton] at hi ⊢
    refine ⟨l[i]'(by omega), ?_⟩
    rw [List.getElem?_append_left (by simp; omega)]
    simp [show i < l.length by omega]

theorem sort_ok (b : BA) (l : List Byte) (i : Inv b l) :
    ∃ b' l', b.sort = .ok b' ∧ Inv b' l' ∧ l'.Perm l ∧ l'.Pairwise (fun a b => a.toNat ≤ b.toNat) := by
  have hp : Sort.Props.Preorder (fun x y : Cell => decide ((x.getD 0).toNat > (y.getD 0).toNat)) :=
    ⟨fun a b => by simp; omega, fun a b c => by simp; omega⟩
  have hsz : b.size.toNat = l.length := by rw [i.size]; simp
  obtain ⟨w, h1, h2, h3, h4⟩ := Sort.Props.sort_sorts _ hp b.size.toNat b.block (by rw [hsz]; exact i.le)
  rw [hsz] at h2 h3 h4
  rw [i.vals] at h2
  have hle := i.le
  have hwl : w.length = b.block.length := by
    have e1 := h2.length_eq
    have e2 := congrArg List.length h4
    simp at e1 e2; omega
  -- the sorted cells are all initialised
  obtain ⟨l', hl'⟩ : ∃ l' : List Byte, w.take l.length = l'.map some := by
    refine ⟨(w.take l.length).map (·.getD 0), ?_⟩
    rw [List.map_map]
    conv => lhs; rw [← List.map_id (w.take l.length)]
    apply List.map_congr_left
    intro c hc
    have := h2.mem_iff.1 hc
    obtain ⟨x, _, rfl⟩ := List.mem_map.1 this
    rfl
  have hlen : l'.length = l.length := by
    have := congrArg List.length hl'
    simp at this; omega
  refine ⟨⟨b.mem.map (fun _ => w), b.size⟩, l', ?_, ?_, ?_, ?_⟩
  · simp only [BA.sort, h1, bind, Except.bind, pure, Except.pure]
  · refine inv_of_get i hlen hwl ?_ ?_
    · intro k hk
      have := congrArg (·[k]?) hl'
      simp only [List.getElem?_take, show k < l.length by omega, if_true, List.getElem?_map] at this
      rw [this]; simp [hk]
    · intro k hk
      have := congrArg (·[k - l.length]?) h4
      simp only [List.getElem?_drop] at this
      rw [show l.length + (k - l.length) = k by omega] at this
      exact this
  · rw [hl'] at h2
    have := h2.map (·.getD 0)
    simpa [List.map_map, Function.comp_def] using this
  · rw [hl', List.pairwise_map] at h3
    refine h3.imp ?_
    intro a b h; simpa using h

theorem resize_ok (b : BA) (l : List Byte) (i : Inv b l) (n : Nat) :
    ∃ b' l', b.resize n = .ok b' ∧ Inv b' l' ∧ l'.length = n ∧ l'.take l.length = l.take n ∧
      (b.block.length ≤ n → l' = l ++ List.replicate (n - l.length) 0) := by
  have hle := i.le
  unfold BA.resize BA.raw
  by_cases hc : (n : Int) ≤ (b.block.length : Int) - 1
  · rw [if_pos hc, wrI_ok (by omega)]
    have hlen : (b.block.set n (some 0)).length = b.block.length := by simp
    have hall : ∀ k, k < n → ∃ x, b.block[k]? = some (some x) := fun k hk => i.init k (by omega)
    have hl' : (b.block.take n) = ((b.block.take n).map (·.getD 0)).map some := by
      rw [List.map_map]
      conv => lhs; rw [← List.map_id (b.block.take n)]
      apply List.map_congr_left
      intro c hc
      obtain ⟨k, hk⟩ := List.mem_iff_getElem?.1 hc
      rw [List.getElem?_take] at hk
      split at hk
      · rename_i h; obtain ⟨x, hx⟩ := hall k h; rw [hx] at hk; cases hk; rfl
      · cases hk
    refine ⟨_, (b.block.take n).map (·.getD 0), rfl, ⟨?_, ?_, ?_, ?_⟩, ?_, ?_, ?_⟩
    · simp; omega
    · rw [block_upd hlen]
      rw [← hl']
      rw [show ((b.block.take n).map (·.getD 0)).length = n by simp; omega]
      exact List.take_set_of_le (by omega)
    · rw [block_upd hlen]; left; simp; omega
    · rw [block_upd hlen]
      intro k hk
      by_cases e : n = k
      · subst e; exact ⟨0, by rw [List.getElem?_set_self (by omega)]⟩
      · rw [List.getElem?_set_ne e]; exact i.init k (by simpa using hk)
    · simp; omega
    · rw [← List.map_take, List.take_take]
      apply List.ext_getElem?
      intro k
      simp only [List.getElem?_map, List.getElem?_take]
      by_cases hk : k < min l.length n
      · rw [if_pos (by omega), if_pos (by omega), i.get (by omega)]; simp [show k < l.length by omega]
      · rw [if_neg hk]
        split
        · simp; omega
        · rfl
    · intro h; omega
  · rw [if_neg hc]
    have hsz : b.size.toNat = l.length := by rw [i.size]; simp
    obtain ⟨v, h1, h2, h3⟩ := growCopy_ok b.block l.length 0 (List.replicate (n + 1) none)
      (by simp; rcases i.room with h | ⟨h, h'⟩
          · omega
          · simp [h]) hle
    have hn1 : ((n : Int) + 1).toNat = n + 1 := by omega
    have hln : l.length ≤ n := by
      rcases i.room with h | ⟨h, h'⟩
      · omega
      · simp [h]
    obtain ⟨w, h4, h5, h6⟩ := growZero_ok n l.length v (by rw [h2]; simp)
    rw [hn1, i.size, h1]
    simp only [bind, Except.bind, Int.toNat_natCast, h4, pure, Except.pure]
    have hwget : ∀ k, (hk : k < n) → w[k]? = some (some ((l ++ List.replicate (n - l.length) 0)[k]'(by simp; omega))) := by
      intro k hk
      rw [h6 k]
      by_cases h : k < l.length
      · rw [if_neg (by omega), h3 k, if_pos (by omega), i.get h, List.getElem_append_left h]
      · rw [if_pos (by omega), List.getElem_append_right (by omega)]
        simp
    have hwl : w.length = n + 1 := by rw [h5, h2]; simp
    refine ⟨_, l ++ List.replicate (n - l.length) 0, rfl, ⟨?_, ?_, ?_, ?_⟩, ?_, ?_, fun _ => rfl⟩
    · simp; omega
    · simp only [BA.block, Option.getD_some]
      apply List.ext_getElem?
      intro k
      rw [List.getElem?_take, List.getElem?_map]
      split
      · rename_i hk
        rw [hwget k (by simp at hk; omega), List.getElem?_eq_getElem hk]; rfl
      · rename_i hk
        rw [List.getElem?_eq_none (by omega)]; rfl
    · left; simp [BA.block, hwl]; omega
    · intro k hk
      simp only [BA.block, Option.getD_some] at hk ⊢
      exact ⟨_, hwget k (by omega)⟩
    · simp; omega
    · rw [List.take_left]
      exact (List.take_of_length_le hln).symm

theorem step_ok (b : BA) (l : List Byte) (i : Inv b l) (o : Op) (hp : Proper o l) :
    ∃ b' l' r, step b o = .ok (b', r) ∧ Inv b' l' ∧ Does o l l' r := by
  have hle := i.le
  cases o with
  | get k =>
    obtain ⟨h0, h1⟩ := hp
    obtain ⟨k, rfl⟩ : ∃ n : Nat, k = n := ⟨k.toNat, by omega⟩
    have hk : k < l.length := by omega
    exact ⟨b, l, .byte l[k], by simp only [step, BA.get, rdI_ok (i.get hk), bind, Except.bind, pure, Except.pure], i, .get k l hk⟩
  | set k x =>
    obtain ⟨h0, h1⟩ := hp
    obtain ⟨k, rfl⟩ : ∃ n : Nat, k = n := ⟨k.toNat, by omega⟩
    have hk : k < l.length := by omega
    refine ⟨_, l.set k x, .unit, by simp only [step, BA.set, wrI_ok (show k < b.block.length by omega), bind, Except.bind, pure, Except.pure]; rfl, ?_, .set k x l hk⟩
    refine inv_of_get i (by simp) (by simp) ?_ ?_
    · intro j hj
      by_cases e : k = j
      · subst e; rw [List.getElem?_set_self (by omega)]; simp
      · rw [List.getElem?_set_ne e, i.get (by simpa using hj), List.getElem_set_ne e]
    · intro j hj
      rw [List.getElem?_set_ne (by simp at hj; omega)]
  | fill x =>
    obtain ⟨v, h1, h2, h3⟩ := fillLoop_ok x l.length 0 b.block hle
    refine ⟨_, List.replicate l.length x, .unit, by simp only [step, BA.fill, i.size, h1, bind, Except.bind, pure, Except.pure]; rfl, ?_, .fill x l⟩
    have := inv_of_get (l' := List.replicate l.length x) (v := v) i (by simp) h2 (by
      intro k hk; rw [h3 k, if_pos (by simp at hk; omega)]; simp) (by
      intro k hk; rw [h3 k, if_neg (by simp at hk; omega)])
    rw [i.size] at this; exact this
  | replaceVal old new =>
    obtain ⟨v, h1, h2, h3⟩ := replaceValLoop_ok old new l.length 0 b.block hle
    refine ⟨_, l.map (fun x => if x = old then new else x), .unit, by simp only [step, BA.replaceVal, i.size, h1, bind, Except.bind, pure, Except.pure]; rfl, ?_, .replaceVal old new l⟩
    have := inv_of_get (l' := l.map (fun x => if x = old then new else x)) (v := v) i (by simp) h2 (by
      intro k hk; simp only [List.length_map] at hk
      rw [h3 k, if_pos (by omega), i.get hk]
      simp [replaceOne]; split <;> rfl) (by
      intro k hk; rw [h3 k, if_neg (by simp at hk; omega)])
    rw [i.size] at this; exact this
  | resize n =>
    obtain ⟨n, rfl⟩ : ∃ k : Nat, n = k := ⟨n.toNat, by have : 0 ≤ n := hp; omega⟩
    obtain ⟨b', l', h1, h2, h3, h4, _⟩ := resize_ok b l i n
    exact ⟨b', l', .unit, by simp only [step, h1, bind, Except.bind, pure, Except.pure], h2, .resize n l l' h3 h4⟩
  | sort =>
    obtain ⟨b', l', h1, h2, h3, h4⟩ := sort_ok b l i
    exact ⟨b', l', .unit, by simp only [step, h1, bind, Except.bind, pure, Except.pure], h2, .sort l l' h3 h4⟩
  | copyAssign =>
    refine ⟨b.copy, l, .unit, rfl, ?_, .copyAssign l⟩
    exact ⟨i.size, i.vals, i.room, i.init⟩
  | size => exact ⟨b, l, .int l.length, by simp [step, i.size], i, .size l⟩
  | equalsList m =>
    refine ⟨b, l, .bool (decide (l = m)), ?_, i, .equalsList m l⟩
    simp only [step, BA.eq]
    by_cases h : b.size ≠ (BA.ofList m).size
    · rw [if_pos h]
      have : l ≠ m := by rintro rfl; exact h (by rw [i.size]; rfl)
      simp [this, bind, Except.bind, pure, Except.pure]
    · rw [if_neg h]
      have hl : l.length = m.length := by
        have := i.size
        simp only [BA.ofList] at h
        omega
      rw [eqLoop_ok b (BA.ofList m) l m i (ofList_inv m) hl 0]
      simp [bind, Except.bind, pure, Except.pure]

/-- A run of calls with their reports. -/
inductive Run : BA → List (Op × Out) → BA → Prop
  | nil b : Run b [] b
  | cons b b' b'' o r h : step b o = .ok (b', r) → Run b' h b'' → Run b ((o, r) :: h) b''

/-- Constructed from outside: a list, a buffer with a length, a NUL terminated buffer, null, filled. -/
inductive Built : BA → List Byte → Prop
  | null : Built BA.null []
  | list l : Built (BA.ofList l) l
  | sized buffer (n : Nat) b : BA.init (some buffer) n = .ok b → Built b (buffer.take n)
  | cstring l rest b : (∀ x ∈ l, x ≠ 0) → BA.init (some (l ++ 0 :: rest)) (-1) = .ok b → Built b l
  | filled (n : Nat) ch b : BA.filled n ch = .ok b → Built b (List.replicate n ch)

theorem initSized_inv (buffer : List Byte) (n : Nat) (b : BA) (h : BA.initSized buffer n = .ok b) : Inv b (buffer.take n) := by
  unfold BA.initSized at h
  split at h
  · rename_i hn
    cases h
    refine ⟨by simp; omega, ?_, ?_, ?_⟩
    · simp only [BA.block, Option.getD_some]
      rw [List.take_append_of_le_length (by simp)]
      rw [List.take_of_length_le (by simp)]
    · left; simp [BA.block]
    · intro i hi
      simp only [BA.block, Option.getD_some, List.length_append, List.length_map, List.length_singleton, List.length_take] at hi ⊢
      refine ⟨buffer[i]'(by omega), ?_⟩
      rw [List.getElem?_append_left (by simp; omega)]
      simp [List.getElem?_take, show i < n by omega, show i < buffer.length by omega]
  · cases h

theorem strlen_ok (l rest : List Byte) (h : ∀ x ∈ l, x ≠ 0) (n : Nat) (hn : n ≤ l.length) : strlen (l ++ 0 :: rest) n = .ok l.length := by
  generalize hb : l ++ 0 :: rest = buf
  fun_induction strlen buf n with
  | case1 n h1 h2 ih =>
    subst hb
    by_cases e : n = l.length
    · subst e
      simp at h2
    · exact ih (by omega)
  | case2 n h1 h2 =>
    subst hb
    by_cases e : n = l.length
    · rw [e]
    · exfalso
      rw [List.getElem_append_left (by omega)] at h2
      exact h2 (h _ (List.getElem_mem _))
  | case3 n h1 => subst hb; simp at h1; omega

theorem filled_inv (n : Nat) (ch : Byte) : ∃ b, BA.filled n ch = .ok b ∧ Inv b (List.replicate n ch) ∧ b.block[n]? = some (some 0) := by
  unfold BA.filled
  rw [if_neg (by omega), show ((n : Int) + 1).toNat = n + 1 by omega, wrI_ok (by simp)]
  simp only [bind, Except.bind, BA.fill]
  obtain ⟨v, h1, h2, h3⟩ := fillLoop_ok ch n 0 ((List.replicate (n + 1) (none : Cell)).set n (some 0)) (by simp)
  simp only [BA.block, Option.getD_some, h1]
  have hvn : v[n]? = some (some 0) := by rw [h3 n, if_neg (by omega), List.getElem?_set_self (by simp)]
  have hlen : v.length = n + 1 := by simpa using h2
  refine ⟨_, rfl, ⟨by simp, ?_, ?_, ?_⟩, by simpa using hvn⟩
  · simp only [BA.block, Option.map_some, Option.getD_some]
    apply List.ext_getElem?
    intro k
    rw [List.getElem?_take, List.getElem?_map]
    simp only [List.length_replicate]
    split
    · rename_i hk; rw [h3 k, if_pos (by omega)]; simp [hk]
    · rename_i hk; rw [List.getElem?_eq_none (by simp; omega)]; rfl
  · left; simp [BA.block, hlen]
  · intro k hk
    simp only [BA.block, Option.map_some, Option.getD_some, hlen] at hk ⊢
    exact ⟨ch, by rw [h3 k, if_pos (by omega)]⟩

theorem built_inv {b : BA} {l : List Byte} (h : Built b l) : Inv b l := by
  cases h with
  | null => exact ⟨rfl, rfl, .inr ⟨rfl, rfl⟩, by simp [BA.null, BA.block]⟩
  | list l => exact ofList_inv l
  | sized buffer n b h =>
    simp only [BA.init] at h
    rw [if_neg (by omega)] at h
    exact initSized_inv buffer n b h
  | cstring l rest b hl h =>
    simp only [BA.init] at h
    rw [if_pos (by omega), strlen_ok l rest hl 0 (by omega)] at h
    have := initSized_inv _ _ b h
    simpa using this
  | filled n ch b h =>
    obtain ⟨b', h1, h2, _⟩ := filled_inv n ch
    rw [h] at h1; cases h1; exact h2

/-- Histories of proper calls on a list of bytes. -/
inductive History : List Byte → List (Op × Out) → List Byte → Prop
  | nil l : History l [] l
  | cons o r l l' l'' h : Does o l l' r → History l' h l'' → History l ((o, r) :: h) l''

theorem run_ok (b b' : BA) (l : List Byte) (h : List (Op × Out)) (i : Inv b l) (hr : Run b h b')
    (hp : ∀ pre o r post l', h = pre ++ (o, r) :: post → History l pre l' → Proper o l') :
    ∃ l', History l h l' ∧ Inv b' l' := by
  induction hr generalizing l with
  | nil b => exact ⟨l, .nil l, i⟩
  | cons b b1 b2 o r h hs _ ih =>
    have hpo := hp [] o r h l rfl (.nil l)
    obtain ⟨b1', l1, r', h1, h2, h3⟩ := step_ok b l i o hpo
    rw [hs] at h1; cases h1
    obtain ⟨l2, h4, h5⟩ := ih l1 h2 (by
      intro pre o' r' post l' he hh
      exact hp ((o, r) :: pre) o' r' post l' (by rw [he]; rfl) (.cons _ _ _ _ _ _ h3 hh))
    exact ⟨l2, .cons _ _ _ _ _ _ h3 h4, h5⟩

theorem Inv.holds {b : BA} {l : List Byte} (i : Inv b l) : Holds b l := ⟨i.size, i.vals⟩

theorem replaceLoop_ok (src : List Cell) (off : Nat) (range : Nat) (a : Nat) (v : List Cell) (h : range ≤ v.length) (hs : off + range ≤ src.length) :
    ∃ v', replaceLoop src off range a v = .ok v' ∧ v'.length = v.length ∧
      ∀ j, v'[j]? = if a ≤ j ∧ j < range then src[off + j]? else v[j]? := by
  generalize hr : (range : Int) = rg
  fun_induction replaceLoop src off rg a v with
  | case1 a v hi ih =>
    have : rdI src ((off : Int) + a) = .ok (src[off + a]'(by omega)) := by
      rw [show (off : Int) + a = ((off + a : Nat) : Int) by omega]
      exact rdI_ok (by simp [show off + a < src.length by omega])
    rw [this]
    simp only [bind, Except.bind]
    rw [wr_ok (by omega)]
    obtain ⟨v', h1, h2, h3⟩ := ih (v.set a (src[off + a]'(by omega))) (by simpa using h)
    refine ⟨v', h1, by simpa using h2, ?_⟩
    intro j
    rw [h3 j]
    by_cases hj : a = j
    · subst hj
      rw [if_neg (by omega), if_pos (by omega), List.getElem?_set_self (by omega), List.getElem?_eq_getElem (by omega)]
    · rw [List.getElem?_set_ne hj]
      by_cases h' : a + 1 ≤ j ∧ j < range
      · rw [if_pos h', if_pos (by omega)]
      · rw [if_neg h', if_neg (by omega)]
  | case2 a v hi => exact ⟨v, rfl, rfl, fun j => by rw [if_neg (by omega)]⟩

/-! ### Theorems -/

/-- C49: every history of calls on a constructed array, with indices inside and sizes not negative, is
defined, and acts and reports as on the list of bytes.  (Bytes that come into view when a shrunk array
grows again are not zeroed: `resize_stale`.) -/
theorem bytearray_history_partial (b b' : BA) (l : List Byte) (h : List (Op × Out)) (hb : Built b l) (hr : Run b h b')
    (hp : ∀ pre o r post l', h = pre ++ (o, r) :: post → History l pre l' → Proper o l') :
    ∃ l', History l h l' ∧ Holds b' l' := by
  obtain ⟨l', h1, h2⟩ := run_ok b b' l h (built_inv hb) hr hp
  exact ⟨l', h1, h2.holds⟩

/-- A proper call never fails: in any state reached by proper calls, the next proper call is defined. -/
theorem bytearray_progress (b b' : BA) (l l' : List Byte) (h : List (Op × Out)) (hb : Built b l) (hr : Run b h b')
    (hp : ∀ pre o r post l', h = pre ++ (o, r) :: post → History l pre l' → Proper o l') (hl : Holds b' l') (o : Op) (ho : Proper o l') :
    ∃ b'' r, step b' o = .ok (b'', r) := by
  obtain ⟨m, h1, h2⟩ := run_ok b b' l h (built_inv hb) hr hp
  have : m = l' := by
    have e1 := h2.holds
    have hlen : m.length = l'.length := by have := e1.1; have := hl.1; omega
    have := e1.2
    rw [hlen, hl.2] at this
    exact (List.map_inj_right (fun x y e => by cases e; rfl)).1 this.symm
  subst this
  obtain ⟨b'', _, r, h3, _, _⟩ := step_ok b' m h2 o ho
  exact ⟨b'', r, h3⟩

/-- Growing a constructed array appends zero bytes. -/
theorem resize_grow (b : BA) (l : List Byte) (hb : Built b l) (n : Nat) (hn : l.length ≤ n) :
    ∃ b', b.resize n = .ok b' ∧ Holds b' (l ++ List.replicate (n - l.length) 0) := by
  have i := built_inv hb
  obtain ⟨b', l', h1, h2, h3, h4, h5⟩ := resize_ok b l i n
  refine ⟨b', h1, ?_⟩
  by_cases hc : b.block.length ≤ n
  · rw [← h5 hc]; exact h2.holds
  · -- the block of a constructed array is one longer than the array
    have hlen : b.block.length ≤ l.length + 1 := by
      cases hb with
      | null => simp [BA.null, BA.block]
      | list l => simp [BA.ofList, BA.block]
      | sized buffer k b h =>
        simp only [BA.init] at h
        rw [if_neg (by omega)] at h
        unfold BA.initSized at h
        split at h
        · cases h; simp [BA.block]
        · cases h
      | cstring l rest b hl h =>
        simp only [BA.init] at h
        rw [if_pos (by omega), strlen_ok l rest hl 0 (by omega)] at h
        simp only [bind, Except.bind] at h
        unfold BA.initSized at h
        split at h
        · cases h; simp [BA.block]
        · cases h
      | filled k ch b h =>
        obtain ⟨b2, g1, g2, g3⟩ := filled_inv k ch
        rw [h] at g1; cases g1
        unfold BA.filled at h
        rw [if_neg (by omega), show ((k : Int) + 1).toNat = k + 1 by omega, wrI_ok (by simp)] at h
        simp only [bind, Except.bind, BA.fill] at h
        obtain ⟨v, f1, f2, f3⟩ := fillLoop_ok ch k 0 ((List.replicate (k + 1) (none : Cell)).set k (some 0)) (by simp)
        simp only [BA.block, Option.getD_some, f1] at h
        cases h
        simp at f2
        simp [BA.block, f2]
    have : n = l.length := by omega
    subst this
    have : l' = l := by
      have e1 : l'.take l.length = l' := List.take_of_length_le (by omega)
      have e2 : l.take l.length = l := List.take_of_length_le (by omega)
      rw [← e1, h4, e2]
    rw [this] at h2
    simpa using h2.holds

/-- Growing after shrinking brings old bytes back: {1,2,3}, resized to 1 and to 3 again, is {1,0,3}. -/
theorem resize_stale : ∃ b1 b2, (BA.ofList [1, 2, 3]).resize 1 = .ok b1 ∧ b1.resize 3 = .ok b2 ∧ Holds b1 [1] ∧ Holds b2 [1, 0, 3] := by
  refine ⟨⟨some [some 1, some 0, some 3, some 0], 1⟩, ⟨some [some 1, some 0, some 3, some 0], 3⟩, by decide +kernel, by decide +kernel, ⟨rfl, rfl⟩, ⟨rfl, rfl⟩⟩

/-- The arrays are documented to be NUL terminated.  Constructed arrays are; after growing, the byte behind
the end is never written. -/
theorem terminator (l : List Byte) : (BA.ofList l).block[l.length]? = some (some 0) := by
  simp [BA.ofList, BA.block]

theorem terminator_lost (l : List Byte) (n : Nat) (hn : l.length < n) :
    ∃ b', (BA.ofList l).resize n = .ok b' ∧ b'.block[n]? = some none := by
  have i := ofList_inv l
  have hbl : (BA.ofList l).block.length = l.length + 1 := by simp [BA.ofList, BA.block]
  unfold BA.resize BA.raw
  rw [if_neg (by omega), i.size, show ((n : Int) + 1).toNat = n + 1 by omega]
  obtain ⟨v, h1, h2, h3⟩ := growCopy_ok (BA.ofList l).block l.length 0 (List.replicate (n + 1) none) (by simp; omega) (by omega)
  obtain ⟨w, h4, h5, h6⟩ := growZero_ok n l.length v (by rw [h2]; simp)
  simp only [h1, h4, bind, Except.bind, Int.toNat_natCast, pure, Except.pure]
  refine ⟨_, rfl, ?_⟩
  simp only [BA.block, Option.getD_some]
  rw [h6 n, if_neg (by omega), h3 n, if_neg (by omega)]
  simp

/-- An index outside the block is not checked: access is undefined behaviour. -/
theorem get_unchecked (l : List Byte) (i : Int) (h : i < 0 ∨ (l.length : Int) + 1 ≤ i) (x : Byte) :
    (BA.ofList l).get i = .error .ub ∧ (BA.ofList l).set i x = .error .ub := by
  have hbl : (BA.ofList l).block.length = l.length + 1 := by simp [BA.ofList, BA.block]
  constructor
  · unfold BA.get rdI
    split
    · rfl
    · exact rd_ub (by omega)
  · unfold BA.set wrI
    split
    · rfl
    · rw [wr, if_neg (by omega)]; rfl

/-- `replace(0, srcOffset, src, length)` copies the range to the start of the array. -/
theorem replaceRange_partial (l m : List Byte) (off len : Nat) (hlen : len ≤ l.length) (hoff : off + len ≤ m.length) :
    ∃ b, (BA.ofList l).replaceRange 0 off (BA.ofList m) len = .ok b ∧ Holds b ((m.drop off).take len ++ l.drop len) := by
  have i := ofList_inv l
  have j := ofList_inv m
  obtain ⟨v, h1, h2, h3⟩ := replaceLoop_ok (BA.ofList m).block off len 0 (BA.ofList l).block (by have := i.le; omega) (by have := j.le; omega)
  have hmin : min (len : Int) ((BA.ofList l).size - 0) = len := by rw [i.size]; omega
  refine ⟨_, by simp only [BA.replaceRange, hmin, h1, bind, Except.bind, pure, Except.pure]; rfl, ?_⟩
  have hl : ((m.drop off).take len).length = len := by simp; omega
  refine (inv_of_get (l' := (m.drop off).take len ++ l.drop len) i (by simp; omega) h2 ?_ ?_).holds
  · intro k hk
    rw [h3 k]
    by_cases h : k < len
    · rw [if_pos (by omega), j.get (by omega), List.getElem_append_left (by omega)]
      simp
    · rw [if_neg (by omega), i.get (by simp at hk; omega), List.getElem_append_right (by omega)]
      simp [show len + (k - min len (m.length - off)) = k by omega]
  · intro k hk
    rw [h3 k, if_neg (by simp at hk; omega)]

/-- The target offset only shortens the range: the bytes are written to the start of the array all the same. -/
theorem replaceRange_ignores_offset : ∃ b, (BA.ofList [1, 2, 3, 4]).replaceRange 2 0 (BA.ofList [8, 9]) 2 = .ok b ∧ Holds b [8, 9, 3, 4] :=
  ⟨⟨some [some 8, some 9, some 3, some 4, some 0], 4⟩, by decide +kernel, ⟨rfl, rfl⟩⟩

/-- A copy of a null array is not null. -/
theorem copy_of_null : BA.null.mem = none ∧ BA.null.copy.mem = some [] := ⟨rfl, rfl⟩

example : Run (BA.ofList [3, 1, 2]) [(.sort, .unit), (.resize 5, .unit), (.get 4, .byte 0), (.set 4 7, .unit), (.equalsList [1, 2, 3, 0, 7], .bool true)]
    ⟨some [some 1, some 2, some 3, some 0, some 7, none], 5⟩ := by
  refine .cons _ ⟨some [some 1, some 2, some 3, some 0], 3⟩ _ _ _ _ (by decide +kernel) ?_
  refine .cons _ ⟨some [some 1, some 2, some 3, some 0, some 0, none], 5⟩ _ _ _ _ (by decide +kernel) ?_
  refine .cons _ ⟨some [some 1, some 2, some 3, some 0, some 0, none], 5⟩ _ _ _ _ (by decide +kernel) ?_
  refine .cons _ ⟨some [some 1, some 2, some 3, some 0, some 7, none], 5⟩ _ _ _ _ (by decide +kernel) ?_
  exact .cons _ _ _ _ _ _ (by decide +kernel) (.nil _)

/-! ### C58: the Array template -/

/-- `get` and `set` throw exactly outside the array and otherwise act as on a list. -/
theorem array_get_set {α : Type} (a : Arr α) (i : Int) (x : α) :
    (i < 0 ∨ a.size ≤ i → a.get i = .error .thrown ∧ a.set i x = .error .thrown) ∧
    (∀ k : Nat, i = k → ∀ h : k < a.data.length, a.get i = .ok a.data[k] ∧ a.set i x = .ok ⟨a.data.set k x⟩) := by
  constructor
  · intro h
    have h' : i < 0 ∨ i ≥ a.size := h
    exact ⟨by simp only [Arr.get, if_pos h'], by simp only [Arr.set, if_pos h']⟩
  · rintro k rfl h
    have h' : ¬ ((k : Int) < 0 ∨ (k : Int) ≥ a.size) := by simp [Arr.size]; omega
    constructor
    · simp only [Arr.get, if_neg h', Int.toNat_natCast, rd_ok h]
    · simp only [Arr.set, if_neg h', Int.toNat_natCast, wr_ok h, bind, Except.bind, pure, Except.pure]

/-- A copy has the same elements, and changing the copy leaves the original alone (it is a new block). -/
theorem array_copy {α : Type} (dflt : α) (a : Arr α) : a.copy dflt = .ok a := by
  have key : ∀ (k i : Nat) (dst : List α), a.data.length - i = k → i ≤ a.data.length → dst.length = a.data.length → dst.take i = a.data.take i →
      arrCopyLoop a.data i dst = .ok a.data := by
    intro k
    induction k with
    | zero =>
      intro i dst hk hi hl hp
      rw [arrCopyLoop, if_neg (by omega)]
      have : i = a.data.length := by omega
      rw [this, List.take_of_length_le (by omega), List.take_of_length_le (by omega)] at hp
      rw [hp]
    | succ k ih =>
      intro i dst hk hi hl hp
      rw [arrCopyLoop, if_pos (by omega), rd_ok (by omega)]
      simp only [bind, Except.bind]
      rw [wr_ok (by omega)]
      refine ih (i + 1) _ (by omega) (by omega) (by simpa using hl) ?_
      rw [List.take_add_one, List.take_add_one, List.take_set_of_le (by omega), hp]
      simp [show i < dst.length by omega, show i < a.data.length by omega]
  simp only [Arr.copy, key _ 0 (List.replicate a.data.length dflt) rfl (by omega) (by simp) (by simp), bind, Except.bind, pure, Except.pure]

end Verif.Arrays.Props
