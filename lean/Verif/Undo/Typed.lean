import Verif.Undo.Props
import Verif.Math.FpMore
/-
C120: `EditableObject::setMember` for members of type double, Vertex3 and int64.
-/
namespace Verif.Undo.Typed
open Verif Verif.Undo Verif.Fp Verif.Math.Fl

/-- EditableObject.cpp:91 `value == *pointer` -/
def sameD : List F64 → List F64 → Bool
  | [a], [b] => eq a b
  | _, _ => false

/-- EditableObject.cpp:90 `isNaN(value)` -/
def nanD : List F64 → Bool
  | [a] => Math.Fl.isNaN a
  | _ => false

/-- EditableObject.cpp:88-98: `setMember(double*, double)`; a cell of memory is a double -/
def setDouble (s : State F64) (this ptr : Nat) (v : F64) : Res (Status × State F64) := setMemberDouble sameD nanD s this ptr [v]

/-- Vertex3.cpp:233-236 `operator==` -/
def sameV : List F64 → List F64 → Bool
  | [a, b, c], [x, y, z] => isEqual a x && isEqual b y && isEqual c z
  | _, _ => false

/-- EditableObject.cpp:133-142: `setMember(Vertex3*, const Vertex3&)`; the three coordinates are three cells -/
def setVertex (s : State F64) (this ptr : Nat) (v : F64 × F64 × F64) : Res (Status × State F64) := setMember sameV s this ptr [v.1, v.2.1, v.2.2]

/-- the vertex at `ptr` -/
def vertexAt (s : State F64) (ptr : Nat) : F64 × F64 × F64 := (s.mem ptr, s.mem (ptr + 1), s.mem (ptr + 2))

/-- EditableObject.cpp:68-86: `setMember(int64*, int64, int64, int64)` -/
def setInt (s : State Int) (this ptr : Nat) (v lo hi : Int) : Res (Status × State Int) :=
  setMemberRange (· == ·) (fun l => l.all fun x => decide (lo ≤ x ∧ x ≤ hi)) s this ptr [v]

theorem register_mem {V : Type} {s s' : State V} {o p n : Nat} (h : register s o p n = .ok s') : s'.mem = s.mem := by
  unfold register addChange at h
  split at h
  · cases h; rfl
  · split at h
    · split at h
      · cases h
      · cases h; rfl
    · cases h; rfl

theorem eq_same {x y : F64} (h : eq x y = true) : x = y ∨ (val x = 0 ∧ val y = 0) := by
  cases x with
  | nan => cases h
  | num s a ha =>
    cases y with
    | nan => cases h
    | num t b hb =>
      have h : sgn s a = sgn t b := of_decide_eq_true h
      by_cases h0 : a = 0
      · right
        have hb0 : b = 0 := by
          subst h0
          cases s <;> cases t <;> simp [sgn] at h <;> omega
        subst h0 hb0
        have hm : mag 0 = 0 := by decide
        constructor
        · cases s <;> simp [val, units, sgn, hm]
        · cases t <;> simp [val, units, sgn, hm]
      · left
        unfold sgn at h
        cases s <;> cases t <;> simp at h
        · have : a = b := by omega
          subst this; rfl
        · omega
        · omega
        · have : a = b := by omega
          subst this; rfl

theorem eq_refl {x : F64} (h : x ≠ .nan) : eq x x = true := by
  cases x with
  | nan => exact absurd rfl h
  | num s a ha => simp [eq]

theorem eq_comm {x y : F64} (h : eq x y = true) : eq y x = true := by
  cases x with
  | nan => cases h
  | num s a ha => cases y with
    | nan => cases h
    | num t b hb => simp only [eq, decide_eq_true_eq] at h ⊢; exact h.symm

/-- **C120** `setMember(double*, value)`: a value that is not NaN is accepted, afterwards the member compares equal to it – it is the value
itself, except that a zero may keep the other sign – and no other memory changes; NaN is refused and nothing changes. -/
theorem double_stored (s s' : State F64) (o p : Nat) (v : F64) (st : Status) (h : setDouble s o p v = .ok (st, s')) :
    (v ≠ .nan → (st = eOK ∨ st = eNotChanged ∧ s' = s) ∧ eq (s'.mem p) v = true ∧ (s'.mem p = v ∨ val v = 0 ∧ val (s'.mem p) = 0) ∧
      ∀ a, a ≠ p → s'.mem a = s.mem a) ∧
    (v = .nan → st = eInvalidInput ∧ s' = s) := by
  unfold setDouble setMemberDouble at h
  constructor
  · intro hv
    have hn : nanD [v] = false := by
      cases hh : nanD [v] with
      | false => rfl
      | true => exact absurd ((isNaN_iff v).1 hh) hv
    rw [hn] at h
    simp only [Bool.false_eq_true, if_false, List.length_singleton] at h
    have hr : readMem s.mem p 1 = [s.mem p] := by simp [readMem]
    rw [hr] at h
    by_cases hs : sameD [v] [s.mem p] = true
    · rw [if_pos hs] at h
      cases h
      have hs : eq v (s.mem p) = true := hs
      refine ⟨Or.inr ⟨rfl, rfl⟩, eq_comm hs, ?_, fun _ _ => rfl⟩
      rcases eq_same hs with h | h
      · exact Or.inl h.symm
      · exact Or.inr h
    · rw [if_neg hs] at h
      simp only [bind, Except.bind, pure, Except.pure] at h
      split at h
      · cases h
      · rename_i s1 e
        cases h
        have hw : ∀ a, writeMem s1.mem p [v] a = if a = p then v else s.mem a := by
          intro a
          rw [register_mem e]
          unfold writeMem
          by_cases hp : a = p
          · subst hp; simp
          · rw [if_neg hp]
            split
            · rw [List.getElem?_eq_none (by simp; omega)]; rfl
            · rfl
        simp only [store]
        refine ⟨by simp, ?_, ?_, ?_⟩
        · rw [hw, if_pos rfl]; exact eq_refl hv
        · rw [hw, if_pos rfl]; exact Or.inl rfl
        · intro a ha; rw [hw, if_neg ha]
  · intro hv
    subst hv
    rw [if_pos (by exact (isNaN_iff .nan).2 rfl)] at h
    cases h
    exact ⟨rfl, rfl⟩

/-- the negative zero -/
def negZero : F64 := .num true 0 (by decide)

/-- **C120** (violation) A negative zero is not stored over a positive one. -/
theorem negative_zero_lost (s : State F64) (o p : Nat) (h : s.mem p = zero) : setDouble s o p negZero = .ok (eNotChanged, s) := by
  unfold setDouble setMemberDouble
  rw [if_neg (by decide +kernel), if_pos]
  simp only [List.length_singleton, readMem, List.range_one, List.map_cons, List.map_nil, Nat.add_zero, h]
  decide

/-- **C120** `setMember(Vertex3*, value)`: either the member is the value afterwards, or nothing changes and all coordinates are within the
tolerance. If some coordinate differs by 10^-6 or more (finite coordinates), the value is stored. -/
theorem vertex_stored_partial (s s' : State F64) (o p : Nat) (v : F64 × F64 × F64) (st : Status) (h : setVertex s o p v = .ok (st, s')) :
    (st = eOK ∧ vertexAt s' p = v ∧ (∀ a, a ≠ p → a ≠ p + 1 → a ≠ p + 2 → s'.mem a = s.mem a) ∨
      st = eNotChanged ∧ s' = s ∧ isEqual v.1 (s.mem p) = true ∧ isEqual v.2.1 (s.mem (p + 1)) = true ∧ isEqual v.2.2 (s.mem (p + 2)) = true) ∧
    (Finite v.1 → Finite (s.mem p) → 1 / 10 ^ 6 ≤ |val v.1 - val (s.mem p)| → st = eOK) ∧
    (Finite v.2.1 → Finite (s.mem (p + 1)) → 1 / 10 ^ 6 ≤ |val v.2.1 - val (s.mem (p + 1))| → st = eOK) ∧
    (Finite v.2.2 → Finite (s.mem (p + 2)) → 1 / 10 ^ 6 ≤ |val v.2.2 - val (s.mem (p + 2))| → st = eOK) := by
  obtain ⟨x, y, z⟩ := v
  unfold setVertex setMember at h
  simp only [List.length_cons, List.length_nil] at h
  have hr : readMem s.mem p (0 + 1 + 1 + 1) = [s.mem p, s.mem (p + 1), s.mem (p + 2)] := by simp [readMem, List.range_succ]
  rw [hr] at h
  have far : ∀ a b : F64, Finite a → Finite b → 1 / 10 ^ 6 ≤ |val a - val b| → isEqual a b = false := by
    intro a b ha hb hd
    obtain ⟨t1, t2, -⟩ := tolerance_fp_partial a b ha hb
    rcases le_total 0 (val a - val b) with h0 | h0
    · rw [abs_of_nonneg h0] at hd; exact (t2 hd).2.1
    · rw [abs_of_nonpos h0] at hd; exact (t1 (by linarith)).2.1
  by_cases hs : sameV [x, y, z] [s.mem p, s.mem (p + 1), s.mem (p + 2)] = true
  · rw [if_pos hs] at h
    cases h
    simp only [sameV, Bool.and_eq_true] at hs
    refine ⟨Or.inr ⟨rfl, rfl, hs.1.1, hs.1.2, hs.2⟩, ?_, ?_, ?_⟩
    · intro hc hm hd
      have := far _ _ hc hm hd
      rw [hs.1.1] at this; cases this
    · intro hc hm hd
      have := far _ _ hc hm hd
      rw [hs.1.2] at this; cases this
    · intro hc hm hd
      have := far _ _ hc hm hd
      rw [hs.2] at this; cases this
  · rw [if_neg hs] at h
    simp only [bind, Except.bind, pure, Except.pure] at h
    split at h
    · cases h
    · rename_i s1 e
      cases h
      refine ⟨Or.inl ⟨rfl, ?_, ?_⟩, fun _ _ _ => rfl, fun _ _ _ => rfl, fun _ _ _ => rfl⟩
      · simp [vertexAt, store, writeMem]
      · intro a h0 h1 h2
        simp only [store]
        rw [writeMem_out _ _ _ _ (by simp; omega), register_mem e]

theorem vertex_same (s : State F64) (o p : Nat) (v : F64 × F64 × F64) (h1 : isEqual v.1 (s.mem p) = true) (h2 : isEqual v.2.1 (s.mem (p + 1)) = true)
    (h3 : isEqual v.2.2 (s.mem (p + 2)) = true) : setVertex s o p v = .ok (eNotChanged, s) := by
  unfold setVertex setMember
  have hr : readMem s.mem p (0 + 1 + 1 + 1) = [s.mem p, s.mem (p + 1), s.mem (p + 2)] := by simp [readMem, List.range_succ]
  simp only [List.length_cons, List.length_nil]
  rw [hr, if_pos (by simp [sameV, h1, h2, h3])]

theorem near_equal (x d : F64) (hx : Finite x) (hd : Finite d) (hX : |val x| < 2 ^ 28) (hD : |val d| ≤ 8 / 10 ^ 7) : isEqual (x + d) x = true := by
  have hr := add_rounds hx hd
  have he : |val x + val d| ≤ 2 ^ 53 / 2 ^ 24 := by
    have := abs_add_le (val x) (val d)
    norm_num at *
    linarith
  have hf := (abs_le_of_grid (by norm_num) he hr).1
  have herr := hr.err 24 (by norm_num) he
  have hb : |val (x + d) - (val x + val d)| ≤ 1 / 10 ^ 7 := by
    refine le_trans herr ?_
    norm_num
  rw [abs_le] at hb hD
  rw [abs_lt] at hX
  refine ((tolerance_fp_partial (x + d) x hf hx).2.2 ?_ ?_ ?_).2.1
  · rw [abs_lt]; norm_num at *; constructor <;> linarith
  · rw [abs_lt]; norm_num at *; constructor <;> linarith
  · rw [abs_le]; norm_num at *; constructor <;> linarith

/-- moving the vertex by `d`, `n` times: `obj.setMember(&v, v + d)` -/
def moveN (o p : Nat) (d : F64 × F64 × F64) : Nat → State F64 → Res (State F64)
  | 0, s => .ok s
  | n + 1, s => do
    let v := vertexAt s p
    let x ← setVertex s o p (v.1 + d.1, v.2.1 + d.2.1, v.2.2 + d.2.2)
    moveN o p d n x.2

/-- **C120** (violation) Small moves of a vertex are lost: however often it is moved by less than the tolerance, it stays where it is. -/
theorem vertex_small_moves_lost (s : State F64) (o p n : Nat) (d : F64 × F64 × F64)
    (hs : ∀ i, i < 3 → Finite (s.mem (p + i)) ∧ |val (s.mem (p + i))| < 2 ^ 28)
    (hd : ∀ c ∈ [d.1, d.2.1, d.2.2], Finite c ∧ |val c| ≤ 8 / 10 ^ 7) : moveN o p d n s = .ok s := by
  induction n with
  | zero => rfl
  | succ n ih =>
    have e : setVertex s o p ((vertexAt s p).1 + d.1, (vertexAt s p).2.1 + d.2.1, (vertexAt s p).2.2 + d.2.2) = .ok (eNotChanged, s) := by
      refine vertex_same s o p _ ?_ ?_ ?_
      · exact near_equal _ _ (hs 0 (by decide)).1 (hd d.1 (by simp)).1 (hs 0 (by decide)).2 (hd d.1 (by simp)).2
      · exact near_equal _ _ (hs 1 (by decide)).1 (hd d.2.1 (by simp)).1 (hs 1 (by decide)).2 (hd d.2.1 (by simp)).2
      · exact near_equal _ _ (hs 2 (by decide)).1 (hd d.2.2 (by simp)).1 (hs 2 (by decide)).2 (hd d.2.2 (by simp)).2
    simp only [moveN]
    rw [e]
    exact ih

/-- **C120** (violation) A vertex with a NaN is not refused, and setting it again is taken for a change each time: after `n` calls on an idle
manager there are `n` changes. -/
theorem vertex_nan_accepted (s : State F64) (hs : Undo.Props.Idle s) (o p : Nat) (y z : F64) :
    ∃ s1 s2, setVertex s o p (.nan, y, z) = .ok (eOK, s1) ∧ vertexAt s1 p = (.nan, y, z) ∧ setVertex s1 o p (.nan, y, z) = .ok (eOK, s2) ∧
      s1.current.length = 1 ∧ s2.current.length = 2 ∧ s2.mem = s1.mem := by
  have hsame : ∀ l, sameV [.nan, y, z] l = false := by
    intro l
    match l with
    | [a, b, c] =>
      have := (nan_comparisons .nan a (Or.inl rfl)).1
      simp [sameV, this]
    | [] => rfl
    | [_] => rfl
    | [_, _] => rfl
    | _ :: _ :: _ :: _ :: _ => rfl
  obtain ⟨h1, h2, h3, h4⟩ := hs
  have reg : ∀ t : State F64, t.active = true → t.level = 0 → register t o p 3 = .ok { t with current := t.current ++ [⟨o, p, readMem t.mem p 3⟩], redoStack := [], redoCount := 0, isOpen := true } := by
    intro t ha hl
    unfold register addChange
    rw [if_neg (by simp [ha]), if_neg (by omega)]
    rfl
  have step : ∀ t : State F64, t.active = true → t.level = 0 → setVertex t o p (.nan, y, z) =
      .ok (eOK, store { t with current := t.current ++ [⟨o, p, readMem t.mem p 3⟩], redoStack := [], redoCount := 0, isOpen := true } p [.nan, y, z]) := by
    intro t ha hl
    unfold setVertex setMember
    rw [if_neg (by rw [hsame]; simp)]
    show (register t o p 3 >>= _) = _
    rw [reg t ha hl]
    rfl
  refine ⟨_, _, step s h1 h4, ?_, step _ h1 h4, ?_, ?_, ?_⟩
  · simp [vertexAt, store, writeMem]
  · simp [store, h3]
  · simp [store, h3]
  · funext a
    simp only [store, writeMem]
    split
    · cases e : ([F64.nan, y, z] : List F64)[a - p]? <;> simp
    · rfl

/-- **C120** `setMember(int64*, value, min, max)`: stored exactly if the value is within the range and differs; a refused or equal value changes no
memory. -/
theorem int_stored (s s' : State Int) (o p : Nat) (v lo hi : Int) (st : Status) (h : setInt s o p v lo hi = .ok (st, s')) :
    (st = eOK ∧ lo ≤ v ∧ v ≤ hi ∧ s.mem p ≠ v ∧ s'.mem p = v ∧ (∀ a, a ≠ p → s'.mem a = s.mem a)) ∨
    (st = eNotChanged ∧ s.mem p = v ∧ s' = s) ∨
    (st = eInvalidInput ∧ ¬ (lo ≤ v ∧ v ≤ hi) ∧ s.mem p ≠ v ∧ s'.mem = s.mem) := by
  unfold setInt setMemberRange at h
  have hr : readMem s.mem p 1 = [s.mem p] := by simp [readMem]
  simp only [List.length_singleton, hr] at h
  by_cases hv : s.mem p = v
  · rw [if_pos (by simp [hv])] at h
    cases h
    exact Or.inr (Or.inl ⟨rfl, hv, rfl⟩)
  · rw [if_neg (by simp; exact fun e => hv e.symm)] at h
    by_cases hin : lo ≤ v ∧ v ≤ hi
    · rw [if_neg (by simp [hin])] at h
      simp only [bind, Except.bind, pure, Except.pure] at h
      split at h
      · cases h
      · rename_i s1 e
        cases h
        refine Or.inl ⟨rfl, hin.1, hin.2, hv, ?_, ?_⟩
        · simp [store, writeMem]
        · intro a ha
          simp only [store]
          rw [writeMem_out _ _ _ _ (by simp; omega), register_mem e]
    · rw [if_pos (by simp; omega)] at h
      cases h
      refine Or.inr (Or.inr ⟨rfl, hin, hv, ?_⟩)
      unfold registerTransactionStatus
      split <;> rfl

/-! ### concrete cases -/

def stateD : State F64 := State.new (fun _ => zero) (fun _ => false) false

def statusOf {α : Type} : Res (Status × α) → Option Status
  | .ok x => some x.1
  | .error _ => none

example : statusOf (setDouble stateD 1 10 (lit 3 2)) = some eOK := by decide +kernel
example := negative_zero_lost stateD 1 10 rfl
example : statusOf (setVertex stateD 1 10 (lit 1 1, zero, lit 1 100000)) = some eOK ∧ statusOf (setVertex stateD 1 10 (zero, lit 1 2000000, zero)) = some eNotChanged := by
  decide +kernel

/-- a million moves by 2^-21 (about half the tolerance) -/
example : ∃ d : F64, val d = 1 / 2 ^ 21 ∧ moveN 1 10 (d, zero, zero) 1000000 stateD = .ok stateD := by
  obtain ⟨d, -, hf, hv⟩ := (Rp.grid 1 21 (by decide) (by decide)).rounds
  refine ⟨d, by rw [hv]; norm_num, vertex_small_moves_lost stateD 1 10 1000000 _ ?_ ?_⟩
  · intro i _
    exact ⟨by show Finite zero; decide, by show |val zero| < 2 ^ 28; rw [val_zero]; norm_num⟩
  · intro c hc
    simp only [List.mem_cons, List.not_mem_nil, or_false] at hc
    rcases hc with rfl | rfl | rfl
    · exact ⟨hf, by rw [hv]; norm_num⟩
    · exact ⟨by decide, by rw [val_zero]; norm_num⟩
    · exact ⟨by decide, by rw [val_zero]; norm_num⟩
example := vertex_nan_accepted stateD ⟨rfl, rfl, rfl, rfl⟩ 1 10 zero zero
example : statusOf (setInt (State.new (fun _ => 0) (fun _ => false) false) 1 10 5 1 9) = some eOK := by decide

end Verif.Undo.Typed
