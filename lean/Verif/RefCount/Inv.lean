import Verif.RefCount.Model
/-
The invariant of the reference counting system and its preservation by every step.
-/
namespace Verif.RefCount
open Verif

/-- a `retain` that has counted up but not returned -/
def post (o : Nat) : Frame → Nat
  | .retUnlock p => if p = o then 1 else 0
  | _ => 0

/-- inside the critical section of `mMutex` -/
def crit : Frame → Nat
  | .relLoad _ | .relStore _ _ | .relCount _ | .relUnlock _ _ | .retLoad _ | .retStore _ _ | .retUnlock _ => 1
  | _ => 0

/-- inside the critical section of `mPoolMutex` -/
def pcrit : Frame → Nat
  | .addLink _ | .addUnlock | .drainTake | .drainLoop _ | .drainUnlock => 1
  | _ => 0

/-- a frame that is going to destroy `o`; `z`: the count is zero -/
def dest (z : Bool) (o : Nat) : Frame → Nat
  | .relCount p => if p = o ∧ z = true then 1 else 0
  | .relUnlock p c | .relTest p c => if p = o ∧ c = 0 then 1 else 0
  | _ => 0

def mk : Frame → Nat
  | .markLoad _ _ | .markStore _ _ _ => 1
  | _ => 0

/-- `drain` between taking the entries out and returning -/
def drn : Frame → Nat
  | .drainLoop _ | .drainUnlock => 1
  | _ => 0

/-- what mRefCount stands for -/
def State.cnt (s : State) (o : Nat) : Nat := s.T o + s.pool.count o + s.S (own o) + s.S (pre o) + s.S (post o)

def cv (x : BitVec 32) : Nat := x.toNat % 2 ^ 31

/-- the value a frame has loaded is still there -/
def fresh (raw : Nat → BitVec 32) : Frame → Prop
  | .relStore o v => v = raw o
  | .retStore o v => v = raw o
  | _ => True

/-- a mutex that is held counts 1 -/
def b1 : Bool → Nat
  | true => 1
  | false => 0

structure ObjInv (s : State) (o : Nat) : Prop where
  count : s.alive o = true → cv (s.raw o) = s.cnt o
  destr : s.alive o = true → (s.cnt o = 0 → s.S (dest true o) = 1) ∧ (0 < s.cnt o → s.S (dest false o) = 0)
  dead : s.alive o = false → s.cnt o = 0 ∧ s.S (dest true o) = 0 ∧ s.refs o = 0
  bound : s.refs o < 2 ^ 31

structure Inv (s : State) : Prop where
  obj : ∀ o, ObjInv s o
  mutex : s.S crit = b1 s.m
  pmutex : s.S pcrit = b1 s.pm
  fresh : ∀ t ∈ s.thr, ∀ f ∈ t.stack, fresh s.raw f
  nomark : s.S mk = 0
  drain : 0 < s.S drn → s.pool = []
  next : ∀ o, s.next ≤ o → s.alive o = false

theorem sum_set {α : Type} (f : α → Nat) (l : List α) (i : Nat) (x y : α) (h : l[i]? = some x) :
    ((l.set i y).map f).sum + f x = (l.map f).sum + f y := by
  induction l generalizing i with
  | nil => simp at h
  | cons a l ih =>
    cases i with
    | zero => simp at h; subst h; simp; omega
    | succ i =>
      simp only [List.getElem?_cons_succ] at h
      have := ih i h
      simp only [List.set_cons_succ, List.map_cons, List.sum_cons]; omega

theorem S_set {s s' : State} {i : Nat} {t t' : Thr} (h : s.thr[i]? = some t) (e : s'.thr = s.thr.set i t') (w : Frame → Nat) :
    s'.S w + sumBy w t.stack = s.S w + sumBy w t'.stack := by
  unfold State.S
  rw [e]
  exact sum_set (fun t : Thr => sumBy w t.stack) s.thr i t t' h

theorem T_set {s s' : State} {i : Nat} {t t' : Thr} (h : s.thr[i]? = some t) (e : s'.thr = s.thr.set i t') (o : Nat) :
    s'.T o + t.tok o = s.T o + t'.tok o := by
  unfold State.T
  rw [e]
  exact sum_set (fun t : Thr => t.tok o) s.thr i t t' h

theorem sum_ge {α : Type} (f : α → Nat) (l : List α) (x : α) (h : x ∈ l) : f x ≤ (l.map f).sum := by
  induction l with
  | nil => cases h
  | cons a l ih =>
    simp only [List.map_cons, List.sum_cons]
    rcases List.mem_cons.1 h with h | h
    · subst h; omega
    · have := ih h; omega

theorem sumBy_ge (w : Frame → Nat) (l : List Frame) (f : Frame) (h : f ∈ l) : w f ≤ sumBy w l := by
  induction l with
  | nil => cases h
  | cons a l ih =>
    simp only [sumBy]
    rcases List.mem_cons.1 h with h | h
    · subst h; omega
    · have := ih h; omega

theorem S_ge (s : State) (w : Frame → Nat) (t : Thr) (h : t ∈ s.thr) (f : Frame) (hf : f ∈ t.stack) : w f ≤ s.S w :=
  Nat.le_trans (sumBy_ge w t.stack f hf) (sum_ge (fun t : Thr => sumBy w t.stack) s.thr t h)

theorem sumBy_le (w v : Frame → Nat) (h : ∀ f, w f ≤ v f) (l : List Frame) : sumBy w l ≤ sumBy v l := by
  induction l with
  | nil => exact Nat.le_refl _
  | cons a l ih => simp only [sumBy]; have := h a; omega

theorem S_le (s : State) (w v : Frame → Nat) (h : ∀ f, w f ≤ v f) : s.S w ≤ s.S v := by
  unfold State.S
  induction s.thr with
  | nil => exact Nat.le_refl _
  | cons a l ih => simp only [List.map_cons, List.sum_cons]; have := sumBy_le w v h a.stack; omega

/-- without a thread in the critical section, `dest` does not depend on whether the count is zero -/
theorem dest_crit (o : Nat) (s : State) : s.S (dest true o) ≤ s.S (dest false o) + s.S crit := by
  unfold State.S
  induction s.thr with
  | nil => exact Nat.le_refl _
  | cons a l ih =>
    simp only [List.map_cons, List.sum_cons]
    have : ∀ l : List Frame, sumBy (dest true o) l ≤ sumBy (dest false o) l + sumBy crit l := by
      intro l
      induction l with
      | nil => exact Nat.le_refl _
      | cons f l ih =>
        simp only [sumBy]
        have : dest true o f ≤ dest false o f + crit f := by cases f <;> simp only [dest, crit] <;> (try split) <;> omega
        omega
    have := this a.stack
    omega

theorem dest_mono (o : Nat) (s : State) : s.S (dest false o) ≤ s.S (dest true o) :=
  S_le s _ _ (by intro f; cases f <;> simp [dest])

theorem post_pend (o : Nat) (s : State) : s.S (post o) ≤ s.S (pend o) := S_le s _ _ (by intro f; cases f <;> simp [post, pend])

theorem cnt_le_refs (s : State) (o : Nat) : s.cnt o ≤ s.refs o := by
  have := post_pend o s; unfold State.cnt State.refs; omega

theorem cv_sub {x : BitVec 32} (h : 0 < cv x) : cv (x - 1) = cv x - 1 ∧ x ≠ 0x80000000 := by
  unfold cv at *
  constructor
  · rw [BitVec.toNat_sub]
    have := x.isLt
    have h1 : (1 : BitVec 32).toNat = 1 := rfl
    rw [h1]
    omega
  · intro e; subst e; simp at h

theorem cv_add {x : BitVec 32} (h : cv x + 1 < 2 ^ 31) : cv (x + 1) = cv x + 1 ∧ x ≠ 0x7FFFFFFF := by
  unfold cv at *
  constructor
  · rw [BitVec.toNat_add]
    have := x.isLt
    have h1 : (1 : BitVec 32).toNat = 1 := rfl
    rw [h1]
    omega
  · intro e; subst e; simp at h

theorem refCount_zero (x : BitVec 32) : refCount x = 0 ↔ cv x = 0 := by
  have : (refCount x).toNat = cv x := by
    unfold refCount cv
    rw [BitVec.toNat_and]
    exact Nat.and_two_pow_sub_one_eq_mod x.toNat 31
  rw [← this]
  constructor
  · intro h; rw [h]; rfl
  · intro h; exact BitVec.eq_of_toNat_eq h

/-- a step that does not touch the object -/
theorem objInv_same {s s' : State} {o : Nat} (ho : ObjInv s o) (ha : s'.alive o = s.alive o) (hr : s'.raw o = s.raw o)
    (hc : s'.cnt o = s.cnt o) (hd : s'.S (dest true o) = s.S (dest true o)) (hd' : s'.S (dest false o) = s.S (dest false o))
    (hrf : s'.refs o = s.refs o) : ObjInv s' o := by
  refine ⟨?_, ?_, ?_, ?_⟩
  · rw [ha, hr, hc]; exact ho.count
  · rw [ha, hc, hd, hd']; exact ho.destr
  · rw [ha, hc, hd, hrf]; exact ho.dead
  · rw [hrf]; exact ho.bound

/-- all changes of sums when thread `i` changes from `t` to `t'` -/
structure Delta (s s' : State) (t t' : Thr) (o : Nat) : Prop where
  tok : s'.T o + t.tok o = s.T o + t'.tok o
  own : s'.S (own o) + sumBy (own o) t.stack = s.S (own o) + sumBy (own o) t'.stack
  pre : s'.S (pre o) + sumBy (pre o) t.stack = s.S (pre o) + sumBy (pre o) t'.stack
  post : s'.S (post o) + sumBy (post o) t.stack = s.S (post o) + sumBy (post o) t'.stack
  pend : s'.S (pend o) + sumBy (pend o) t.stack = s.S (pend o) + sumBy (pend o) t'.stack
  dT : s'.S (dest true o) + sumBy (dest true o) t.stack = s.S (dest true o) + sumBy (dest true o) t'.stack
  dF : s'.S (dest false o) + sumBy (dest false o) t.stack = s.S (dest false o) + sumBy (dest false o) t'.stack

theorem delta {s s' : State} {i : Nat} {t t' : Thr} (h : s.thr[i]? = some t) (e : s'.thr = s.thr.set i t') (o : Nat) :
    Delta s s' t t' o :=
  ⟨T_set h e o, S_set h e _, S_set h e _, S_set h e _, S_set h e _, S_set h e _, S_set h e _⟩

theorem fresh_set {s s' : State} {i : Nat} {t t' : Thr} (hs : s.thr[i]? = some t) (e : s'.thr = s.thr.set i t')
    (hr : s'.raw = s.raw) (hf : ∀ t ∈ s.thr, ∀ f ∈ t.stack, fresh s.raw f) (ht : ∀ f ∈ t'.stack, f ∈ t.stack ∨ fresh s.raw f) :
    ∀ t ∈ s'.thr, ∀ f ∈ t.stack, fresh s'.raw f := by
  intro u hu f hf'
  rw [hr]
  rw [e] at hu
  rcases List.mem_or_eq_of_mem_set hu with h | h
  · exact hf u h f hf'
  · subst h
    rcases ht f hf' with h | h
    · exact hf t (List.mem_of_getElem? hs) f h
    · exact h

end Verif.RefCount
