import Verif.LinkedList.Ops4
import Verif.LinkedList.IterSpec
/-
What calls on a list do not touch: the cells of elements that are not in the list, and (but for the searching ones) the cursor.
-/
namespace Verif.LinkedList.Iter
open Verif Verif.Undo Verif.LinkedList

/-- the cells in `P` and the cursor are as before -/
def Keep (P : Nat → Prop) (s s' : S) : Prop := s'.cur = s.cur ∧ ∀ a, P a → s'.u.mem a = s.u.mem a

theorem Keep.refl (P : Nat → Prop) (s : S) : Keep P s s := ⟨rfl, fun _ _ => rfl⟩
theorem Keep.trans {P : Nat → Prop} {s t u : S} (h : Keep P s t) (k : Keep P t u) : Keep P s u :=
  ⟨k.1.trans h.1, fun a ha => (k.2 a ha).trans (h.2 a ha)⟩

theorem bind_ok {α β : Type} {x : Res α} {f : α → Res β} {b : β} (h : (x >>= f) = .ok b) : ∃ a, x = .ok a ∧ f a = .ok b := by
  cases x with
  | error e => cases h
  | ok a => exact ⟨a, rfl, h⟩

theorem chk_of {s : S} {e : Nat} (h : chk s e = .ok ()) : Alive s e := by
  unfold chk at h
  split at h
  · assumption
  · cases h

theorem register_mem {u u' : State Nat} {o p n : Nat} (h : register u o p n = .ok u') : u'.mem = u.mem := by
  unfold register addChange at h
  split at h
  · cases h; rfl
  · split at h
    · split at h
      · cases h
      · cases h; rfl
    · cases h; rfl

variable {P : Nat → Prop}

theorem regE_keep {s s' : S} {o e f : Nat} (h : regE s o e f = .ok s') : Keep P s s' := by
  unfold regE at h
  split at h
  · obtain ⟨_, _, h⟩ := bind_ok h
    obtain ⟨_, _, h⟩ := bind_ok h
    obtain ⟨u, hu, h⟩ := bind_ok h
    cases h
    exact ⟨rfl, fun a _ => by rw [show ({ s with u := u } : S).u.mem = u.mem from rfl, register_mem hu]⟩
  · cases h; exact Keep.refl P s

theorem regL_keep {s s' : S} {f : Nat} (h : regL s f = .ok s') : Keep P s s' := by
  unfold regL at h
  split at h
  · obtain ⟨u, hu, h⟩ := bind_ok h
    cases h
    exact ⟨rfl, fun a _ => by rw [show ({ s with u := u } : S).u.mem = u.mem from rfl, register_mem hu]⟩
  · cases h; exact Keep.refl P s

theorem stE_keep {s s' : S} {e f v : Nat} (h : stE s e f v = .ok s') (hn : ¬ P (e + f)) : Keep P s s' := by
  unfold stE at h
  obtain ⟨_, _, h⟩ := bind_ok h
  cases h
  refine ⟨rfl, fun a ha => ?_⟩
  show (store s.u (e + f) [v]).mem a = _
  rw [store_upd]
  exact upd_ne _ _ _ _ (fun e => hn (e ▸ ha))

theorem stL_keep (s : S) (f v : Nat) (hn : ¬ P f) : Keep P s (stL s f v) := by
  refine ⟨rfl, fun a ha => ?_⟩
  show (store s.u f [v]).mem a = _
  rw [store_upd]
  exact upd_ne _ _ _ _ (fun e => hn (e ▸ ha))

theorem cond_keep {s s' : S} {c : Bool} {f : S → Res S} (h : cond c f s = .ok s') (hf : c = true → ∀ t, f s = .ok t → Keep P s t) : Keep P s s' := by
  unfold cond at h
  split at h
  · rename_i hc; exact hf hc s' h
  · cases h; exact Keep.refl P s

theorem release_keep {s s' : S} {e : Nat} (h : release s e = .ok s') : Keep P s s' := by
  unfold release at h
  obtain ⟨_, _, h⟩ := bind_ok h
  split at h <;> (cases h; exact Keep.refl P s)

theorem addElem_keep {s s' : S} {item : Nat} (h : addElem s item = .ok s') (h1 : ¬ P aStart) (h2 : ¬ P aEnd) (h4 : ¬ P aCount)
    (hi : ¬ P (item + 0)) (hl : s.u.mem aEnd ≠ 0 → ¬ P (s.u.mem aEnd + 1)) : Keep P s s' := by
  unfold addElem at h
  obtain ⟨s1, k1, h⟩ := bind_ok h
  obtain ⟨s2, k2, h⟩ := bind_ok h
  obtain ⟨s3, k3, h⟩ := bind_ok h
  obtain ⟨s4, k4, h⟩ := bind_ok h
  obtain ⟨s5, k5, h⟩ := bind_ok h
  obtain ⟨s6, k6, h⟩ := bind_ok h
  obtain ⟨s7, k7, h⟩ := bind_ok h
  obtain ⟨s8, k8, h⟩ := bind_ok h
  obtain ⟨s9, k9, h⟩ := bind_ok h
  cases h
  refine ((((((((((regE_keep k1).trans (cond_keep k2 (fun _ _ h => regE_keep h))).trans (cond_keep k3 (fun _ _ h => regL_keep h))).trans
    (regL_keep k4)).trans (regL_keep k5)).trans (stE_keep k6 hi)).trans (cond_keep k7 (fun c _ h => stE_keep h (hl (by simpa using c))))).trans
    (cond_keep k8 (fun c _ h => stE_keep h hi))).trans (stL_keep _ _ _ h2)).trans (cond_keep k9 (fun _ _ h => ?_))).trans (stL_keep _ _ _ h4)
  cases h
  exact stL_keep _ _ _ h1

theorem newElem_keep (s : S) (h : ∀ f, f < 3 → ¬ P (s.brk + f)) : Keep P s (newElem s).1 := by
  refine ⟨rfl, fun a ha => ?_⟩
  show writeMem s.u.mem s.brk [0, 0, 0] a = _
  unfold writeMem
  split
  · rename_i hc
    have : a = s.brk + (a - s.brk) := by omega
    by_cases h3 : a - s.brk < 3
    · exact absurd (this ▸ ha) (h _ h3)
    · rw [List.getElem?_eq_none (by simp; omega)]; rfl
  · rfl

theorem add_keep {s s' : S} {d : Nat} (h : add s d = .ok s') (h1 : ¬ P aStart) (h2 : ¬ P aEnd) (h4 : ¬ P aCount)
    (hi : ∀ f, f < 3 → ¬ P (s.brk + f)) (hl : s.u.mem aEnd ≠ 0 → ¬ P (s.u.mem aEnd + 1)) (he : 8 ≤ s.brk) : Keep P s s' := by
  unfold add at h
  simp only at h
  obtain ⟨s1, k1, h⟩ := bind_ok h
  obtain ⟨s2, k2, h⟩ := bind_ok h
  have hk := ((newElem_keep s hi).trans (regE_keep k1)).trans (stE_keep k2 (hi 2 (by omega)))
  have e2 : s2.u.mem aEnd = s.u.mem aEnd := by
    have q : Keep (fun a => a = aEnd) s s2 := ((newElem_keep s (fun f _ e => by simp only [aEnd] at e; omega)).trans (regE_keep k1)).trans
      (stE_keep k2 (fun e => by have e' : s.brk + 2 = 2 := e; omega))
    exact q.2 aEnd rfl
  exact hk.trans (addElem_keep h h1 h2 h4 (hi 0 (by omega)) (by rw [e2]; exact hl))

theorem addBeforeElem_keep {s s' : S} {b item : Nat} (h : addBeforeElem s b item = .ok s') (h1 : ¬ P aStart) (h4 : ¬ P aCount)
    (hi : ∀ f, f < 3 → ¬ P (item + f)) (hb : ¬ P (b + 0)) (ha : s.u.mem (b + 0) ≠ 0 → ¬ P (s.u.mem (b + 0) + 1)) : Keep P s s' := by
  unfold addBeforeElem at h
  obtain ⟨after, k0, h⟩ := bind_ok h
  have hafter : after = s.u.mem (b + 0) := by
    unfold ldE at k0
    obtain ⟨_, _, k0⟩ := bind_ok k0
    cases k0; rfl
  subst hafter
  obtain ⟨s1, k1, h⟩ := bind_ok h
  obtain ⟨s2, k2, h⟩ := bind_ok h
  obtain ⟨s3, k3, h⟩ := bind_ok h
  obtain ⟨s4, k4, h⟩ := bind_ok h
  obtain ⟨s5, k5, h⟩ := bind_ok h
  obtain ⟨s6, k6, h⟩ := bind_ok h
  obtain ⟨s7, k7, h⟩ := bind_ok h
  obtain ⟨s8, k8, h⟩ := bind_ok h
  obtain ⟨s9, k9, h⟩ := bind_ok h
  obtain ⟨s10, k10, h⟩ := bind_ok h
  obtain ⟨s11, k11, h⟩ := bind_ok h
  cases h
  refine (((((((((((regE_keep k1).trans (regE_keep k2)).trans (cond_keep k3 (fun _ _ h => regL_keep h))).trans (regE_keep k4)).trans
    (cond_keep k5 (fun _ _ h => regE_keep h))).trans (regL_keep k6)).trans (cond_keep k7 (fun _ _ h => ?_))).trans (stE_keep k8 (hi 0 (by omega)))).trans
    (stE_keep k9 (hi 1 (by omega)))).trans (cond_keep k10 (fun c _ h => stE_keep h (ha (by simpa using c))))).trans (stE_keep k11 hb)).trans (stL_keep _ _ _ h4)
  cases h
  exact stL_keep _ _ _ h1

theorem adv_start {s s' : S} {l : Nat} (h : advStart s l = .ok s') (h1 : ¬ P aStart) : Keep P s s' := by
  unfold advStart at h
  obtain ⟨_, _, h⟩ := bind_ok h
  split at h <;> (cases h; exact stL_keep _ _ _ h1)

theorem adv_end {s s' : S} {l : Nat} (h : advEnd s l = .ok s') (h1 : ¬ P aEnd) : Keep P s s' := by
  unfold advEnd at h
  obtain ⟨_, _, h⟩ := bind_ok h
  split at h <;> (cases h; exact stL_keep _ _ _ h1)

theorem ldE_val {s : S} {e f v : Nat} (h : ldE s e f = .ok v) : v = s.u.mem (e + f) := by
  unfold ldE at h
  obtain ⟨_, _, h⟩ := bind_ok h
  cases h; rfl

theorem removeElem_keep {s s' : S} {e : Nat} (h : removeElem s e = .ok s') (h1 : ¬ P aStart) (h2 : ¬ P aEnd) (h4 : ¬ P aCount)
    (he0 : ¬ P (e + 0)) (he1 : ¬ P (e + 1))
    (hp : s.u.mem (e + 0) ≠ 0 → ¬ P (s.u.mem (e + 0) + 1)) (hn : s.u.mem (e + 1) ≠ 0 → ¬ P (s.u.mem (e + 1) + 0)) : Keep P s s' := by
  unfold removeElem at h
  obtain ⟨prev, k0, h⟩ := bind_ok h
  obtain ⟨nx, k0', h⟩ := bind_ok h
  have := ldE_val k0
  subst this
  have := ldE_val k0'
  subst this
  obtain ⟨s1, k1, h⟩ := bind_ok h
  obtain ⟨s2, k2, h⟩ := bind_ok h
  obtain ⟨s3, k3, h⟩ := bind_ok h
  obtain ⟨s4, k4, h⟩ := bind_ok h
  obtain ⟨s5, k5, h⟩ := bind_ok h
  obtain ⟨s6, k6, h⟩ := bind_ok h
  obtain ⟨s7, k7, h⟩ := bind_ok h
  obtain ⟨s8, k8, h⟩ := bind_ok h
  obtain ⟨s9, k9, h⟩ := bind_ok h
  obtain ⟨s10, k10, h⟩ := bind_ok h
  obtain ⟨s11, k11, h⟩ := bind_ok h
  obtain ⟨s12, k12, h⟩ := bind_ok h
  obtain ⟨s13, k13, h⟩ := bind_ok h
  obtain ⟨s14, k14, h⟩ := bind_ok h
  cases h
  exact ((((((((((((((cond_keep k1 (fun _ _ h => regE_keep h)).trans (cond_keep k2 (fun _ _ h => regE_keep h))).trans (cond_keep k3 (fun _ _ h => regL_keep h))).trans
    (cond_keep k4 (fun _ _ h => regL_keep h))).trans (regE_keep k5)).trans (regE_keep k6)).trans (regL_keep k7)).trans
    (cond_keep k8 (fun c _ h => stE_keep h (hp (by simpa using c))))).trans (cond_keep k9 (fun c _ h => stE_keep h (hn (by simpa using c))))).trans
    (cond_keep k10 (fun _ _ h => adv_start h h1))).trans (cond_keep k11 (fun _ _ h => adv_end h h2))).trans (stE_keep k12 he0)).trans
    (stE_keep k13 he1)).trans (release_keep k14)).trans (stL_keep _ _ _ h4)

/-- the link of the removed element is null afterwards -/
theorem removeElem_next {s s' : S} {e : Nat} (h : removeElem s e = .ok s') (he : 8 ≤ e) : s'.u.mem (e + 1) = 0 := by
  unfold removeElem at h
  obtain ⟨prev, k0, h⟩ := bind_ok h
  obtain ⟨nx, k0', h⟩ := bind_ok h
  obtain ⟨s1, k1, h⟩ := bind_ok h
  obtain ⟨s2, k2, h⟩ := bind_ok h
  obtain ⟨s3, k3, h⟩ := bind_ok h
  obtain ⟨s4, k4, h⟩ := bind_ok h
  obtain ⟨s5, k5, h⟩ := bind_ok h
  obtain ⟨s6, k6, h⟩ := bind_ok h
  obtain ⟨s7, k7, h⟩ := bind_ok h
  obtain ⟨s8, k8, h⟩ := bind_ok h
  obtain ⟨s9, k9, h⟩ := bind_ok h
  obtain ⟨s10, k10, h⟩ := bind_ok h
  obtain ⟨s11, k11, h⟩ := bind_ok h
  obtain ⟨s12, k12, h⟩ := bind_ok h
  obtain ⟨s13, k13, h⟩ := bind_ok h
  obtain ⟨s14, k14, h⟩ := bind_ok h
  cases h
  have q : Keep (fun a => a = e + 1) s13 (stL s14 aCount ((s.u.mem aCount + 2 ^ 32 - 1) % 2 ^ 32)) :=
    (release_keep k14).trans (stL_keep _ _ _ (fun h => by have h' : 4 = e + 1 := h; omega))
  rw [q.2 (e + 1) rfl]
  unfold stE at k13
  obtain ⟨_, _, k13⟩ := bind_ok k13
  cases k13
  show (store _ _ _).mem _ = 0
  rw [store_upd]
  exact upd_eq _ _ _

end Verif.LinkedList.Iter
