import Verif.RefCount.Inv
/-
Every step keeps the invariant and no step is undefined.
-/
namespace Verif.RefCount
open Verif

/-- a step after which every object has the same number of references as before -/
theorem quiet {s s' : State} {i : Nat} {t t' : Thr} (inv : Inv s) (hs : s.thr[i]? = some t) (e : s'.thr = s.thr.set i t')
    (hr : s'.raw = s.raw) (ha : s'.alive = s.alive) (hn : s'.next = s.next)
    (hc : ∀ o, t'.tok o + s'.pool.count o + sumBy (own o) t'.stack + sumBy (pre o) t'.stack + sumBy (post o) t'.stack =
      t.tok o + s.pool.count o + sumBy (own o) t.stack + sumBy (pre o) t.stack + sumBy (post o) t.stack)
    (hf : ∀ o, t'.tok o + s'.pool.count o + sumBy (own o) t'.stack + sumBy (pre o) t'.stack + sumBy (pend o) t'.stack =
      t.tok o + s.pool.count o + sumBy (own o) t.stack + sumBy (pre o) t.stack + sumBy (pend o) t.stack)
    (hT : ∀ o, sumBy (dest true o) t'.stack = sumBy (dest true o) t.stack)
    (hF : ∀ o, sumBy (dest false o) t'.stack = sumBy (dest false o) t.stack)
    (hm : sumBy crit t'.stack + b1 s.m = sumBy crit t.stack + b1 s'.m)
    (hpm : sumBy pcrit t'.stack + b1 s.pm = sumBy pcrit t.stack + b1 s'.pm)
    (hmk : sumBy mk t'.stack = sumBy mk t.stack)
    (hd : 0 < s'.S drn → s'.pool = [])
    (hfr : ∀ f ∈ t'.stack, f ∈ t.stack ∨ fresh s.raw f) : Inv s' := by
  have h1 := S_set hs e crit; have h2 := S_set hs e pcrit; have h3 := S_set hs e mk
  have g1 := inv.mutex; have g2 := inv.pmutex; have g3 := inv.nomark
  refine ⟨?_, ?_, ?_, fresh_set hs e hr inv.fresh hfr, by omega, hd, ?_⟩
  · intro o
    have d := delta hs e o
    have hc := hc o; have hf := hf o; have hT := hT o; have hF := hF o
    have := d.tok; have := d.own; have := d.pre; have := d.post; have := d.pend; have := d.dT; have := d.dF
    refine objInv_same (inv.obj o) (by rw [ha]) (by rw [hr]) ?_ ?_ ?_ ?_
    · unfold State.cnt; omega
    · omega
    · omega
    · unfold State.refs; omega
  · omega
  · omega
  · rw [ha, hn]; exact inv.next

/-- the objects a frame refers to are alive -/
theorem alive_of {s : State} (inv : Inv s) {t : Thr} (ht : t ∈ s.thr) {f : Frame} (hf : f ∈ t.stack) (o : Nat)
    (h : 0 < own o f + pre o f + dest true o f) : s.alive o = true := by
  cases ha : s.alive o with
  | true => rfl
  | false =>
    have := (inv.obj o).dead ha
    have h1 := S_ge s (own o) t ht f hf
    have h2 := S_ge s (pre o) t ht f hf
    have h3 := S_ge s (dest true o) t ht f hf
    unfold State.cnt at this
    omega

/-- a thread in the critical section: its frame weighs 1, all others nothing -/
theorem crit_only {s : State} (inv : Inv s) {i : Nat} {t : Thr} {f : Frame} {rest : List Frame} (hs : s.thr[i]? = some t)
    (hst : t.stack = f :: rest) (hf : crit f = 1) : s.m = true ∧ s.S crit = 1 ∧ sumBy crit rest = 0 := by
  have hmem := List.mem_of_getElem? hs
  have g := inv.mutex
  have h1 : sumBy crit t.stack ≤ s.S crit := sum_ge (fun t : Thr => sumBy crit t.stack) s.thr t hmem
  rw [hst] at h1
  simp only [sumBy, hf] at h1
  cases hm : s.m <;> simp only [hm, b1] at g
  · omega
  · simp only [true_and]; omega

theorem drn_pcrit (s : State) : s.S drn ≤ s.S pcrit := S_le s _ _ (by intro f; cases f <;> simp [drn, pcrit])

/-- frames outside the critical section have loaded nothing -/
theorem fresh_noncrit {raw : Nat → BitVec 32} {f : Frame} (h : crit f = 0) : fresh raw f := by
  cases f <;> simp_all [crit, fresh]

theorem mem_sumBy_zero {w : Frame → Nat} {l : List Frame} (h : sumBy w l = 0) {f : Frame} (hf : f ∈ l) : w f = 0 := by
  have := sumBy_ge w l f hf; omega

theorem others_zero {α : Type} (f : α → Nat) (l : List α) (i : Nat) (x y : α) (h : l[i]? = some x) (hx : (l.map f).sum = f x)
    (hy : f y = 0) (z : α) (hz : z ∈ l.set i y) : f z = 0 := by
  have h1 := sum_set f l i x y h
  have h2 := sum_ge f _ z hz
  omega

/-- after the store the value loaded by other frames does not matter: there are none -/
theorem fresh_store {s s' : State} (inv : Inv s) {i : Nat} {t t' : Thr} {f : Frame} {rest : List Frame}
    (hs : s.thr[i]? = some t) (hst : t.stack = f :: rest) (hf : crit f = 1) (e : s'.thr = s.thr.set i t')
    (ht' : ∀ g ∈ t'.stack, fresh s'.raw g) : ∀ u ∈ s'.thr, ∀ g ∈ u.stack, fresh s'.raw g := by
  obtain ⟨_, h1, h2⟩ := crit_only inv hs hst hf
  intro u hu g hg
  rw [e] at hu
  obtain ⟨j, hj, hju⟩ := List.getElem_of_mem hu
  by_cases hij : i = j
  · subst hij
    rw [List.getElem_set_self] at hju
    subst hju
    exact ht' g hg
  · rw [List.getElem_set_ne hij] at hju
    have hz := others_zero (fun t : Thr => sumBy crit t.stack) s.thr i t ⟨[], t.tok⟩ hs
      (by have := h1; unfold State.S at this; rw [this, hst]; simp [sumBy, hf, h2]) rfl u
      (by
        rw [List.mem_iff_getElem]
        refine ⟨j, by simpa using hj, ?_⟩
        rw [List.getElem_set_ne hij]; exact hju)
    exact fresh_noncrit (mem_sumBy_zero hz hg)

end Verif.RefCount
