import Verif.RefCount.Step
/-
Every step inside a call keeps the invariant and is defined.
-/
namespace Verif.RefCount
open Verif

theorem drn_keep {s s' : State} {i : Nat} {t t' : Thr} (inv : Inv s) (hs : s.thr[i]? = some t) (e : s'.thr = s.thr.set i t')
    (hp : s'.pool = s.pool) (h : sumBy drn t'.stack ≤ sumBy drn t.stack) : 0 < s'.S drn → s'.pool = [] := by
  intro h0
  have := S_set hs e drn
  rw [hp]
  exact inv.drain (by omega)

theorem sumBy_add (w v : Frame → Nat) (l : List Frame) : sumBy (fun f => w f + v f) l = sumBy w l + sumBy v l := by
  induction l with
  | nil => rfl
  | cons a l ih => simp only [sumBy, ih]; omega

theorem S_add (s : State) (w v : Frame → Nat) : s.S (fun f => w f + v f) = s.S w + s.S v := by
  unfold State.S
  induction s.thr with
  | nil => rfl
  | cons a l ih => simp only [List.map_cons, List.sum_cons, sumBy_add] at ih ⊢; omega

theorem drn_zero {s s' : State} {i : Nat} {t t' : Thr} (hs : s.thr[i]? = some t) (e : s'.thr = s.thr.set i t')
    (hd : s.S drn = 0) (h : sumBy drn t'.stack ≤ sumBy drn t.stack) : s'.S drn = 0 := by
  have := S_set hs e drn; omega

def isAddLink : Frame → Nat
  | .addLink _ => 1
  | _ => 0

/-- while an entry is linked, no `drain` is between taking and returning -/
theorem no_drain_at_link {s : State} (inv : Inv s) {t : Thr} {o : Nat} (ht : t ∈ s.thr) (hf : Frame.addLink o ∈ t.stack) :
    s.S drn = 0 := by
  have h1 := S_ge s isAddLink t ht _ hf
  have h2 := S_le s (fun f => drn f + isAddLink f) pcrit (by intro f; cases f <;> simp [drn, isAddLink, pcrit])
  rw [S_add] at h2
  have h3 := inv.pmutex
  simp only [isAddLink] at h1
  have h4 : b1 s.pm ≤ 1 := by cases s.pm <;> simp [b1]
  omega

/-- tactic for steps that change no number of references -/
macro "quiet_step" inv:term ", " hs:term ", " hm:term : tactic => `(tactic|
  (refine quiet $inv $hs rfl rfl rfl rfl ?_ ?_ ?_ ?_ ?_ ?_ ?_ (drn_keep $inv $hs rfl rfl ?_) ?_ <;>
    first
    | (intro o'; simp [sumBy, own, pre, post, pend, dest, State.setT]; done)
    | (intro o'; simp [sumBy, own, pre, post, pend, dest, State.setT]; omega)
    | (intro o'; simp only [sumBy, dest]; rw [if_neg (fun h => $hm h.2)]; exact (Nat.zero_add _).symm)
    | (simp [sumBy, crit, pcrit, mk, drn, b1, State.setT]; done)
    | (simp [sumBy, crit, pcrit, mk, drn, b1, State.setT, $hm:term]; done)
    | (simp [sumBy, crit, pcrit, mk, drn, b1, State.setT, $hm:term]; omega)
    | (intro f hf; exact Or.inl (List.mem_cons_of_mem _ hf))
    | (intro f hf
       rcases List.mem_cons.1 hf with hf | hf
       · exact Or.inr (by rw [hf]; trivial)
       · exact Or.inl (List.mem_cons_of_mem _ hf))))

def rc : Frame → Nat
  | .relCount _ => 1
  | _ => 0

def st : Frame → Nat
  | .relStore _ _ | .retStore _ _ => 1
  | _ => 0

theorem dest_rc (o : Nat) (s : State) : s.S (dest true o) ≤ s.S (dest false o) + s.S rc := by
  have h := S_le s (dest true o) (fun f => dest false o f + rc f)
    (by intro f; cases f <;> simp only [dest, rc] <;> (try split) <;> omega)
  rw [S_add] at h
  exact h

/-- while a thread is at the store, no thread is about to read the count -/
theorem no_count_at_store {s : State} (inv : Inv s) {t : Thr} {f : Frame} (ht : t ∈ s.thr) (hf : f ∈ t.stack) (hst : st f = 1) :
    s.S rc = 0 := by
  have h1 := S_ge s st t ht _ hf
  have h2 := S_le s (fun f => rc f + st f) crit (by intro f; cases f <;> simp [rc, st, crit])
  rw [S_add] at h2
  have h3 := inv.mutex
  have h4 : b1 s.m ≤ 1 := by cases s.m <;> simp [b1]
  omega

theorem pend_own (o : Nat) (s : State) : s.S (pend o) ≤ s.S (own o) := S_le s _ _ (by intro f; cases f <;> simp [pend, own])

def isRetStore (o : Nat) : Frame → Nat
  | .retStore p _ => if p = o then 1 else 0
  | _ => 0

/-- a `retain` that has not counted up is not in the count -/
theorem room_at_store {s : State} {t : Thr} {o : Nat} {v : BitVec 32} (ht : t ∈ s.thr) (hf : Frame.retStore o v ∈ t.stack) :
    s.cnt o + 1 ≤ s.refs o := by
  have h1 := S_ge s (isRetStore o) t ht _ hf
  have h2 := S_le s (fun f => post o f + isRetStore o f) (pend o)
    (by intro f; cases f <;> simp [post, isRetStore, pend])
  rw [S_add] at h2
  simp only [isRetStore, if_true] at h1
  unfold State.cnt State.refs
  omega

theorem pm_held {s : State} (inv : Inv s) {t : Thr} {f : Frame} (ht : t ∈ s.thr) (hf : f ∈ t.stack) (h : pcrit f = 1) :
    s.pm = true := by
  have h1 := S_ge s pcrit t ht _ hf
  have h3 := inv.pmutex
  cases hm : s.pm with
  | true => rfl
  | false => rw [hm] at h3; simp only [b1] at h3; omega

theorem relStore_ok {s : State} (inv : Inv s) {i : Nat} {tok : Nat → Nat} {o : Nat} {v : BitVec 32} {rest : List Frame}
    (hs : s.thr[i]? = some ⟨.relStore o v :: rest, tok⟩) :
    ∃ r, micro s i tok rest (.relStore o v) = .ok r ∧ Inv r.1 := by
  have hmem := List.mem_of_getElem? hs
  have ha : s.alive o = true := alive_of inv hmem (f := .relStore o v) (by simp) o (by simp [own, pre, dest])
  have hv : v = s.raw o := inv.fresh _ hmem _ (List.mem_cons_self ..)
  have hp := S_ge s (pre o) _ hmem (.relStore o v) (by simp)
  simp only [pre, if_true] at hp
  have hc := (inv.obj o).count ha
  have hcpos : 0 < s.cnt o := by unfold State.cnt; omega
  have hsub := cv_sub (x := s.raw o) (by omega)
  have hrc := no_count_at_store inv hmem (f := .relStore o v) (by simp) rfl
  have hdr := dest_rc o s
  have hcr := crit_only inv hs rfl rfl
  rw [micro, if_pos ⟨ha, by rw [hv]; exact hsub.2⟩]
  refine ⟨_, rfl, ?_⟩
  obtain ⟨s', hs'⟩ : ∃ s', s' = ({ s.setT i ⟨.relCount o :: rest, tok⟩ with raw := upd s.raw o (v - 1) } : State) := ⟨_, rfl⟩
  have e : s'.thr = s.thr.set i ⟨.relCount o :: rest, tok⟩ := by subst hs'; rfl
  have er : s'.raw = upd s.raw o (v - 1) := by subst hs'; rfl
  have ea : s'.alive = s.alive := by subst hs'; rfl
  have ep : s'.pool = s.pool := by subst hs'; rfl
  have en : s'.next = s.next := by subst hs'; rfl
  have em : s'.m = s.m := by subst hs'; rfl
  have epm : s'.pm = s.pm := by subst hs'; rfl
  show Inv ({ s.setT i ⟨.relCount o :: rest, tok⟩ with raw := upd s.raw o (v - 1) } : State)
  rw [← hs']
  clear hs'
  have h1 := S_set hs e
  refine ⟨?_, ?_, ?_, ?_, ?_, ?_, by rw [ea, en]; exact inv.next⟩
  · intro o'
    have d := delta hs e o'
    obtain ⟨d1, d2, d3, d4, d5, d6, d7⟩ := d
    simp only [sumBy, own, pre, post, pend, dest] at d1 d2 d3 d4 d5 d6 d7
    have ob := inv.obj o'
    by_cases ho : o = o'
    · subst ho
      simp only [if_true, true_and, if_neg (by decide : ¬ (false = true))] at d1 d2 d3 d4 d5 d6 d7
      have hD := ob.destr ha
      have hB := ob.bound
      have hD2 := hD.2 hcpos
      refine ⟨fun _ => ?_, fun _ => ⟨?_, ?_⟩, ?_, ?_⟩
      · rw [er]
        have : upd s.raw o (v - 1) o = s.raw o - 1 := by simp [upd, hv]
        rw [this, hsub.1, hc]
        unfold State.cnt at hcpos ⊢
        rw [ep]
        omega
      · intro _; omega
      · intro _; omega
      · intro h; rw [ea] at h; exact absurd (ha.symm.trans h) (by decide)
      · unfold State.refs at hB ⊢
        rw [ep]
        omega
    · simp only [ho, false_and, if_false] at d1 d2 d3 d4 d5 d6 d7
      refine objInv_same ob (by rw [ea]) ?_ ?_ ?_ ?_ ?_
      · rw [er]
        simp only [upd]; rw [if_neg (Ne.symm ho)]
      · unfold State.cnt; rw [ep]; omega
      · omega
      · omega
      · unfold State.refs; rw [ep]; omega
  · have := h1 crit; simp only [sumBy, crit] at this; have := inv.mutex; rw [em]; omega
  · have := h1 pcrit; simp only [sumBy, pcrit] at this; have := inv.pmutex; rw [epm]; omega
  · refine fresh_store inv hs rfl rfl e ?_
    intro g hg
    rcases List.mem_cons.1 hg with hg | hg
    · subst hg; trivial
    · exact fresh_noncrit (mem_sumBy_zero hcr.2.2 hg)
  · have := h1 mk; simp only [sumBy, mk] at this; have := inv.nomark; omega
  · exact drn_keep inv hs e ep (by simp [sumBy, drn])

theorem retStore_ok {s : State} (inv : Inv s) {i : Nat} {tok : Nat → Nat} {o : Nat} {v : BitVec 32} {rest : List Frame}
    (hs : s.thr[i]? = some ⟨.retStore o v :: rest, tok⟩) :
    ∃ r, micro s i tok rest (.retStore o v) = .ok r ∧ Inv r.1 := by
  have hmem := List.mem_of_getElem? hs
  have ha : s.alive o = true := alive_of inv hmem (f := .retStore o v) (by simp) o (by simp [own, pre, dest])
  have hv : v = s.raw o := inv.fresh _ hmem _ (List.mem_cons_self ..)
  have hp := S_ge s (own o) _ hmem (.retStore o v) (by simp)
  simp only [own, if_true] at hp
  have hc := (inv.obj o).count ha
  have hcpos : 0 < s.cnt o := by unfold State.cnt; omega
  have hroom := room_at_store hmem (o := o) (v := v) (by simp)
  have hB := (inv.obj o).bound
  have hadd := cv_add (x := s.raw o) (by omega)
  have hcr := crit_only inv hs rfl rfl
  rw [micro, if_pos ⟨ha, by rw [hv]; exact hadd.2⟩]
  refine ⟨_, rfl, ?_⟩
  obtain ⟨s', hs'⟩ : ∃ s', s' = ({ s.setT i ⟨.retUnlock o :: rest, tok⟩ with raw := upd s.raw o (v + 1) } : State) := ⟨_, rfl⟩
  have e : s'.thr = s.thr.set i ⟨.retUnlock o :: rest, tok⟩ := by subst hs'; rfl
  have er : s'.raw = upd s.raw o (v + 1) := by subst hs'; rfl
  have ea : s'.alive = s.alive := by subst hs'; rfl
  have ep : s'.pool = s.pool := by subst hs'; rfl
  have en : s'.next = s.next := by subst hs'; rfl
  have em : s'.m = s.m := by subst hs'; rfl
  have epm : s'.pm = s.pm := by subst hs'; rfl
  show Inv ({ s.setT i ⟨.retUnlock o :: rest, tok⟩ with raw := upd s.raw o (v + 1) } : State)
  rw [← hs']
  clear hs'
  have h1 := S_set hs e
  refine ⟨?_, ?_, ?_, ?_, ?_, ?_, by rw [ea, en]; exact inv.next⟩
  · intro o'
    have d := delta hs e o'
    obtain ⟨d1, d2, d3, d4, d5, d6, d7⟩ := d
    simp only [sumBy, own, pre, post, pend, dest] at d1 d2 d3 d4 d5 d6 d7
    have ob := inv.obj o'
    by_cases ho : o = o'
    · subst ho
      simp only [if_true] at d1 d2 d3 d4 d5 d6 d7
      have hD := ob.destr ha
      have hD2 := hD.2 hcpos
      refine ⟨fun _ => ?_, fun _ => ⟨?_, ?_⟩, ?_, ?_⟩
      · rw [er]
        have : upd s.raw o (v + 1) o = s.raw o + 1 := by simp [upd, hv]
        rw [this, hadd.1, hc]
        unfold State.cnt at hcpos ⊢
        rw [ep]
        omega
      · intro h
        unfold State.cnt at hcpos h
        rw [ep] at h
        omega
      · intro _; omega
      · intro h; rw [ea] at h; exact absurd (ha.symm.trans h) (by decide)
      · unfold State.refs at hB ⊢
        rw [ep]
        omega
    · simp only [if_neg ho] at d1 d2 d3 d4 d5 d6 d7
      refine objInv_same ob (by rw [ea]) ?_ ?_ ?_ ?_ ?_
      · rw [er]
        simp only [upd]; rw [if_neg (Ne.symm ho)]
      · unfold State.cnt; rw [ep]; omega
      · omega
      · omega
      · unfold State.refs; rw [ep]; omega
  · have := h1 crit; simp only [sumBy, crit] at this; have := inv.mutex; rw [em]; omega
  · have := h1 pcrit; simp only [sumBy, pcrit] at this; have := inv.pmutex; rw [epm]; omega
  · refine fresh_store inv hs rfl rfl e ?_
    intro g hg
    rcases List.mem_cons.1 hg with hg | hg
    · subst hg; trivial
    · exact fresh_noncrit (mem_sumBy_zero hcr.2.2 hg)
  · have := h1 mk; simp only [sumBy, mk] at this; have := inv.nomark; omega
  · exact drn_keep inv hs e ep (by simp [sumBy, drn])

theorem relCount_ok {s : State} (inv : Inv s) {i : Nat} {tok : Nat → Nat} {o : Nat} {rest : List Frame}
    (hs : s.thr[i]? = some ⟨.relCount o :: rest, tok⟩) :
    ∃ r, micro s i tok rest (.relCount o) = .ok r ∧ Inv r.1 := by
  have hmem := List.mem_of_getElem? hs
  have ha : s.alive o = true := alive_of inv hmem (f := .relCount o) (by simp) o (by simp [own, pre, dest])
  have hc := (inv.obj o).count ha
  have hz := refCount_zero (s.raw o)
  rw [hc] at hz
  rw [micro, if_pos ha]
  refine ⟨_, rfl, ?_⟩
  obtain ⟨s', hs'⟩ : ∃ s', s' = (s.setT i ⟨.relUnlock o (refCount (s.raw o)) :: rest, tok⟩ : State) := ⟨_, rfl⟩
  have e : s'.thr = s.thr.set i ⟨.relUnlock o (refCount (s.raw o)) :: rest, tok⟩ := by subst hs'; rfl
  have er : s'.raw = s.raw := by subst hs'; rfl
  have ea : s'.alive = s.alive := by subst hs'; rfl
  have ep : s'.pool = s.pool := by subst hs'; rfl
  have en : s'.next = s.next := by subst hs'; rfl
  have em : s'.m = s.m := by subst hs'; rfl
  have epm : s'.pm = s.pm := by subst hs'; rfl
  show Inv (s.setT i ⟨.relUnlock o (refCount (s.raw o)) :: rest, tok⟩ : State)
  rw [← hs']
  clear hs'
  have h1 := S_set hs e
  refine ⟨?_, ?_, ?_, ?_, ?_, ?_, by rw [ea, en]; exact inv.next⟩
  · intro o'
    have d := delta hs e o'
    obtain ⟨d1, d2, d3, d4, d5, d6, d7⟩ := d
    simp only [sumBy, own, pre, post, pend, dest] at d1 d2 d3 d4 d5 d6 d7
    have ob := inv.obj o'
    have hcnt : s'.cnt o' = s.cnt o' := by
      unfold State.cnt; rw [ep]; omega
    have href : s'.refs o' = s.refs o' := by
      unfold State.refs; rw [ep]; omega
    by_cases ho : o = o'
    · subst ho
      simp only [true_and, if_true, if_neg (by decide : ¬ (false = true))] at d6 d7
      have hD := ob.destr ha
      refine ⟨fun _ => by rw [hcnt, er]; exact hc, fun _ => ⟨?_, ?_⟩, ?_, by rw [href]; exact ob.bound⟩
      · intro h
        rw [hcnt] at h
        have := hD.1 h
        rw [if_pos (hz.2 h)] at d6
        omega
      · intro h
        rw [hcnt] at h
        have := hD.2 h
        rw [if_neg (by rw [hz]; omega)] at d7
        omega
      · intro h; rw [ea] at h; exact absurd (ha.symm.trans h) (by decide)
    · simp only [ho, false_and, if_false] at d6 d7
      exact objInv_same ob (by rw [ea]) (by rw [er]) hcnt (by omega) (by omega) href
  · have := h1 crit; simp only [sumBy, crit] at this; have := inv.mutex; rw [em]; omega
  · have := h1 pcrit; simp only [sumBy, pcrit] at this; have := inv.pmutex; rw [epm]; omega
  · refine fresh_set hs e er inv.fresh ?_
    intro f hf
    rcases List.mem_cons.1 hf with hf | hf
    · exact Or.inr (by rw [hf]; trivial)
    · exact Or.inl (List.mem_cons_of_mem _ hf)
  · have := h1 mk; simp only [sumBy, mk] at this; have := inv.nomark; omega
  · exact drn_keep inv hs e ep (by simp [sumBy, drn])

theorem relTest_ok {s : State} (inv : Inv s) {i : Nat} {tok : Nat → Nat} {o : Nat} {c : BitVec 32} {rest : List Frame}
    (hs : s.thr[i]? = some ⟨.relTest o c :: rest, tok⟩) :
    ∃ r, micro s i tok rest (.relTest o c) = .ok r ∧ Inv r.1 := by
  have hmem := List.mem_of_getElem? hs
  rw [micro]
  by_cases hc0 : c = 0
  · rw [if_pos hc0]
    have ha : s.alive o = true := alive_of inv hmem (f := .relTest o c) (by simp) o (by simp [own, pre, dest, hc0])
    rw [if_pos ha]
    refine ⟨_, rfl, ?_⟩
    have hdF := S_ge s (dest false o) _ hmem (.relTest o c) (by simp)
    simp only [dest, hc0, and_self, if_true] at hdF
    have hcz : s.cnt o = 0 := by
      have := ((inv.obj o).destr ha).2
      omega
    have hdT := ((inv.obj o).destr ha).1 hcz
    have hpo := pend_own o s
    have hr0 : s.refs o = 0 := by unfold State.cnt at hcz; unfold State.refs; omega
    obtain ⟨s', hs'⟩ : ∃ s', s' = ({ s.setT i ⟨.dtor o :: rest, tok⟩ with alive := upd s.alive o false } : State) := ⟨_, rfl⟩
    have e : s'.thr = s.thr.set i ⟨.dtor o :: rest, tok⟩ := by subst hs'; rfl
    have er : s'.raw = s.raw := by subst hs'; rfl
    have ea : s'.alive = upd s.alive o false := by subst hs'; rfl
    have ep : s'.pool = s.pool := by subst hs'; rfl
    have en : s'.next = s.next := by subst hs'; rfl
    have em : s'.m = s.m := by subst hs'; rfl
    have epm : s'.pm = s.pm := by subst hs'; rfl
    show Inv ({ s.setT i ⟨.dtor o :: rest, tok⟩ with alive := upd s.alive o false } : State)
    rw [← hs']
    clear hs'
    have h1 := S_set hs e
    refine ⟨?_, ?_, ?_, ?_, ?_, ?_, ?_⟩
    · intro o'
      have d := delta hs e o'
      obtain ⟨d1, d2, d3, d4, d5, d6, d7⟩ := d
      simp only [sumBy, own, pre, post, pend, dest] at d1 d2 d3 d4 d5 d6 d7
      have ob := inv.obj o'
      have hcnt : s'.cnt o' = s.cnt o' := by
        unfold State.cnt; rw [ep]; omega
      have href : s'.refs o' = s.refs o' := by
        unfold State.refs; rw [ep]; omega
      by_cases ho : o = o'
      · subst ho
        simp only [hc0, and_self, if_true] at d6 d7
        have hal : upd s.alive o false o = false := by simp [upd]
        refine ⟨?_, ?_, fun _ => ⟨by rw [hcnt]; exact hcz, by omega, by rw [href]; exact hr0⟩, by rw [href]; exact ob.bound⟩
        · intro h; rw [ea] at h; exact absurd (hal.symm.trans h) (by decide)
        · intro h; rw [ea] at h; exact absurd (hal.symm.trans h) (by decide)
      · simp only [ho, false_and, if_false] at d6 d7
        refine objInv_same ob ?_ (by rw [er]) hcnt (by omega) (by omega) href
        rw [ea]
        simp only [upd]; rw [if_neg (Ne.symm ho)]
    · have := h1 crit; simp only [sumBy, crit] at this; have := inv.mutex; rw [em]; omega
    · have := h1 pcrit; simp only [sumBy, pcrit] at this; have := inv.pmutex; rw [epm]; omega
    · refine fresh_set hs e er inv.fresh ?_
      intro f hf
      rcases List.mem_cons.1 hf with hf | hf
      · exact Or.inr (by rw [hf]; trivial)
      · exact Or.inl (List.mem_cons_of_mem _ hf)
    · have := h1 mk; simp only [sumBy, mk] at this; have := inv.nomark; omega
    · exact drn_keep inv hs e ep (by simp [sumBy, drn])
    · intro o' ho'
      rw [en] at ho'; rw [ea]
      simp only [upd]
      split
      · rfl
      · exact inv.next o' ho'
  · rw [if_neg hc0]
    refine ⟨_, rfl, ?_⟩
    quiet_step inv, hs, hc0

theorem micro_ok {s : State} (inv : Inv s) {i : Nat} {tok : Nat → Nat} {f : Frame} {rest : List Frame}
    (hs : s.thr[i]? = some ⟨f :: rest, tok⟩) :
    ∃ r, micro s i tok rest f = .ok r ∧ Inv r.1 := by
  have hmem := List.mem_of_getElem? hs
  have halive := fun o h => alive_of inv hmem (f := f) (by simp) o h
  have hmk : mk f = 0 := by
    have h1 := S_ge s mk _ hmem f (by simp)
    have := inv.nomark
    omega
  cases f with
  | relCall o =>
    rw [micro, if_pos (halive o (by simp [own, pre, dest]))]
    refine ⟨_, rfl, ?_⟩
    quiet_step inv, hs, hmk
  | relLock o =>
    rw [micro]
    by_cases hm : s.m = true
    · rw [if_pos hm]; exact ⟨_, rfl, inv⟩
    · rw [if_neg hm]
      have hm : s.m = false := by simpa using hm
      refine ⟨_, rfl, ?_⟩
      quiet_step inv, hs, hm
  | relLoad o =>
    rw [micro, if_pos (halive o (by simp [own, pre, dest]))]
    refine ⟨_, rfl, ?_⟩
    quiet_step inv, hs, hmk
  | relStore o v => exact relStore_ok inv hs
  | relCount o => exact relCount_ok inv hs
  | relUnlock o c =>
    have hm := (crit_only inv hs rfl rfl).1
    refine ⟨_, rfl, ?_⟩
    quiet_step inv, hs, hm
  | relTest o c => exact relTest_ok inv hs
  | dtor o =>
    refine ⟨_, rfl, ?_⟩
    quiet_step inv, hs, hmk
  | retCall o =>
    rw [micro, if_pos (halive o (by simp [own, pre, dest]))]
    refine ⟨_, rfl, ?_⟩
    quiet_step inv, hs, hmk
  | retLock o =>
    rw [micro]
    by_cases hm : s.m = true
    · rw [if_pos hm]; exact ⟨_, rfl, inv⟩
    · rw [if_neg hm]
      have hm : s.m = false := by simpa using hm
      refine ⟨_, rfl, ?_⟩
      quiet_step inv, hs, hm
  | retLoad o =>
    rw [micro, if_pos (halive o (by simp [own, pre, dest]))]
    refine ⟨_, rfl, ?_⟩
    quiet_step inv, hs, hmk
  | retStore o v => exact retStore_ok inv hs
  | retUnlock o =>
    have hm := (crit_only inv hs rfl rfl).1
    refine ⟨_, rfl, ?_⟩
    refine quiet inv hs rfl rfl rfl rfl ?_ ?_ ?_ ?_ ?_ ?_ ?_ (drn_keep inv hs rfl rfl ?_) ?_
    · intro o'
      simp only [sumBy, own, pre, post, State.setT, upd]
      by_cases ho : o = o'
      · subst ho; simp only [if_true]; omega
      · rw [if_neg (Ne.symm ho), if_neg ho]; omega
    · intro o'
      simp only [sumBy, own, pre, pend, State.setT, upd]
      by_cases ho : o = o'
      · subst ho; simp only [if_true]; omega
      · rw [if_neg (Ne.symm ho), if_neg ho]; omega
    · intro o'; simp [sumBy, dest]
    · intro o'; simp [sumBy, dest]
    · simp only [sumBy, crit, hm, b1]; omega
    · simp [sumBy, pcrit, State.setT]
    · simp [sumBy, mk]
    · simp [sumBy, drn]
    · intro f hf; exact Or.inl (List.mem_cons_of_mem _ hf)
  | addCall o =>
    rw [micro, if_pos (halive o (by simp [own, pre, dest]))]
    refine ⟨_, rfl, ?_⟩
    quiet_step inv, hs, hmk
  | addLock o =>
    rw [micro]
    by_cases hm : s.pm = true
    · rw [if_pos hm]; exact ⟨_, rfl, inv⟩
    · rw [if_neg hm]
      have hm : s.pm = false := by simpa using hm
      refine ⟨_, rfl, ?_⟩
      quiet_step inv, hs, hm
  | addLink o =>
    have hd := no_drain_at_link inv hmem (o := o) (by simp)
    refine ⟨_, rfl, ?_⟩
    refine quiet inv hs rfl rfl rfl rfl ?_ ?_ ?_ ?_ ?_ ?_ ?_ ?_ ?_
    · intro o'
      simp only [sumBy, own, pre, post, List.count_append, List.count_singleton]
      by_cases ho : o = o'
      · subst ho; simp; omega
      · simp [ho]
    · intro o'
      simp only [sumBy, own, pre, pend, List.count_append, List.count_singleton]
      by_cases ho : o = o'
      · subst ho; simp; omega
      · simp [ho]
    · intro o'; simp [sumBy, dest]
    · intro o'; simp [sumBy, dest]
    · simp [sumBy, crit, State.setT]
    · simp [sumBy, pcrit, State.setT]
    · simp [sumBy, mk]
    · intro h
      exact absurd h (by rw [drn_zero hs rfl hd (by simp [sumBy, drn])]; exact Nat.lt_irrefl 0)
    · intro f hf
      rcases List.mem_cons.1 hf with hf | hf
      · exact Or.inr (by rw [hf]; trivial)
      · exact Or.inl (List.mem_cons_of_mem _ hf)
  | addUnlock =>
    have hm := pm_held inv hmem (f := .addUnlock) (by simp) rfl
    refine ⟨_, rfl, ?_⟩
    quiet_step inv, hs, hm
  | drainLock => 
    rw [micro]
    by_cases hm : s.pm = true
    · rw [if_pos hm]; exact ⟨_, rfl, inv⟩
    · rw [if_neg hm]
      have hm : s.pm = false := by simpa using hm
      refine ⟨_, rfl, ?_⟩
      quiet_step inv, hs, hm
  | drainTake =>
    refine ⟨_, rfl, ?_⟩
    refine quiet inv hs rfl rfl rfl rfl ?_ ?_ ?_ ?_ ?_ ?_ ?_ (fun _ => rfl) ?_
    · intro o'; simp only [sumBy, own, pre, post, List.count_nil]; omega
    · intro o'; simp only [sumBy, own, pre, pend, List.count_nil]; omega
    · intro o'; simp [sumBy, dest]
    · intro o'; simp [sumBy, dest]
    · simp [sumBy, crit, State.setT]
    · simp [sumBy, pcrit, State.setT]
    · simp [sumBy, mk]
    · intro f hf
      rcases List.mem_cons.1 hf with hf | hf
      · exact Or.inr (by rw [hf]; trivial)
      · exact Or.inl (List.mem_cons_of_mem _ hf)
  | drainLoop r =>
    cases r with
    | nil =>
      refine ⟨_, rfl, ?_⟩
      quiet_step inv, hs, hmk
    | cons o r =>
      refine ⟨_, rfl, ?_⟩
      refine quiet inv hs rfl rfl rfl rfl ?_ ?_ ?_ ?_ ?_ ?_ ?_ (drn_keep inv hs rfl rfl ?_) ?_
      · intro o'
        simp only [sumBy, own, pre, post, State.setT, List.count_cons]
        by_cases ho : o = o'
        · subst ho; simp only [if_true, beq_self_eq_true]; omega
        · simp [ho]
      · intro o'
        simp only [sumBy, own, pre, pend, State.setT, List.count_cons]
        by_cases ho : o = o'
        · subst ho; simp only [if_true, beq_self_eq_true]; omega
        · simp [ho]
      · intro o'; simp [sumBy, dest]
      · intro o'; simp [sumBy, dest]
      · simp [sumBy, crit, State.setT]
      · simp [sumBy, pcrit, State.setT]
      · simp [sumBy, mk]
      · simp [sumBy, drn]
      · intro f hf
        rcases List.mem_cons.1 hf with hf | hf
        · exact Or.inr (by rw [hf]; trivial)
        · rcases List.mem_cons.1 hf with hf | hf
          · exact Or.inr (by rw [hf]; trivial)
          · exact Or.inl (List.mem_cons_of_mem _ hf)
  | drainUnlock =>
    have hm := pm_held inv hmem (f := .drainUnlock) (by simp) rfl
    refine ⟨_, rfl, ?_⟩
    quiet_step inv, hs, hm
  | markLoad o b => simp [mk] at hmk
  | markStore o b v => simp [mk] at hmk

end Verif.RefCount
