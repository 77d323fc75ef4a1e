import Verif.RefCount.Client
/-
What the events of a schedule say about the state.
-/
namespace Verif.RefCount
open Verif

/-- the references that exist outside a `release` -/
def State.bal (s : State) (o : Nat) : Nat := s.T o + s.pool.count o + s.S (own o)

/-- entries taken out by a `drain` and not released yet -/
def rst (o : Nat) : Frame → Nat
  | .drainLoop r => r.count o
  | _ => 0

theorem bal_of {s s' : State} {i : Nat} {t t' : Thr} (hs : s.thr[i]? = some t) (e : s'.thr = s.thr.set i t') (o x y : Nat)
    (h : t'.tok o + s'.pool.count o + sumBy (own o) t'.stack + x = t.tok o + s.pool.count o + sumBy (own o) t.stack + y) :
    s'.bal o + x = s.bal o + y := by
  have h1 := T_set hs e o
  have h2 := S_set hs e (own o)
  unfold State.bal
  omega

theorem pool_of {s s' : State} {i : Nat} {t t' : Thr} (hs : s.thr[i]? = some t) (e : s'.thr = s.thr.set i t') (o x y : Nat)
    (h : s'.pool.count o + sumBy (rst o) t'.stack + x = s.pool.count o + sumBy (rst o) t.stack + y) :
    s'.pool.count o + s'.S (rst o) + x = s.pool.count o + s.S (rst o) + y := by
  have h2 := S_set hs e (rst o)
  omega

/-- what the events of one step mean -/
structure StepEv (s s' : State) (ev : List Ev) : Prop where
  bal : ∀ o, s'.bal o + (ev.count (.released o) + ev.count (.poolReleased o)) =
    s.bal o + (ev.count (.retained o) + ev.count (.created o))
  pool : ∀ o, s'.pool.count o + s'.S (rst o) + ev.count (.poolReleased o) = s.pool.count o + s.S (rst o) + ev.count (.added o)
  created : ∀ o, ev.count (.created o) = if s.next = o ∧ s'.next = o + 1 then 1 else 0
  next : s'.next = s.next ∨ s'.next = s.next + 1
  life : ∀ o, ((s'.alive o).toNat + ev.count (.destroyed o) = (s.alive o).toNat + ev.count (.created o))
  one : ev.length ≤ 1
  drained : .drained ∈ ev → ev = [.drained] ∧ 0 < s.S drn ∧ ∀ o, s.S (rst o) = 0

theorem stepEv_refl (s : State) : StepEv s s [] :=
  ⟨fun _ => rfl, fun _ => rfl, fun o => by rw [if_neg (by omega)]; rfl, Or.inl rfl, fun _ => rfl, by simp, fun h => by cases h⟩

/-- steps without an event that keep the owned references -/
theorem stepEv_quiet {s s' : State} {i : Nat} {t t' : Thr} (hs : s.thr[i]? = some t) (e : s'.thr = s.thr.set i t')
    (hb : ∀ o, t'.tok o + s'.pool.count o + sumBy (own o) t'.stack = t.tok o + s.pool.count o + sumBy (own o) t.stack)
    (hp : ∀ o, s'.pool.count o + sumBy (rst o) t'.stack = s.pool.count o + sumBy (rst o) t.stack)
    (hn : s'.next = s.next) (ha : s'.alive = s.alive) : StepEv s s' [] :=
  ⟨fun o => bal_of hs e o 0 0 (hb o), fun o => pool_of hs e o 0 0 (hp o), fun o => by rw [if_neg (by omega)]; rfl, Or.inl hn,
    fun o => by rw [ha]; rfl, by simp, fun h => by cases h⟩

theorem S_zero {s : State} {w : Frame → Nat} (h : ∀ t ∈ s.thr, ∀ f ∈ t.stack, w f = 0) : s.S w = 0 := by
  unfold State.S
  have hz : ∀ l : List Frame, (∀ f ∈ l, w f = 0) → sumBy w l = 0 := by
    intro l
    induction l with
    | nil => intro _; rfl
    | cons a l ih =>
      intro h
      have h1 := h a (by simp)
      have h2 := ih (fun f hf => h f (by simp [hf]))
      simp only [sumBy]; omega
  generalize s.thr = l at *
  induction l with
  | nil => rfl
  | cons a l ih =>
    have h1 := hz a.stack (h a (by simp))
    have h2 := ih (fun t ht => h t (by simp [ht]))
    simp only [List.map_cons, List.sum_cons]; omega

def dl : Frame → Nat
  | .drainLoop _ => 1
  | _ => 0

def du : Frame → Nat
  | .drainUnlock => 1
  | _ => 0

/-- when `drain` is about to return, no entry is left over -/
theorem rst_zero {s : State} (inv : Inv s) {t : Thr} (ht : t ∈ s.thr) (hf : Frame.drainUnlock ∈ t.stack) (o : Nat) :
    s.S (rst o) = 0 := by
  have h1 := S_ge s du t ht _ hf
  have h2 := S_le s (fun f => dl f + du f) pcrit (by intro f; cases f <;> simp [dl, du, pcrit])
  rw [S_add] at h2
  have h3 := inv.pmutex
  have h4 : b1 s.pm ≤ 1 := by cases s.pm <;> simp [b1]
  simp only [du] at h1
  have h5 : s.S dl = 0 := by omega
  refine S_zero ?_
  intro u hu f hf'
  have := S_ge s dl u hu f hf'
  cases f <;> simp_all [dl, rst]

macro "ev_quiet" hs:term : tactic => `(tactic|
  (refine stepEv_quiet $hs rfl ?_ ?_ rfl rfl <;>
    first
    | (intro o'; simp [sumBy, own, rst, State.setT]; done)
    | (intro o'; simp [sumBy, own, rst, State.setT]; omega)))

theorem micro_ev {s s' : State} (inv : Inv s) {i : Nat} {tok : Nat → Nat} {f : Frame} {rest : List Frame} {ev : List Ev}
    (hs : s.thr[i]? = some ⟨f :: rest, tok⟩) (h : micro s i tok rest f = .ok (s', ev)) : StepEv s s' ev := by
  have hmem := List.mem_of_getElem? hs
  cases f with
  | relCall o =>
    rw [micro] at h; split at h
    · cases h; ev_quiet hs
    · cases h
  | relLock o =>
    rw [micro] at h; split at h
    · cases h; exact stepEv_refl _
    · cases h; ev_quiet hs
  | relLoad o =>
    rw [micro] at h; split at h
    · cases h; ev_quiet hs
    · cases h
  | relStore o v =>
    rw [micro] at h; split at h
    · cases h; ev_quiet hs
    · cases h
  | relCount o =>
    rw [micro] at h; split at h
    · cases h; ev_quiet hs
    · cases h
  | relUnlock o c => cases h; ev_quiet hs
  | relTest o c =>
    rw [micro] at h; split at h
    · split at h
      · next ha =>
        cases h
        refine ⟨fun o' => bal_of hs rfl o' 0 0 (by simp [sumBy, own, State.setT]), fun o' => pool_of hs rfl o' 0 0 (by simp [sumBy, rst, State.setT]),
          fun o' => by rw [if_neg (by simp only [State.setT]; omega)]; simp, Or.inl rfl, fun o' => ?_, by simp, fun h => by simp at h⟩
        simp only [upd]
        by_cases ho : o' = o
        · subst ho; simp [ha]
        · rw [if_neg ho]
          have : ¬ (Ev.destroyed o == Ev.destroyed o') = true := by simp; exact fun h => ho h.symm
          simp [Ne.symm ho]
      · cases h
    · cases h; ev_quiet hs
  | dtor o => cases h; ev_quiet hs
  | retCall o =>
    rw [micro] at h; split at h
    · cases h; ev_quiet hs
    · cases h
  | retLock o =>
    rw [micro] at h; split at h
    · cases h; exact stepEv_refl _
    · cases h; ev_quiet hs
  | retLoad o =>
    rw [micro] at h; split at h
    · cases h; ev_quiet hs
    · cases h
  | retStore o v =>
    rw [micro] at h; split at h
    · cases h; ev_quiet hs
    · cases h
  | retUnlock o =>
    cases h
    refine ⟨fun o' => bal_of hs rfl o' _ _ ?_, fun o' => pool_of hs rfl o' _ _ ?_, fun o' => by rw [if_neg (by simp only [State.setT]; omega)]; simp,
      Or.inl rfl, fun o' => by simp; rfl, by simp, fun h => by simp at h⟩
    · simp only [sumBy, own, upd, State.setT]
      by_cases ho : o = o'
      · subst ho; simp [List.count_cons]; omega
      · rw [if_neg (Ne.symm ho), if_neg ho]; simp [ho]
    · simp [sumBy, rst, State.setT, List.count_cons]
  | addCall o =>
    rw [micro] at h; split at h
    · cases h; ev_quiet hs
    · cases h
  | addLock o =>
    rw [micro] at h; split at h
    · cases h; exact stepEv_refl _
    · cases h; ev_quiet hs
  | addLink o =>
    cases h
    refine ⟨fun o' => bal_of hs rfl o' _ _ ?_, fun o' => pool_of hs rfl o' _ _ ?_, fun o' => by rw [if_neg (by simp only [State.setT]; omega)]; simp,
      Or.inl rfl, fun o' => by simp; rfl, by simp, fun h => by simp at h⟩
    · simp only [sumBy, own, List.count_append]
      by_cases ho : o = o'
      · subst ho; simp [List.count_cons]; omega
      · rw [if_neg ho]; simp [ho]
    · simp only [sumBy, rst, List.count_append]
      by_cases ho : o = o'
      · subst ho; simp [List.count_cons]; omega
      · simp [ho]
  | addUnlock => cases h; ev_quiet hs
  | drainLock =>
    rw [micro] at h; split at h
    · cases h; exact stepEv_refl _
    · cases h; ev_quiet hs
  | drainTake =>
    cases h
    refine stepEv_quiet hs rfl ?_ ?_ rfl rfl
    · intro o'; simp only [sumBy, own, List.count_nil]; omega
    · intro o'; simp only [sumBy, rst, List.count_nil]; omega
  | drainLoop r =>
    cases r with
    | nil => cases h; ev_quiet hs
    | cons o r =>
      cases h
      refine ⟨fun o' => bal_of hs rfl o' _ _ ?_, fun o' => pool_of hs rfl o' _ _ ?_, fun o' => by rw [if_neg (by simp only [State.setT]; omega)]; simp,
        Or.inl rfl, fun o' => by simp; rfl, by simp, fun h => by simp at h⟩
      · simp only [sumBy, own, State.setT, List.count_cons]
        by_cases ho : o = o'
        · subst ho; simp; omega
        · simp [ho]
      · simp only [sumBy, rst, State.setT, List.count_cons]
        by_cases ho : o = o'
        · subst ho; simp; omega
        · simp [ho]
  | drainUnlock =>
    cases h
    refine ⟨fun o' => bal_of hs rfl o' _ _ ?_, fun o' => pool_of hs rfl o' _ _ ?_, fun o' => by rw [if_neg (by simp only [State.setT]; omega)]; simp,
      Or.inl rfl, fun o' => by simp; rfl, by simp, fun _ => ⟨rfl, ?_, fun o => rst_zero inv hmem (by simp) o⟩⟩
    · simp [sumBy, own, State.setT]
    · simp [sumBy, rst, State.setT]
    · have := S_ge s drn _ hmem .drainUnlock (by simp)
      simp only [drn] at this; omega
  | markLoad o b =>
    rw [micro] at h; split at h
    · cases h; ev_quiet hs
    · cases h
  | markStore o b v =>
    rw [micro] at h; split at h
    · cases h; ev_quiet hs
    · cases h

/-- a call that pushes a frame -/
theorem push_ev {s : State} {i : Nat} {t t' : Thr} {ev : List Ev} (hs : s.thr[i]? = some t)
    (hb : ∀ o, t'.tok o + sumBy (own o) t'.stack + (ev.count (.released o)) = t.tok o + sumBy (own o) t.stack)
    (hr : ∀ o, sumBy (rst o) t'.stack = sumBy (rst o) t.stack) (hev : ev = [] ∨ ∃ o, ev = [.released o]) :
    StepEv s (s.setT i t') ev := by
  have h0 : ∀ o, ev.count (.poolReleased o) = 0 ∧ ev.count (.retained o) = 0 ∧ ev.count (.created o) = 0 ∧ ev.count (.added o) = 0 ∧
      ev.count (.destroyed o) = 0 := by
    intro o; rcases hev with h | ⟨p, h⟩ <;> subst h <;> simp
  refine ⟨fun o => ?_, fun o => ?_, fun o => ?_, Or.inl rfl, fun o => ?_, ?_, ?_⟩
  · refine bal_of hs rfl o _ _ ?_
    have := hb o; have := h0 o; simp only [State.setT]; omega
  · refine pool_of hs rfl o _ _ ?_
    have := hr o; have := h0 o; simp only [State.setT]; omega
  · rw [if_neg (by simp only [State.setT]; omega)]; exact (h0 o).2.2.1
  · have := h0 o; simp only [State.setT]; omega
  · rcases hev with h | ⟨p, h⟩ <;> subst h <;> simp
  · intro h; rcases hev with h' | ⟨p, h'⟩ <;> subst h' <;> simp at h

theorem client_ev {s : State} (inv : Inv s) {i : Nat} {t : Thr} (hs : s.thr[i]? = some t) (a : Act) :
    StepEv s (client s i t a).1 (client s i t a).2 := by
  cases a with
  | new =>
    have hn := inv.next s.next (Nat.le_refl _)
    refine ⟨fun o => bal_of hs rfl o _ _ ?_, fun o => pool_of hs rfl o _ _ ?_, fun o => ?_, Or.inr rfl, fun o => ?_, by simp [client], fun h => by simp [client] at h⟩
    · simp only [client, State.setT, upd]
      by_cases ho : o = s.next
      · subst ho; simp; omega
      · simp [ho, Ne.symm ho]
    · simp [client, State.setT]
    · simp only [client]
      by_cases ho : s.next = o
      · subst ho; simp
      · simp [ho]
    · simp only [client, upd]
      by_cases ho : o = s.next
      · subst ho; simp [hn]
      · simp [ho, Ne.symm ho]
  | retain o =>
    simp only [client]; split
    · refine push_ev hs ?_ ?_ (Or.inl rfl)
      · intro o'; simp only [sumBy, own, upd]
        by_cases ho : o = o'
        · subst ho; simp; omega
        · simp [ho, Ne.symm ho]
      · intro o'; simp [sumBy, rst]
    · exact stepEv_refl _
  | release o =>
    simp only [client]; split
    · refine push_ev hs ?_ ?_ (Or.inr ⟨o, rfl⟩)
      · intro o'; simp only [sumBy, own, upd]
        by_cases ho : o = o'
        · subst ho; simp; omega
        · simp [ho, Ne.symm ho]
      · intro o'; simp [sumBy, rst]
    · exact stepEv_refl _
  | autorelease o =>
    simp only [client]; split
    · refine push_ev hs ?_ ?_ (Or.inl rfl)
      · intro o'; simp only [sumBy, own, upd]
        by_cases ho : o = o'
        · subst ho; simp; omega
        · simp [ho, Ne.symm ho]
      · intro o'; simp [sumBy, rst]
    · exact stepEv_refl _
  | drain => exact push_ev (ev := []) hs (by intro o; simp [sumBy, own]) (by intro o; simp [sumBy, rst]) (Or.inl rfl)
  | give o j =>
    unfold client
    by_cases h0 : 0 < t.tok o ∧ j < s.thr.length ∧ j ≠ i
    · simp only [if_pos h0]
      obtain ⟨s1, hs1⟩ : ∃ s1, s1 = s.setT i ⟨t.stack, upd t.tok o (t.tok o - 1)⟩ := ⟨_, rfl⟩
      have hj : s1.thr[j]? = some s.thr[j] := by
        subst hs1
        simp only [State.setT]
        rw [List.getElem?_set_ne (Ne.symm h0.2.2)]
        exact List.getElem?_eq_getElem h0.2.1
      rw [← hs1]
      unfold giveTo
      rw [hj]
      simp only
      obtain ⟨u, hu⟩ : ∃ u, u = s.thr[j] := ⟨_, rfl⟩
      rw [← hu] at hj ⊢
      obtain ⟨s', hs'⟩ : ∃ s', s' = s1.setT j { u with tok := upd u.tok o (u.tok o + 1) } := ⟨_, rfl⟩
      have e1 : s1.thr = s.thr.set i ⟨t.stack, upd t.tok o (t.tok o - 1)⟩ := by subst hs1; rfl
      have e : s'.thr = s1.thr.set j ⟨u.stack, upd u.tok o (u.tok o + 1)⟩ := by subst hs'; rfl
      have ea : s'.alive = s.alive := by subst hs'; subst hs1; rfl
      have ep : s'.pool = s.pool := by subst hs'; subst hs1; rfl
      have en : s'.next = s.next := by subst hs'; subst hs1; rfl
      rw [← hs']; clear hs'
      have hS : ∀ w, s'.S w = s.S w := by
        intro w
        have h1 := S_set hs e1 w
        have h2 := S_set hj e w
        simp only at h1 h2
        omega
      have hT : ∀ o', s'.T o' = s.T o' := by
        intro o'
        have h1 := T_set hs e1 o'
        have h2 := T_set hj e o'
        simp only [upd] at h1 h2
        by_cases ho : o' = o
        · subst ho; simp only [if_true] at h1 h2; omega
        · simp only [ho, if_false] at h1 h2; omega
      refine ⟨fun o' => ?_, fun o' => ?_, fun o' => by rw [if_neg (by omega)]; rfl, Or.inl en, fun o' => by rw [ea]; rfl, by simp, fun h => by cases h⟩
      · unfold State.bal; rw [hT, hS, ep]; rfl
      · rw [hS, ep]; rfl
    · simp only [if_neg h0]; exact stepEv_refl _
  | mark o b =>
    simp only [client]; split
    · exact push_ev hs (by intro o; simp [sumBy, own]) (by intro o; simp [sumBy, rst]) (Or.inl rfl)
    · exact stepEv_refl _
  | endDtor =>
    show StepEv s (endDtor s i t) []
    unfold endDtor
    split
    · next heq => exact push_ev hs (by intro o; simp [heq, sumBy, own]) (by intro o; simp [heq, sumBy, rst]) (Or.inl rfl)
    · exact stepEv_refl _

theorem step_ev {s s' : State} (inv : Inv s) {i : Nat} {a : Act} {ev : List Ev} (h : step s i a = .ok (s', ev)) : StepEv s s' ev := by
  unfold step at h
  cases hs : s.thr[i]? with
  | none => rw [hs] at h; cases h; exact stepEv_refl _
  | some t =>
    rw [hs] at h
    obtain ⟨stack, tok⟩ := t
    cases stack with
    | nil =>
      have := client_ev inv hs a
      simp only at h
      have h := Except.ok.inj h
      rw [h] at this; exact this
    | cons f rest =>
      simp only at h
      by_cases hc : atClient (f :: rest) = true
      · rw [if_pos hc] at h
        have := client_ev inv hs a
        have h := Except.ok.inj h
        rw [h] at this; exact this
      · rw [if_neg hc] at h; exact micro_ev inv hs h

/-- no thread calls `setHighBit` -/
def NoMark (sched : List (Nat × Act)) : Prop := ∀ x ∈ sched, ∀ o b, x.2 ≠ .mark o b

/-- induction over schedules -/
theorem run_induct {P : State → List Ev → Prop} {s : State} (inv : Inv s) {tr : List Ev} (h0 : P s tr)
    (hstep : ∀ s tr s' ev, Inv s → Inv s' → P s tr → StepEv s s' ev → P s' (tr ++ ev)) :
    ∀ sched, NoMark sched → ∃ s' tr', run s sched = .ok (s', tr') ∧ Inv s' ∧ P s' (tr ++ tr') := by
  intro sched
  induction sched generalizing s tr with
  | nil => intro _; exact ⟨s, [], rfl, inv, by simpa using h0⟩
  | cons x l ih =>
    intro hn
    obtain ⟨i, a⟩ := x
    obtain ⟨⟨s1, e1⟩, h1, inv1⟩ := step_ok inv i a (hn (i, a) (by simp))
    obtain ⟨s2, t2, h2, inv2, p2⟩ := ih inv1 (hstep s tr s1 e1 inv inv1 h0 (step_ev inv h1)) (fun x hx => hn x (by simp [hx]))
    refine ⟨s2, e1 ++ t2, ?_, inv2, by simpa using p2⟩
    simp only [run, h1, bind, Except.bind, h2, pure, Except.pure]

end Verif.RefCount
