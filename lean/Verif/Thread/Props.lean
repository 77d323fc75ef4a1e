import Verif.Thread.Interrupt
/-
C97 (mutex), C98 (interrupting and waking threads): for every schedule of every program.
-/
namespace Verif.Thread.Props
open Verif.Thread

variable {p : Program} {s : St}

/-! ### C97: mutual exclusion, no data race, no deadlock by the mutex -/

/-- what a step did with the mutex, read off the instruction -/
inductive Event where
  | got
  | gave
  | other
deriving DecidableEq

def event (x : Th) : Event :=
  match x.status, x.rest with
  | .woken, _ => .got
  | .ready, .lock :: _ => .got
  | .ready, .unlock :: _ => .gave
  | .ready, .wait :: _ => .gave
  | .ready, .timedWait :: _ => .gave
  | _, _ => .other

/-- all that was done with the mutex along a schedule, the latest first -/
def events (body : List Instr) (s : St) : List (Nat × Choice) → List (Nat × Event)
  | [] => []
  | (t, c) :: l =>
    match step body s t c with
    | .next s' => events body s' l ++ [(t, event (s.ths t))]
    | _ => []

/-- a thread is between `lock` and `unlock`: what it did last with the mutex was getting it -/
def inside (t : Nat) : List (Nat × Event) → Bool
  | [] => false
  | (u, e) :: l => if u = t ∧ e ≠ .other then e = .got else inside t l

theorem inside_owner (body : List Instr) (l : List (Nat × Choice)) {s s' : St} (past : List (Nat × Event))
    (hp : ∀ t, inside t past = true ↔ s.owner = some t) (h : run body s l = some s') :
    ∀ t, inside t (events body s l ++ past) = true ↔ s'.owner = some t := by
  induction l generalizing s past with
  | nil => cases h; exact hp
  | cons x l ih =>
    obtain ⟨u, c⟩ := x
    simp only [run] at h
    simp only [events]
    cases e : step body s u c with
    | next s1 =>
      rw [e] at h
      simp only
      rw [List.append_assoc]
      refine ih _ ?_ h
      intro t
      have d := does e
      simp only [List.singleton_append, inside]
      have hpt := hp t
      have none_ne : ∀ v : Nat, (none : Option Nat) ≠ some v := fun v => by simp
      cases d with
      | lock k hs hr ho =>
        have : event (s.ths u) = .got := by simp [event, hs, hr]
        rw [this]
        by_cases htu : u = t
        · simp [htu]
        · rw [ho] at hpt
          simp [htu, hpt]
      | unlock k hs hr ho =>
        have : event (s.ths u) = .gave := by simp [event, hs, hr]
        rw [this]
        by_cases htu : u = t
        · simp [htu]
        · rw [ho] at hpt
          simp only [htu, false_and, if_false, hpt]
          simp [htu]
      | wait timed k hs hr ho =>
        have : event (s.ths u) = .gave := by cases timed <;> simp [event, hs, hr]
        rw [this]
        by_cases htu : u = t
        · simp [htu]
        · rw [ho] at hpt
          simp only [htu, false_and, if_false, hpt]
          simp [htu]
      | reacquire hs ho =>
        have : event (s.ths u) = .got := by simp [event, hs]
        rw [this]
        by_cases htu : u = t
        · simp [htu]
        · rw [ho] at hpt
          simp [htu, hpt]
      | wakes b hs =>
        have : event (s.ths u) = .other := by simp [event, hs]
        rw [this]
        simpa [St.wakes] using hpt
      | signalNone k hs hr => rw [show event (s.ths u) = .other by simp [event, hs, hr]]; simpa [St.goOn] using hpt
      | signal k w hs hr => rw [show event (s.ths u) = .other by simp [event, hs, hr]]; simpa [St.goOn, St.wakes] using hpt
      | set b k hs hr => rw [show event (s.ths u) = .other by simp [event, hs, hr]]; simpa [St.goOn] using hpt
      | get k hs hr => rw [show event (s.ths u) = .other by simp [event, hs, hr]]; simpa [St.goOn] using hpt
      | againYes k hs hr => rw [show event (s.ths u) = .other by simp [event, hs, hr]]; simpa [St.goOn] using hpt
      | againNo k hs hr => rw [show event (s.ths u) = .other by simp [event, hs, hr]]; simpa [St.goOn] using hpt
      | spawn k hs hr => rw [show event (s.ths u) = .other by simp [event, hs, hr]]; simpa [St.goOn] using hpt
      | join k hs hr => rw [show event (s.ths u) = .other by simp [event, hs, hr]]; simpa [St.goOn] using hpt
      | work k hs hr => rw [show event (s.ths u) = .other by simp [event, hs, hr]]; simpa [St.goOn] using hpt
    | _ => rw [e] at h; cases h

/-- at no time two threads are between `lock` and `unlock` - whatever the threads do, as long as it is defined -/
theorem mutual_exclusion (body : List Instr) (code : Nat → List Instr) (l : List (Nat × Choice)) (s : St)
    (h : run body (initial code) l = some s) (t u : Nat) (ht : inside t (events body (initial code) l) = true)
    (hu : inside u (events body (initial code) l) = true) : t = u := by
  have key := inside_owner body l [] (s := initial code) (by simp [inside, initial]) h
  simp only [List.append_nil] at key
  have h1 := (key t).1 ht
  have h2 := (key u).1 hu
  rw [h1] at h2
  exact Option.some.inj h2

/-- no schedule of a program made of the calls does anything undefined with the mutex or the thread -/
theorem no_undefined (h : p.Reaches p.init s) (t : Nat) (c : Choice) : step p.worker.loop s t c ≠ .ub := by
  have i := pinv_reaches (pinv_init p) h
  intro e
  unfold step at e
  split at e
  · rename_i hs
    split at e
    · cases e
    · have hw := (i.inv.good t).ready hs
      cases hr : (s.ths t).rest with
      | nil => rw [hr] at e; cases e
      | cons a k =>
        rw [hr] at e hw
        have hm : a ∈ (s.ths t).rest := by rw [hr]; exact List.mem_cons_self
        -- starting and joining is done by the master only
        have hone : (a = .spawn ∨ a = .join) → t = 1 := by
          intro ha
          by_cases h1 : t = 1
          · exact h1
          exfalso
          by_cases h0 : t = 0
          · subst h0
            have hn1 := not_in_worker p.worker
            have hn2 := not_in_loop p.worker
            have hn3 := not_in_tail p.worker
            rcases i.worker with h | ⟨r, hrr, e⟩
            · have := h.subset hm
              rcases ha with ha | ha <;> subst ha <;> simp_all
            · rw [e] at hm
              rcases List.mem_append.1 hm with hm | hm
              · have := hrr.subset hm
                rcases ha with ha | ha <;> subst ha <;> simp_all
              · rcases ha with ha | ha <;> subst ha <;> simp_all
          · have hm := (i.suffix t h0).subset hm
            have hn := not_in_others p t h0 h1
            rcases ha with ha | ha <;> subst ha <;> simp_all
        have own : ∀ b, walk (decide (s.owner = some t)) (b :: k) = some false → (∀ x, walk false (b :: x) = none) → s.owner = some t := by
          intro b hb hx
          by_cases ho : s.owner = some t
          · exact ho
          · simp only [ho, decide_false, hx] at hb
            cases hb
        cases a with
        | unlock =>
          have := own _ hw (by intro x; rfl)
          simp [readyStep, unlockStep, this] at e
        | wait =>
          have := own _ hw (by intro x; rfl)
          simp [readyStep, waitStep, this] at e
        | timedWait =>
          have := own _ hw (by intro x; rfl)
          simp [readyStep, waitStep, this] at e
        | spawn =>
          have h1 := hone (.inl rfl)
          subst h1
          simp only [readyStep] at e
          split at e
          · rename_i hst
            exact i.started.1 hst hm
          · cases e
        | join =>
          have h1 := hone (.inr rfl)
          subst h1
          simp only [readyStep, joinStep] at e
          split at e
          · rename_i hst
            rcases hst with hst | hst
            · -- not started: then `spawn` is still to come, but `join` comes after it
              have hsp : Instr.spawn ∈ (s.ths 1).rest := by
                by_cases hx : Instr.spawn ∈ (s.ths 1).rest
                · exact hx
                · rw [i.started.2 hx] at hst; cases hst
              obtain ⟨a, b, c, ec, h1, h2⟩ := master_shape p
              have hsuf := i.suffix 1 (by decide)
              rw [hr, ec] at hsuf
              have hj : ∀ r : List Instr, Instr.join ∉ r → ∀ y, (Instr.join :: k) = r ++ y → (Instr.join :: k) = y := by
                intro r hrj y ey
                cases r with
                | nil => exact ey
                | cons x r => simp only [List.cons_append, List.cons.injEq] at ey; exact absurd (ey.1 ▸ List.mem_cons_self) hrj
              have hsuf2 : (Instr.join :: k) <:+ Instr.join :: c := by
                rcases suffix_append hsuf with h | ⟨r, hrr, ey⟩
                · rcases List.suffix_cons_iff.1 h with h | h
                  · cases h
                  · rcases suffix_append h with h | ⟨r, hrr, ey⟩
                    · exact h
                    · rw [hj r (fun hm => h2.2.1 (hrr.subset hm)) _ ey]; exact List.suffix_refl _
                · have := hj r (fun hm => h2.1 (hrr.subset hm)) _ ey
                  cases this
              rw [hr] at hsp
              have := hsuf2.subset hsp
              simp [h1.2.2] at this
            · exact i.joined.1 hst hm
          · split at e <;> cases e
        | lock => simp only [readyStep] at e; split at e <;> cases e
        | signal =>
          simp only [readyStep, signalStep] at e
          split at e
          · cases e
          · split at e <;> cases e
        | set b => cases e
        | get => cases e
        | again => simp only [readyStep, againStep] at e; split at e <;> cases e
        | work => cases e
  · cases e
  · cases e
  · split at e <;> cases e
  · cases e

/-- a thread is about to read or write the flag -/
def touchesFlag (s : St) (t : Nat) : Prop := (s.ths t).status = .ready ∧ ∃ k, (s.ths t).rest = .get :: k ∨ ∃ b, (s.ths t).rest = .set b :: k

/-- the flag is never used by two threads at the same time -/
theorem no_data_race (h : p.Reaches p.init s) (t u : Nat) (ht : touchesFlag s t) (hu : touchesFlag s u) : t = u := by
  have i := (pinv_reaches (pinv_init p) h).inv
  have own : ∀ t, touchesFlag s t → s.owner = some t := by
    rintro t ⟨hs, k, hr⟩
    have hw := (i.good t).ready hs
    by_cases ho : s.owner = some t
    · exact ho
    · rcases hr with hr | ⟨b, hr⟩ <;> rw [hr] at hw <;> simp [walk, ho] at hw
  have h1 := own t ht
  have h2 := own u hu
  rw [h1] at h2
  exact Option.some.inj h2

/-- when nobody can do anything, nobody waits for the mutex: every thread has finished, sleeps until it is woken, waits for the end
of the worker, or is the worker before its start -/
theorem stuck_shape (h : p.Reaches p.init s) (hs : Stuck p.worker.loop s) : s.owner = none ∧
    ∀ t, s.finished t ∨ (s.ths t).status = .asleep false ∨ (s.joining t ∧ ¬ s.over) ∨ (t = 0 ∧ s.started = false) := by
  have i := pinv_reaches (pinv_init p) h
  exact stuck_cases i.inv (fun hst => (i.idle hst).2) hs (fun t j => no_undefined h t _)

/-! ### C98: interrupt -/

/-- `interrupt()` returns only after the worker has returned -/
theorem interrupt_waits (h : p.Reaches p.init s) (hj : s.joined = true) : s.over := by
  obtain ⟨l, hl⟩ := h
  have key : ∀ (l : List (Nat × Choice)) (s0 : St), PInv p s0 → (s0.joined = true → s0.over) → run p.worker.loop s0 l = some s → s.joined = true → s.over := by
    intro l
    induction l with
    | nil => intro s0 _ h0 e; cases e; exact h0
    | cons x l ih =>
      intro s0 i0 h0 e
      simp only [run] at e
      cases e1 : step p.worker.loop s0 x.1 x.2 with
      | next s1 =>
        rw [e1] at e
        refine ih s1 (pinv_step i0 e1) ?_ e
        intro hj1
        have d := does e1
        -- once over, the worker does nothing more
        have stays : s0.over → s1.over := by
          rintro ⟨h1, h2, h3⟩
          have hst : s1.started = true := by
            cases d <;> first | exact h1 | rfl
          have ht0 : x.1 ≠ 0 := by
            intro e0
            rw [e0] at d
            cases d <;> simp_all
          have hth : s1.ths 0 = s0.ths 0 := by
            cases d with
            | signal k w hs hr hw =>
              have hw0 : (0 : Nat) ≠ w := by
                intro e0
                subst e0
                obtain ⟨b, hb⟩ := (i0.inv.asleep 0).1 hw
                rw [h3] at hb
                cases hb
              simp [St.goOn, St.wakes, upd_ne _ _ (Ne.symm ht0), upd_ne _ _ hw0]
            | _ => simp [St.goOn, St.wakes, upd_ne _ _ (Ne.symm ht0)]
          exact ⟨hst, by rw [hth]; exact h2, by rw [hth]; exact h3⟩
        cases d with
        | join k hs hr hov hjn => exact stays hov
        | _ => exact stays (h0 hj1)
      | _ => rw [e1] at e; cases e
  exact key l p.init (pinv_init p) (by simp [Program.init, initial]) hl hj

theorem down_of (h : p.Reaches p.init s) (ha : s.alive = true) {s1 : St} (h1 : p.Reaches s s1) (hf : s1.alive = false) : Down s1 := by
  have i := pinv_reaches (pinv_init p) h
  have i1 := pinv_reaches i h1
  refine ⟨hf, fun t => ?_⟩
  by_cases h0 : t = 0
  · subst h0
    -- the worker has passed `alive = true` and does not come back
    obtain ⟨l, hl⟩ := h1
    have key : ∀ (l : List (Nat × Choice)) (a : St), PInv p a → Instr.set true ∉ (a.ths 0).rest → run p.worker.loop a l = some s1 → Instr.set true ∉ (s1.ths 0).rest := by
      intro l
      induction l with
      | nil => intro a _ hn e; cases e; exact hn
      | cons x l ih =>
        intro a ia hn e
        simp only [run] at e
        cases e1 : step p.worker.loop a x.1 x.2 with
        | next b =>
          rw [e1] at e
          refine ih b (pinv_step ia e1) ?_ e
          rcases rest_cases ia (does e1) 0 with h | ⟨h, y, hr⟩ | ⟨_, _, _, _, h⟩
          · rw [h]; exact hn
          · rw [← h] at hr
            rw [hr] at hn
            exact fun hm => hn (List.mem_cons_of_mem _ hm)
          · rw [h]
            simp [(not_in_loop p.worker).2.2.2 true, (not_in_tail p.worker).2.2 true]
        | _ => rw [e1] at e; cases e
    exact key l s i (i.flag ha) hl
  · exact set_true_not i1 t h0

/-- threads that do not exist -/
theorem nobody {t : Nat} (i : PInv p s) (ht : p.others.length + 2 ≤ t) : (s.ths t).rest = [] ∧ (s.ths t).status = .ready := by
  have h1 : (s.ths t).rest = [] := by
    have := i.suffix t (by omega)
    obtain ⟨n, rfl⟩ : ∃ n, t = n + 2 := ⟨t - 2, by omega⟩
    have hc : p.code (n + 2) = [] := by
      simp [Program.code, codes, List.getD, List.getElem?_eq_none_iff.2 (show p.others.length ≤ n by omega)]
    rw [hc] at this
    exact List.suffix_nil.1 this
  refine ⟨h1, ?_⟩
  have g := (i.inv.good t).away
  rw [h1] at g
  exact Decidable.byContradiction (fun hn => by have := (g hn).2; simp [walk] at this)

/-- worker and master never sleep without a time limit -/
def NoSleep (p : Program) : Prop :=
  Call.sleep ∉ p.worker.before ∧ Call.sleep ∉ p.worker.body ∧ Call.sleep ∉ p.worker.after ∧
  Call.sleep ∉ p.master.1 ∧ Call.sleep ∉ p.master.2.1 ∧ Call.sleep ∉ p.master.2.2

theorem wait_not {l : List Call} (h : Call.sleep ∉ l) : Instr.wait ∉ codes l := by
  unfold codes
  simp only [List.mem_flatMap, not_exists, not_and]
  intro c hc
  cases c with
  | sleep => exact absurd hc h
  | critical n => simp [Call.code, criticalSection, List.mem_replicate]
  | _ => simp [Call.code, sleepFor, wakeUp, isAlive]

/-- then they are never found sleeping without limit -/
theorem not_asleep (hp : NoSleep p) (h : p.Reaches p.init s) (t : Nat) (ht : t < 2) : (s.ths t).status ≠ .asleep false := by
  obtain ⟨h1, h2, h3, h4, h5, h6⟩ := hp
  have w1 := wait_not h1
  have w2 := wait_not h2
  have w3 := wait_not h3
  have w4 := wait_not h4
  have w5 := wait_not h5
  have w6 := wait_not h6
  have hcode0 : Instr.wait ∉ p.worker.code := by
    rw [worker_code]
    simp [startThread, isAlive, Worker.tail, w1, w3]
  have hloop : Instr.wait ∉ p.worker.loop := by simp [Worker.loop, isAlive, w2]
  have htail : Instr.wait ∉ p.worker.tail := by simp [Worker.tail, w3]
  have hcode1 : Instr.wait ∉ p.code 1 := by simp [Program.code, start, interrupt, w4, w5, w6]
  have hrest : ∀ a, PInv p a → ∀ u, u < 2 → Instr.wait ∉ (a.ths u).rest := by
    intro a ia u hu hm
    by_cases h0 : u = 0
    · subst h0
      rcases ia.worker with h | ⟨r, hr, e⟩
      · exact hcode0 (h.subset hm)
      · rw [e] at hm
        rcases List.mem_append.1 hm with hm | hm
        · exact hloop (hr.subset hm)
        · exact htail hm
    · have : u = 1 := by omega
      subst this
      exact hcode1 ((ia.suffix 1 (by decide)).subset hm)
  obtain ⟨l, hl⟩ := h
  have key : ∀ (l : List (Nat × Choice)) (a : St), PInv p a → (a.ths t).status ≠ .asleep false → run p.worker.loop a l = some s → (s.ths t).status ≠ .asleep false := by
    intro l
    induction l with
    | nil => intro a _ hn e; cases e; exact hn
    | cons x l ih =>
      intro a ia hn e
      simp only [run] at e
      cases e1 : step p.worker.loop a x.1 x.2 with
      | next b =>
        rw [e1] at e
        refine ih b (pinv_step ia e1) ?_ e
        have d := does e1
        by_cases hx : t = x.1
        · subst hx
          cases d with
          | wait timed k hs hr ho =>
            cases timed with
            | true => simp [upd_self]
            | false => exact absurd (by rw [hr]; simp) (hrest a ia x.1 ht)
          | wakes b hs => simp [St.wakes, upd_self]
          | reacquire hs ho => simp [upd_self]
          | get k hs hr => simp [upd_self]
          | signal k w hs hr hw =>
            have hxw : x.1 ≠ w := by
              intro ew
              obtain ⟨b, hb⟩ := (ia.inv.asleep w).1 hw
              rw [← ew, hs] at hb
              cases hb
            simp [St.goOn, upd_self, St.wakes, upd_ne _ _ hxw, hs]
          | _ => simp [St.goOn, upd_self]; exact hn
        · cases d with
          | signal k w hs hr hw =>
            simp only [St.goOn, St.wakes, upd_ne _ _ hx]
            by_cases h2 : t = w
            · subst h2; simp [upd_self]
            · rw [upd_ne _ _ h2]; exact hn
          | _ => simpa [St.goOn, St.wakes, upd_ne _ _ hx] using hn
      | _ => rw [e1] at e; cases e
  exact key l p.init (pinv_init p) (by simp [Program.init, initial]) hl

/-- Interrupting a worker that was seen alive: from the moment the flag is down it stays down, only a bounded number of steps
is left - whatever the schedule - and when nothing can happen any more, worker and master have finished.  Missing: it needs that the worker was
alive before (`early_interrupt`), and that neither of them sleeps without a time limit (`lost_interrupt`). -/
theorem interrupt_ends_partial (hp : NoSleep p) {s0 s1 : St} (h0 : p.Reaches p.init s0) (ha : s0.alive = true) (h1 : p.Reaches s0 s1) (hf : s1.alive = false) :
    ∃ n, ∀ l s2, run p.worker.loop s1 l = some s2 → l.length ≤ n ∧ s2.alive = false ∧
      (Stuck p.worker.loop s2 → s2.finished 0 ∧ s2.finished 1) := by
  have d := down_of h0 ha h1 hf
  have i0 := pinv_reaches (pinv_init p) h0
  have i1 := pinv_reaches i0 h1
  refine ⟨total p.worker.loop (p.others.length + 2) s1.ths, fun l s2 hl => ?_⟩
  obtain ⟨d2, hb⟩ := down_run l i1 d (fun u hu => nobody i1 hu) hl
  refine ⟨by omega, d2.alive, fun hs => ?_⟩
  have hr : p.Reaches p.init s2 := by
    obtain ⟨l0, e0⟩ := h0
    obtain ⟨l1, e1⟩ := h1
    exact ⟨l0 ++ (l1 ++ l), by rw [run_append, e0, Option.bind_some, run_append, e1, Option.bind_some, hl]⟩
  have i2 := pinv_reaches (pinv_init p) hr
  have hshape := (stuck_shape hr hs).2
  have hstart : s2.started = true := by
    have hs0 : s0.started = true := by
      cases e : s0.started with
      | true => rfl
      | false =>
        have := i0.flag ha
        rw [(i0.idle e).1] at this
        exact absurd (by simp [worker_code, startThread]) this
    have mono : ∀ (l : List (Nat × Choice)) (a b : St), a.started = true → run p.worker.loop a l = some b → b.started = true := by
      intro l
      induction l with
      | nil => intro a b h e; cases e; exact h
      | cons x l ih =>
        intro a b h e
        simp only [run] at e
        cases e1 : step p.worker.loop a x.1 x.2 with
        | next c =>
          rw [e1] at e
          refine ih c b ?_ e
          have d := does e1
          cases d <;> first | exact h | rfl
        | _ => rw [e1] at e; cases e
    obtain ⟨l1, e1⟩ := h1
    exact mono l _ _ (mono l1 _ _ hs0 e1) hl
  have hnj : ¬ s2.joining 0 := by
    rintro ⟨_, k, hk⟩
    have hm : Instr.join ∈ (s2.ths 0).rest := by rw [hk]; exact List.mem_cons_self
    rcases i2.worker with h | ⟨r, hr, e⟩
    · exact (not_in_worker _).2.1 (h.subset hm)
    · rw [e] at hm
      rcases List.mem_append.1 hm with hm | hm
      · exact (not_in_loop _).2.1 (hr.subset hm)
      · exact (not_in_tail _).2.1 hm
  have f0 : s2.finished 0 := by
    rcases hshape 0 with h | h | h | h
    · exact h
    · exact absurd h (not_asleep hp hr 0 (by decide))
    · exact absurd h.1 hnj
    · rw [hstart] at h; cases h.2
  refine ⟨f0, ?_⟩
  rcases hshape 1 with h | h | h | h
  · exact h
  · exact absurd h (not_asleep hp hr 1 (by decide))
  · exact absurd ⟨hstart, f0.1, f0.2⟩ h.2
  · exact absurd h.1 (by decide)

/-! ### where it goes wrong -/

/-- the simplest worker: `while(isAlive());` -/
def poller : Program := ⟨⟨[], [], []⟩, ([], [], []), []⟩

/-- `t.start(); t.interrupt();` when the new thread is slow: it sets the flag again after it was taken down -/
def earlySchedule : List (Nat × Choice) :=
  [(1, .run 0), (1, .run 0), (1, .run 0), (1, .run 0), (1, .run 0), (0, .run 0), (0, .run 0), (0, .run 0)]

/-- … and then `interrupt()` never returns and the worker never stops, whatever happens -/
theorem early_interrupt : ∃ s, run poller.worker.loop poller.init earlySchedule = some s ∧
    ∀ s', poller.Reaches s s' → s'.alive = true ∧ ¬ s'.finished 0 ∧ s'.joining 1 := by
  refine ⟨_, rfl, ?_⟩
  rintro s' ⟨l, hl⟩
  -- where the worker can be
  have key : ∀ (l : List (Nat × Choice)) (a : St),
      (a.alive = true ∧ a.started = true ∧ a.sleepers = [] ∧ (a.ths 0).status = .ready ∧ (a.ths 1).status = .ready ∧ (a.ths 1).rest = [.join] ∧
        ((a.ths 0).rest = [.lock, .get, .unlock, .again] ∨ (a.ths 0).rest = [.get, .unlock, .again] ∨
          ((a.ths 0).ret = true ∧ ((a.ths 0).rest = [.unlock, .again] ∨ (a.ths 0).rest = [.again]))) ∧
        ∀ t, 2 ≤ t → (a.ths t).rest = [] ∧ (a.ths t).status = .ready) →
      run poller.worker.loop a l = some s' → s'.alive = true ∧ ¬ s'.finished 0 ∧ s'.joining 1 := by
    intro l
    induction l with
    | nil =>
      rintro a ⟨h1, h2, h3, h4, h5, h6, h7, h8⟩ e
      cases e
      refine ⟨h1, ?_, ⟨h5, [], h6⟩⟩
      rintro ⟨hf, _⟩
      rcases h7 with h7 | h7 | ⟨_, h7 | h7⟩ <;> rw [h7] at hf <;> cases hf
    | cons x l ih =>
      rintro a ⟨h1, h2, h3, h4, h5, h6, h7, h8⟩ e
      simp only [run] at e
      cases e1 : step poller.worker.loop a x.1 x.2 with
      | next b =>
        rw [e1] at e
        refine ih b ?_ e
        have d := does e1
        obtain ⟨t, c⟩ := x
        simp only at d
        by_cases ht : t = 0
        · subst ht
          have e1' : (1 : Nat) ≠ 0 := by decide
          have e2' : ∀ t : Nat, 2 ≤ t → t ≠ 0 := fun t ht => by omega
          cases d with
          | lock k hs hr ho =>
            rw [hr] at h7
            simp only [List.cons.injEq, reduceCtorEq, false_and, or_false, true_and, and_false] at h7
            subst h7
            refine ⟨h1, h2, h3, ?_, ?_, ?_, ?_, fun t ht => ?_⟩ <;> simp [St.goOn, upd_self, upd_ne _ _ e1', *]
            simp [upd_ne _ _ (e2' t ht), h8 t ht]
          | unlock k hs hr ho =>
            rw [hr] at h7
            simp only [List.cons.injEq, reduceCtorEq, false_and, or_false, false_or, true_and, and_false] at h7
            obtain ⟨h7, rfl⟩ := h7
            refine ⟨h1, h2, h3, ?_, ?_, ?_, ?_, fun t ht => ?_⟩ <;> simp [St.goOn, upd_self, upd_ne _ _ e1', *]
            simp [upd_ne _ _ (e2' t ht), h8 t ht]
          | get k hs hr =>
            rw [hr] at h7
            simp only [List.cons.injEq, reduceCtorEq, false_and, or_false, false_or, true_and, and_false] at h7
            subst h7
            refine ⟨h1, h2, h3, ?_, ?_, ?_, ?_, fun t ht => ?_⟩ <;> simp [upd_self, upd_ne _ _ e1', *]
            simp [upd_ne _ _ (e2' t ht), h8 t ht]
          | againYes k hs hr hret =>
            rw [hr] at h7
            simp only [List.cons.injEq, reduceCtorEq, false_and, or_false, false_or, true_and, and_false] at h7
            obtain ⟨h7, rfl⟩ := h7
            refine ⟨h1, h2, h3, ?_, ?_, ?_, ?_, fun t ht => ?_⟩ <;> simp [St.goOn, upd_self, upd_ne _ _ e1', *]
            · exact .inl rfl
            · simp [upd_ne _ _ (e2' t ht), h8 t ht]
          | againNo k hs hr hret => rw [hr] at h7; simp_all
          | wait timed k hs hr ho => rw [hr] at h7; cases timed <;> simp at h7
          | wakes b hs => rw [h4] at hs; cases hs
          | reacquire hs ho => rw [h4] at hs; cases hs
          | signalNone k hs hr => rw [hr] at h7; simp at h7
          | signal k w hs hr => rw [hr] at h7; simp at h7
          | set b k hs hr => rw [hr] at h7; simp at h7
          | spawn k hs hr => rw [hr] at h7; simp at h7
          | join k hs hr => rw [hr] at h7; simp at h7
          | work k hs hr => rw [hr] at h7; simp at h7
        · exfalso
          by_cases ht1 : t = 1
          · subst ht1
            cases d with
            | join k hs hr hov hj =>
              have := hov.2.1
              rcases h7 with h7 | h7 | ⟨_, h7 | h7⟩ <;> rw [h7] at this <;> cases this
            | wait timed k hs hr => rw [h6] at hr; cases timed <;> simp at hr
            | wakes b hs => rw [h5] at hs; cases hs
            | reacquire hs ho => rw [h5] at hs; cases hs
            | _ => simp_all
          · obtain ⟨hr0, hs0⟩ := h8 t (by omega)
            cases d <;> simp_all
      | _ => rw [e1] at e; cases e
  refine key l _ ⟨rfl, rfl, rfl, rfl, rfl, rfl, .inl rfl, ?_⟩ hl
  intro t ht
  have i := pinv_reaches (pinv_init poller) ⟨earlySchedule, rfl⟩
  exact nobody i ht

/-- a worker that sleeps until there is something to do -/
def sleeper : Program := ⟨⟨[], [.sleep], []⟩, ([], [], []), []⟩

/-- the worker has asked and is about to sleep; the master takes the flag down and signals to nobody; the worker sleeps -/
def lostSchedule : List (Nat × Choice) :=
  [(1, .run 0), (0, .run 0), (0, .run 0), (0, .run 0), (0, .run 0), (0, .run 0), (0, .run 0), (0, .run 0),
   (1, .run 0), (1, .run 0), (1, .run 0), (1, .run 0), (0, .run 0), (0, .run 0)]

/-- all stand still for ever: the worker sleeps, `interrupt()` waits for it - although the worker was seen alive -/
theorem lost_interrupt : ∃ s0 s, run sleeper.worker.loop sleeper.init (lostSchedule.take 8) = some s0 ∧ s0.alive = true ∧
    run sleeper.worker.loop s0 (lostSchedule.drop 8) = some s ∧ Stuck sleeper.worker.loop s ∧
    (s.ths 0).status = .asleep false ∧ s.joining 1 := by
  refine ⟨_, _, rfl, rfl, rfl, ?_, rfl, ⟨rfl, [], rfl⟩⟩
  intro t i
  match t with
  | 0 => exact ⟨rfl, rfl⟩
  | 1 => exact ⟨rfl, rfl⟩
  | n + 2 => exact ⟨rfl, rfl⟩

/-- a worker that waits to be woken, and a master that wakes it -/
def waker : Program := ⟨⟨[.sleep], [], []⟩, ([], [.wakeUp, .wakeUp, .sleep], []), []⟩

/-- waking a thread that does not sleep yet is forgotten, however often: here both sleep for ever -/
theorem lost_wakeup : ∃ l s, run waker.worker.loop waker.init l = some s ∧ Stuck waker.worker.loop s ∧
    (s.ths 0).status = .asleep false ∧ (s.ths 1).status = .asleep false ∧ Instr.signal ∉ ((s.ths 1).rest.take 1) := by
  refine ⟨[(1, .run 0), (1, .run 0), (1, .run 0), (0, .run 0), (0, .run 0), (0, .run 0), (0, .run 0), (0, .run 0), (1, .run 0), (1, .run 0)], _, rfl, ?_, rfl, rfl, by decide⟩
  intro t i
  match t with
  | 0 => exact ⟨rfl, rfl⟩
  | 1 => exact ⟨rfl, rfl⟩
  | n + 2 => exact ⟨rfl, rfl⟩

/-- waking a thread that does sleep works: when the worker is the only one that sleeps, every `wakeUp()` wakes it -/
theorem wakeUp_wakes (body : List Instr) {s s' : St} {t : Nat} {i : Nat} {k : List Instr} (hs : (s.ths t).status = .ready) (hr : (s.ths t).rest = .signal :: k)
    (h0 : s.started = true) (ht : t ≠ 0) (hw : s.sleepers = [0]) (e : step body s t (.run i) = .next s') :
    (s'.ths 0).status = .woken ∧ s'.sleepers = [] := by
  have hn : ¬ (t = 0 ∧ s.started = false) := fun h => ht h.1
  simp only [step, hs, hn, if_false, hr, readyStep, signalStep, hw, reduceCtorEq] at e
  cases i with
  | zero =>
    simp only [List.getElem?_cons_zero] at e
    cases e
    simp [St.goOn, St.wakes, upd_self, upd_ne _ _ (Ne.symm ht), hw]
  | succ i => simp at e

/-- with two sleepers `wakeUp()` wakes one of them, not necessarily the thread it was meant for -/
theorem wakeUp_wakes_one (body : List Instr) {s s' : St} {t i : Nat} {k : List Instr} (hs : (s.ths t).status = .ready) (hr : (s.ths t).rest = .signal :: k)
    (hn : ¬ (t = 0 ∧ s.started = false)) (hd : s.sleepers ≠ []) (e : step body s t (.run i) = .next s') : s'.sleepers.length + 1 = s.sleepers.length := by
  simp only [step, hs, hn, if_false, hr, readyStep, signalStep, hd] at e
  cases ew : s.sleepers[i]? with
  | none => rw [ew] at e; cases e
  | some w =>
    rw [ew] at e
    cases e
    have hm := List.mem_of_getElem? ew
    simp only [St.goOn, St.wakes, List.length_erase_of_mem hm]
    have := List.length_pos_of_mem hm
    omega

/-- `start(); isAlive()` may answer false, although the thread was never interrupted -/
theorem alive_late : ∃ l s, run poller.worker.loop (Program.init ⟨⟨[], [], []⟩, ([], [.isAlive], []), []⟩) l = some s ∧
    s.started = true ∧ (s.ths 1).rest = interrupt ∧ (s.ths 1).ret = false :=
  ⟨[(1, .run 0), (1, .run 0), (1, .run 0), (1, .run 0)], _, rfl, rfl, rfl, rfl⟩

/-! ### the hypotheses are met -/

/-- a worker that sleeps for some time in its loop, is seen alive and interrupted -/
example : NoSleep ⟨⟨[], [.work, .sleepFor], []⟩, ([], [.work], []), [[.sleep, .wakeUp]]⟩ := by simp [NoSleep]

example : ∃ s0 s1, poller.Reaches poller.init s0 ∧ s0.alive = true ∧ poller.Reaches s0 s1 ∧ s1.alive = false :=
  ⟨_, _, ⟨[(1, .run 0), (0, .run 0), (0, .run 0), (0, .run 0)], rfl⟩, rfl, ⟨[(1, .run 0), (1, .run 0)], rfl⟩, rfl⟩

/-- and the interrupt does return -/
example : ∃ s, run poller.worker.loop poller.init [(1, .run 0), (0, .run 0), (0, .run 0), (0, .run 0), (1, .run 0), (1, .run 0), (1, .run 0), (1, .run 0),
    (0, .run 0), (0, .run 0), (0, .run 0), (0, .run 0), (1, .run 0)] = some s ∧ s.joined = true ∧ (s.ths 1).rest = [] := ⟨_, rfl, rfl, rfl⟩

/-- two threads in the middle of a program, one of them inside -/
example : inside 0 (events poller.worker.loop poller.init [(1, .run 0), (0, .run 0), (0, .run 0)]) = true := by decide

end Verif.Thread.Props
