import Verif.Thread.Lock
/-
C97, C98: what holds along every schedule of a program made of calls.
-/
namespace Verif.Thread

/-- the code of the worker behind the loop -/
def Worker.tail (w : Worker) : List Instr := .again :: codes w.after

structure PInv (p : Program) (s : St) : Prop where
  inv : Inv s
  suffix : ∀ t, t ≠ 0 → (s.ths t).rest <:+ p.code t
  worker : (s.ths 0).rest <:+ p.worker.code ∨ ∃ r, r <:+ p.worker.loop ∧ (s.ths 0).rest = r ++ p.worker.tail
  started : s.started = true ↔ Instr.spawn ∉ (s.ths 1).rest
  joined : s.joined = true ↔ Instr.join ∉ (s.ths 1).rest
  idle : s.started = false → s.ths 0 = ⟨p.worker.code, false, .ready⟩ ∧ s.owner ≠ some 0
  flag : s.alive = true → Instr.set true ∉ (s.ths 0).rest

/-! ### which instructions occur where -/

theorem not_in_codes (l : List Call) : Instr.spawn ∉ codes l ∧ Instr.join ∉ codes l ∧ Instr.again ∉ codes l ∧ (∀ b, Instr.set b ∉ codes l) := by
  have h : ∀ c : Call, Instr.spawn ∉ c.code ∧ Instr.join ∉ c.code ∧ Instr.again ∉ c.code ∧ (∀ b, Instr.set b ∉ c.code) := by
    intro c
    cases c <;> simp [Call.code, criticalSection, sleep, sleepFor, wakeUp, isAlive, List.mem_replicate]
  unfold codes
  simp only [List.mem_flatMap, not_exists, not_and]
  exact ⟨fun c _ => (h c).1, fun c _ => (h c).2.1, fun c _ => (h c).2.2.1, fun b c _ => (h c).2.2.2 b⟩

theorem not_in_loop (w : Worker) : Instr.spawn ∉ w.loop ∧ Instr.join ∉ w.loop ∧ Instr.again ∉ w.loop ∧ (∀ b, Instr.set b ∉ w.loop) := by
  have h := not_in_codes w.body
  refine ⟨?_, ?_, ?_, ?_⟩ <;> simp [Worker.loop, isAlive, h]

theorem not_in_tail (w : Worker) : Instr.spawn ∉ w.tail ∧ Instr.join ∉ w.tail ∧ (∀ b, Instr.set b ∉ w.tail) := by
  have h := not_in_codes w.after
  refine ⟨?_, ?_, ?_⟩ <;> simp [Worker.tail, h]

theorem worker_code (w : Worker) : w.code = startThread ++ (codes w.before ++ isAlive ++ w.tail) := rfl

theorem not_in_worker (w : Worker) : Instr.spawn ∉ w.code ∧ Instr.join ∉ w.code ∧ Instr.set false ∉ w.code := by
  have h := not_in_codes w.before
  have h2 := not_in_tail w
  rw [worker_code]
  refine ⟨?_, ?_, ?_⟩ <;> simp [startThread, isAlive, h, h2]

theorem count_worker (w : Worker) : w.code.count (.set true) = 1 := by
  have h := (not_in_codes w.before).2.2.2 true
  have h2 := (not_in_tail w).2.2 true
  have h3 : (codes w.before ++ isAlive ++ w.tail).count (.set true) = 0 := by
    rw [List.count_eq_zero]
    simp [isAlive, h, h2]
  rw [worker_code, List.count_append, h3]
  rfl

theorem not_in_others (p : Program) (t : Nat) (h0 : t ≠ 0) (h1 : t ≠ 1) :
    Instr.spawn ∉ p.code t ∧ Instr.join ∉ p.code t ∧ Instr.again ∉ p.code t ∧ (∀ b, Instr.set b ∉ p.code t) := by
  match t, h0, h1 with
  | 0, h0, _ => exact absurd rfl h0
  | 1, _, h1 => exact absurd rfl h1
  | n + 2, _, _ => exact not_in_codes _

theorem not_in_master (p : Program) : Instr.again ∉ p.code 1 ∧ Instr.set true ∉ p.code 1 := by
  have h1 := not_in_codes p.master.1
  have h2 := not_in_codes p.master.2.1
  have h3 := not_in_codes p.master.2.2
  refine ⟨?_, ?_⟩ <;> simp [Program.code, start, interrupt, h1, h2, h3]

/-- the master starts the worker once, then interrupts it once -/
theorem master_shape (p : Program) : ∃ a b c, p.code 1 = a ++ .spawn :: (b ++ .join :: c) ∧
    (Instr.spawn ∉ a ∧ Instr.spawn ∉ b ∧ Instr.spawn ∉ c) ∧ (Instr.join ∉ a ∧ Instr.join ∉ b ∧ Instr.join ∉ c) := by
  have h1 := not_in_codes p.master.1
  have h2 := not_in_codes p.master.2.1
  have h3 := not_in_codes p.master.2.2
  refine ⟨codes p.master.1, codes p.master.2.1 ++ [.lock, .set false, .unlock, .signal], codes p.master.2.2, ?_, ?_, ?_⟩
  · simp [Program.code, start, interrupt]
  · simp [h1, h2, h3]
  · simp [h1, h2, h3]

theorem set_true_not {p : Program} {s : St} (i : PInv p s) (t : Nat) (h : t ≠ 0) : Instr.set true ∉ (s.ths t).rest := by
  intro hm
  have hm := (i.suffix t h).subset hm
  by_cases h1 : t = 1
  · subst h1; exact (not_in_master p).2 hm
  · exact (not_in_others p t h h1).2.2.2 true hm

theorem suffix_append {l a b : List Instr} (h : l <:+ a ++ b) : l <:+ b ∨ ∃ r, r <:+ a ∧ l = r ++ b := by
  induction a with
  | nil => exact .inl h
  | cons x a ih =>
    rcases List.suffix_cons_iff.1 h with h | h
    · exact .inr ⟨x :: a, List.suffix_refl _, by rw [h]; rfl⟩
    · rcases ih h with h | ⟨r, hr, e⟩
      · exact .inl h
      · exact .inr ⟨r, hr.trans (List.suffix_cons x a), e⟩

theorem suffix_append_right {a b c : List Instr} (h : a <:+ b) : a ++ c <:+ b ++ c := by
  obtain ⟨t, rfl⟩ := h
  exact ⟨t, by simp⟩

/-- after one instruction the worker is still in its code -/
theorem worker_tail {p : Program} {a : Instr} {k : List Instr}
    (h : (a :: k) <:+ p.worker.code ∨ ∃ r, r <:+ p.worker.loop ∧ a :: k = r ++ p.worker.tail) :
    k <:+ p.worker.code ∨ ∃ r, r <:+ p.worker.loop ∧ k = r ++ p.worker.tail := by
  rcases h with h | ⟨r, hr, e⟩
  · exact .inl ((List.suffix_cons a k).trans h)
  · cases r with
    | nil =>
      left
      have hk : k <:+ p.worker.tail := by rw [← List.nil_append p.worker.tail, ← e]; exact List.suffix_cons a k
      exact hk.trans ⟨startThread ++ (codes p.worker.before ++ isAlive), by simp [worker_code]⟩
    | cons x r =>
      right
      simp only [List.cons_append, List.cons.injEq] at e
      exact ⟨r, (List.suffix_cons x r).trans hr, e.2⟩

/-- `again` is met only at the end of the loop -/
theorem worker_again {p : Program} {k : List Instr}
    (h : (Instr.again :: k) <:+ p.worker.code ∨ ∃ r, r <:+ p.worker.loop ∧ Instr.again :: k = r ++ p.worker.tail) : Instr.again :: k = p.worker.tail := by
  have hk : ∀ (r : List Instr), Instr.again ∉ r → Instr.again :: k = r ++ p.worker.tail → Instr.again :: k = p.worker.tail := by
    intro r hr e
    cases r with
    | nil => exact e
    | cons x r =>
      simp only [List.cons_append, List.cons.injEq] at e
      exact absurd (e.1 ▸ List.mem_cons_self) hr
  rcases h with h | ⟨r, hr, e⟩
  · have hc : p.worker.code = (startThread ++ (codes p.worker.before ++ isAlive)) ++ p.worker.tail := by simp [worker_code]
    rw [hc] at h
    rcases suffix_append h with h | ⟨r, hr, e⟩
    · rcases List.suffix_cons_iff.1 h with h | h
      · exact h
      · have := h.subset (List.mem_cons_self (a := Instr.again) (l := k))
        exact absurd this (not_in_codes _).2.2.1
    · refine hk r (fun hm => ?_) e
      have := hr.subset hm
      have hb := (not_in_codes p.worker.before).2.2.1
      simp [startThread, isAlive, hb] at this
  · exact hk r (fun hm => (not_in_loop _).2.2.1 (hr.subset hm)) e

/-- the worker once it has passed `alive = true` -/
theorem no_set_true {p : Program} {k : List Instr}
    (h : (Instr.set true :: k) <:+ p.worker.code ∨ ∃ r, r <:+ p.worker.loop ∧ Instr.set true :: k = r ++ p.worker.tail) : Instr.set true ∉ k := by
  rcases h with h | ⟨r, hr, e⟩
  · have := h.sublist.count_le (.set true)
    rw [count_worker, List.count_cons_self] at this
    rw [← List.count_eq_zero]
    omega
  · have hm : Instr.set true ∈ r ++ p.worker.tail := by rw [← e]; exact List.mem_cons_self
    rcases List.mem_append.1 hm with hm | hm
    · exact absurd (hr.subset hm) ((not_in_loop _).2.2.2 true)
    · exact absurd hm ((not_in_tail _).2.2 true)

/-! ### the invariant is kept -/

/-- what a step does with the code of each thread -/
theorem rest_of {body : List Instr} {s s' : St} {t : Nat} (d : Does body s t s') (u : Nat) :
    (s'.ths u).rest = (s.ths u).rest ∨
    (u = t ∧ ∃ a, (s.ths t).rest = a :: (s'.ths t).rest ∧ (a = .again → (s.ths t).ret = false)) ∨
    (u = t ∧ ∃ k, (s.ths t).rest = .again :: k ∧ (s.ths t).ret = true ∧ (s'.ths t).rest = body ++ .again :: k) := by
  by_cases h : u = t
  · subst h
    cases d with
    | wakes b hs => left; simp [St.wakes, upd_self]
    | reacquire hs ho => left; simp [upd_self]
    | againYes k hs hr hret => right; right; exact ⟨rfl, k, hr, hret, by simp [St.goOn, upd_self]⟩
    | againNo k hs hr hret => right; left; exact ⟨rfl, .again, by simp [St.goOn, upd_self, hr], fun _ => hret⟩
    | wait timed k hs hr ho =>
      right; left
      cases timed
      · exact ⟨rfl, .wait, by simpa [St.goOn, upd_self] using hr, by simp⟩
      · exact ⟨rfl, .timedWait, by simpa [St.goOn, upd_self] using hr, by simp⟩
    | lock k hs hr ho => right; left; exact ⟨rfl, _, by simpa [St.goOn, upd_self] using hr, by simp⟩
    | unlock k hs hr ho => right; left; exact ⟨rfl, _, by simpa [St.goOn, upd_self] using hr, by simp⟩
    | signalNone k hs hr => right; left; exact ⟨rfl, _, by simpa [St.goOn, upd_self] using hr, by simp⟩
    | signal k w hs hr => right; left; exact ⟨rfl, _, by simpa [St.goOn, upd_self] using hr, by simp⟩
    | set b k hs hr => right; left; exact ⟨rfl, _, by simpa [St.goOn, upd_self] using hr, by simp⟩
    | get k hs hr => right; left; exact ⟨rfl, _, by simpa [St.goOn, upd_self] using hr, by simp⟩
    | spawn k hs hr => right; left; exact ⟨rfl, _, by simpa [St.goOn, upd_self] using hr, by simp⟩
    | join k hs hr => right; left; exact ⟨rfl, _, by simpa [St.goOn, upd_self] using hr, by simp⟩
    | work k hs hr => right; left; exact ⟨rfl, _, by simpa [St.goOn, upd_self] using hr, by simp⟩
  · left
    cases d with
    | signal k w hs hr hw =>
      simp only [St.goOn, upd_ne _ _ h, St.wakes]
      by_cases h2 : u = w
      · subst h2; simp [upd_self]
      · rw [upd_ne _ _ h2]
    | _ => simp [St.goOn, St.wakes, upd_ne _ _ h]

/-- the simple shape for the threads of a program: the code goes on, only the worker repeats its loop -/
theorem rest_cases {p : Program} {s s' : St} {t : Nat} (i : PInv p s) (d : Does p.worker.loop s t s') (u : Nat) :
    (s'.ths u).rest = (s.ths u).rest ∨ (u = t ∧ ∃ a, (s.ths t).rest = a :: (s'.ths t).rest) ∨
    (u = 0 ∧ t = 0 ∧ (s.ths 0).rest = p.worker.tail ∧ (s.ths 0).ret = true ∧ (s'.ths 0).rest = p.worker.loop ++ p.worker.tail) := by
  rcases rest_of d u with h | ⟨h, a, ha, _⟩ | ⟨h, k, hk, hr, e⟩
  · exact .inl h
  · exact .inr (.inl ⟨h, a, ha⟩)
  · right; right
    have h0 : t = 0 := by
      by_cases h0 : t = 0
      · exact h0
      exfalso
      have hm : Instr.again ∈ p.code t := (i.suffix t h0).subset (by rw [hk]; exact List.mem_cons_self)
      by_cases h1 : t = 1
      · subst h1; exact (not_in_master p).1 hm
      · exact (not_in_others p t h0 h1).2.2.1 hm
    subst h0
    have ht := worker_again (p := p) (k := k) (by rw [← hk]; exact i.worker)
    exact ⟨h, rfl, by rw [hk, ht], hr, by rw [e, ← ht]⟩

theorem pinv_step {p : Program} {s s' : St} {t : Nat} {c : Choice} (i : PInv p s) (e : step p.worker.loop s t c = .next s') : PInv p s' := by
  have d := does e
  have hi := inv_step (balanced_loop _) i.inv d
  -- the worker does nothing before it was started
  have hidle : s.started = false → t ≠ 0 := by
    intro hst h0
    subst h0
    unfold step at e
    rw [(i.idle hst).1] at e
    cases c <;> simp [hst] at e
  have hsuf : ∀ u, u ≠ 0 → (s'.ths u).rest <:+ p.code u := by
    intro u hu
    rcases rest_cases i d u with h | ⟨h, a, ha⟩ | ⟨h, _⟩
    · rw [h]; exact i.suffix u hu
    · subst h
      have := i.suffix u hu
      rw [ha] at this
      exact (List.suffix_cons _ _).trans this
    · exact absurd h hu
  have hwork : (s'.ths 0).rest <:+ p.worker.code ∨ ∃ r, r <:+ p.worker.loop ∧ (s'.ths 0).rest = r ++ p.worker.tail := by
    rcases rest_cases i d 0 with h | ⟨h, a, ha⟩ | ⟨_, _, _, _, h⟩
    · rw [h]; exact i.worker
    · subst h
      have := i.worker
      rw [ha] at this
      exact worker_tail this
    · exact .inr ⟨p.worker.loop, List.suffix_refl _, h⟩
  have hcount1 : ∀ a, (p.code 1).count a = 1 → a ∈ (s.ths 1).rest → ∀ k, (s.ths 1).rest = a :: k → a ∉ k := by
    intro a ha hm k hk
    have := (i.suffix 1 (by decide)).sublist.count_le a
    rw [ha, hk, List.count_cons_self] at this
    rw [← List.count_eq_zero]
    omega
  have cs : (p.code 1).count .spawn = 1 := by
    obtain ⟨a, b, c, e, h1, h2⟩ := master_shape p
    rw [e]
    simp [List.count_append, List.count_cons, List.count_eq_zero.2 h1.1, List.count_eq_zero.2 h1.2.1, List.count_eq_zero.2 h1.2.2]
  have cj : (p.code 1).count .join = 1 := by
    obtain ⟨a, b, c, e, h1, h2⟩ := master_shape p
    rw [e]
    simp [List.count_append, List.count_cons, List.count_eq_zero.2 h2.1, List.count_eq_zero.2 h2.2.1, List.count_eq_zero.2 h2.2.2]
  have hone : ∀ a, (a = Instr.spawn ∨ a = Instr.join) → ∀ k, (s.ths t).rest = a :: k → t = 1 := by
    intro a ha k hk
    by_cases h1 : t = 1
    · exact h1
    exfalso
    by_cases h0 : t = 0
    · subst h0
      have hm : a ∈ (s.ths 0).rest := by rw [hk]; exact List.mem_cons_self
      have hn1 := not_in_worker p.worker
      have hn2 := not_in_loop p.worker
      have hn3 := not_in_tail p.worker
      rcases i.worker with h | ⟨r, hr, e⟩
      · have := h.subset hm
        rcases ha with ha | ha <;> subst ha <;> simp_all
      · rw [e] at hm
        rcases List.mem_append.1 hm with hm | hm
        · have := hr.subset hm
          rcases ha with ha | ha <;> subst ha <;> simp_all
        · rcases ha with ha | ha <;> subst ha <;> simp_all
    · have hm := (i.suffix t h0).subset (by rw [hk]; exact List.mem_cons_self (a := a) (l := k))
      have hn := not_in_others p t h0 h1
      rcases ha with ha | ha <;> subst ha <;> simp_all
  have hflag : s'.alive = true → Instr.set true ∉ (s'.ths 0).rest := by
    intro ha
    by_cases hb : s.alive = true
    · -- it was set before
      have hold := i.flag hb
      rcases rest_cases i d 0 with h | ⟨h, a, hr⟩ | ⟨_, _, _, _, h⟩
      · rw [h]; exact hold
      · subst h
        rw [hr] at hold
        exact fun hm => hold (List.mem_cons_of_mem _ hm)
      · rw [h]
        simp [(not_in_loop p.worker).2.2.2 true, (not_in_tail p.worker).2.2 true]
    · -- it was set by this step
      cases d with
      | set b k hs hr =>
        have hbt : b = true := ha
        subst hbt
        have h0 : t = 0 := by
          by_cases h0 : t = 0
          · exact h0
          · exact absurd (by rw [hr]; exact List.mem_cons_self) (set_true_not i t h0)
        subst h0
        simp only [St.goOn, upd_self]
        exact no_set_true (p := p) (k := k) (by rw [← hr]; exact i.worker)
      | _ => exact absurd ha hb
  -- the rest of the master
  have hrest1 : t ≠ 1 → (s'.ths 1).rest = (s.ths 1).rest := by
    intro ht
    rcases rest_cases i d 1 with h | ⟨h, _⟩ | ⟨h, _⟩
    · exact h
    · exact absurd h.symm ht
    · exact absurd h (by decide)
  have hkeep : ∀ a, (s'.ths 1).rest = (s.ths 1).rest ∨ (∃ b, b ≠ a ∧ (s.ths 1).rest = b :: (s'.ths 1).rest) →
      (a ∉ (s'.ths 1).rest ↔ a ∉ (s.ths 1).rest) := by
    intro a h
    rcases h with h | ⟨b, hb, h⟩
    · rw [h]
    · rw [h]
      simp [Ne.symm hb]
  have hmaster : ∀ (x : Bool) (a : Instr), (x = true ↔ a ∉ (s.ths 1).rest) →
      ((s'.ths 1).rest = (s.ths 1).rest ∨ (∃ b, b ≠ a ∧ (s.ths 1).rest = b :: (s'.ths 1).rest)) → (x = true ↔ a ∉ (s'.ths 1).rest) := by
    intro x a hx h
    rw [hkeep a h]; exact hx
  -- steps other than spawn keep `started`, steps other than join keep `joined`
  have hs1 : s'.started = true ↔ Instr.spawn ∉ (s'.ths 1).rest := by
    by_cases ht : t = 1
    · subst ht
      cases d with
      | spawn k hs hr hn =>
        have := hcount1 .spawn cs (by rw [hr]; exact List.mem_cons_self) k hr
        simp [St.goOn, upd_self, this]
      | againYes k hs hr hret =>
        exact absurd (by rw [hr]; exact List.mem_cons_self) (fun hm => (not_in_master p).1 ((i.suffix 1 (by decide)).subset hm))
      | wakes b hs => exact hmaster _ _ i.started (.inl (by simp [St.wakes, upd_self]))
      | reacquire hs ho => exact hmaster _ _ i.started (.inl (by simp [upd_self]))
      | wait timed k hs hr ho => exact hmaster _ _ i.started (.inr ⟨if timed then .timedWait else .wait, by cases timed <;> simp, by simpa [upd_self] using hr⟩)
      | lock k hs hr => exact hmaster _ _ i.started (.inr ⟨.lock, by decide, by simpa [St.goOn, upd_self] using hr⟩)
      | unlock k hs hr => exact hmaster _ _ i.started (.inr ⟨.unlock, by decide, by simpa [St.goOn, upd_self] using hr⟩)
      | signalNone k hs hr => exact hmaster _ _ i.started (.inr ⟨.signal, by decide, by simpa [St.goOn, upd_self] using hr⟩)
      | signal k w hs hr => exact hmaster _ _ i.started (.inr ⟨.signal, by decide, by simpa [St.goOn, upd_self] using hr⟩)
      | set b k hs hr => exact hmaster _ _ i.started (.inr ⟨.set b, by simp, by simpa [St.goOn, upd_self] using hr⟩)
      | get k hs hr => exact hmaster _ _ i.started (.inr ⟨.get, by decide, by simpa [St.goOn, upd_self] using hr⟩)
      | againNo k hs hr => exact hmaster _ _ i.started (.inr ⟨.again, by decide, by simpa [St.goOn, upd_self] using hr⟩)
      | join k hs hr => exact hmaster _ _ i.started (.inr ⟨.join, by decide, by simpa [St.goOn, upd_self] using hr⟩)
      | work k hs hr => exact hmaster _ _ i.started (.inr ⟨.work, by decide, by simpa [St.goOn, upd_self] using hr⟩)
    · have hst : s'.started = s.started := by
        cases d with
        | spawn k hs hr hn => exact absurd (hone _ (.inl rfl) k hr) ht
        | _ => rfl
      rw [hst, hrest1 ht]
      exact i.started
  have hj1 : s'.joined = true ↔ Instr.join ∉ (s'.ths 1).rest := by
    by_cases ht : t = 1
    · subst ht
      cases d with
      | join k hs hr hn =>
        have := hcount1 .join cj (by rw [hr]; exact List.mem_cons_self) k hr
        simp [St.goOn, upd_self, this]
      | againYes k hs hr hret =>
        exact absurd (by rw [hr]; exact List.mem_cons_self) (fun hm => (not_in_master p).1 ((i.suffix 1 (by decide)).subset hm))
      | wakes b hs => exact hmaster _ _ i.joined (.inl (by simp [St.wakes, upd_self]))
      | reacquire hs ho => exact hmaster _ _ i.joined (.inl (by simp [upd_self]))
      | wait timed k hs hr ho => exact hmaster _ _ i.joined (.inr ⟨if timed then .timedWait else .wait, by cases timed <;> simp, by simpa [upd_self] using hr⟩)
      | lock k hs hr => exact hmaster _ _ i.joined (.inr ⟨.lock, by decide, by simpa [St.goOn, upd_self] using hr⟩)
      | unlock k hs hr => exact hmaster _ _ i.joined (.inr ⟨.unlock, by decide, by simpa [St.goOn, upd_self] using hr⟩)
      | signalNone k hs hr => exact hmaster _ _ i.joined (.inr ⟨.signal, by decide, by simpa [St.goOn, upd_self] using hr⟩)
      | signal k w hs hr => exact hmaster _ _ i.joined (.inr ⟨.signal, by decide, by simpa [St.goOn, upd_self] using hr⟩)
      | set b k hs hr => exact hmaster _ _ i.joined (.inr ⟨.set b, by simp, by simpa [St.goOn, upd_self] using hr⟩)
      | get k hs hr => exact hmaster _ _ i.joined (.inr ⟨.get, by decide, by simpa [St.goOn, upd_self] using hr⟩)
      | againNo k hs hr => exact hmaster _ _ i.joined (.inr ⟨.again, by decide, by simpa [St.goOn, upd_self] using hr⟩)
      | spawn k hs hr => exact hmaster _ _ i.joined (.inr ⟨.spawn, by decide, by simpa [St.goOn, upd_self] using hr⟩)
      | work k hs hr => exact hmaster _ _ i.joined (.inr ⟨.work, by decide, by simpa [St.goOn, upd_self] using hr⟩)
    · have hst : s'.joined = s.joined := by
        cases d with
        | join k hs hr hn => exact absurd (hone _ (.inr rfl) k hr) ht
        | _ => rfl
      rw [hst, hrest1 ht]
      exact i.joined
  have hid : s'.started = false → s'.ths 0 = ⟨p.worker.code, false, .ready⟩ ∧ s'.owner ≠ some 0 := by
    intro hst
    have hso : s.started = false := by
      cases d with
      | spawn k hs hr hn => exact absurd hst (by simp)
      | _ => exact hst
    have ht : t ≠ 0 := hidle hso
    obtain ⟨h1, h2⟩ := i.idle hso
    have hns : (0 : Nat) ∉ s.sleepers := by
      intro hm
      obtain ⟨b, hb⟩ := (i.inv.asleep 0).1 hm
      rw [h1] at hb
      cases hb
    cases d with
    | signal k w hs hr hw =>
      have hw0 : (0 : Nat) ≠ w := by
        intro e; subst e; exact hns hw
      simp only [St.goOn, St.wakes, upd_ne _ _ (Ne.symm ht), upd_ne _ _ hw0]
      exact ⟨h1, h2⟩
    | lock k hs hr ho => simp [St.goOn, upd_ne _ _ (Ne.symm ht), h1, ht]
    | reacquire hs ho => simp [upd_ne _ _ (Ne.symm ht), h1, ht]
    | unlock k hs hr ho => simp [St.goOn, upd_ne _ _ (Ne.symm ht), h1]
    | wait timed k hs hr ho => simp [upd_ne _ _ (Ne.symm ht), h1]
    | spawn k hs hr hn => exact absurd hst (by simp)
    | _ => exact ⟨by simp [St.goOn, St.wakes, upd_ne _ _ (Ne.symm ht), h1], h2⟩
  exact ⟨hi, hsuf, hwork, hs1, hj1, hid, hflag⟩

theorem pinv_init (p : Program) : PInv p p.init := by
  obtain ⟨a, b, c, e, h1, h2⟩ := master_shape p
  refine ⟨inv_initial (balanced_program p), fun t _ => List.suffix_refl _, .inl (List.suffix_refl _), ?_, ?_, fun _ => ⟨rfl, by simp [Program.init, initial]⟩, ?_⟩
  · simp [Program.init, initial, e]
  · simp [Program.init, initial, e]
  · simp [Program.init, initial]

theorem pinv_run {p : Program} (l : List (Nat × Choice)) {s s' : St} (i : PInv p s) (h : run p.worker.loop s l = some s') : PInv p s' := by
  induction l generalizing s with
  | nil => cases h; exact i
  | cons x l ih =>
    simp only [run] at h
    cases e : step p.worker.loop s x.1 x.2 with
    | next s1 =>
      rw [e] at h
      exact ih (pinv_step i e) h
    | _ => rw [e] at h; cases h

theorem pinv_reaches {p : Program} {s s' : St} (i : PInv p s) (h : p.Reaches s s') : PInv p s' := by
  obtain ⟨l, hl⟩ := h
  exact pinv_run l i hl

end Verif.Thread
