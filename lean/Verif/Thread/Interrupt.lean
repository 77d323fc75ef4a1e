import Verif.Thread.Program
/-
C97, C98: when nothing can happen any more; once the flag is down everything comes to an end.
-/
namespace Verif.Thread

/-! ### where threads can be stuck -/

/-- a thread that has nothing left to do -/
def St.finished (s : St) (t : Nat) : Prop := (s.ths t).rest = [] ∧ (s.ths t).status = .ready

/-- `joinStep` blocked -/
def St.joining (s : St) (t : Nat) : Prop := (s.ths t).status = .ready ∧ ∃ k, (s.ths t).rest = .join :: k

theorem signal_enabled (s : St) (t : Nat) (k : List Instr) : ∃ s', signalStep s t k 0 = .next s' := by
  unfold signalStep
  split
  · exact ⟨_, rfl⟩
  · rename_i h
    cases e : s.sleepers with
    | nil => exact absurd e h
    | cons w l => exact ⟨_, rfl⟩

theorem stuck_cases {body : List Instr} {s : St} (i : Inv s) (hidle : s.started = false → s.owner ≠ some 0) (h : Stuck body s)
    (hu : ∀ t i, step body s t (.run i) ≠ .ub) :
    s.owner = none ∧ ∀ t, s.finished t ∨ (s.ths t).status = .asleep false ∨ (s.joining t ∧ ¬ s.over) ∨ (t = 0 ∧ s.started = false) := by
  have ready : ∀ t, (s.ths t).status = .ready → ¬ (t = 0 ∧ s.started = false) → ∀ j, readyStep body s t j (s.ths t).rest = .blocked := by
    intro t hs hn j
    have := (h t j).1
    simp only [step, hs, hn, if_false] at this
    exact this
  have hsig : ∀ t k, (s.ths t).status = .ready → ¬ (t = 0 ∧ s.started = false) → (s.ths t).rest ≠ .signal :: k := by
    intro t k hs hn hr
    have hb := ready t hs hn 0
    rw [hr] at hb
    obtain ⟨s', e⟩ := signal_enabled s t k
    simp only [readyStep, e] at hb
    cases hb
  have ho : s.owner = none := by
    cases e : s.owner with
    | none => rfl
    | some u =>
      exfalso
      have g := i.good u
      have hs : (s.ths u).status = .ready := by
        cases e2 : (s.ths u).status with
        | ready => rfl
        | asleep b => exact absurd e (g.away (by rw [e2]; simp)).1
        | woken => exact absurd e (g.away (by rw [e2]; simp)).1
      have hn : ¬ (u = 0 ∧ s.started = false) := by
        rintro ⟨h0, h1⟩
        subst h0
        exact hidle h1 e
      have hw := g.ready hs
      simp only [e, decide_true] at hw
      cases e3 : (s.ths u).rest with
      | nil => rw [e3] at hw; simp [walk] at hw
      | cons a k =>
        rw [e3] at hw
        have hb := ready u hs hn 0
        rw [e3] at hb
        cases a with
        | signal => exact hsig u k hs hn e3
        | lock => simp [walk] at hw
        | again => simp [walk] at hw
        | spawn => simp [walk] at hw
        | join => simp [walk] at hw
        | unlock => simp [readyStep, unlockStep, e] at hb
        | wait => simp [readyStep, waitStep, e] at hb
        | timedWait => simp [readyStep, waitStep, e] at hb
        | set b => simp [readyStep] at hb
        | get => simp [readyStep] at hb
        | work => simp [readyStep] at hb
  refine ⟨ho, fun t => ?_⟩
  cases e2 : (s.ths t).status with
  | asleep b =>
    cases b with
    | false => exact .inr (.inl rfl)
    | true =>
      have := (h t 0).2
      simp only [step, e2] at this
      cases this
  | woken =>
    have := (h t 0).1
    simp only [step, e2, ho, if_true] at this
    cases this
  | ready =>
    by_cases hn : t = 0 ∧ s.started = false
    · exact .inr (.inr (.inr hn))
    have hb := ready t e2 hn 0
    cases e3 : (s.ths t).rest with
    | nil => exact .inl ⟨e3, e2⟩
    | cons a k =>
      rw [e3] at hb
      have hw := (i.good t).ready e2
      rw [e3, ho] at hw
      cases a with
      | signal => exact absurd e3 (hsig t k e2 hn)
      | lock => simp [readyStep, ho] at hb
      | unlock => simp [walk] at hw
      | wait => simp [walk] at hw
      | timedWait => simp [walk] at hw
      | set b => simp [readyStep] at hb
      | get => simp [readyStep] at hb
      | work => simp [readyStep] at hb
      | again =>
        simp only [readyStep, againStep] at hb
        split at hb <;> cases hb
      | spawn =>
        simp only [readyStep] at hb
        split at hb <;> cases hb
      | join =>
        right; right; left
        refine ⟨⟨e2, k, e3⟩, ?_⟩
        intro hov
        have hub := hu t 0
        simp only [step, e2, hn, if_false, e3, readyStep, joinStep, hov, if_true] at hb hub
        split at hb <;> simp_all

/-! ### the flag is down: every step brings the end nearer -/

/-- steps an instruction can take: a wait is also woken and gets the mutex again -/
def weight : Instr → Nat
  | .wait => 3
  | .timedWait => 3
  | _ => 1

def size (l : List Instr) : Nat := (l.map weight).sum

theorem size_append (a b : List Instr) : size (a ++ b) = size a + size b := by simp [size]
theorem size_cons (x : Instr) (k : List Instr) : size (x :: k) = weight x + size k := by simp [size]

def Status.left : Status → Nat
  | .ready => 0
  | .asleep _ => 2
  | .woken => 1

/-- the next end of the loop is reached without asking again -/
def hot : List Instr → Bool
  | [] => false
  | .again :: _ => true
  | .get :: _ => false
  | _ :: k => hot k

/-- steps a thread has left when the flag is down -/
def Th.left (body : List Instr) (x : Th) : Nat := size x.rest + x.status.left + if x.ret && hot x.rest then size body + 1 else 0

theorem hot_asks {a b : List Instr} (h : Instr.again ∉ a) (hg : Instr.get ∈ a) : hot (a ++ b) = false := by
  induction a with
  | nil => cases hg
  | cons x a ih =>
    simp only [List.mem_cons, not_or] at h
    cases x with
    | again => exact absurd rfl h.1
    | get => rfl
    | _ =>
      simp only [List.mem_cons] at hg
      exact ih h.2 (by rcases hg with hg | hg; · cases hg
                       · exact hg)

/-- the flag is down and nobody will set it -/
structure Down (s : St) : Prop where
  alive : s.alive = false
  never : ∀ t, Instr.set true ∉ (s.ths t).rest

def total (body : List Instr) (n : Nat) (f : Nat → Th) : Nat := ((List.range n).map (fun t => (f t).left body)).sum

theorem total_upd (body : List Instr) (n : Nat) (f : Nat → Th) (t : Nat) (x : Th) (h : t < n) :
    total body n (upd f t x) + (f t).left body = total body n f + x.left body := by
  induction n with
  | zero => omega
  | succ n ih =>
    have e : ∀ g, total body (n + 1) g = total body n g + (g n).left body := by
      intro g; simp [total, List.range_succ]
    rw [e, e]
    by_cases h2 : t = n
    · subst h2
      have : total body t (upd f t x) = total body t f := by
        unfold total
        congr 1
        apply List.map_congr_left
        intro u hu
        rw [upd_ne _ _ (by simp at hu; omega)]
      rw [this, upd_self]
      omega
    · have := ih (by omega)
      rw [upd_ne _ _ (Ne.symm h2)]
      omega

theorem left_lt {body : List Instr} {a : Instr} {k : List Instr} {r : Bool} (h1 : a ≠ .again) (h2 : a ≠ .get) (hw : weight a = 1) :
    (Th.mk k r .ready).left body + 1 ≤ (Th.mk (a :: k) r .ready).left body := by
  have hh : hot (a :: k) = hot k := by cases a <;> first | rfl | exact absurd rfl h1 | exact absurd rfl h2
  simp only [Th.left, size_cons, hw, hh, Status.left]
  omega

/-- every step uses up at least one of the steps that are left -/
theorem down_step {body : List Instr} (hb1 : Instr.again ∉ body) (hb2 : Instr.get ∈ body) (hb3 : Instr.set true ∉ body) {s s' : St} {t n : Nat} (hd : Down s) (i : Inv s)
    (hn : ∀ u, n ≤ u → (s.ths u).rest = [] ∧ (s.ths u).status = .ready) (d : Does body s t s') :
    Down s' ∧ (∀ u, n ≤ u → (s'.ths u).rest = [] ∧ (s'.ths u).status = .ready) ∧ total body n s'.ths + 1 ≤ total body n s.ths := by
  -- only threads below `n` do anything
  have htn : t < n := by
    by_cases h : t < n
    · exact h
    · exfalso
      obtain ⟨e1, e2⟩ := hn t (by omega)
      cases d <;> simp_all
  -- nobody sets the flag
  have hnever : ∀ u, Instr.set true ∉ (s'.ths u).rest := by
    intro u
    rcases rest_of d u with h | ⟨h, a, ha, _⟩ | ⟨h, k, hk, hr, e⟩
    · rw [h]; exact hd.never u
    · subst h
      have := hd.never u
      rw [ha] at this
      exact fun hm => this (List.mem_cons_of_mem _ hm)
    · subst h
      have := hd.never u
      rw [hk] at this
      rw [e]
      intro hm
      rcases List.mem_append.1 hm with hm | hm
      · exact hb3 hm
      · exact this hm
  have halive : s'.alive = false := by
    cases d with
    | set b k hs hr =>
      cases b with
      | false => rfl
      | true => exact absurd (by rw [hr]; exact List.mem_cons_self) (hd.never t)
    | _ => exact hd.alive
  -- threads that are not there do nothing
  have hbeyond : ∀ u, n ≤ u → s'.ths u = s.ths u := by
    intro u hu
    have hut : u ≠ t := by omega
    cases d with
    | signal k w hs hr hw =>
      have huw : u ≠ w := by
        intro e
        subst e
        obtain ⟨b, hb⟩ := (i.asleep u).1 hw
        rw [(hn u hu).2] at hb
        cases hb
      simp [St.goOn, St.wakes, upd_ne _ _ hut, upd_ne _ _ huw]
    | _ => simp [St.goOn, St.wakes, upd_ne _ _ hut]
  refine ⟨⟨halive, hnever⟩, fun u hu => by rw [hbeyond u hu]; exact hn u hu, ?_⟩
  -- the count
  have key : ∀ (x : Th), s'.ths = upd s.ths t x → x.left body + 1 ≤ (s.ths t).left body → total body n s'.ths + 1 ≤ total body n s.ths := by
    intro x e hx
    have := total_upd body n s.ths t x htn
    rw [e]
    omega
  have plain : ∀ (a : Instr) (k : List Instr), (s.ths t).status = .ready → (s.ths t).rest = a :: k → a ≠ .again → a ≠ .get → weight a = 1 →
      (Th.mk k (s.ths t).ret (s.ths t).status).left body + 1 ≤ (s.ths t).left body := by
    intro a k hs hr h1 h2 hw
    have := left_lt (body := body) (k := k) (r := (s.ths t).ret) h1 h2 hw
    have e : s.ths t = ⟨a :: k, (s.ths t).ret, .ready⟩ := by rw [← hr, ← hs]
    rw [hs]
    rw [e]
    exact this
  cases d with
  | lock k hs hr ho => exact key _ rfl (plain _ k hs hr (by decide) (by decide) rfl)
  | unlock k hs hr ho => exact key _ rfl (plain _ k hs hr (by decide) (by decide) rfl)
  | signalNone k hs hr he => exact key _ rfl (plain _ k hs hr (by decide) (by decide) rfl)
  | set b k hs hr => exact key _ rfl (plain _ k hs hr (by simp) (by simp) rfl)
  | spawn k hs hr h => exact key _ rfl (plain _ k hs hr (by decide) (by decide) rfl)
  | join k hs hr h1 h2 => exact key _ rfl (plain _ k hs hr (by decide) (by decide) rfl)
  | work k hs hr => exact key _ rfl (plain _ k hs hr (by decide) (by decide) rfl)
  | wait timed k hs hr ho =>
    refine key _ rfl ?_
    have e : s.ths t = ⟨(if timed then .timedWait else .wait) :: k, (s.ths t).ret, .ready⟩ := by rw [← hr, ← hs]
    rw [e]
    cases timed <;> simp only [Th.left, size_cons, weight, Status.left, hot, Bool.false_eq_true, if_false, if_true] <;> omega
  | get k hs hr =>
    refine key _ rfl ?_
    have e : s.ths t = ⟨.get :: k, (s.ths t).ret, .ready⟩ := by rw [← hr, ← hs]
    rw [e, hd.alive]
    simp only [Th.left, size_cons, weight, Status.left, hot, Bool.false_and, Bool.and_false, Bool.false_eq_true, if_false]
    omega
  | againYes k hs hr hret =>
    refine key _ rfl ?_
    have e : s.ths t = ⟨.again :: k, true, .ready⟩ := by rw [← hr, ← hs, ← hret]
    rw [e]
    simp only [Th.left, size_append, size_cons, weight, Status.left, hot_asks hb1 hb2, Bool.and_false, Bool.false_eq_true, if_false, hot,
      Bool.and_true, if_true]
    omega
  | againNo k hs hr hret =>
    refine key _ rfl ?_
    have e : s.ths t = ⟨.again :: k, false, .ready⟩ := by rw [← hr, ← hs, ← hret]
    rw [e]
    simp only [Th.left, size_cons, weight, Status.left, Bool.false_and, Bool.false_eq_true, if_false]
    omega
  | wakes b hs =>
    refine key _ rfl ?_
    have e : s.ths t = ⟨(s.ths t).rest, (s.ths t).ret, .asleep b⟩ := by rw [← hs]
    rw [e]
    simp only [Th.left, Status.left]
    omega
  | reacquire hs ho =>
    refine key _ rfl ?_
    have e : s.ths t = ⟨(s.ths t).rest, (s.ths t).ret, .woken⟩ := by rw [← hs]
    rw [e]
    simp only [Th.left, Status.left]
    omega
  | signal k w hs hr hw =>
    obtain ⟨b, hb⟩ := (i.asleep w).1 hw
    have hne : t ≠ w := by
      intro e
      rw [← e, hs] at hb
      cases hb
    have hwn : w < n := by
      by_cases h : w < n
      · exact h
      · exact absurd (hn w (by omega)).2 (by rw [hb]; simp)
    have h1 := total_upd body n s.ths w { s.ths w with status := .woken } hwn
    have h2 := total_upd body n (upd s.ths w { s.ths w with status := .woken }) t { s.ths t with rest := k } htn
    rw [upd_ne _ _ hne] at h2
    have e : (St.goOn (s.wakes w) t k).ths = upd (upd s.ths w { s.ths w with status := .woken }) t { s.ths t with rest := k } := by
      simp only [St.goOn, St.wakes, upd_ne _ _ hne]
    have h3 := plain _ k hs hr (by decide) (by decide) rfl
    have h4 : (Th.left body { s.ths w with status := .woken }) ≤ (s.ths w).left body := by
      have e2 : s.ths w = ⟨(s.ths w).rest, (s.ths w).ret, .asleep b⟩ := by rw [← hb]
      rw [e2]
      simp only [Th.left, Status.left]
      omega
    rw [e]
    have h5 : (Th.left body { s.ths t with rest := k }) + 1 ≤ (s.ths t).left body := h3
    omega

theorem down_run {p : Program} {n : Nat} (l : List (Nat × Choice)) {s s' : St} (i : PInv p s) (hd : Down s)
    (hn : ∀ u, n ≤ u → (s.ths u).rest = [] ∧ (s.ths u).status = .ready) (h : run p.worker.loop s l = some s') :
    Down s' ∧ total p.worker.loop n s'.ths + l.length ≤ total p.worker.loop n s.ths := by
  have hl := not_in_loop p.worker
  induction l generalizing s with
  | nil => cases h; exact ⟨hd, Nat.le_refl _⟩
  | cons x l ih =>
    simp only [run] at h
    cases e : step p.worker.loop s x.1 x.2 with
    | next s1 =>
      rw [e] at h
      obtain ⟨h1, h2, h3⟩ := down_step hl.2.2.1 (by simp [Worker.loop, isAlive]) (hl.2.2.2 true) hd i.inv hn (does e)
      obtain ⟨h4, h5⟩ := ih (pinv_step i e) h1 h2 h
      refine ⟨h4, ?_⟩
      simp only [List.length_cons]
      omega
    | _ => rw [e] at h; cases h

end Verif.Thread
