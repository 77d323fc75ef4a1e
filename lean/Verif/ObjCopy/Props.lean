import Verif.ObjCopy.Lemmas
/-
C121: objects live exactly as long as there are references to them - and the cases in which they do not.
-/
namespace Verif.ObjCopy
open Verif
open Verif.RefCount (refCount withHighBit highBit cv)

/-- the state of the library and the book agree -/
structure Inv (s : State) (b : Book) : Prop where
  objs : Good s.objs b.next b.refs b.mark b.born b.userCopy
  on : b.running = true → s.main = some b.session ∧ s.pools.length = b.session + 1 ∧ s.pools[b.session]? = some (some b.pool)
  off : b.running = false → s.main = none ∧ s.pools.length = b.session ∧ b.pool = []
  entries : ∀ o ∈ b.pool, o < b.next ∧ b.born o = b.session
  dead : ∀ p, p < b.session → s.pools[p]? = some none

theorem inv_start : Inv .start .start :=
  ⟨⟨rfl, fun _ h => absurd h (by simp [Book.start])⟩, fun h => (by cases h), fun _ => ⟨rfl, rfl, rfl⟩, by simp [Book.start],
    fun _ h => absurd h (by simp [Book.start])⟩

theorem Good.alloc {h : Heap Obj} {n : Nat} {r r' : Nat → Nat} {mark mark' : Nat → Bool} {born born' : Nat → Nat} {u u' : Nat → Bool}
    (g : Good h n r mark born u) (x : Obj) (hs : Slot (some (some x)) (r' n) (mark' n) (born' n) (u' n))
    (e : ∀ i, i < n → r' i = r i ∧ mark' i = mark i ∧ born' i = born i ∧ u' i = u i) : Good (h.alloc x).1 (n + 1) r' mark' born' u' := by
  refine ⟨by simp [Heap.alloc, g.len], fun i hi => ?_⟩
  by_cases e' : i = n
  · subst e'
    have : (h.alloc x).1[i]? = some (some x) := by simp [Heap.alloc, ← g.len]
    rw [this]; exact hs
  · have hi' : i < n := by omega
    obtain ⟨h1, h2, h3, h4⟩ := e i hi'
    have : (h.alloc x).1[i]? = h[i]? := by
      show (h ++ [some x])[i]? = _
      exact List.getElem?_append_left (by rw [g.len]; exact hi')
    rw [this, h1, h2, h3, h4]
    exact g.slot i hi'

theorem assigned_own {y x : Obj} (h : y.userCopy = true) : assigned y x = y := by simp [assigned, h]

theorem assigned_implicit {y x : Obj} (h : y.userCopy = false) :
    (assigned y x).raw = x.raw ∧ (assigned y x).pool = x.pool ∧ (assigned y x).userCopy = false := by simp [assigned, h]

theorem slot_new (b : Nat) (u : Bool) : Slot (some (some ⟨1, some b, u⟩)) 1 false b u := by
  unfold Slot
  rw [if_neg (by decide)]
  exact ⟨_, rfl, (by decide : cv 1 = 1), (by decide : highBit 1 = false), rfl, rfl⟩

/-- a new object enters the book -/
theorem inv_add {s : State} {b : Book} (i : Inv s b) (u : Bool) (x : Obj) (hs : Slot (some (some x)) 1 false b.session u) :
    Inv { s with objs := (s.objs.alloc x).1 } (b.add u) := by
  have hc : b.pool.count b.next = 0 := by
    rw [List.count_eq_zero]; intro hm; have := (i.entries _ hm).1; omega
  refine ⟨i.objs.alloc x ?_ ?_, i.on, i.off, ?_, i.dead⟩
  · simp only [Book.refs, Book.add, set, if_true, hc]
    exact hs
  · intro j hj
    have : j ≠ b.next := by omega
    simp [Book.refs, Book.add, set, this]
  · intro o ho
    have := i.entries o ho
    refine ⟨by show o < b.next + 1; omega, ?_⟩
    show set b.born b.next b.session o = b.session
    unfold set; split
    · rfl
    · exact this.2

theorem usable_get {s : State} {b : Book} (i : Inv s b) {o : Nat} (h : b.Usable o) :
    ∃ x, s.objs[o]? = some (some x) ∧ cv x.raw = b.refs o ∧ highBit x.raw = b.mark o ∧ x.pool = some (b.born o) ∧ x.userCopy = b.userCopy o ∧
      s.pools[b.born o]? = some (some b.pool) := by
  obtain ⟨x, h1, h2, h3, h4, h5⟩ := i.objs.get h.1 (by have := h.2.1; unfold Book.refs; omega)
  exact ⟨x, h1, h2, h3, h4, h5, by rw [h.2.2.2]; exact (i.on h.2.2.1).2.2⟩

/-- draining the pool of the session -/
theorem drainPool_ok {s : State} {b : Book} (i : Inv s b) (hr : b.running = true) :
    ∃ h', drainPool s b.session = .ok { s with objs := h', pools := s.pools.set b.session (some []) } ∧
      Good h' b.next b.own b.mark b.born b.userCopy := by
  obtain ⟨_, _, h3⟩ := i.on hr
  obtain ⟨h', e, g⟩ := releaseAll_ok b.pool (s := s) (r := b.own) (p := b.session) i.objs i.entries h3
  refine ⟨h', ?_, g⟩
  simp only [drainPool, Heap.load_ok h3]
  show (releaseAll s b.pool >>= _) = _
  rw [e]
  show (s.pools.store b.session [] >>= _) = _
  rw [Heap.store_ok h3]
  rfl

/-- one call -/
theorem step_ok {s : State} {b : Book} (i : Inv s b) (a : Act) (ha : b.Allowed a) : ∃ s', step s a = .ok s' ∧ Inv s' (b.act a) := by
  cases a with
  | init =>
    refine ⟨init s, rfl, ?_⟩
    cases hr : b.running with
    | true =>
      have h := i.on hr
      have e : init s = s := by unfold init; rw [h.1]
      have eb : b.act .init = b := by cases b; simp only at hr; subst hr; rfl
      rw [e, eb]; exact i
    | false =>
      obtain ⟨h1, h2, h3⟩ := i.off hr
      have e : init s = { s with pools := (s.pools.alloc []).1, main := some (s.pools.alloc []).2 } := by unfold init; rw [h1]
      rw [e]
      refine ⟨i.objs, fun _ => ⟨?_, ?_, ?_⟩, fun h => (by cases h), i.entries, fun p hp => ?_⟩
      · show some s.pools.length = some b.session; rw [h2]
      · show (s.pools ++ [some []]).length = b.session + 1; simp [h2]
      · show (s.pools ++ [some []])[b.session]? = some (some b.pool)
        rw [← h2, h3]; simp
      · show (s.pools ++ [some []])[p]? = some none
        have hp' : p < b.session := hp
        rw [List.getElem?_append_left (by omega)]; exact i.dead p hp
  | quit =>
    cases hr : b.running with
    | true =>
      obtain ⟨h1, h2, h3⟩ := i.on hr
      obtain ⟨h', e, g⟩ := drainPool_ok i hr
      have hlt : b.session < s.pools.length := by omega
      refine ⟨⟨h', (s.pools.set b.session (some [])).set b.session none, none⟩, ?_, ?_⟩
      · show quit s = _
        unfold quit
        rw [h1]
        show (drainPool s b.session >>= _) = _
        rw [e]
        show (Heap.free (s.pools.set b.session (some [])) b.session >>= _) = _
        rw [Heap.free_ok (x := []) (by rw [List.getElem?_set_self hlt])]
        rfl
      · have eb : b.act .quit = { b with running := false, session := b.session + 1, pool := [] } := by simp only [Book.act, hr, if_true]
        rw [eb]
        refine ⟨g.congr fun o _ => by simp [Book.refs], fun h => (by cases h), fun _ => ⟨rfl, ?_, rfl⟩, by simp, fun p hp => ?_⟩
        · show ((s.pools.set b.session (some [])).set b.session none).length = b.session + 1
          simp [h2]
        · have hp' : p < b.session + 1 := hp
          show ((s.pools.set b.session (some [])).set b.session none)[p]? = some none
          by_cases e' : p = b.session
          · subst e'; rw [List.getElem?_set_self (by simpa using hlt)]
          · rw [List.getElem?_set_ne (fun h => e' h.symm), List.getElem?_set_ne (fun h => e' h.symm)]
            exact i.dead p (by omega)
    | false =>
      obtain ⟨h1, h2, h3⟩ := i.off hr
      refine ⟨s, ?_, ?_⟩
      · show quit s = _; unfold quit; rw [h1]
      · have eb : b.act .quit = b := by simp [Book.act, hr]
        rw [eb]; exact i
  | create u =>
    refine ⟨_, rfl, ?_⟩
    have hm := (i.on ha).1
    show Inv { s with objs := (s.objs.alloc ⟨1, s.main, u⟩).1 } (b.add u)
    refine inv_add i u _ ?_
    rw [hm]; exact slot_new _ _
  | copy src =>
    obtain ⟨hu, hc⟩ := ha
    obtain ⟨x, hx, c1, c2, c3, c4, _⟩ := usable_get i hu
    refine ⟨_, by simp only [step, copy, Heap.load_ok hx]; rfl, ?_⟩
    refine inv_add i (b.userCopy src) _ ?_
    rw [← c4] at hc ⊢
    cases hx' : x.userCopy with
    | true =>
      rw [if_pos rfl, (i.on hu.2.2.1).1]
      exact slot_new _ _
    | false =>
      rw [hx'] at hc
      obtain ⟨q1, q2⟩ := hc.resolve_left (by simp)
      rw [if_neg (by simp)]
      unfold Slot
      rw [if_neg (by decide)]
      exact ⟨x, rfl, by omega, by rw [c2]; exact q2, by rw [c3, hu.2.2.2], hx'⟩
  | assign dst src =>
    obtain ⟨hd, hs, hk, hc⟩ := ha
    obtain ⟨x, hx, c1, c2, c3, c4, _⟩ := usable_get i hs
    obtain ⟨y, hy, d1, d2, d3, d4, _⟩ := usable_get i hd
    refine ⟨{ s with objs := s.objs.set dst (some (assigned y x)) }, ?_, ?_⟩
    · simp only [step, assign, Heap.load_ok hx]
      show (s.objs.load dst >>= _) = _
      rw [Heap.load_ok hy]
      show (s.objs.store dst _ >>= _) = _
      rw [Heap.store_ok hy]
      rfl
    · refine ⟨i.objs.set hd.1 _ ?_ (fun _ _ => rfl) (fun _ _ => rfl), i.on, i.off, i.entries, i.dead⟩
      unfold Slot
      rw [if_neg (by have := hd.2.1; show b.refs dst ≠ 0; unfold Book.refs; omega)]
      cases hyu : y.userCopy with
      | true => rw [assigned_own hyu]; exact ⟨y, rfl, d1, d2, d3, d4⟩
      | false =>
        rw [← d4, hyu] at hc
        obtain ⟨q1, q2⟩ := hc.resolve_left (by simp)
        obtain ⟨z1, z2, z3⟩ := assigned_implicit (x := x) hyu
        refine ⟨_, rfl, by rw [z1]; show cv x.raw = b.refs dst; omega, by rw [z1, c2, q2]; rfl, ?_, by rw [z3, ← hyu]; exact d4⟩
        rw [z2, c3, hs.2.2.2]
        exact congrArg some hd.2.2.2.symm
  | retain o =>
    obtain ⟨hu, hb⟩ := ha
    obtain ⟨x, hx, c1, c2, c3, c4, c5⟩ := usable_get i hu
    obtain ⟨w1, w2, w3⟩ := word_add (x := x.raw) (by omega)
    refine ⟨{ s with objs := s.objs.set o (some { x with raw := x.raw + 1 }) }, ?_, ?_⟩
    · simp only [step, retain, Heap.load_ok hx]
      show (lockPool s x.pool >>= _) = _
      have hl : lockPool s x.pool = .ok () := by rw [c3]; simp only [lockPool, Heap.load_ok c5]; rfl
      rw [hl]
      show (if x.raw = 0x7FFFFFFF then _ else _) = _
      rw [if_neg w3, Heap.store_ok hx]
      rfl
    · refine ⟨i.objs.set hu.1 _ ?_ (fun j hj => by simp [Book.refs, Book.act, set, hj]) (fun _ _ => rfl), i.on, i.off, i.entries, i.dead⟩
      have : (b.act (.retain o)).refs o = b.refs o + 1 := by simp only [Book.refs, Book.act, set, if_true]; omega
      rw [this]
      unfold Slot
      rw [if_neg (by omega)]
      exact ⟨_, rfl, by show cv (x.raw + 1) = _; omega, by show highBit (x.raw + 1) = _; rw [w2, c2]; rfl, c3, c4⟩
  | release o =>
    obtain ⟨x, hx, c1, c2, c3, c4, c5⟩ := usable_get i ha
    have hown := ha.2.1
    obtain ⟨h', e, g⟩ := release_ok i.objs ha.1 (by unfold Book.refs; omega) c5
    refine ⟨_, e, g.congr fun j _ => ?_, i.on, i.off, i.entries, i.dead⟩
    simp only [Book.refs, Book.act, set]
    split
    · rename_i e; subst e; omega
    · rfl
  | autorelease o =>
    obtain ⟨x, hx, c1, c2, c3, c4, c5⟩ := usable_get i ha
    have hown := ha.2.1
    obtain ⟨h1, h2, h3⟩ := i.on ha.2.2.1
    have hlt : b.session < s.pools.length := by omega
    refine ⟨{ s with pools := s.pools.set (b.born o) (some (b.pool ++ [o])) }, ?_, ?_⟩
    · simp only [step, autorelease, Heap.load_ok hx]
      show (match x.pool with | none => _ | some p => _) = _
      rw [c3]
      show (s.pools.load (b.born o) >>= _) = _
      rw [Heap.load_ok c5]
      show (s.pools.store (b.born o) _ >>= _) = _
      rw [Heap.store_ok c5]
      rfl
    · rw [ha.2.2.2]
      refine ⟨i.objs.congr fun j _ => ?_, fun _ => ⟨h1, ?_, ?_⟩, fun h => ?_, ?_, fun p hp => ?_⟩
      · simp only [Book.refs, Book.act, set, List.count_append]
        by_cases e : j = o
        · subst e; simp; omega
        · rw [if_neg e, List.count_cons_of_ne (fun e' => e e'.symm)]; simp
      · show (s.pools.set _ _).length = _; simp [h2]; rfl
      · show (s.pools.set b.session (some (b.pool ++ [o])))[b.session]? = some (some (b.pool ++ [o]))
        rw [List.getElem?_set_self hlt]
      · exact absurd ha.2.2.1 (by have : b.running = false := h; simp [this])
      · intro j hj
        rcases List.mem_append.1 hj with hj | hj
        · exact i.entries j hj
        · rw [List.mem_singleton.1 hj]; exact ⟨ha.1, ha.2.2.2⟩
      · show (s.pools.set b.session _)[p]? = some none
        have hp' : p < b.session := hp
        rw [List.getElem?_set_ne (by omega)]; exact i.dead p hp
  | mark o v =>
    obtain ⟨x, hx, c1, c2, c3, c4, c5⟩ := usable_get i ha
    refine ⟨{ s with objs := s.objs.set o (some { x with raw := withHighBit x.raw v }) }, ?_, ?_⟩
    · simp only [step, setHighBit, Heap.load_ok hx]
      show (s.objs.store o _ >>= _) = _
      rw [Heap.store_ok hx]
      rfl
    · refine ⟨i.objs.set ha.1 _ ?_ (fun _ _ => rfl) (fun j hj => by simp [Book.act, set, hj]), i.on, i.off, i.entries, i.dead⟩
      unfold Slot
      rw [if_neg (by have := ha.2.1; show b.refs o ≠ 0; unfold Book.refs; omega)]
      refine ⟨_, rfl, by rw [(word_mark x.raw v).1]; exact c1, ?_, c3, c4⟩
      show highBit (withHighBit x.raw v) = _
      rw [(word_mark x.raw v).2]; simp [Book.act, set]
  | drain =>
    obtain ⟨h1, h2, h3⟩ := i.on ha
    obtain ⟨h', e, g⟩ := drainPool_ok i ha
    refine ⟨{ s with objs := h', pools := s.pools.set b.session (some []) }, by
        show drain s = _
        have : drain s = drainPool s b.session := by unfold drain; rw [h1]
        rw [this]; exact e, g.congr fun o _ => by simp [Book.refs, Book.act], fun _ => ⟨h1, ?_, ?_⟩,
      fun h => absurd (show b.running = true from ha) (by have : b.running = false := h; simp [this]), by simp [Book.act], fun p hp => ?_⟩
    · show (s.pools.set b.session (some [])).length = b.session + 1; simp [h2]
    · show (s.pools.set b.session (some []))[b.session]? = some (some [])
      rw [List.getElem?_set_self (by omega)]
    · show (s.pools.set b.session (some []))[p]? = some none
      have hp' : p < b.session := hp
      rw [List.getElem?_set_ne (by omega)]; exact i.dead p hp

theorem run_ok (as : List Act) : ∀ {s : State} {b : Book}, Inv s b → b.Legal as → ∃ s', run s as = .ok s' ∧ Inv s' (b.run as) := by
  induction as with
  | nil => intro s b i _; exact ⟨s, rfl, i⟩
  | cons a as ih =>
    intro s b i h
    obtain ⟨s1, e1, i1⟩ := step_ok i a h.1
    obtain ⟨s2, e2, i2⟩ := ih i1 h.2
    exact ⟨s2, by simp only [run, e1]; exact e2, i2⟩

theorem alive_iff {s : State} {b : Book} (i : Inv s b) {o : Nat} (ho : o < b.next) :
    (Alive s o ↔ 0 < b.refs o) ∧ (0 < b.refs o → countOf s o = .ok (b.refs o) ∧ markOf s o = .ok (b.mark o)) := by
  have hs := i.objs.slot o ho
  unfold Slot at hs
  by_cases hr : b.refs o = 0
  · rw [if_pos hr] at hs
    refine ⟨⟨fun ⟨x, hx⟩ => (by rw [hs] at hx; cases hx), fun h => absurd hr (by omega)⟩, fun h => absurd hr (by omega)⟩
  · rw [if_neg hr] at hs
    obtain ⟨x, hx, h1, h2, _⟩ := hs
    refine ⟨⟨fun _ => by omega, fun _ => ⟨x, hx⟩⟩, fun _ => ⟨?_, ?_⟩⟩
    · simp only [countOf, Heap.load_ok hx]; show Except.ok _ = _; rw [refCount_toNat, h1]
    · simp only [markOf, Heap.load_ok hx]; show Except.ok _ = _; rw [h2]

/-- **C121.** Whatever a program does that keeps to the rules, over any number of sessions: nothing undefined happens, an object exists
exactly as long as there are references to it, its counter tells their number and its mark is the one set last.
Missing: implicit copying with different counts, see `implicit_assign`, `implicit_copy`; objects made before `init` or used
after `quit`, see `before_init`, `after_quit`. -/
theorem lifetime_partial (as : List Act) (h : Book.start.Legal as) :
    ∃ s, run .start as = .ok s ∧ ∀ o, o < (Book.start.run as).next →
      (Alive s o ↔ 0 < (Book.start.run as).refs o) ∧
      (0 < (Book.start.run as).refs o → countOf s o = .ok ((Book.start.run as).refs o) ∧ markOf s o = .ok ((Book.start.run as).mark o)) := by
  obtain ⟨s, e, i⟩ := run_ok as inv_start h
  exact ⟨s, e, fun o ho => alive_iff i ho⟩

/-- a state that a legal program has reached, with its book -/
def Reached (s : State) (b : Book) : Prop := ∃ as, Book.start.Legal as ∧ run .start as = .ok s ∧ b = Book.start.run as

theorem Reached.inv {s : State} {b : Book} (h : Reached s b) : Inv s b := by
  obtain ⟨as, hl, e, rfl⟩ := h
  obtain ⟨s', e', i⟩ := run_ok as inv_start hl
  rw [e] at e'
  cases e'
  exact i

/-- releasing several times -/
theorem releaseN (k : Nat) : ∀ {s : State} {n : Nat} {r : Nat → Nat} {mark : Nat → Bool} {born : Nat → Nat} {u : Nat → Bool}
    {o : Nat} {l : List Nat}, Good s.objs n r mark born u → o < n → k ≤ r o → s.pools[born o]? = some (some l) →
    ∃ h', run s (List.replicate k (.release o)) = .ok { s with objs := h' } ∧ Good h' n (set r o (r o - k)) mark born u := by
  induction k with
  | zero =>
    intro s n r mark born u o l g ho _ _
    exact ⟨s.objs, rfl, g.congr fun j _ => by unfold set; split <;> simp_all⟩
  | succ k ih =>
    intro s n r mark born u o l g ho hk hp
    obtain ⟨h1, e1, g1⟩ := release_ok g ho (by omega) hp
    have hso : set r o (r o - 1) o = r o - 1 := by simp [set]
    obtain ⟨h2, e2, g2⟩ := ih (s := { s with objs := h1 }) g1 ho (by rw [hso]; omega) hp
    refine ⟨h2, ?_, g2.congr fun j _ => ?_⟩
    · rw [List.replicate_succ]; simp only [run, step, e1]; exact e2
    · unfold set
      split
      · simp; omega
      · rfl

theorem run_append (s : State) (l m : List Act) : run s (l ++ m) = (run s l >>= fun s => run s m) := by
  induction l generalizing s with
  | nil => rfl
  | cons a l ih =>
    simp only [List.cons_append, run]
    cases step s a with
    | error e => rfl
    | ok s' => exact ih s'

/-- Violation of C121: assigning an object of a class without its own assignment replaces the counter and the mark of the target by
those of the source. With fewer references to the source the target is destroyed while `own dst - refs src` references to it
are left, and using one of them is undefined; with more references it survives the release of all the program holds. -/
theorem implicit_assign {s : State} {b : Book} (hr : Reached s b) {dst src : Nat} (hd : b.Usable dst) (hs : b.Usable src)
    (hu : b.userCopy dst = false) :
    ∃ s', assign s dst src = .ok s' ∧ countOf s' dst = .ok (b.refs src) ∧ markOf s' dst = .ok (b.mark src) ∧
      (b.refs src < b.own dst → (∃ s'', run s' (List.replicate (b.refs src) (.release dst)) = .ok s'' ∧ ¬ Alive s'' dst) ∧
        run s' (List.replicate (b.refs src + 1) (.release dst)) = .error .ub) ∧
      (b.own dst < b.refs src → ∃ s'', run s' (List.replicate (b.own dst) (.release dst)) = .ok s'' ∧ Alive s'' dst ∧
        countOf s'' dst = .ok (b.refs src - b.own dst)) := by
  have i := hr.inv
  obtain ⟨x, hx, c1, c2, c3, c4, c5⟩ := usable_get i hs
  obtain ⟨y, hy, d1, d2, d3, d4, d5⟩ := usable_get i hd
  have hyu : y.userCopy = false := by rw [d4]; exact hu
  have hlt : dst < s.objs.length := Heap.lt_of_live hy
  obtain ⟨z, hz⟩ : ∃ z, z = assigned y x := ⟨_, rfl⟩
  obtain ⟨z1, z2, z3⟩ := assigned_implicit (x := x) hyu
  rw [← hz] at z1 z2 z3
  have hpos : 0 < b.refs src := by have := hs.2.1; unfold Book.refs; omega
  have g : Good (s.objs.set dst (some z)) b.next (set b.refs dst (b.refs src)) (set b.mark dst (b.mark src)) b.born b.userCopy := by
    refine i.objs.set hd.1 _ ?_ (fun j hj => by simp [set, hj]) (fun j hj => by simp [set, hj])
    have e1 : set b.refs dst (b.refs src) dst = b.refs src := by simp [set]
    have e2 : set b.mark dst (b.mark src) dst = b.mark src := by simp [set]
    rw [e1, e2]
    unfold Slot
    rw [if_neg (by omega)]
    exact ⟨z, rfl, by rw [z1]; exact c1, by rw [z1]; exact c2, by rw [z2, c3, hs.2.2.2, hd.2.2.2], by rw [z3]; exact hu.symm⟩
  have hset : set b.refs dst (b.refs src) dst = b.refs src := by simp [set]
  have hget : (s.objs.set dst (some z))[dst]? = some (some z) := List.getElem?_set_self hlt
  refine ⟨{ s with objs := s.objs.set dst (some z) }, ?_, ?_, ?_, fun hlt' => ⟨?_, ?_⟩, fun hlt' => ?_⟩
  · simp only [assign, Heap.load_ok hx]
    show (s.objs.load dst >>= _) = _
    rw [Heap.load_ok hy]
    show (s.objs.store dst _ >>= _) = _
    rw [Heap.store_ok hy, hz]
    rfl
  · simp only [countOf, Heap.load_ok hget]; show Except.ok _ = _; rw [refCount_toNat, z1, c1]
  · simp only [markOf, Heap.load_ok hget]; show Except.ok _ = _; rw [z1, c2]
  · obtain ⟨h', e, g'⟩ := releaseN (b.refs src) (s := { s with objs := s.objs.set dst (some z) }) g hd.1 (by rw [hset]; exact Nat.le_refl _) d5
    refine ⟨_, e, fun ⟨w, hw⟩ => ?_⟩
    have := g'.slot dst hd.1
    unfold Slot at this
    rw [if_pos (by simp [set])] at this
    rw [show h'[dst]? = some (some w) from hw] at this
    cases this
  · obtain ⟨h', e, g'⟩ := releaseN (b.refs src) (s := { s with objs := s.objs.set dst (some z) }) g hd.1 (by rw [hset]; exact Nat.le_refl _) d5
    rw [List.replicate_succ', run_append, e]
    have := g'.slot dst hd.1
    unfold Slot at this
    rw [if_pos (by simp [set])] at this
    show (do let s ← release _ dst; run s []) = _
    simp only [release, Heap.load_free this]
    rfl
  · obtain ⟨h', e, g'⟩ := releaseN (b.own dst) (s := { s with objs := s.objs.set dst (some z) }) g hd.1 (by rw [hset]; omega) d5
    obtain ⟨w, hw, w1, _⟩ := g'.get hd.1 (by simp [set]; omega)
    refine ⟨_, e, ⟨w, hw⟩, ?_⟩
    simp only [countOf]
    rw [Heap.load_ok hw]
    show Except.ok _ = _
    rw [refCount_toNat, w1]
    simp [set]

/-- Violation of C121: a copy made by the compiler starts with the counter and the mark of the original. If there are two or more
references to the original, the copy survives the release of the only reference to it. -/
theorem implicit_copy {s : State} {b : Book} (hr : Reached s b) {src : Nat} (hs : b.Usable src) (hu : b.userCopy src = false) :
    ∃ s', copy s src = .ok s' ∧ countOf s' b.next = .ok (b.refs src) ∧ markOf s' b.next = .ok (b.mark src) ∧
      (2 ≤ b.refs src → ∃ s'', release s' b.next = .ok s'' ∧ Alive s'' b.next ∧ countOf s'' b.next = .ok (b.refs src - 1)) := by
  have i := hr.inv
  obtain ⟨x, hx, c1, c2, c3, c4, c5⟩ := usable_get i hs
  have hxu : x.userCopy = false := by rw [c4]; exact hu
  have hpos : 0 < b.refs src := by have := hs.2.1; unfold Book.refs; omega
  have hget : (s.objs.alloc x).1[b.next]? = some (some x) := by simp [Heap.alloc, ← i.objs.len]
  have g : Good (s.objs.alloc x).1 (b.next + 1) (set b.refs b.next (b.refs src)) (set b.mark b.next (b.mark src))
      (set b.born b.next (b.born src)) (set b.userCopy b.next false) := by
    refine i.objs.alloc x ?_ fun j hj => ?_
    · have e : ∀ {β : Type} (f : Nat → β) (v : β), set f b.next v b.next = v := fun f v => by simp [set]
      rw [e, e, e, e]
      unfold Slot
      rw [if_neg (by omega)]
      exact ⟨x, rfl, c1, c2, c3, hxu⟩
    · have : j ≠ b.next := by omega
      simp [set, this]
  refine ⟨{ s with objs := (s.objs.alloc x).1 }, ?_, ?_, ?_, fun h2 => ?_⟩
  · simp only [copy, Heap.load_ok hx]
    show Except.ok _ = _
    rw [hxu]; rfl
  · simp only [countOf, Heap.load_ok hget]; show Except.ok _ = _; rw [refCount_toNat, c1]
  · simp only [markOf, Heap.load_ok hget]; show Except.ok _ = _; rw [c2]
  · have hsn : set b.refs b.next (b.refs src) b.next = b.refs src := by simp [set]
    obtain ⟨h', e, g'⟩ := release_ok (s := { s with objs := (s.objs.alloc x).1 }) g (o := b.next) (by omega) (by rw [hsn]; omega)
      (l := b.pool) (by
        have : set b.born b.next (b.born src) b.next = b.born src := by simp [set]
        rw [this]; exact c5)
    obtain ⟨w, hw, w1, _⟩ := g'.get (o := b.next) (by omega) (by simp [set]; omega)
    refine ⟨_, e, ⟨w, hw⟩, ?_⟩
    simp only [countOf]
    rw [Heap.load_ok hw]
    show Except.ok _ = _
    rw [refCount_toNat, w1]
    simp [set]

/-- Violation of C121: an object made before `System::init` (a global variable of the application, for example) is never
destroyed by `release`, and the other two calls are undefined for it - whenever they are made, as long as it is not assigned to. -/
theorem before_init (s : State) (h : s.main = none) (u : Bool) :
    (create s u).objs[s.objs.length]? = some (some ⟨1, none, u⟩) ∧
    ∀ t : State, t.objs[s.objs.length]? = some (some ⟨1, none, u⟩) →
      release t s.objs.length = .ok t ∧ retain t s.objs.length = .error .ub ∧ autorelease t s.objs.length = .error .ub := by
  refine ⟨by simp [create, Heap.alloc, h], fun t ht => ⟨?_, ?_, ?_⟩⟩
  · simp only [release, Heap.load_ok ht]; rfl
  · simp only [retain, Heap.load_ok ht]; rfl
  · simp only [autorelease, Heap.load_ok ht]; rfl

/-- Violation of C121: after `System::quit` the objects to which references are left keep the address of the pool that is gone:
`retain`, `release` and `autorelease` are undefined for them, also after another `init`. -/
theorem after_quit {s : State} {b : Book} (hr : Reached s b) {o : Nat} (hu : b.Usable o) :
    ∃ s', quit s = .ok s' ∧ Alive s' o ∧ ∀ t ∈ [s', init s'], retain t o = .error .ub ∧ release t o = .error .ub ∧ autorelease t o = .error .ub := by
  have i := hr.inv
  obtain ⟨s', e, i'⟩ := step_ok i .quit trivial
  have eb : b.act .quit = { b with running := false, session := b.session + 1, pool := [] } := by simp only [Book.act, hu.2.2.1, if_true]
  rw [eb] at i'
  have hpos : 0 < ({ b with running := false, session := b.session + 1, pool := [] } : Book).refs o := by
    have := hu.2.1; unfold Book.refs; show 0 < b.own o + _; omega
  obtain ⟨x, hx, _, _, hp, _⟩ := i'.objs.get hu.1 hpos
  have hp' : x.pool = some (b.born o) := hp
  have hdead : s'.pools[b.born o]? = some none := i'.dead _ (by show b.born o < b.session + 1; rw [hu.2.2.2]; omega)
  refine ⟨s', e, ⟨x, hx⟩, fun t ht => ?_⟩
  have ho : t.objs[o]? = some (some x) ∧ t.pools[b.born o]? = some none := by
    rcases List.mem_cons.1 ht with rfl | ht
    · exact ⟨hx, hdead⟩
    · rw [List.mem_singleton.1 ht]
      unfold init
      split
      · refine ⟨hx, ?_⟩
        show (s'.pools ++ [some []])[b.born o]? = _
        rw [List.getElem?_append_left]
        · exact hdead
        · exact (List.getElem?_eq_some_iff.1 hdead).1
      · exact ⟨hx, hdead⟩
  have hl : lockPool t x.pool = .error .ub := by rw [hp']; simp only [lockPool, Heap.load_free ho.2]; rfl
  refine ⟨?_, ?_, ?_⟩
  · simp only [retain, Heap.load_ok ho.1]; show (lockPool t x.pool >>= _) = _; rw [hl]; rfl
  · unfold release
    rw [Heap.load_ok ho.1]
    show (if x.pool.isNone = true then _ else _) = _
    rw [if_neg (by rw [hp']; simp)]
    show (lockPool t x.pool >>= _) = _
    rw [hl]; rfl
  · simp only [autorelease, Heap.load_ok ho.1]
    show (match x.pool with | none => _ | some p => _) = _
    rw [hp']
    show (t.pools.load (b.born o) >>= _) = _
    rw [Heap.load_free ho.2]; rfl

/-- Two sessions: copies of both kinds, assignments, the pool, a mark. -/
def sample : List Act :=
  [.init, .create true, .create false, .retain 0, .copy 0, .assign 2 0, .copy 1, .assign 1 3, .mark 0 true, .autorelease 2, .drain, .release 0,
   .autorelease 3, .release 1, .quit, .init, .create false, .release 4, .quit]

theorem sample_legal : Book.start.Legal sample := by
  simp [sample, Book.Legal, Book.Allowed, Book.Usable, Book.act, Book.add, Book.start, Book.refs, set]

/-- Afterwards only the marked object 0 exists, with one reference. -/
theorem sample_result : ∃ s, run .start sample = .ok s ∧ (∀ o, o < 5 → (Alive s o ↔ o = 0)) ∧ countOf s 0 = .ok 1 ∧ markOf s 0 = .ok true := by
  obtain ⟨s, e, h⟩ := lifetime_partial sample sample_legal
  have hr : ∀ o, o < 5 → ((Book.start.run sample).refs o = if o = 0 then 1 else 0) := by decide
  have hm : (Book.start.run sample).mark 0 = true := by decide
  have hn : (Book.start.run sample).next = 5 := by decide
  refine ⟨s, e, fun o ho => ?_, ?_⟩
  · rw [(h o (by omega)).1, hr o ho]
    split <;> simp_all
  · have := (h 0 (by omega)).2 (by rw [hr 0 (by omega)]; decide)
    rw [hr 0 (by omega), hm] at this
    exact this

/-- The situation of `implicit_assign`: two references to object 0, one to object 1; after the assignment the second `release` of
object 0 is undefined. -/
theorem sample_assign : run .start [.init, .create false, .create false, .retain 0, .assign 0 1, .release 0, .release 0] = .error .ub := by
  rfl

/-- With both kinds of copying the same calls end well if the class has its own assignment. -/
theorem sample_assign_own : ∃ s, run .start [.init, .create true, .create true, .retain 0, .assign 0 1, .release 0, .release 0] = .ok s ∧ ¬ Alive s 0 := by
  have hl : Book.start.Legal [.init, .create true, .create true, .retain 0, .assign 0 1, .release 0, .release 0] := by
    simp [Book.Legal, Book.Allowed, Book.Usable, Book.act, Book.add, Book.start, Book.refs, set]
  obtain ⟨s, e, h⟩ := lifetime_partial _ hl
  exact ⟨s, e, fun ha => absurd ((h 0 (by decide)).1.1 ha) (by decide)⟩

example : ∃ s b, Reached s b ∧ b.Usable 0 ∧ b.Usable 1 ∧ b.userCopy 0 = false ∧ b.refs 1 < b.own 0 := by
  have hl : Book.start.Legal [.init, .create false, .create false, .retain 0] := by
    simp [Book.Legal, Book.Allowed, Book.Usable, Book.act, Book.add, Book.start, Book.refs, set]
  obtain ⟨s, e, _⟩ := lifetime_partial _ hl
  refine ⟨s, _, ⟨_, hl, e, rfl⟩, ?_⟩
  simp [Book.Usable, Book.run, Book.act, Book.add, Book.start, Book.refs, set]

end Verif.ObjCopy
