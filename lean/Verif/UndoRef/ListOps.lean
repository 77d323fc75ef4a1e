import Verif.UndoRef.ListExec
/-
The operations of `LinkedList` as sequences of registered changes.
-/
namespace Verif.UndoRef
open Verif Verif.UndoRef.Spec

/-- register all changes and the counter of the list -/
def regsOther (s : State) (ws : List Write) (list : Obj) : Res State := do
  let s ← regs s ws
  registerOther s list

/-- … and that `e` is released; release it -/
def regsRelease (s : State) (ws : List Write) (list e : Obj) : Res State := do
  let s ← regsOther s ws list
  let s ← registerRel s e true
  let cnt ← release s.cnt e
  return { s with cnt := cnt }

theorem regsOther_withCells {s : State} {f : Cells} {ws : List Write} (list : Obj) (h : ∀ w ∈ ws, f w.2.1 = s.cells w.2.1) :
    regsOther (withCells s f) ws list = (regsOther s ws list).map (withCells · f) := by
  simp only [regsOther, bind, Except.bind]
  rw [regs_withCells f h]
  cases regs s ws with
  | error e => rfl
  | ok t => exact registerOther_withCells t f list

theorem regsOther_cells {s t : State} {ws : List Write} {list : Obj} (h : regsOther s ws list = .ok t) : t.cells = s.cells := by
  simp only [regsOther, bind, Except.bind] at h
  cases h1 : regs s ws with
  | error e => rw [h1] at h; cases h
  | ok u => rw [h1] at h; rw [registerOther_cells h, regs_cells h1]

theorem exec_other (n : Nat) {s : State} {ws : List Write} (list : Obj) (hd : Distinct ws) : ∃ bs,
    execAll n s (acts ws ++ [.other list]) = (regsOther s ws list).map (fun t => (n, withCells t (writes s.cells ws), bs)) := by
  refine ⟨List.replicate ws.length true ++ [true], ?_⟩
  rw [execAll_append, exec_acts n hd]
  simp only [regsOther, bind, Except.bind]
  cases regs s ws with
  | error e => rfl
  | ok t =>
    simp only [Except.map, execAll, exec, bind, Except.bind, pure, Except.pure]
    rw [registerOther_withCells]
    cases registerOther t list <;> rfl

theorem exec_release (n : Nat) {s : State} {ws : List Write} (list e : Obj) (hd : Distinct ws) : ∃ bs,
    execAll n s (acts ws ++ [.other list, .release e]) = (regsRelease s ws list e).map (fun t => (n, withCells t (writes s.cells ws), bs)) := by
  refine ⟨List.replicate ws.length true ++ [true, true], ?_⟩
  rw [execAll_append, exec_acts n hd]
  simp only [regsRelease, regsOther, bind, Except.bind]
  cases regs s ws with
  | error e => rfl
  | ok t =>
    simp only [Except.map, execAll, exec, bind, Except.bind, pure, Except.pure]
    rw [registerOther_withCells]
    cases registerOther t list with
    | error e => rfl
    | ok u =>
      simp only [Except.map]
      rw [registerRel_withCells]
      cases registerRel u e true with
      | error e => rfl
      | ok v =>
        simp only [Except.map]
        rw [show (withCells v (writes s.cells ws)).cnt = v.cnt from rfl]
        cases release v.cnt e <;> rfl

/-! ### add -/

/-- the changes that put `item` after `last` -/
def addWrites (list item : Obj) : Option Obj → List Write
  | none => [(item, prevCell item, none), (list, startCell list, some item), (list, endCell list, some item)]
  | some l => [(item, prevCell item, some l), (l, nextCell l, some item), (list, endCell list, some item)]

theorem addWrites_distinct {list item : Obj} {last : Option Obj} (h : item ≠ list) : Distinct (addWrites list item last) := by
  cases last <;> simp [Distinct, addWrites, prevCell, nextCell, startCell, endCell, h]

theorem registerAdd_eq {s : State} {list item : Obj} {last : Option Obj} (h1 : s.cells (endCell list) = last)
    (h2 : s.cells (startCell list) = none ↔ last = none) : registerAdd s list item = regsOther s (addWrites list item last) list := by
  unfold registerAdd
  cases last with
  | none =>
    simp only [regsOther, addWrites, regs, bind, Except.bind]
    cases a1 : registerRef s item (prevCell item) with
    | error e => rfl
    | ok s1 =>
      have c1 := registerRef_cells a1
      simp only [c1, h1, registerOpt, h2.2 rfl, if_true]
      cases registerRef s1 list (startCell list) with
      | error e => rfl
      | ok s2 =>
        simp only
        cases registerRef s2 list (endCell list) <;> rfl
  | some l =>
    have h3 : s.cells (startCell list) ≠ none := fun h => by cases h2.1 h
    simp only [regsOther, addWrites, regs, bind, Except.bind]
    cases a1 : registerRef s item (prevCell item) with
    | error e => rfl
    | ok s1 =>
      have c1 := registerRef_cells a1
      simp only [c1, h1, registerOpt]
      cases a2 : registerRef s1 l (nextCell l) with
      | error e => rfl
      | ok s2 =>
        have c2 := registerRef_cells a2
        simp only [c2, c1, h3, if_false]
        cases registerRef s2 list (endCell list) <;> rfl

theorem linkAdd_eq {s : State} {list item : Obj} {last : Option Obj} (h1 : s.cells (endCell list) = last) (hn : item ≠ list) (hl : last ≠ some list)
    (h2 : s.cells (startCell list) = none ↔ last = none) : linkAdd s list item = withCells s (writes s.cells (addWrites list item last)) := by
  unfold linkAdd
  cases last with
  | none =>
    simp only [h1, setCell, addWrites, writes, withCells]
    have e : (upd (upd s.cells (prevCell item) none) (endCell list) (some item)) (startCell list) = none := by
      rw [upd_other _ _ _ (by simp [startCell, endCell]), upd_other _ _ _ (by simp [startCell, prevCell])]
      exact h2.2 rfl
    rw [if_pos e]
    congr 1
    funext c
    simp only [upd]
    by_cases e1 : c = startCell list
    · subst e1; simp [startCell, endCell]
    · simp [e1]
  | some l =>
    have h3 : s.cells (startCell list) ≠ none := fun h => by cases h2.1 h
    have hll : l ≠ list := fun e => hl (by rw [e])
    simp only [h1, setCell, addWrites, writes, withCells]
    have e : (upd (upd (upd (upd s.cells (prevCell item) (some l)) (nextCell l) (some item)) (prevCell item) (some l)) (endCell list) (some item)) (startCell list) ≠ none := by
      rw [upd_other _ _ _ (by simp [startCell, endCell]), upd_other _ _ _ (by simp [startCell, prevCell]), upd_other _ _ _ (by simp [startCell, nextCell]),
        upd_other _ _ _ (by simp [startCell, prevCell])]
      exact h3
    rw [if_neg e]
    congr 2
    funext c
    simp only [upd]
    by_cases e1 : c = prevCell item
    · subst e1; simp [prevCell, nextCell]
    · simp [e1]

/-- a new object whose members are null pointers already -/
def fresh1 (s : State) (n : Obj) : State := { s with cnt := upd s.cnt n 1 }

theorem new_cells {s : State} {n : Obj} (h : ∀ k, s.cells (n, k) = none) :
    ({ s with cnt := upd s.cnt n 1, cells := upd (upd (upd s.cells (dataCell n) none) (prevCell n) none) (nextCell n) none } : State) = fresh1 s n := by
  have e : upd (upd (upd s.cells (dataCell n) none) (prevCell n) none) (nextCell n) none = s.cells := by
    funext c
    simp only [upd]
    split
    · next e => rw [e]; exact (h _).symm
    · split
      · next e => rw [e]; exact (h _).symm
      · split
        · next e => rw [e]; exact (h _).symm
        · rfl
  rw [e]; rfl

theorem exec_new (n : Nat) (s : State) (as : List Act) :
    execAll n s (.create :: .adopt n :: as) = (execAll (n + 1) (fresh1 s n) as).map (fun r => (r.1, r.2.1, true :: true :: r.2.2)) := by
  simp only [execAll, exec, bind, Except.bind, pure, Except.pure, fresh1]
  cases execAll (n + 1) { s with cnt := upd s.cnt n 1 } as <;> rfl

theorem add_exec {s : State} {list n : Obj} (d : Option Obj) {last : Option Obj} (hf : ∀ k, s.cells (n, k) = none) (hn : n ≠ list) (hl : last ≠ some list)
    (h1 : s.cells (endCell list) = last) (h2 : s.cells (startCell list) = none ↔ last = none) : ∃ bs,
    execAll n s (.create :: .adopt n :: (acts ((n, dataCell n, d) :: addWrites list n last) ++ [.other list])) =
      (listAdd s list n d).map (fun t => (n + 1, t, bs)) := by
  have hd : Distinct ((n, dataCell n, d) :: addWrites list n last) := by
    refine List.nodup_cons.2 ⟨?_, addWrites_distinct hn⟩
    cases last <;> simp [addWrites, dataCell, prevCell, nextCell, startCell, endCell, hn]
  obtain ⟨bs, e1⟩ := exec_other (n + 1) (s := fresh1 s n) list hd
  refine ⟨true :: true :: bs, ?_⟩
  rw [exec_new, e1]
  unfold listAdd
  rw [new_cells hf]
  simp only [regsOther, regs, bind, Except.bind, pure, Except.pure]
  cases a1 : registerRef (fresh1 s n) n (dataCell n) with
  | error e => rfl
  | ok s1 =>
    have c0 : s1.cells = (fresh1 s n).cells := registerRef_cells a1
    have c1 : s1.cells = s.cells := c0
    simp only
    have k1 : (setCell s1 (dataCell n) d).cells (endCell list) = last := by
      simp only [setCell, c1]
      rw [upd_other _ _ _ (by simp [endCell, dataCell])]; exact h1
    have k2 : (setCell s1 (dataCell n) d).cells (startCell list) = none ↔ last = none := by
      simp only [setCell, c1]
      rw [upd_other _ _ _ (by simp [startCell, dataCell, Ne.symm hn])]; exact h2
    rw [registerAdd_eq k1 k2]
    have k3 := regsOther_withCells (s := s1) (f := upd s1.cells (dataCell n) d) (ws := addWrites list n last) list (fun w hw =>
      upd_other _ _ _ (fun e => (List.nodup_cons.1 hd).1 (List.mem_map.2 ⟨w, hw, e⟩)))
    rw [show setCell s1 (dataCell n) d = withCells s1 (upd s1.cells (dataCell n) d) from rfl, k3]
    simp only [regsOther, bind, Except.bind]
    cases a2 : regs s1 (addWrites list n last) with
    | error e => rfl
    | ok s2 =>
      simp only
      cases a3 : registerOther s2 list with
      | error e => rfl
      | ok s3 =>
        have c3 : (withCells s3 (upd s1.cells (dataCell n) d)).cells = (setCell s1 (dataCell n) d).cells := rfl
        simp only [Except.map]
        rw [linkAdd_eq (last := last) (by rw [c3]; exact k1) hn hl (by rw [c3]; exact k2)]
        simp only [withCells, writes, c1, fresh1]

/-! ### addBefore -/

def beforeWrites (list before item : Obj) : Option Obj → List Write
  | none => [(item, prevCell item, none), (item, nextCell item, some before), (list, startCell list, some item), (before, prevCell before, some item)]
  | some a => [(item, prevCell item, some a), (item, nextCell item, some before), (before, prevCell before, some item), (before, nextCell a, some item)]

theorem beforeWrites_distinct {list before item : Obj} {a : Option Obj} (h : item ≠ list) (h2 : item ≠ before) (h3 : before ≠ list) (h4 : a ≠ some item) :
    Distinct (beforeWrites list before item a) := by
  cases a with
  | none => simp [Distinct, beforeWrites, prevCell, nextCell, startCell, h, h2, Ne.symm h3]
  | some a =>
    have : item ≠ a := fun e => h4 (by rw [e])
    simp [Distinct, beforeWrites, prevCell, nextCell, h2, this]

theorem registerAddBefore_eq {s : State} {list before item : Obj} {a : Option Obj} (h1 : s.cells (prevCell before) = a)
    (h2 : s.cells (startCell list) = some before ↔ a = none) : registerAddBefore s list before item = regsOther s (beforeWrites list before item a) list := by
  unfold registerAddBefore
  cases a with
  | none =>
    simp only [regsOther, beforeWrites, regs, bind, Except.bind]
    cases a1 : registerRef s item (prevCell item) with
    | error e => rfl
    | ok s1 =>
      have c1 := registerRef_cells a1
      simp only
      cases a2 : registerRef s1 item (nextCell item) with
      | error e => rfl
      | ok s2 =>
        have c2 := registerRef_cells a2
        simp only [c2, c1, h2.2 rfl, if_true]
        cases a3 : registerRef s2 list (startCell list) with
        | error e => rfl
        | ok s3 =>
          have c3 := registerRef_cells a3
          simp only
          cases a4 : registerRef s3 before (prevCell before) with
          | error e => rfl
          | ok s4 =>
            have c4 := registerRef_cells a4
            simp only [c4, c3, c2, c1, h1]
  | some a =>
    have h3 : s.cells (startCell list) ≠ some before := fun h => by cases h2.1 h
    simp only [regsOther, beforeWrites, regs, bind, Except.bind]
    cases a1 : registerRef s item (prevCell item) with
    | error e => rfl
    | ok s1 =>
      have c1 := registerRef_cells a1
      simp only
      cases a2 : registerRef s1 item (nextCell item) with
      | error e => rfl
      | ok s2 =>
        have c2 := registerRef_cells a2
        simp only [c2, c1, h3, if_false]
        cases a4 : registerRef s2 before (prevCell before) with
        | error e => rfl
        | ok s4 =>
          have c4 := registerRef_cells a4
          simp only [c4, c2, c1, h1]
          cases registerRef s4 before (nextCell a) <;> rfl

theorem linkAddBefore_eq {s : State} {list before item : Obj} {a : Option Obj} (h1 : s.cells (prevCell before) = a)
    (h2 : s.cells (startCell list) = some before ↔ a = none) :
    linkAddBefore s list before item = withCells s (writes s.cells (beforeWrites list before item a)) := by
  unfold linkAddBefore
  cases a with
  | none =>
    simp only [h1, setCell, beforeWrites, writes, withCells, h2.2 rfl, if_true]
    congr 2
    funext c
    simp only [upd]
    by_cases e1 : c = startCell list
    · subst e1; simp [prevCell, nextCell, startCell]
    · simp [e1]
  | some a =>
    have h3 : s.cells (startCell list) ≠ some before := fun h => by cases h2.1 h
    simp only [h1, setCell, beforeWrites, writes, withCells, h3, if_false]
    congr 1
    funext c
    simp only [upd]
    by_cases e1 : c = prevCell before
    · subst e1; simp [prevCell, nextCell]
    · simp [e1]

theorem addBefore_exec {s : State} {list before n : Obj} (d : Option Obj) {a : Option Obj} (hf : ∀ k, s.cells (n, k) = none) (hn : n ≠ list) (hb : n ≠ before)
    (hbl : before ≠ list) (ha : a ≠ some n) (h1 : s.cells (prevCell before) = a) (h2 : s.cells (startCell list) = some before ↔ a = none) : ∃ bs,
    execAll n s (.create :: .adopt n :: (acts ((n, dataCell n, d) :: beforeWrites list before n a) ++ [.other list])) =
      (do let s ← registerRef (fresh1 s n) n (dataCell n)
          let s := setCell s (dataCell n) d
          let s ← registerAddBefore s list before n
          Except.ok (linkAddBefore s list before n) : Res State).map (fun t => (n + 1, t, bs)) := by
  have hd : Distinct ((n, dataCell n, d) :: beforeWrites list before n a) := by
    refine List.nodup_cons.2 ⟨?_, beforeWrites_distinct hn hb hbl ha⟩
    cases a <;> simp [beforeWrites, dataCell, prevCell, nextCell, startCell, hn]
  obtain ⟨bs, e1⟩ := exec_other (n + 1) (s := fresh1 s n) list hd
  refine ⟨true :: true :: bs, ?_⟩
  rw [exec_new, e1]
  simp only [regsOther, regs, bind, Except.bind]
  cases a1 : registerRef (fresh1 s n) n (dataCell n) with
  | error e => rfl
  | ok s1 =>
    have c0 : s1.cells = (fresh1 s n).cells := registerRef_cells a1
    have c1 : s1.cells = s.cells := c0
    simp only
    have k1 : (setCell s1 (dataCell n) d).cells (prevCell before) = a := by
      simp only [setCell, c1]
      rw [upd_other _ _ _ (by simp [prevCell, dataCell])]; exact h1
    have k2 : (setCell s1 (dataCell n) d).cells (startCell list) = some before ↔ a = none := by
      simp only [setCell, c1]
      rw [upd_other _ _ _ (by simp [startCell, dataCell, Ne.symm hn])]; exact h2
    rw [registerAddBefore_eq k1 k2]
    have k3 := regsOther_withCells (s := s1) (f := upd s1.cells (dataCell n) d) (ws := beforeWrites list before n a) list (fun w hw =>
      upd_other _ _ _ (fun e => (List.nodup_cons.1 hd).1 (List.mem_map.2 ⟨w, hw, e⟩)))
    rw [show setCell s1 (dataCell n) d = withCells s1 (upd s1.cells (dataCell n) d) from rfl, k3]
    simp only [regsOther, bind, Except.bind]
    cases a2 : regs s1 (beforeWrites list before n a) with
    | error e => rfl
    | ok s2 =>
      simp only
      cases a3 : registerOther s2 list with
      | error e => rfl
      | ok s3 =>
        have c3 : (withCells s3 (upd s1.cells (dataCell n) d)).cells = (setCell s1 (dataCell n) d).cells := rfl
        simp only [Except.map]
        rw [linkAddBefore_eq (a := a) (by rw [c3]; exact k1) (by rw [c3]; exact k2)]
        simp only [withCells, writes, c1, fresh1]

/-! ### remove -/

/-- the changes of the neighbours -/
def removeWrites (list e : Obj) : Option Obj → Option Obj → List Write
  | none, none => [(list, startCell list, none), (list, endCell list, none), (e, prevCell e, none), (e, nextCell e, none)]
  | none, some q => [(q, prevCell q, none), (list, startCell list, some q), (e, prevCell e, none), (e, nextCell e, none)]
  | some p, none => [(p, nextCell p, none), (list, endCell list, some p), (e, prevCell e, none), (e, nextCell e, none)]
  | some p, some q => [(p, nextCell p, some q), (q, prevCell q, some p), (e, prevCell e, none), (e, nextCell e, none)]

theorem removeWrites_distinct {list e : Obj} {p q : Option Obj} (he : e ≠ list) (hp : p ≠ some e) (hq : q ≠ some e) : Distinct (removeWrites list e p q) := by
  cases p with
  | none =>
    cases q with
    | none => simp [Distinct, removeWrites, prevCell, nextCell, startCell, endCell, Ne.symm he]
    | some q =>
      have : q ≠ e := fun h => hq (by rw [h])
      simp [Distinct, removeWrites, prevCell, nextCell, startCell, this]
  | some p =>
    have hp' : p ≠ e := fun h => hp (by rw [h])
    cases q with
    | none => simp [Distinct, removeWrites, prevCell, nextCell, endCell, hp', Ne.symm he]
    | some q =>
      have : q ≠ e := fun h => hq (by rw [h])
      simp [Distinct, removeWrites, prevCell, nextCell, this, hp']

theorem registerRemove_eq {s : State} {list e : Obj} {p q : Option Obj} (h1 : s.cells (prevCell e) = p) (h2 : s.cells (nextCell e) = q)
    (h3 : s.cells (startCell list) = some e ↔ p = none) (h4 : s.cells (endCell list) = some e ↔ q = none) :
    registerRemove s list e = (regsOther s (removeWrites list e p q) list).bind (fun t => registerRel t e true) := by
  unfold registerRemove
  cases p with
  | none =>
    cases q with
    | none =>
      simp only [h1, registerOpt, h2, h3.2 rfl, if_true, removeWrites, regsOther, regs, bind, Except.bind]
      cases a1 : registerRef s list (startCell list) with
      | error e => rfl
      | ok s1 =>
        simp only [registerRef_cells a1, h4.2 rfl, if_true]
        cases a2 : registerRef s1 list (endCell list) with
        | error e => rfl
        | ok s2 =>
          simp only
          cases a3 : registerRef s2 e (prevCell e) with
          | error e => rfl
          | ok s3 =>
            simp only
            cases a4 : registerRef s3 e (nextCell e) <;> rfl
    | some q =>
      have h5 : s.cells (endCell list) ≠ some e := fun h => by cases h4.1 h
      simp only [h1, registerOpt, h2, removeWrites, regsOther, regs, bind, Except.bind]
      cases a1 : registerRef s q (prevCell q) with
      | error e => rfl
      | ok s1 =>
        simp only [registerRef_cells a1, h3.2 rfl, if_true]
        cases a2 : registerRef s1 list (startCell list) with
        | error e => rfl
        | ok s2 =>
          simp only [registerRef_cells a2, registerRef_cells a1, h5, if_false]
          cases a3 : registerRef s2 e (prevCell e) with
          | error e => rfl
          | ok s3 =>
            simp only
            cases a4 : registerRef s3 e (nextCell e) <;> rfl
  | some p =>
    have h5 : s.cells (startCell list) ≠ some e := fun h => by cases h3.1 h
    cases q with
    | none =>
      simp only [h1, registerOpt, removeWrites, regsOther, regs, bind, Except.bind]
      cases a1 : registerRef s p (nextCell p) with
      | error e => rfl
      | ok s1 =>
        simp only [registerRef_cells a1, h2, h5, if_false, h4.2 rfl, if_true]
        cases a2 : registerRef s1 list (endCell list) with
        | error e => rfl
        | ok s2 =>
          simp only
          cases a3 : registerRef s2 e (prevCell e) with
          | error e => rfl
          | ok s3 =>
            simp only
            cases a4 : registerRef s3 e (nextCell e) <;> rfl
    | some q =>
      have h6 : s.cells (endCell list) ≠ some e := fun h => by cases h4.1 h
      simp only [h1, registerOpt, removeWrites, regsOther, regs, bind, Except.bind]
      cases a1 : registerRef s p (nextCell p) with
      | error e => rfl
      | ok s1 =>
        simp only [registerRef_cells a1, h2]
        cases a2 : registerRef s1 q (prevCell q) with
        | error e => rfl
        | ok s2 =>
          simp only [registerRef_cells a2, registerRef_cells a1, h5, h6, if_false]
          cases a3 : registerRef s2 e (prevCell e) with
          | error e => rfl
          | ok s3 =>
            simp only
            cases a4 : registerRef s3 e (nextCell e) <;> rfl

theorem unlink_eq {s : State} {list e : Obj} {p q : Option Obj} (h1 : s.cells (prevCell e) = p) (h2 : s.cells (nextCell e) = q)
    (h3 : s.cells (startCell list) = some e ↔ p = none) (h4 : s.cells (endCell list) = some e ↔ q = none) (he : e ≠ list) (hp : p ≠ some e) (hq : q ≠ some e)
    (hql : q ≠ some list) : unlink s list e = withCells s (writes s.cells (removeWrites list e p q)) := by
  unfold unlink
  cases p with
  | none =>
    cases q with
    | none =>
      have e1 : upd s.cells (startCell list) none (endCell list) = some e := by
        rw [upd_other _ _ _ (by simp [startCell, endCell])]; exact h4.2 rfl
      have e2 : upd s.cells (startCell list) none (prevCell e) = none := by
        rw [upd_other _ _ _ (by simp [startCell, prevCell])]; exact h1
      simp only [h1, h2, setCell, h3.2 rfl, if_true, e1, e2, removeWrites, writes, withCells]
    | some q =>
      have hq' : q ≠ e := fun h => hq (by rw [h])
      have hql' : q ≠ list := fun h => hql (by rw [h])
      have h5 : s.cells (endCell list) ≠ some e := fun h => by cases h4.1 h
      have e1 : upd s.cells (prevCell q) none (startCell list) = some e := by
        rw [upd_other _ _ _ (by simp [startCell, prevCell])]; exact h3.2 rfl
      have e2 : upd s.cells (prevCell q) none (nextCell e) = some q := by
        rw [upd_other _ _ _ (by simp [nextCell, prevCell])]; exact h2
      have e3 : upd (upd s.cells (prevCell q) none) (startCell list) (some q) (endCell list) ≠ some e := by
        rw [upd_other _ _ _ (by simp [startCell, endCell]), upd_other _ _ _ (by simp [prevCell, endCell, Ne.symm hql'])]; exact h5
      simp only [h1, h2, setCell, e1, if_true, e2, e3, if_false, removeWrites, writes, withCells]
  | some p =>
    have hp' : p ≠ e := fun h => hp (by rw [h])
    have h5 : s.cells (startCell list) ≠ some e := fun h => by cases h3.1 h
    cases q with
    | none =>
      have e1 : upd s.cells (nextCell p) none (startCell list) ≠ some e := by
        rw [upd_other _ _ _ (by simp [startCell, nextCell])]; exact h5
      have e2 : upd s.cells (nextCell p) none (endCell list) = some e := by
        rw [upd_other _ _ _ (by simp [endCell, nextCell])]; exact h4.2 rfl
      have e3 : upd s.cells (nextCell p) none (prevCell e) = some p := by
        rw [upd_other _ _ _ (by simp [prevCell, nextCell])]; exact h1
      simp only [h1, h2, setCell, e1, if_false, e2, if_true, e3, removeWrites, writes, withCells]
    | some q =>
      have hql' : q ≠ list := fun h => hql (by rw [h])
      have h6 : s.cells (endCell list) ≠ some e := fun h => by cases h4.1 h
      have e1 : upd (upd s.cells (nextCell p) (some q)) (prevCell q) (some p) (startCell list) ≠ some e := by
        rw [upd_other _ _ _ (by simp [startCell, prevCell]), upd_other _ _ _ (by simp [startCell, nextCell])]; exact h5
      have e2 : upd (upd s.cells (nextCell p) (some q)) (prevCell q) (some p) (endCell list) ≠ some e := by
        rw [upd_other _ _ _ (by simp [endCell, prevCell, Ne.symm hql']), upd_other _ _ _ (by simp [endCell, nextCell])]; exact h6
      simp only [h1, h2, setCell, e1, e2, if_false, removeWrites, writes, withCells]

theorem remove_exec (n : Nat) {s : State} {list e : Obj} {p q : Option Obj} (h1 : s.cells (prevCell e) = p) (h2 : s.cells (nextCell e) = q)
    (h3 : s.cells (startCell list) = some e ↔ p = none) (h4 : s.cells (endCell list) = some e ↔ q = none) (he : e ≠ list) (hp : p ≠ some e) (hq : q ≠ some e)
    (hql : q ≠ some list) (ht : touch s.cnt e = .ok ()) : ∃ bs,
    execAll n s (acts (removeWrites list e p q) ++ [.other list, .release e]) = (listRemove s list e).map (fun t => (n, t, bs)) := by
  obtain ⟨bs, e1⟩ := exec_release n (s := s) list e (removeWrites_distinct (p := p) (q := q) he hp hq)
  refine ⟨bs, ?_⟩
  rw [e1]
  unfold listRemove
  rw [ht, registerRemove_eq h1 h2 h3 h4]
  simp only [regsRelease, bind, Except.bind, pure, Except.pure]
  cases a1 : regsOther s (removeWrites list e p q) list with
  | error e => rfl
  | ok s1 =>
    simp only
    cases a2 : registerRel s1 e true with
    | error e => rfl
    | ok s2 =>
      have c2 : s2.cells = s.cells := (registerRel_cells a2).trans (regsOther_cells a1)
      simp only
      rw [unlink_eq (s := s2) (by rw [c2]; exact h1) (by rw [c2]; exact h2) (by rw [c2]; exact h3) (by rw [c2]; exact h4) he hp hq hql]
      rw [show (withCells s2 (writes s2.cells (removeWrites list e p q))).cnt = s2.cnt from rfl, c2]
      cases release s2.cnt e <;> rfl

end Verif.UndoRef
