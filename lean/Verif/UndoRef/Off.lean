import Verif.UndoRef.Lemmas
/-
Reference counts with an undo manager that does not track changes (`setActive(false)`): UndoManager.cpp:314-320, the change is
made by `new` all the same and deleted at once.
-/
namespace Verif.UndoRef.Off
open Verif Verif.UndoRef

/-- what the program registers -/
inductive Reg where
  /-- `registerChange(object, Object**)` -/
  | ref (owner : Obj) (cell : Cell)
  /-- `registerRelease` (`true`), `registerRetain` (`false`) -/
  | rel (o : Obj) (released : Bool)
  /-- every other `registerChange` -/
  | other (o : Obj)

/-- the change: UndoManager.cpp:203-311 -/
def mk (s : State) : Reg → Res (Change × Counts)
  | .ref o c => mkRef s.cnt s.cells o c
  | .rel o b => mkRel s.cnt o b
  | .other o => mkOther s.cnt o

/-- UndoManager.cpp:314-320, not active: `delete change` -/
def registerOff (s : State) (r : Reg) : Res State := do
  let (c, cnt) ← mk s r
  let cnt ← destroy cnt c
  return { s with cnt := cnt }

/-- what a program does while tracking is off -/
inductive Act where
  | reg (r : Reg)
  /-- `object->retain()` -/
  | retain (o : Obj)
  /-- `object->release()` -/
  | release (o : Obj)
  /-- an assignment to a pointer -/
  | set (cell : Cell) (v : Option Obj)

/-- one action -/
def exec (s : State) : Act → Res State
  | .reg r => registerOff s r
  | .retain o => do return { s with cnt := ← retain s.cnt o }
  | .release o => do return { s with cnt := ← release s.cnt o }
  | .set c v => do
    touch s.cnt c.1
    return setCell s c v

/-- a program -/
def execAll : List Act → State → Res State
  | [], s => .ok s
  | a :: as, s => do
    let s ← exec s a
    execAll as s

/-! ### Specification -/

/-- the objects a registration names are alive: the object, the one the pointer lies in and the one it points to -/
def Alive (s : State) : Reg → Prop
  | .ref o c => 0 < s.cnt o ∧ 0 < s.cnt c.1 ∧ ∀ p, s.cells c = some p → 0 < s.cnt p
  | .rel o _ => 0 < s.cnt o
  | .other o => 0 < s.cnt o

/-- the program without its registrations -/
def plain : List Act → List Act
  | [] => []
  | .reg _ :: as => plain as
  | a :: as => a :: plain as

/-- all objects a registration names are alive when it is made -/
def Good : List Act → State → Prop
  | [], _ => True
  | .reg r :: as, s => Alive s r ∧ Good as s
  | a :: as, s => match exec s a with
    | .ok s => Good as s
    | .error _ => True

/-! ### Theorems -/

theorem upd_back (f : Counts) (o : Obj) : upd (upd f o (f o + 1)) o (f o + 1 - 1) = f := by
  rw [upd_upd, Nat.add_sub_cancel, upd_self]

theorem retainOpt_back (f : Counts) (p : Option Obj) (h : ∀ o, p = some o → 0 < f o) :
    ∃ g, retainOpt f p = .ok g ∧ (∀ o, f o ≤ g o) ∧ ∀ k, (∀ o, g o ≤ k o) → ∃ l, releaseOpt k p = .ok l ∧ ∀ o, (l o : Int) = k o - (g o - f o) := by
  cases p with
  | none => exact ⟨f, rfl, fun _ => le_refl _, fun k _ => ⟨k, rfl, fun o => by omega⟩⟩
  | some p =>
    have hp := h p rfl
    have h0 : ¬ f p = 0 := by omega
    refine ⟨upd f p (f p + 1), by simp [retainOpt, retain, h0], ?_, ?_⟩
    · intro o; unfold upd; split
      · rename_i e; subst e; omega
      · exact le_refl _
    · intro k hk
      have hkp := hk p
      rw [upd_same] at hkp
      have hk0 : ¬ k p = 0 := by omega
      refine ⟨upd k p (k p - 1), by simp [releaseOpt, release, hk0], ?_⟩
      intro o; unfold upd
      by_cases e : o = p
      · subst e; simp only [if_true]; omega
      · simp only [if_neg e]; omega

theorem destroyBase_back (k : Counts) (o : Obj) (h : 0 < k o) : destroyBase k o = .ok (upd k o (k o - 1)) := by
  have h0 : ¬ k o = 0 := by omega
  simp [destroyBase, touch, release, h0, bind, Except.bind]

/-- A registration while tracking is off, with live objects, is without any effect: no counter, no pointer and nothing in the
history changes, and no dead object is touched. -/
theorem registerOff_nothing (s : State) (r : Reg) (h : Alive s r) : registerOff s r = .ok s := by
  have key : ∀ o, 0 < s.cnt o → ∀ k : Kind, (∀ c v v1 v2 b, k ≠ .ref c v v1 v2 b) →
      (do let cnt ← destroy (upd s.cnt o (s.cnt o + 1)) ⟨o, k⟩; return { s with cnt := cnt } : Res State) = .ok s := by
    intro o ho k hk
    have e : destroy (upd s.cnt o (s.cnt o + 1)) ⟨o, k⟩ = .ok s.cnt := by
      have d := destroyBase_back (upd s.cnt o (s.cnt o + 1)) o (by rw [upd_same]; omega)
      rw [upd_same, upd_back] at d
      cases k with
      | ref c v v1 v2 b => exact absurd rfl (hk c v v1 v2 b)
      | rel b => exact d
      | other => exact d
    rw [e]; rfl
  cases r with
  | rel o b =>
    have h0 : ¬ s.cnt o = 0 := by have : 0 < s.cnt o := h; omega
    have := key o h (.rel b) (by intros; simp)
    simpa [registerOff, mk, mkRel, retain, h0, bind, Except.bind, pure, Except.pure] using this
  | other o =>
    have h0 : ¬ s.cnt o = 0 := by have : 0 < s.cnt o := h; omega
    have := key o h .other (by intros; simp)
    simpa [registerOff, mk, mkOther, retain, h0, bind, Except.bind, pure, Except.pure] using this
  | ref o c =>
    obtain ⟨ho, hc, hp⟩ := h
    have h0 : ¬ s.cnt o = 0 := by omega
    have up : ∀ x, s.cnt x ≤ upd s.cnt o (s.cnt o + 1) x := by
      intro x; unfold upd; split
      · rename_i e; subst e; omega
      · exact le_refl _
    have hc' : ¬ upd s.cnt o (s.cnt o + 1) c.1 = 0 := by have := up c.1; omega
    obtain ⟨g, e1, hg, back⟩ := retainOpt_back (upd s.cnt o (s.cnt o + 1)) (s.cells c) (fun x hx => by have := up x; have := hp x hx; omega)
    obtain ⟨l, e2, hl⟩ := back g (fun _ => le_refl _)
    have el : l = upd s.cnt o (s.cnt o + 1) := by
      funext x; have := hl x; omega
    subst el
    have d := destroyBase_back (upd s.cnt o (s.cnt o + 1)) o (by rw [upd_same]; omega)
    rw [upd_same, upd_back] at d
    have e3 : ∀ k, releaseOpt k none = .ok k := fun _ => rfl
    simp only [registerOff, mk, mkRef, retain, h0, touch, hc', if_false, bind, Except.bind, e1, pure, Except.pure, destroy, e2, e3, d]

/-- The same for whole programs: with tracking off a program runs exactly as it would without its registrations, provided the objects
they name are alive. -/
theorem off_plain (as : List Act) : ∀ s, Good as s → execAll as s = execAll (plain as) s := by
  induction as with
  | nil => intro s _; rfl
  | cons a as ih =>
    intro s h
    cases a with
    | reg r =>
      obtain ⟨h1, h2⟩ := h
      rw [execAll, plain, exec, registerOff_nothing s r h1]
      exact ih s h2
    | retain o =>
      simp only [execAll, plain]
      cases e : exec s (.retain o) with
      | error x => rfl
      | ok t => simp only [Good, e] at h; exact ih t h
    | release o =>
      simp only [execAll, plain]
      cases e : exec s (.release o) with
      | error x => rfl
      | ok t => simp only [Good, e] at h; exact ih t h
    | set c v =>
      simp only [execAll, plain]
      cases e : exec s (.set c v) with
      | error x => rfl
      | ok t => simp only [Good, e] at h; exact ih t h

/-- one object, referred to once by the program -/
def s0 : State := { State.new with cnt := upd (fun _ => 0) 0 1 }

/-- the program registers and makes a second reference to the object and closes the step; tracking is on -/
def tracked : Res State := do
  let s ← registerRel s0 0 false
  let s ← exec s (.retain 0)
  return close s

/-- then it gives up both references with tracking off, registering both as it should -/
def untracked : List Act := [.reg (.rel 0 true), .release 0, .reg (.rel 0 true), .release 0]

/-- Switching tracking off with a history left is not safe: the program above never releases more than it holds and registers all it
does, the objects are alive in every call, and the following undo uses the object after its destruction. -/
theorem undo_after_untracked : ∃ s t, tracked = .ok s ∧ Good untracked s ∧ execAll untracked s = .ok t ∧
    t.cnt 0 = 1 ∧ undo t = .error .ub :=
  ⟨_, _, rfl, ⟨show 0 < 3 by decide, show 0 < 2 by decide, trivial⟩, rfl, rfl, rfl⟩

/-- a program to which `off_plain` applies -/
example : Good [.reg (.ref 0 (0, 0)), .set (0, 0) (some 0), .retain 0, .reg (.rel 0 false), .reg (.other 0)] s0 :=
  ⟨⟨show 0 < 1 by decide, show 0 < 1 by decide, fun p h => by cases h⟩, show 0 < 2 by decide, show 0 < 2 by decide, trivial⟩

end Verif.UndoRef.Off
