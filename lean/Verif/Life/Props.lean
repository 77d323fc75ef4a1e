import Verif.Life.Model
set_option linter.unusedVariables false
set_option linter.unusedSimpArgs false
/-
C110: the life cycle of a program: settings persist from one process to the next, `quit` frees everything.
-/
namespace Verif.Life.Props
open Verif Verif.Str Verif.Prefs Verif.Prefs.Spec Verif.Life
open Verif.Prefs.Lemmas (Inv inv_new save_ok load_ok destroy_ok overlay lineText)
open Verif.Prefs.Props (Call exec exec_ok over overlay_eq)

/-! ### specification -/

/-- the settings on disk, for each bundle id -/
abbrev Store := List Ch → Map

def Store.set (σ : Store) (id : List Ch) (m : Map) : Store := fun x => if x = id then m else σ x

/-- saving the settings `m`: only if there is a bundle id and the file can be written -/
def Store.save (σ : Store) (id : List Ch) (m : Map) (writable : Bool) : Store :=
  if writable = true ∧ id ≠ [] then σ.set id m else σ

/-- a program works on its own copy `m` of the settings -/
def specAct (id : List Ch) (σ : Store) (m : Map) : Act → Store × Map × List Out
  | .call c => (σ, (step m c.op).1, [(step m c.op).2])
  | .save w => (σ.save id m w, m, [])

def specActs (id : List Ch) : List Act → Store → Map → Store × Map × List Out
  | [], σ, m => (σ, m, [])
  | a :: as, σ, m =>
    let r := specAct id σ m a
    let t := specActs id as r.1 r.2.1
    (t.1, t.2.1, r.2.2 ++ t.2.2)

def specEnd (id : List Ch) (σ : Store) (m : Map) : End → Store
  | .quit w => σ.save id m w
  | _ => σ

/-- a process starts with the settings of its bundle id (none without an id) -/
def specProcess (σ : Store) (p : Process) : Store × List Out :=
  let r := specActs p.id p.acts σ (σ p.id)
  (specEnd p.id r.1 r.2.1 p.ending, r.2.2)

def specProcesses : List Process → Store → List (List Out)
  | [], _ => []
  | p :: ps, σ => (specProcess σ p).2 :: specProcesses ps (specProcess σ p).1

/-! ### what programs may do -/

/-- permitted calls; keys and values which are stored can be written to a file (C44) -/
def PlainCall : Call → Prop
  | .setValue k v => (Call.setValue k v).Ok ∧ PlainKey k ∧ PlainValue (chars v)
  | c => c.Ok

/-- without a bundle id there are no preferences to call -/
def OkAct (id : List Ch) : Act → Prop
  | .call c => id ≠ [] ∧ PlainCall c
  | .save _ => True

def OkEnd : End → Prop
  | .crashInSave _ => False
  | _ => True

def OkProcess (p : Process) : Prop := (∀ a ∈ p.acts, OkAct p.id a) ∧ OkEnd p.ending

/-! ### invariant -/

def PlainMap (m : Map) : Prop := ∀ k v, m k = some v → PlainKey k ∧ PlainValue v

/-- the contents of a file with the settings `m` of the keys `ks` -/
def contents (m : Map) (ks : List (List Ch)) : List Byte :=
  (ks.map (fun k => lineText m k ++ [cLF])).flatten.flatMap Charset.enc1

def Holds (m : Map) : Option (List Byte) → Prop
  | none => m = fun _ => none
  | some b => ∃ ks : List (List Ch), (∀ k, k ∈ ks ↔ m k ≠ none) ∧ b = contents m ks

structure DiskInv (d : Disk) (σ : Store) : Prop where
  plain : ∀ id, PlainMap (σ id)
  holds : ∀ id, Holds (σ id) (d id)
  noId : σ [] = fun _ => none

def charsetObjs : Heap Obj := charsetNames.map fun n => some (.charset n)

/-- the memory after `init` with a bundle id -/
def running (id : List Ch) (p : Prefs) : Sys :=
  { Sys.start with
    heap := charsetObjs ++ [some .pool, some .translation, some (.prefs p), some (.file id)]
    bundleId := id, pool := some 7, translation := some 8, prefs := some 9, prefFile := some 10 }

/-- the memory after `init("")` -/
def runningNone : Sys :=
  { Sys.start with heap := charsetObjs ++ [some .pool, some .translation], pool := some 7, translation := some 8 }

/-- the memory stands for the settings `m` -/
def State (h : List Ch → BitVec 64) (id : List Ch) (s : Sys) (m : Map) : Prop :=
  if id = [] then s = runningNone ∧ m = fun _ => none else ∃ p, s = running id p ∧ Inv h p m

theorem state_none {h : List Ch → BitVec 64} {s : Sys} {m : Map} : State h [] s m ↔ s = runningNone ∧ m = fun _ => none := by
  simp [State]

theorem state_some {h : List Ch → BitVec 64} {id : List Ch} (hi : id ≠ []) {s : Sys} {m : Map} :
    State h id s m ↔ ∃ p, s = running id p ∧ Inv h p m := by
  simp [State, hi]

theorem plain_over (m : Map) : over m (fun _ => none) = m := by
  funext k; simp [over]

theorem load_contents {h : List Ch → BitVec 64} {m : Map} {ks : List (List Ch)} (hp : PlainMap m)
    (hk : ∀ k ∈ ks, m k ≠ none) : ∃ q, load h Prefs.new (contents m ks) = .ok q ∧ Inv h q (overlay m ks (fun _ => none)) := by
  have hks : ∀ k ∈ ks, PlainKey k ∧ PlainValue ((m k).getD []) := by
    intro k hk'
    cases hm : m k with
    | none => exact absurd hm (hk k hk')
    | some v => exact hp k v hm
  exact load_ok ks (fun k x => (hks k x).1) (fun k x => (hks k x).2) (inv_new h)

theorem loadIfExists_ok {h : List Ch → BitVec 64} {m : Map} {b : Option (List Byte)} (hp : PlainMap m) (hb : Holds m b) :
    ∃ q, loadIfExists h Prefs.new b = .ok q ∧ Inv h q m := by
  cases b with
  | none => cases hb; exact ⟨_, rfl, inv_new h⟩
  | some b =>
    obtain ⟨ks, hk, rfl⟩ := hb
    obtain ⟨q, e, J⟩ := load_contents (h := h) hp (fun k hk' => (hk k).1 hk')
    rw [overlay_eq hk, plain_over] at J
    exact ⟨q, e, J⟩

theorem init_some (h : List Ch → BitVec 64) (d : Disk) {id : List Ch} (hi : id ≠ []) {p : Prefs}
    (e : loadIfExists h Prefs.new (d id) = .ok p) : init h d Sys.start id = .ok (running id p) := by
  have h1 : initDefault (initPool { Sys.start with bundleId := id }) = .ok
      { runningNone with bundleId := id } := by
    show (if id = [] then Except.ok { runningNone with bundleId := id } else _) = _
    rw [if_neg hi]
    rfl
  simp only [init, h1, if_neg hi, initPrefs, e, bind, Except.bind]
  rfl

theorem init_ok {h : List Ch → BitVec 64} {d : Disk} {σ : Store} (D : DiskInv d σ) (id : List Ch) :
    ∃ s, init h d Sys.start id = .ok s ∧ State h id s (σ id) := by
  by_cases hi : id = []
  · subst hi
    exact ⟨runningNone, rfl, state_none.2 ⟨rfl, D.noId⟩⟩
  · obtain ⟨q, e, J⟩ := loadIfExists_ok (h := h) (D.plain id) (D.holds id)
    exact ⟨_, init_some h d hi e, (state_some hi).2 ⟨q, rfl, J⟩⟩

theorem toSave_running {h : List Ch → BitVec 64} {id : List Ch} {p : Prefs} {b : List Byte} (e : save h p = .ok b) :
    toSave h (running id p) = .ok (id, b) := by
  have h1 : getPrefs (running id p) = .ok p := rfl
  have h2 : getFile (running id p) = .ok id := rfl
  have h3 : fileCtor (running id p) = .ok () := rfl
  have h4 : toCString (running id p) = .ok () := rfl
  simp only [toSave, h1, h2, h3, h4, e, bind, Except.bind, pure, Except.pure]

theorem diskInv_save {d : Disk} {σ : Store} (D : DiskInv d σ) {id : List Ch} (hi : id ≠ []) {m : Map} (hp : PlainMap m)
    {ks : List (List Ch)} (hk : ∀ k, k ∈ ks ↔ m k ≠ none) : DiskInv (d.set id (contents m ks)) (σ.set id m) := by
  refine ⟨fun x => ?_, fun x => ?_, ?_⟩
  · unfold Store.set
    split
    · exact hp
    · exact D.plain x
  · unfold Store.set Disk.set
    split
    · exact ⟨ks, hk, rfl⟩
    · exact D.holds x
  · unfold Store.set
    rw [if_neg (fun e => hi e.symm)]; exact D.noId

theorem save_step {h : List Ch → BitVec 64} {d : Disk} {σ : Store} (D : DiskInv d σ) {id : List Ch} {s : Sys} {m : Map}
    (S : State h id s m) (hp : PlainMap m) (w : Bool) :
    ∃ d', savePreferences h d s w = .ok d' ∧ DiskInv d' (σ.save id m w) := by
  by_cases hi : id = []
  · subst hi
    obtain ⟨rfl, rfl⟩ := state_none.1 S
    exact ⟨d, rfl, by simpa [Store.save] using D⟩
  · obtain ⟨p, rfl, I⟩ := (state_some hi).1 S
    obtain ⟨ks, nd, hk, e⟩ := save_ok I
    have e1 : savePreferences h d (running id p) w = .ok (if w then d.set id (contents m ks) else d) := by
      show (do let r ← toSave h (running id p); pure (if w then d.set r.1 r.2 else d) : Res Disk) = _
      rw [toSave_running e]; rfl
    refine ⟨_, e1, ?_⟩
    cases w with
    | false => simpa [Store.save] using D
    | true => simpa [Store.save, hi] using diskInv_save D hi hp hk

theorem plain_step {m : Map} (hp : PlainMap m) {c : Call} (hc : PlainCall c) : PlainMap (step m c.op).1 := by
  cases c with
  | setValue k v =>
    intro x y hxy
    simp only [Call.op, step] at hxy
    split at hxy
    · next e =>
      subst e
      rw [Lemmas.oneLine_id hc.2.2.1 hc.2.2.2.1] at hxy
      cases hxy
      exact ⟨hc.2.1, hc.2.2⟩
    · exact hp x y hxy
  | hasValue k => exact hp
  | value k => exact hp
  | valueOr k d => exact hp

theorem plainCall_ok {c : Call} (hc : PlainCall c) : c.Ok := by
  cases c with
  | setValue k v => exact hc.1
  | hasValue k => exact hc
  | value k => exact hc
  | valueOr k d => exact hc

theorem call_running (h : List Ch → BitVec 64) (id : List Ch) {p q : Prefs} {c : Call} {o : Out} (e : exec h p c = .ok (q, o)) :
    callPrefs h (running id p) c = .ok (running id q, o) := by
  have h1 : getPrefs (running id p) = .ok p := rfl
  show (do let p ← getPrefs (running id p); let r ← exec h p c; let heap ← (running id p).heap.store 9 (.prefs r.1); pure ({ running id p with heap := heap }, r.2) : Res (Sys × Out)) = _
  simp only [h1, e, bind, Except.bind]
  rfl

theorem act_ok {h : List Ch → BitVec 64} {d : Disk} {σ : Store} (D : DiskInv d σ) {id : List Ch} {s : Sys} {m : Map}
    (S : State h id s m) (hp : PlainMap m) {a : Act} (ha : OkAct id a) :
    ∃ d' s', act h d s a = .ok (d', s', (specAct id σ m a).2.2) ∧ DiskInv d' (specAct id σ m a).1 ∧
      State h id s' (specAct id σ m a).2.1 ∧ PlainMap (specAct id σ m a).2.1 := by
  cases a with
  | call c =>
    obtain ⟨hi, hc⟩ := ha
    obtain ⟨p, rfl, I⟩ := (state_some hi).1 S
    obtain ⟨q, e, J⟩ := exec_ok I c (plainCall_ok hc)
    refine ⟨d, running id q, ?_, D, (state_some hi).2 ⟨q, rfl, J⟩, plain_step hp hc⟩
    simp only [act, call_running h id e, bind, Except.bind]
    rfl
  | save w =>
    obtain ⟨d', e, D'⟩ := save_step D S hp w
    refine ⟨d', s, ?_, D', S, hp⟩
    simp only [act, e, bind, Except.bind]
    rfl

theorem acts_ok {h : List Ch → BitVec 64} {id : List Ch} (as : List Act) : ∀ {d : Disk} {σ : Store} {s : Sys} {m : Map},
    DiskInv d σ → State h id s m → PlainMap m → (∀ a ∈ as, OkAct id a) →
    ∃ d' s', acts h as d s = .ok (d', s', (specActs id as σ m).2.2) ∧ DiskInv d' (specActs id as σ m).1 ∧
      State h id s' (specActs id as σ m).2.1 ∧ PlainMap (specActs id as σ m).2.1 := by
  induction as with
  | nil => intro d σ s m D S hp _; exact ⟨d, s, rfl, D, S, hp⟩
  | cons a as ih =>
    intro d σ s m D S hp ha
    obtain ⟨d1, s1, e1, D1, S1, p1⟩ := act_ok D S hp (ha a (by simp))
    obtain ⟨d2, s2, e2, D2, S2, p2⟩ := ih D1 S1 p1 (fun x hx => ha x (by simp [hx]))
    refine ⟨d2, s2, ?_, D2, S2, p2⟩
    simp only [acts, e1, e2, bind, Except.bind]
    rfl

/-! ### the end of a process -/

theorem free_running {id : List Ch} {p : Prefs} {h : List Ch → BitVec 64} {rest : Heap Str} (e : destroy h p = .ok rest) :
    ∃ s, tearDown h (running id p) = .ok s ∧
      s.heap.AllFreed ∧ s.left = [rest] ∧ s.prefs = none ∧ s.prefFile = none ∧ s.pool = none ∧ s.translation = none ∧
      s.charsetCount = 0 := by
  have h1 : getPrefs (running id p) = .ok p := rfl
  have h2 : quitPrefs h (running id p) = .ok
      { running id p with
        heap := charsetObjs ++ [some .pool, some .translation, none, none]
        prefs := none, prefFile := none, left := [rest] } := by
    show (do let p ← getPrefs (running id p); let rest ← destroy h p; let heap ← (running id p).heap.free 9; let heap ← deletePtr heap (some 10); pure { running id p with heap := heap, prefs := none, prefFile := none, left := rest :: [] } : Res Sys) = _
    simp only [h1, e, bind, Except.bind]
    rfl
  unfold tearDown
  rw [h2]
  refine ⟨_, rfl, ?_, rfl, rfl, rfl, rfl, rfl, rfl⟩
  intro c hc
  simp [charsetObjs, charsetNames] at hc
  exact hc

theorem free_none (h : List Ch → BitVec 64) : ∃ s, tearDown h runningNone = .ok s ∧
      s.heap.AllFreed ∧ s.left = [] ∧ s.prefs = none ∧ s.prefFile = none ∧ s.pool = none ∧ s.translation = none ∧
      s.charsetCount = 0 := by
  refine ⟨_, rfl, ?_, rfl, rfl, rfl, rfl, rfl, rfl⟩
  intro c hc
  simp [charsetObjs, charsetNames, runningNone] at hc
  exact hc

/-- everything which the library created is deleted -/
def Clean (s : Sys) : Prop := s.heap.AllFreed ∧ ∀ rest ∈ s.left, rest.AllFreed

/-- no global pointer is left which points to a deleted object (but the table of character sets) -/
def Null (s : Sys) : Prop :=
  s.prefs = none ∧ s.prefFile = none ∧ s.pool = none ∧ s.translation = none ∧ s.charsetCount = 0

theorem quit_ok {h : List Ch → BitVec 64} {d : Disk} {σ : Store} (D : DiskInv d σ) {id : List Ch} {s : Sys} {m : Map}
    (S : State h id s m) (hp : PlainMap m) (w : Bool) :
    ∃ d' s', quit h d s w = .ok (d', s') ∧ DiskInv d' (σ.save id m w) ∧ Clean s' ∧ Null s' := by
  obtain ⟨d', e, D'⟩ := save_step D S hp w
  by_cases hi : id = []
  · subst hi
    obtain ⟨rfl, rfl⟩ := state_none.1 S
    obtain ⟨s', e2, f, l, n⟩ := free_none h
    refine ⟨d', s', ?_, D', ⟨f, by rw [l]; simp⟩, n⟩
    simp only [quit, e, e2, bind, Except.bind]
    rfl
  · obtain ⟨p, rfl, I⟩ := (state_some hi).1 S
    obtain ⟨rest, e3, f3⟩ := destroy_ok I
    obtain ⟨s', e2, f, l, n⟩ := free_running (id := id) e3
    refine ⟨d', s', ?_, D', ⟨f, by rw [l]; simpa using f3⟩, n⟩
    simp only [quit, e, e2, bind, Except.bind]
    rfl

theorem finish_ok {h : List Ch → BitVec 64} {d : Disk} {σ : Store} (D : DiskInv d σ) {id : List Ch} {s : Sys} {m : Map}
    (S : State h id s m) (hp : PlainMap m) {x : End} (hx : OkEnd x) :
    ∃ d' s', finish h d s x = .ok (d', s') ∧ DiskInv d' (specEnd id σ m x) ∧ (∀ w, x = .quit w → Clean s' ∧ Null s') := by
  cases x with
  | quit w =>
    obtain ⟨d', s', e, D', c⟩ := quit_ok D S hp w
    exact ⟨d', s', e, D', fun _ _ => c⟩
  | crash => exact ⟨d, s, rfl, D, fun w hw => by cases hw⟩
  | crashInSave n => exact hx.elim

theorem process_ok {h : List Ch → BitVec 64} {d : Disk} {σ : Store} (D : DiskInv d σ) {p : Process} (hp : OkProcess p) :
    ∃ d' s', process h d p = .ok (d', s', (specProcess σ p).2) ∧ DiskInv d' (specProcess σ p).1 ∧
      (∀ w, p.ending = .quit w → Clean s' ∧ Null s') := by
  obtain ⟨s0, e0, S0⟩ := init_ok (h := h) D p.id
  obtain ⟨d1, s1, e1, D1, S1, p1⟩ := acts_ok p.acts D S0 (D.plain p.id) hp.1
  obtain ⟨d2, s2, e2, D2, c2⟩ := finish_ok D1 S1 p1 hp.2
  refine ⟨d2, s2, ?_, D2, c2⟩
  simp only [process, e0, e1, e2, bind, Except.bind]
  rfl

theorem processes_ok {h : List Ch → BitVec 64} (ps : List Process) : ∀ {d : Disk} {σ : Store}, DiskInv d σ →
    (∀ p ∈ ps, OkProcess p) → ∃ d', processes h ps d = .ok (d', specProcesses ps σ) := by
  induction ps with
  | nil => intro d σ D _; exact ⟨d, rfl⟩
  | cons p ps ih =>
    intro d σ D hp
    obtain ⟨d1, s1, e1, D1, _⟩ := process_ok (h := h) D (hp p (by simp))
    obtain ⟨d2, e2⟩ := ih D1 (fun x hx => hp x (by simp [hx]))
    refine ⟨d2, ?_⟩
    simp only [processes, e1, e2, bind, Except.bind]
    rfl

/-- the disk of a new computer -/
def emptyDisk : Disk := fun _ => none
def emptyStore : Store := fun _ _ => none

theorem empty_inv : DiskInv emptyDisk emptyStore :=
  ⟨fun _ _ _ e => by (cases e), fun _ => rfl, rfl⟩

/-- **C110 (persistence, partial).** Whatever programs run one after the other on a computer, with any bundle ids, any
calls on `System::preferences()` and `System::savePreferences()`, ended by `System::quit()` or dying at any point between
two calls, with files which can be written or not: each program finds exactly the settings which were last saved for its
bundle id, and every call answers as on a map which starts with these. No call touches memory it must not. -/
theorem settings_persist_partial (h : List Ch → BitVec 64) (ps : List Process) (hp : ∀ p ∈ ps, OkProcess p) :
    ∃ d, processes h ps emptyDisk = .ok (d, specProcesses ps emptyStore) :=
  processes_ok ps empty_inv hp

/-- the disks which such programs leave -/
def Reached (h : List Ch → BitVec 64) (d : Disk) : Prop :=
  ∃ ps outs, (∀ p ∈ ps, OkProcess p) ∧ processes h ps emptyDisk = .ok (d, outs)

theorem processes_inv {h : List Ch → BitVec 64} (ps : List Process) : ∀ {d d' : Disk} {σ : Store} {outs}, DiskInv d σ →
    (∀ p ∈ ps, OkProcess p) → processes h ps d = .ok (d', outs) → ∃ σ', DiskInv d' σ' := by
  induction ps with
  | nil => intro d d' σ outs D _ e; cases e; exact ⟨σ, D⟩
  | cons p ps ih =>
    intro d d' σ outs D hp e
    obtain ⟨d1, s1, e1, D1, _⟩ := process_ok (h := h) D (hp p (by simp))
    obtain ⟨d2, e2⟩ := processes_ok (h := h) ps D1 (fun x hx => hp x (by simp [hx]))
    simp only [processes, e1, e2, bind, Except.bind, pure, Except.pure, Except.ok.injEq, Prod.mk.injEq] at e
    obtain ⟨rfl, -⟩ := e
    exact ih D1 (fun x hx => hp x (by simp [hx])) e2

theorem reached_inv {h : List Ch → BitVec 64} {d : Disk} (r : Reached h d) : ∃ σ, DiskInv d σ := by
  obtain ⟨ps, outs, hp, e⟩ := r
  exact processes_inv ps empty_inv hp e

/-- **C110 (clean up, partial).** A program which calls `init` once, then works with its preferences, then calls `quit`,
deletes every object of the library exactly once, and the global pointers are null afterwards. -/
theorem quit_frees_all_partial {h : List Ch → BitVec 64} {d : Disk} (r : Reached h d) (p : Process) (hp : OkProcess p) (w : Bool)
    (he : p.ending = .quit w) : ∃ d' s outs, process h d p = .ok (d', s, outs) ∧ Clean s ∧ Null s := by
  obtain ⟨σ, D⟩ := reached_inv r
  obtain ⟨d', s', e, _, c⟩ := process_ok (h := h) D hp
  exact ⟨d', s', _, e, c w he⟩

/-- `System::preferences()` is null before `init`, after `init("")` and after `quit`; `savePreferences` then does
nothing. -/
theorem save_without_prefs (h : List Ch → BitVec 64) (d : Disk) (s : Sys) (w : Bool) (hs : s.prefs = none) :
    savePreferences h d s w = .ok d := by
  simp only [savePreferences, hs]

theorem no_prefs_at_start (h : List Ch → BitVec 64) (d : Disk) : Sys.start.prefs = none ∧
    ∃ s, init h d Sys.start [] = .ok s ∧ s.prefs = none := ⟨rfl, runningNone, rfl, rfl⟩

/-- **C110.** `quit` after `quit` changes nothing. -/
theorem quit_twice (h : List Ch → BitVec 64) (d : Disk) (s : Sys) (w : Bool) (hs : Null s) :
    ∃ s', quit h d s w = .ok (d, s') ∧ s'.heap = s.heap ∧ s'.left = s.left ∧ Null s' := by
  obtain ⟨h1, h2, h3, h4, h5⟩ := hs
  have e1 := save_without_prefs h d s w h1
  have e2 : quitPrefs h s = .ok s := by simp only [quitPrefs, h1]
  have e3 : quitPool s = .ok s := by simp only [quitPool, h3]
  have e4 : quitDefault s = .ok s := by simp only [quitDefault, h4]
  refine ⟨{ s with charsetCount := 0 }, ?_, rfl, rfl, ⟨h1, h2, h3, h4, rfl⟩⟩
  simp only [quit, tearDown, e1, e2, e3, e4, quitCharsets, h5, List.take_zero, deleteAll, bind, Except.bind, pure, Except.pure]

/-! ### dying in `savePreferences` -/

/-- **C110 (crash points).** A program which dies while it saves leaves a beginning of the new contents in the file (of
any length: the old settings are gone), and no other file changes. -/
theorem crash_in_save {h : List Ch → BitVec 64} {d : Disk} {id : List Ch} (hi : id ≠ []) {s : Sys} {m : Map}
    (S : State h id s m) (n : Nat) : ∃ bytes d', (∀ w, ∃ d1, savePreferences h d s w = .ok d1 ∧ (w = true → d1 id = some bytes)) ∧
      crashInSave h d s n = .ok d' ∧ d' id = some (bytes.take n) ∧ ∀ x, x ≠ id → d' x = d x := by
  obtain ⟨p, rfl, I⟩ := (state_some hi).1 S
  obtain ⟨ks, nd, hk, e⟩ := save_ok I
  refine ⟨contents m ks, d.set id ((contents m ks).take n), ?_, ?_, by simp [Disk.set], ?_⟩
  · intro w
    refine ⟨if w then d.set id (contents m ks) else d, ?_, ?_⟩
    · show (do let r ← toSave h (running id p); pure (if w then d.set r.1 r.2 else d) : Res Disk) = _
      rw [toSave_running e]; rfl
    · rintro rfl; simp [Disk.set]
  · show (do let r ← toSave h (running id p); pure (d.set r.1 (r.2.take n)) : Res Disk) = _
    rw [toSave_running e]; rfl
  · intro x hx; simp [Disk.set, hx]

/-- the settings of some keys -/
def restrict (m : Map) (ks : List (List Ch)) : Map := fun k => if k ∈ ks then m k else none

/-- the bytes of the lines of some keys -/
theorem contents_append (m : Map) (a b : List (List Ch)) : contents m (a ++ b) = contents m a ++ contents m b := by
  simp [contents]

/-- **C110 (crash points, partial).** If the program dies between two lines, the next program with this bundle id finds the
settings of the lines written, as they were to be saved, and none of the others. -/
theorem crash_between_lines_partial {h : List Ch → BitVec 64} {d : Disk} {id : List Ch} (hi : id ≠ []) {s : Sys} {m : Map}
    (S : State h id s m) (hp : PlainMap m) : ∃ ks : List (List Ch), ks.Nodup ∧ (∀ k, k ∈ ks ↔ m k ≠ none) ∧
      ∀ j, ∃ n d' s', crashInSave h d s n = .ok d' ∧ init h d' Sys.start id = .ok s' ∧ State h id s' (restrict m (ks.take j)) := by
  obtain ⟨p, rfl, I⟩ := (state_some hi).1 S
  obtain ⟨ks, nd, hk, e⟩ := save_ok I
  refine ⟨ks, nd, hk, fun j => ⟨(contents m (ks.take j)).length, d.set id (contents m (ks.take j)), ?_⟩⟩
  have hc : (contents m ks).take (contents m (ks.take j)).length = contents m (ks.take j) := by
    conv => lhs; rw [← List.take_append_drop j ks, contents_append]
    rw [List.take_append_drop]
    simp
  have e1 : crashInSave h d (running id p) (contents m (ks.take j)).length = .ok (d.set id (contents m (ks.take j))) := by
    show (do let r ← toSave h (running id p); pure (d.set r.1 (r.2.take (contents m (ks.take j)).length)) : Res Disk) = _
    rw [toSave_running e]
    show Except.ok (d.set id ((contents m ks).take _)) = _
    rw [hc]
  obtain ⟨q, e2, J⟩ := load_contents (h := h) (ks := ks.take j) hp (fun k hk' => (hk k).1 (List.mem_of_mem_take hk'))
  have ho : overlay m (ks.take j) (fun _ => none) = restrict m (ks.take j) := by
    funext x
    unfold overlay restrict
    split
    · next hx =>
      cases hm : m x with
      | none => exact absurd hm ((hk x).1 (List.mem_of_mem_take hx))
      | some v => rfl
    · rfl
  rw [ho] at J
  exact ⟨running id q, e1, init_some h _ hi (by simpa [loadIfExists, Disk.set] using e2), (state_some hi).2 ⟨q, rfl, J⟩⟩

end Verif.Life.Props
