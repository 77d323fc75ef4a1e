import Verif.FileIO.Props
/-
C102: several variables of type `File`; names and files.
-/
namespace Verif.FileIO.Handles
open Verif Verif.FileIO

/-- the variables of a program, `none` when destroyed -/
structure St where
  os : Os
  vars : List (Option File)

inductive Op where
  | make (path : Path)
  | copy (v : Nat)
  | assign (v w : Nat)
  | destroy (v : Nat)
  | open (v : Nat) (m : Mode) (deny : Option Errno) (lg : Errno → Errno)
  | close (v : Nat) (fail : Bool)
  | act (v : Nat) (a : Act)
  | create (v : Nat) (deny : Option Errno) (fail : Bool)
  | remove (v : Nat)
  | rename (v : Nat) (new : Path)

def St.var (st : St) (v : Nat) : Option File := (st.vars[v]?).getD none

def St.setVar (st : St) (os : Os) (v : Nat) (f : File) : St := ⟨os, st.vars.set v (some f)⟩

/-- one operation on an existing variable -/
def onVar (st : St) (v : Nat) (f : File) : Op → Res St
  | .make _ => .ok st
  | .copy _ => .ok ⟨st.os, st.vars ++ [some f.copy]⟩
  | .assign _ w =>
    -- File.cpp:79-90
    match st.var w with
    | none => .ok st
    | some g => .ok (st.setVar st.os v g.copy)
  | .destroy _ => .ok ⟨st.os, st.vars.set v none⟩   -- File.cpp:75-77: nothing happens to the stream
  | .open _ m deny lg => .ok (st.setVar (f.open st.os m deny lg).1 v (f.open st.os m deny lg).2.1)
  | .close _ fail => (f.close st.os fail).map (fun r => st.setVar r.1 v r.2.1)
  | .act _ a => (FileIO.act st.os f a).map (fun r => ⟨r.1, st.vars⟩)
  | .create _ deny fail => (f.createNewFile st.os deny fail).map (fun r => st.setVar r.1 v r.2.1)
  | .remove _ => .ok ⟨(f.remove st.os).1, st.vars⟩
  | .rename _ new => .ok (st.setVar (f.renameTo st.os new).1 v (f.renameTo st.os new).2.1)

def Op.target : Op → Nat
  | .make _ => 0
  | .copy v => v
  | .assign v _ => v
  | .destroy v => v
  | .open v _ _ _ => v
  | .close v _ => v
  | .act v _ => v
  | .create v _ _ => v
  | .remove v => v
  | .rename v _ => v

/-- one step; an operation on a variable that does not exist does nothing -/
def step (st : St) (op : Op) : Res St :=
  match op with
  | .make p => .ok ⟨st.os, st.vars ++ [some (File.make p)]⟩
  | op =>
    match st.var op.target with
    | none => .ok st
    | some f => onVar st op.target f op

def run (st : St) : List Op → Res St
  | [] => .ok st
  | op :: l =>
    match step st op with
    | .error e => .error e
    | .ok st => run st l

/-! ### rules -/

def St.closed (st : St) (v : Nat) : Prop := ∀ f, st.var v = some f → f.handle = none

/-- Rules that are enough: copy, assign, destroy, open and create only what is not open; read, write and seek only what is open; closing
does not fail. -/
def Fair (st : St) : Op → Prop
  | .make _ => True
  | .copy v => st.closed v
  | .assign v w => st.closed v ∧ st.closed w
  | .destroy v => st.closed v
  | .open v _ _ _ => st.closed v
  | .close _ fail => fail = false
  | .act v _ => ¬ st.closed v
  | .create v _ fail => st.closed v ∧ fail = false
  | .remove _ => True
  | .rename _ _ => True

/-- a program keeps the rules -/
def FairRun (st : St) : List Op → Prop
  | [] => True
  | op :: l => Fair st op ∧ ∀ st', step st op = .ok st' → FairRun st' l

/-- which streams are open -/
def alive (os : Os) (h : Nat) : Prop := ∃ s, os.streams[h]? = some (some s)

/-- every open stream belongs to exactly one variable -/
structure Inv (st : St) : Prop where
  live : ∀ v f h, st.var v = some f → f.handle = some h → alive st.os h
  one : ∀ v w f g h, st.var v = some f → st.var w = some g → f.handle = some h → g.handle = some h → v = w
  owned : ∀ h, alive st.os h → ∃ v f, st.var v = some f ∧ f.handle = some h

theorem put_alive {os : Os} {h : Nat} {s x : Stream} (hl : os.streams[h]? = some (some s)) (g : Nat) : alive (os.put h x) g ↔ alive os g := by
  unfold alive Os.put
  by_cases hg : g = h
  · subst hg
    simp [List.getElem?_set_self (lt_of_live hl), hl]
  · simp [List.getElem?_set_ne (Ne.symm hg)]

theorem hand_alive {os : Os} {h : Nat} {s x : Stream} (hl : os.streams[h]? = some (some s)) (k g : Nat) : alive (os.hand h x k) g ↔ alive os g := by
  unfold alive Os.hand
  by_cases hg : g = h
  · subst hg
    simp [List.getElem?_set_self (lt_of_live hl), hl]
  · simp [List.getElem?_set_ne (Ne.symm hg)]

theorem get_live {os : Os} {h : Nat} {s : Stream} (e : os.get h = .ok s) : os.streams[h]? = some (some s) := by
  unfold Os.get at e
  split at e
  · rename_i x hx; cases e; exact hx
  · cases e

theorem fread_alive {os os' : Os} {h n : Nat} {got : List Byte} (e : fread os h n = .ok (os', got)) (g : Nat) : alive os' g ↔ alive os g := by
  unfold fread at e
  cases eg : os.get h with
  | error x => rw [eg] at e; cases e
  | ok s =>
    simp only [eg, bind, Except.bind, pure, Except.pure] at e
    split at e
    · cases e; rfl
    · split at e
      · cases e
      · cases e; exact put_alive (get_live eg) g

theorem read_alive {os os' : Os} {f : File} {cap n : Nat} {got : List Byte} (e : f.read os cap n = .ok (os', got)) (g : Nat) : alive os' g ↔ alive os g := by
  unfold File.read at e
  cases ep : f.ptr with
  | error x => rw [ep] at e; cases e
  | ok h =>
    simp only [ep, bind, Except.bind, pure, Except.pure] at e
    cases ef : fread os h n with
    | error x => rw [ef] at e; cases e
    | ok r =>
      rw [ef] at e
      simp only at e
      split at e
      · cases e
      · cases e; exact fread_alive ef g

theorem readLoop_alive (f : File) (cap : Nat) : ∀ (fuel rest : Nat) (acc : List Byte) {os os' : Os} {out : List Byte},
    readLoop os f cap fuel rest acc = .ok (os', out) → ∀ g, alive os' g ↔ alive os g := by
  intro fuel
  induction fuel with
  | zero => intro rest acc os os' out e; simp only [readLoop] at e; cases e; exact fun _ => Iff.rfl
  | succ fuel ih =>
    intro rest acc os os' out e
    cases rest with
    | zero => simp only [readLoop] at e; cases e; exact fun _ => Iff.rfl
    | succ rest =>
      simp only [readLoop] at e
      cases er : f.read os (cap - acc.length) (rest + 1) with
      | error x => rw [er] at e; cases e
      | ok r =>
        obtain ⟨os1, got⟩ := r
        rw [er] at e
        intro g
        have h1 := read_alive er g
        cases got with
        | nil => simp only at e; cases e; exact h1
        | cons b bs => exact (ih _ _ e g).trans h1

theorem seekTo_alive {os : Os} {h : Nat} {s : Stream} (hl : os.streams[h]? = some (some s)) (p : Int) (g : Nat) : alive (fseekTo os h s p).1 g ↔ alive os g := by
  unfold fseekTo
  split
  · exact Iff.rfl
  · have hl2 : (os.hand h s s.pend.length).streams[h]? = some (some { s with pend := s.pend.drop s.pend.length }) := List.getElem?_set_self (lt_of_live hl)
    exact (put_alive hl2 g).trans (hand_alive hl _ g)

/-- reading, writing and seeking opens and closes nothing -/
theorem act_alive {os os' : Os} {f : File} {a : Act} {x : Ans} (e : act os f a = .ok (os', x)) (g : Nat) : alive os' g ↔ alive os g := by
  cases a with
  | write b =>
    simp only [act, File.write] at e
    cases ep : f.ptr with
    | error x => rw [ep] at e; cases e
    | ok h =>
      simp only [ep, bind, Except.bind, fwrite] at e
      cases eg : os.get h with
      | error x => rw [eg] at e; cases e
      | ok s =>
        simp only [eg, pure, Except.pure] at e
        split at e
        · cases e; rfl
        · split at e
          · cases e
          · cases e; exact put_alive (get_live eg) g
  | read cap n =>
    simp only [act] at e
    cases er : f.read os cap n with
    | error x => rw [er] at e; cases e
    | ok r => rw [er] at e; cases e; exact read_alive er g
  | readFully cap n =>
    simp only [act, File.readFully] at e
    cases er : readLoop os f cap n n [] with
    | error x => rw [er] at e; cases e
    | ok r => rw [er] at e; cases e; exact readLoop_alive f cap n n [] er g
  | seek p =>
    simp only [act, File.seek] at e
    cases ep : f.ptr with
    | error x => rw [ep] at e; cases e
    | ok h =>
      simp only [ep, bind, Except.bind, fseekSet] at e
      cases eg : os.get h with
      | error x => rw [eg] at e; cases e
      | ok s => simp only [eg, pure, Except.pure, Except.map] at e; cases e; exact seekTo_alive (get_live eg) p g
  | move d =>
    simp only [act, File.move] at e
    cases ep : f.ptr with
    | error x => rw [ep] at e; cases e
    | ok h =>
      simp only [ep, bind, Except.bind, fseekCur] at e
      cases eg : os.get h with
      | error x => rw [eg] at e; cases e
      | ok s => simp only [eg, pure, Except.pure, Except.map] at e; cases e; exact seekTo_alive (get_live eg) _ g
  | position =>
    simp only [act] at e
    cases ep : f.position os with
    | error x => rw [ep] at e; cases e
    | ok h => rw [ep] at e; cases e; rfl
  | background k =>
    simp only [act] at e
    cases e
    cases f.handle with
    | none => rfl
    | some h =>
      simp only [Os.background]
      cases hs : os.streams[h]? with
      | none => rfl
      | some o =>
        cases o with
        | none => rfl
        | some s => exact hand_alive hs k g

/-- opening: one new stream, or none -/
theorem open_alive (os : Os) (f : File) (m : Mode) (deny : Option Errno) (lg : Errno → Errno) :
    ((f.open os m deny lg).2.1.handle = none ∧ ∀ g, alive (f.open os m deny lg).1 g ↔ alive os g) ∨
    ((f.open os m deny lg).2.1.handle = some os.streams.length ∧ ∀ g, alive (f.open os m deny lg).1 g ↔ (alive os g ∨ g = os.streams.length)) := by
  have key : ∀ (x : Os) (s : Stream), x.streams = os.streams ++ [some s] → ∀ g, alive x g ↔ (alive os g ∨ g = os.streams.length) := by
    intro x s hx g
    unfold alive
    rw [hx]
    by_cases h1 : g < os.streams.length
    · rw [List.getElem?_append_left h1]
      constructor
      · exact .inl
      · rintro (h | h)
        · exact h
        · omega
    · by_cases h2 : g = os.streams.length
      · subst h2; simp
      · rw [List.getElem?_eq_none_iff.2 (by simp; omega), List.getElem?_eq_none_iff.2 (by omega)]
        simp [h2]
  unfold File.open fopen
  cases deny with
  | some e => exact .inl ⟨rfl, fun _ => Iff.rfl⟩
  | none =>
    cases hn : os.names f.path with
    | none =>
      cases m with
      | write => exact .inr ⟨rfl, key _ _ rfl⟩
      | _ => exact .inl ⟨rfl, fun _ => Iff.rfl⟩
    | some i =>
      cases m <;> exact .inr ⟨rfl, key _ _ rfl⟩

/-- closing a live stream -/
theorem close_alive {os : Os} {f : File} {h : Nat} (hf : f.handle = some h) (ha : alive os h) :
    ∃ os', f.close os false = .ok (os', { f with handle := none }, false) ∧ ∀ g, alive os' g ↔ (alive os g ∧ g ≠ h) := by
  obtain ⟨s, hs⟩ := ha
  refine ⟨{ os.hand h s s.pend.length with streams := (os.hand h s s.pend.length).streams.set h none }, ?_, ?_⟩
  · simp only [File.close, hf, fclose, get_ok hs, Bool.false_eq_true, if_false]
  · intro g
    have h1 := hand_alive (x := s) hs s.pend.length g
    by_cases hg : g = h
    · subst hg
      simp [alive, Os.hand, List.getElem?_set_self (lt_of_live hs)]
    · simp only [hg, ne_eq, not_false_eq_true, and_true]
      rw [← h1]
      simp only [alive, List.getElem?_set_ne (Ne.symm hg)]

theorem var_set (st : St) (os : Os) (v w : Nat) (f : File) (hv : ∃ g, st.var v = some g) : (st.setVar os v f).var w = if w = v then some f else st.var w := by
  obtain ⟨g, hg⟩ := hv
  have hlt : v < st.vars.length := by
    refine Decidable.byContradiction fun hc => ?_
    simp [St.var, List.getElem?_eq_none_iff.2 (Nat.le_of_not_lt hc)] at hg
  by_cases h : w = v
  · subst h; simp [St.var, St.setVar, List.getElem?_set_self hlt]
  · simp [St.var, St.setVar, List.getElem?_set_ne (Ne.symm h), h]

/-- the variables keep their streams, the open streams stay the same, except for what `v` does -/
theorem Inv.update {st : St} (i : Inv st) {os : Os} {v : Nat} {f f' : File} (hv : st.var v = some f)
    (h1 : ∀ g, alive os g ↔ (alive st.os g ∧ f.handle ≠ some g) ∨ f'.handle = some g)
    (h2 : ∀ g, f'.handle = some g → f.handle = some g ∨ ¬ alive st.os g) : Inv (st.setVar os v f') := by
  have hvar := fun w => var_set st os v w f' ⟨f, hv⟩
  refine ⟨?_, ?_, ?_⟩
  · intro w g h hw hh
    rw [hvar] at hw
    refine (h1 h).2 ?_
    by_cases hwv : w = v
    · rw [if_pos hwv] at hw; cases hw; exact .inr hh
    · rw [if_neg hwv] at hw
      refine .inl ⟨i.live w g h hw hh, fun hc => hwv (i.one w v g f h hw hv hh hc)⟩
  · intro w u g k h hw hu hg hk
    rw [hvar] at hw hu
    by_cases hwv : w = v <;> by_cases huv : u = v
    · rw [hwv, huv]
    · rw [if_pos hwv] at hw; rw [if_neg huv] at hu
      cases hw
      exfalso
      rcases h2 h hg with h3 | h3
      · exact huv (i.one u v k f h hu hv hk h3)
      · exact h3 (i.live u k h hu hk)
    · rw [if_neg hwv] at hw; rw [if_pos huv] at hu
      cases hu
      exfalso
      rcases h2 h hk with h3 | h3
      · exact hwv (i.one w v g f h hw hv hg h3)
      · exact h3 (i.live w g h hw hg)
    · rw [if_neg hwv] at hw; rw [if_neg huv] at hu
      exact i.one w u g k h hw hu hg hk
  · intro h hh
    rcases (h1 h).1 hh with ⟨h3, h4⟩ | h3
    · obtain ⟨w, g, hw, hg⟩ := i.owned h h3
      have hwv : w ≠ v := by
        intro e
        subst e
        rw [hv] at hw
        cases hw
        exact h4 hg
      exact ⟨w, g, by rw [hvar, if_neg hwv]; exact hw, hg⟩
    · exact ⟨v, f', by rw [hvar, if_pos rfl], h3⟩

theorem Inv.same {st : St} (i : Inv st) {os : Os} (h : ∀ g, alive os g ↔ alive st.os g) : Inv ⟨os, st.vars⟩ :=
  ⟨fun v f k hv hk => (h k).2 (i.live v f k hv hk), i.one, fun k hk => i.owned k ((h k).1 hk)⟩

theorem var_append (os : Os) (vars : List (Option File)) (f : File) (w : Nat) :
    St.var ⟨os, vars ++ [some f]⟩ w = if w = vars.length then some f else (vars[w]?).getD none := by
  unfold St.var
  by_cases h1 : w < vars.length
  · simp only [List.getElem?_append_left h1, if_neg (show ¬ w = vars.length by omega)]
  · by_cases h2 : w = vars.length
    · subst h2; simp
    · rw [if_neg h2, List.getElem?_eq_none_iff.2 (by simp; omega), List.getElem?_eq_none_iff.2 (by omega)]

theorem Inv.append {st : St} (i : Inv st) (f : File) (hf : f.handle = none) : Inv ⟨st.os, st.vars ++ [some f]⟩ := by
  have hvar := var_append st.os st.vars f
  have back : ∀ w g h, St.var ⟨st.os, st.vars ++ [some f]⟩ w = some g → g.handle = some h → st.var w = some g := by
    intro w g h hw hh
    rw [hvar] at hw
    split at hw
    · cases hw; rw [hf] at hh; cases hh
    · exact hw
  refine ⟨fun v g h hv hh => i.live v g h (back v g h hv hh) hh,
    fun v w g k h hv hw hg hk => i.one v w g k h (back v g h hv hg) (back w k h hw hk) hg hk, fun h hh => ?_⟩
  obtain ⟨v, g, hv, hg⟩ := i.owned h hh
  refine ⟨v, g, ?_, hg⟩
  rw [hvar, if_neg]
  · exact hv
  · intro e
    subst e
    simp [St.var] at hv

theorem Inv.erase {st : St} (i : Inv st) {v : Nat} {f : File} (hv : st.var v = some f) (hf : f.handle = none) : Inv ⟨st.os, st.vars.set v none⟩ := by
  have hvar : ∀ w, St.var ⟨st.os, st.vars.set v none⟩ w = if w = v then none else st.var w := by
    intro w
    by_cases h : w = v
    · subst h
      simp only [St.var, if_pos]
      by_cases hlt : w < st.vars.length
      · simp [List.getElem?_set_self hlt]
      · simp [List.getElem?_eq_none_iff.2 (show (st.vars.set w none).length ≤ w by simpa using Nat.le_of_not_lt hlt)]
    · simp [St.var, List.getElem?_set_ne (Ne.symm h), h]
  have back : ∀ w g, St.var ⟨st.os, st.vars.set v none⟩ w = some g → st.var w = some g := by
    intro w g hw
    rw [hvar] at hw
    split at hw
    · cases hw
    · exact hw
  refine ⟨fun w g h hw hh => i.live w g h (back w g hw) hh, fun w u g k h hw hu hg hk => i.one w u g k h (back w g hw) (back u k hu) hg hk, fun h hh => ?_⟩
  obtain ⟨w, g, hw, hg⟩ := i.owned h hh
  refine ⟨w, g, ?_, hg⟩
  rw [hvar, if_neg]
  · exact hw
  · intro e
    subst e
    rw [hv] at hw
    cases hw
    rw [hf] at hg
    cases hg

/-- `act` of a variable that is open is on a live stream; all other steps within the rules are defined, and all of them keep the streams in
order -/
theorem fair_step {st : St} (i : Inv st) (op : Op) (hf : Fair st op) :
    (∀ st', step st op = .ok st' → Inv st') ∧ ((∀ v a, op ≠ .act v a) → ∃ st', step st op = .ok st') := by
  cases op with
  | make p => exact ⟨fun st' e => by cases e; exact i.append _ rfl, fun _ => ⟨_, rfl⟩⟩
  | copy v =>
    cases hv : st.var v with
    | none => simp only [step, Op.target, hv]; exact ⟨fun st' e => by cases e; exact i, fun _ => ⟨_, rfl⟩⟩
    | some f =>
      simp only [step, Op.target, hv, onVar]
      exact ⟨fun st' e => by cases e; exact i.append _ (hf f hv), fun _ => ⟨_, rfl⟩⟩
  | assign v w =>
    cases hv : st.var v with
    | none => simp only [step, Op.target, hv]; exact ⟨fun st' e => by cases e; exact i, fun _ => ⟨_, rfl⟩⟩
    | some f =>
      simp only [step, Op.target, hv, onVar]
      cases hw : st.var w with
      | none => exact ⟨fun st' e => by cases e; exact i, fun _ => ⟨_, rfl⟩⟩
      | some g =>
        refine ⟨fun st' e => ?_, fun _ => ⟨_, rfl⟩⟩
        cases e
        have h1 := hf.1 f hv
        have h2 : g.copy.handle = none := hf.2 g hw
        exact i.update hv (fun k => by simp [h1, h2]) (fun k hk => by rw [h2] at hk; cases hk)
  | destroy v =>
    cases hv : st.var v with
    | none => simp only [step, Op.target, hv]; exact ⟨fun st' e => by cases e; exact i, fun _ => ⟨_, rfl⟩⟩
    | some f =>
      simp only [step, Op.target, hv, onVar]
      exact ⟨fun st' e => by cases e; exact i.erase hv (hf f hv), fun _ => ⟨_, rfl⟩⟩
  | «open» v m deny lg =>
    cases hv : st.var v with
    | none => simp only [step, Op.target, hv]; exact ⟨fun st' e => by cases e; exact i, fun _ => ⟨_, rfl⟩⟩
    | some f =>
      simp only [step, Op.target, hv, onVar]
      refine ⟨fun st' e => ?_, fun _ => ⟨_, rfl⟩⟩
      cases e
      have h1 := hf f hv
      have hdead : ¬ alive st.os st.os.streams.length := by simp [alive]
      rcases open_alive st.os f m deny lg with ⟨h2, h3⟩ | ⟨h2, h3⟩
      · exact i.update hv (fun k => by rw [h3, h2]; simp [h1]) (fun k hk => by rw [h2] at hk; cases hk)
      · refine i.update hv (fun k => by rw [h3, h2, h1]; simp [eq_comm]) (fun k hk => ?_)
        rw [h2] at hk
        cases hk
        exact .inr hdead
  | close v fail =>
    have hfail : fail = false := hf
    subst hfail
    cases hv : st.var v with
    | none => simp only [step, Op.target, hv]; exact ⟨fun st' e => by cases e; exact i, fun _ => ⟨_, rfl⟩⟩
    | some f =>
      simp only [step, Op.target, hv, onVar]
      cases hh : f.handle with
      | none =>
        have : f.close st.os false = .ok (st.os, f, false) := by simp [File.close, hh]
        rw [this]
        refine ⟨fun st' e => ?_, fun _ => ⟨_, rfl⟩⟩
        cases e
        exact i.update hv (fun k => by simp [hh]) (fun k hk => by rw [hh] at hk; cases hk)
      | some h =>
        obtain ⟨os', e, ha⟩ := close_alive hh (i.live v f h hv hh)
        rw [e]
        refine ⟨fun st' e => ?_, fun _ => ⟨_, rfl⟩⟩
        cases e
        refine i.update hv (fun k => ?_) (fun k hk => by cases hk)
        rw [ha, hh]
        simp [eq_comm]
  | act v a =>
    cases hv : st.var v with
    | none => simp only [step, Op.target, hv]; exact ⟨fun st' e => by cases e; exact i, fun h => absurd rfl (h v a)⟩
    | some f =>
      simp only [step, Op.target, hv, onVar]
      refine ⟨fun st' e => ?_, fun h => absurd rfl (h v a)⟩
      cases ea : FileIO.act st.os f a with
      | error x => rw [ea] at e; cases e
      | ok r => rw [ea] at e; cases e; exact i.same (act_alive ea)
  | create v deny fail =>
    obtain ⟨hc, hfail⟩ := hf
    subst hfail
    cases hv : st.var v with
    | none => simp only [step, Op.target, hv]; exact ⟨fun st' e => by cases e; exact i, fun _ => ⟨_, rfl⟩⟩
    | some f =>
      have h1 := hc f hv
      simp only [step, Op.target, hv, onVar, File.createNewFile]
      have ho := open_alive st.os f .write deny id
      unfold File.open at ho
      cases hfo : fopen st.os f.path .write deny with
      | mk os1 r =>
        rw [hfo] at ho
        cases r with
        | error e =>
          simp only at ho ⊢
          refine ⟨fun st' e => ?_, fun _ => ⟨_, rfl⟩⟩
          cases e
          rcases ho with ⟨h2, h3⟩ | ⟨h2, h3⟩
          · exact i.update hv (fun k => by rw [h3]; simp [h1]) (fun k hk => by cases hk)
          · cases h2
        | ok h =>
          simp only at ho ⊢
          rcases ho with ⟨h2, h3⟩ | ⟨h2, h3⟩
          · cases h2
          · cases h2
            have hdead : ¬ alive st.os st.os.streams.length := by simp [alive]
            obtain ⟨os', e, ha⟩ := close_alive (os := os1) (f := { f with handle := some st.os.streams.length }) rfl ((h3 _).2 (.inr rfl))
            rw [e]
            refine ⟨fun st' e => ?_, fun _ => ⟨_, rfl⟩⟩
            cases e
            refine i.update hv (fun k => ?_) (fun k hk => by cases hk)
            rw [ha, h3]
            simp only [h1, reduceCtorEq, ne_eq, not_false_eq_true, and_true, or_false]
            constructor
            · rintro ⟨h4 | h4, h5⟩
              · exact h4
              · exact absurd h4 h5
            · exact fun h4 => ⟨.inl h4, fun h5 => hdead (h5 ▸ h4)⟩
  | remove v =>
    cases hv : st.var v with
    | none => simp only [step, Op.target, hv]; exact ⟨fun st' e => by cases e; exact i, fun _ => ⟨_, rfl⟩⟩
    | some f =>
      simp only [step, Op.target, hv, onVar]
      refine ⟨fun st' e => ?_, fun _ => ⟨_, rfl⟩⟩
      cases e
      refine i.same (fun g => ?_)
      simp only [File.remove, unlink]
      split <;> exact Iff.rfl
  | rename v new =>
    cases hv : st.var v with
    | none => simp only [step, Op.target, hv]; exact ⟨fun st' e => by cases e; exact i, fun _ => ⟨_, rfl⟩⟩
    | some f =>
      simp only [step, Op.target, hv, onVar]
      refine ⟨fun st' e => ?_, fun _ => ⟨_, rfl⟩⟩
      cases e
      have h1 : ∀ g, alive (f.renameTo st.os new).1 g ↔ alive st.os g := by
        intro g
        unfold File.renameTo FileIO.rename
        cases hn : st.os.names f.path <;> exact Iff.rfl
      have h2 : (f.renameTo st.os new).2.1.handle = f.handle := by
        unfold File.renameTo FileIO.rename
        cases hn : st.os.names f.path <;> rfl
      refine i.update hv (fun k => ?_) (fun k hk => .inl (h2 ▸ hk))
      rw [h1, h2]
      constructor
      · intro h
        by_cases hk : f.handle = some k
        · exact .inr hk
        · exact .inl ⟨h, hk⟩
      · rintro (h | h)
        · exact h.1
        · exact i.live v f k hv h

end Verif.FileIO.Handles
