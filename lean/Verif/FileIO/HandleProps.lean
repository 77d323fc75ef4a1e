import Verif.FileIO.Handles
/-
C102: who has a stream open; creating, renaming, removing files; two files at once.
-/
namespace Verif.FileIO.Handles
open Verif Verif.FileIO Verif.FileIO.Props

/-- a program starts without variables and without open streams -/
def Start (st : St) : Prop := st.vars = [] ∧ ∀ h, ¬ alive st.os h

theorem start_inv {st : St} (h : Start st) : Inv st := by
  have hv : ∀ v, st.var v = none := fun v => by simp [St.var, h.1]
  exact ⟨fun v f k hk => (by rw [hv] at hk; cases hk), fun v w f g k hk => (by rw [hv] at hk; cases hk), fun k hk => absurd hk (h.2 k)⟩

theorem fair_inv {st : St} (i : Inv st) (l : List Op) (hf : FairRun st l) {st' : St} (e : run st l = .ok st') : Inv st' := by
  induction l generalizing st with
  | nil => cases e; exact i
  | cons op l ih =>
    simp only [run] at e
    cases es : step st op with
    | error x => rw [es] at e; cases e
    | ok st1 =>
      rw [es] at e
      exact ih ((fair_step i op hf.1).1 st1 es) (hf.2 st1 es) e

/-- Programs within the rules: a variable that says it is open has a live stream of its own, and every live stream belongs to a variable. -/
theorem fair_owned {st : St} (hs : Start st) (l : List Op) (hf : FairRun st l) {st' : St} (e : run st l = .ok st') :
    (∀ v f, st'.var v = some f → f.isOpen = true → ∃ h, f.handle = some h ∧ alive st'.os h ∧
      ∀ w g, w ≠ v → st'.var w = some g → g.handle ≠ some h) ∧
    (∀ h, alive st'.os h → ∃ v f, st'.var v = some f ∧ f.handle = some h) := by
  have i := fair_inv (start_inv hs) l hf e
  refine ⟨fun v f hv ho => ?_, i.owned⟩
  cases hh : f.handle with
  | none => simp [File.isOpen, hh] at ho
  | some h => exact ⟨h, rfl, i.live v f h hv hh, fun w g hw hg hk => hw (i.one w v g f h hg hv hk hh)⟩

/-- when all files are closed, no stream is open -/
theorem fair_no_leak {st : St} (hs : Start st) (l : List Op) (hf : FairRun st l) {st' : St} (e : run st l = .ok st')
    (hc : ∀ v f, st'.var v = some f → f.isOpen = false) (h : Nat) : ¬ alive st'.os h := by
  intro ha
  obtain ⟨v, f, hv, hh⟩ := (fair_owned hs l hf e).2 h ha
  have := hc v f hv
  simp [File.isOpen, hh] at this

/-- the only operations within the rules that can go wrong are the calls on an open file (in the order of C101) -/
theorem fair_defined {st : St} (hs : Start st) (l : List Op) (hf : FairRun st l) {st' : St} (e : run st l = .ok st') (op : Op) (ho : Fair st' op)
    (hn : ∀ v a, op ≠ .act v a) : ∃ st2, step st' op = .ok st2 :=
  (fair_step (fair_inv (start_inv hs) l hf e) op ho).2 hn

/-! ### outside of the rules -/

/-- After copying an open file and closing the original, the copy still says it is open, but everything it does with the stream is
undefined. -/
theorem copy_dangles {os os' : Os} {f f' : File} {h : Nat} (hf : f.handle = some h) (fail : Bool) (t : Bool) (e : f.close os fail = .ok (os', f', t)) :
    f.copy.isOpen = true ∧ f.copy.close os' fail = .error .ub ∧ f.copy.position os' = .error .ub ∧
    (∀ b, f.copy.write os' b = .error .ub) ∧ ∀ cap n, f.copy.read os' cap n = .error .ub := by
  have hdead : os'.get h = .error .ub := by
    simp only [File.close, hf, fclose] at e
    cases eg : os.get h with
    | error x => rw [eg] at e; cases e
    | ok s =>
      have hl := lt_of_live (get_live eg)
      rw [eg] at e
      cases fail with
      | true =>
        simp only [if_true] at e
        cases e
        simp [Os.get, List.getElem?_set_self hl]
      | false =>
        simp only [Bool.false_eq_true, if_false] at e
        cases e
        have hl2 : h < (os.hand h s s.pend.length).streams.length := by simpa [Os.hand] using hl
        simp [Os.get, List.getElem?_set_self hl2]
  have hc : f.copy.handle = some h := hf
  refine ⟨by simp [File.isOpen, hc], ?_, ?_, ?_, ?_⟩
  · simp only [File.close, hc, fclose, hdead]
  · simp only [File.position, File.ptr, hc, bind, Except.bind, ftell, hdead]
  · intro b; simp only [File.write, File.ptr, hc, bind, Except.bind, fwrite, hdead]
  · intro cap n; simp only [File.read, File.ptr, hc, bind, Except.bind, fread, hdead]

/-- a file that could not be closed properly says it is open, and to close it again is undefined -/
theorem close_failed {os : Os} {f : File} {h : Nat} (hf : f.handle = some h) (ha : alive os h) :
    ∃ os', f.close os true = .ok (os', f, true) ∧ f.isOpen = true ∧ ∀ b, f.close os' b = .error .ub := by
  obtain ⟨s, hs⟩ := ha
  refine ⟨{ os with streams := os.streams.set h none }, ?_, by simp [File.isOpen, hf], fun b => ?_⟩
  · simp only [File.close, hf, fclose, get_ok hs, if_true]
  · have : Os.get { os with streams := os.streams.set h none } h = .error .ub := by simp [Os.get, List.getElem?_set_self (lt_of_live hs)]
    simp only [File.close, hf, fclose, this]

/-- on a file that is not open only closing is defined -/
theorem closed_undefined (os : Os) (f : File) (hf : f.isOpen = false) :
    f.position os = .error .ub ∧ (∀ p, f.seek os p = .error .ub) ∧ (∀ d, f.move os d = .error .ub) ∧ (∀ b, f.write os b = .error .ub) ∧
    (∀ cap n, f.read os cap n = .error .ub) ∧ ∀ b, f.close os b = .ok (os, f, false) := by
  have hh : f.handle = none := by simpa [File.isOpen] using hf
  have hp : f.ptr = .error .ub := by simp [File.ptr, hh]
  refine ⟨?_, fun p => ?_, fun p => ?_, fun p => ?_, fun p q => ?_, fun b => ?_⟩
  · simp only [File.position, hp, bind, Except.bind]
  · simp only [File.seek, hp, bind, Except.bind]
  · simp only [File.move, hp, bind, Except.bind]
  · simp only [File.write, hp, bind, Except.bind]
  · simp only [File.read, hp, bind, Except.bind]
  · simp only [File.close, hh]

/-- Opening or creating once more, or ending the life of the variable, while the file is open: the stream stays open and nobody has it any
more. -/
theorem open_leaks {os : Os} {f : File} {h : Nat} (hf : f.handle = some h) (ha : alive os h) (m : Mode) (deny : Option Errno) (lg : Errno → Errno) :
    alive (f.open os m deny lg).1 h ∧ (f.open os m deny lg).2.1.handle ≠ some h := by
  have hlt : h ≠ os.streams.length := by
    obtain ⟨s, hs⟩ := ha
    have := lt_of_live hs
    omega
  rcases open_alive os f m deny lg with ⟨h1, h2⟩ | ⟨h1, h2⟩
  · exact ⟨(h2 h).2 ha, by rw [h1]; simp⟩
  · refine ⟨(h2 h).2 (.inl ha), ?_⟩
    rw [h1]
    simpa [eq_comm] using hlt

theorem create_leaks {os os' : Os} {f f' : File} {h : Nat} {deny : Option Errno} {fail r t : Bool} (hf : f.handle = some h) (ha : alive os h)
    (e : f.createNewFile os deny fail = .ok (os', f', r, t)) : alive os' h ∧ f'.handle ≠ some h := by
  obtain ⟨h1, h2⟩ := open_leaks hf ha .write deny id
  unfold File.createNewFile at e
  unfold File.open at h1 h2
  cases hfo : fopen os f.path .write deny with
  | mk os1 x =>
    rw [hfo] at e h1 h2
    cases x with
    | error y => simp only at e h1; cases e; exact ⟨h1, by simp⟩
    | ok k =>
      simp only at e h1 h2
      have hk : k ≠ h := by
        intro hc
        subst hc
        exact h2 rfl
      simp only [File.close, fclose] at e
      cases eg : os1.get k with
      | error y => rw [eg] at e; cases e
      | ok s =>
        rw [eg] at e
        obtain ⟨s1, hs1⟩ := h1
        cases fail with
        | true =>
          simp only [if_true] at e
          cases e
          refine ⟨⟨s1, ?_⟩, by simpa using hk⟩
          simp only [List.getElem?_set_ne hk, hs1]
        | false =>
          simp only [Bool.false_eq_true, if_false] at e
          cases e
          refine ⟨⟨s1, ?_⟩, by simp⟩
          simp only [Os.hand, List.getElem?_set_ne hk, hs1]

theorem destroy_leaks {st : St} (i : Inv st) {v : Nat} {f : File} {h : Nat} (hv : st.var v = some f) (hf : f.handle = some h) :
    ∃ st', step st (.destroy v) = .ok st' ∧ alive st'.os h ∧ ∀ w g, st'.var w = some g → g.handle ≠ some h := by
  refine ⟨⟨st.os, st.vars.set v none⟩, by simp only [step, Op.target, hv, onVar], i.live v f h hv hf, fun w g hw hg => ?_⟩
  have hwv : w ≠ v := by
    rintro rfl
    simp only [St.var] at hw
    by_cases hlt : w < st.vars.length
    · simp [List.getElem?_set_self hlt] at hw
    · simp [List.getElem?_eq_none_iff.2 (show (st.vars.set w none).length ≤ w by simpa using Nat.le_of_not_lt hlt)] at hw
  have hw2 : st.var w = some g := by simpa [St.var, List.getElem?_set_ne (Ne.symm hwv)] using hw
  exact hwv (i.one w v g f h hw2 hv hg hf)

/-! ### creating, removing, renaming -/

theorem fopen_write (os : Os) (p : Path) : ∃ os1 h i, fopen os p .write none = (os1, .ok h) ∧ os1.streams[h]? = some (some (newStream i .write)) ∧
    os1.names p = some i ∧ (os.Ok → os1.file i = []) := by
  unfold fopen
  cases hn : os.names p with
  | none =>
    refine ⟨_, os.streams.length, os.files.length, rfl, by simp, by simp, fun _ => by simp [Os.file]⟩
  | some i =>
    refine ⟨_, os.streams.length, i, rfl, by simp, hn, fun w => ?_⟩
    simp [Os.file, List.getD, List.getElem?_set_self (w.has p i hn)]

/-- Where it is allowed, createNewFile always answers yes, and afterwards there is an empty file of this name - also when there was
a file before: its bytes are gone, although the documentation says that nothing happens to a file that exists. -/
theorem create_empty {os : Os} (w : os.Ok) (f : File) :
    ∃ os' f', f.createNewFile os none false = .ok (os', f', true, false) ∧ os'.contents f.path = some [] ∧ f'.isOpen = false := by
  obtain ⟨os1, h, i, e, hl, hn, hf⟩ := fopen_write os f.path
  refine ⟨{ os1.hand h (newStream i .write) 0 with streams := (os1.hand h (newStream i .write) 0).streams.set h none }, { f with handle := none }, ?_, ?_, rfl⟩
  · simp only [File.createNewFile, e, File.close, fclose, get_ok hl, Bool.false_eq_true, if_false]
    rfl
  · have h0 := hf w
    simp only [Os.contents, Os.hand, hn, Option.map_some, newStream, List.take_nil, putAt_nil, h0]
    simp only [Os.file, List.getD, Option.some.injEq]
    by_cases hi : i < os1.files.length
    · rw [List.getElem?_set_self hi]; rfl
    · rw [List.getElem?_eq_none_iff.2 (by simpa using hi)]; rfl

/-- what the documentation of createNewFile says -/
def CreateDocumented : Prop := ∀ (os : Os) (f : File), os.Ok → ∀ os' f' r t, f.createNewFile os none false = .ok (os', f', r, t) →
  ∀ c, os.contents f.path = some c → os'.contents f.path = some c ∧ r = false

theorem create_destroys : ¬ CreateDocumented := by
  intro h
  have w : Os.Ok ⟨fun p => if p = [97] then some 0 else none, [[1, 2, 3]], []⟩ := by
    refine ⟨fun p i hp => ?_, fun p q i hp hq => ?_⟩
    · simp only at hp
      split at hp
      · cases hp; simp
      · cases hp
    · simp only at hp hq
      split at hp <;> split at hq
      · simp_all
      · cases hq
      · cases hp
      · cases hp
  obtain ⟨os', f', e, hc, _⟩ := create_empty w (File.make [97])
  have h1 := h _ _ w _ _ _ _ e [1, 2, 3] rfl
  simp at h1

/-- removing: the file is gone, the others stay -/
theorem remove_spec (os : Os) (f : File) :
    (f.remove os).2 = f.exists os ∧ f.exists (f.remove os).1 = false ∧ ∀ q, q ≠ f.path → (f.remove os).1.contents q = os.contents q := by
  unfold File.remove unlink File.exists
  cases hn : os.names f.path with
  | none => simp [hn]
  | some i =>
    refine ⟨rfl, by simp, fun q hq => ?_⟩
    simp only [Os.contents, if_neg hq]
    rfl

/-- renaming a file that exists: it has the new name (a file of that name is replaced), the old name is free, the others stay, and the
variable has the new path and its stream -/
theorem rename_spec (os : Os) (f : File) (new : Path) (h : f.exists os = true) :
    (f.renameTo os new).2.2 = true ∧ (f.renameTo os new).2.1 = { f with path := new } ∧
    (f.renameTo os new).1.contents new = os.contents f.path ∧ (new ≠ f.path → (f.renameTo os new).1.contents f.path = none) ∧
    ∀ q, q ≠ f.path → q ≠ new → (f.renameTo os new).1.contents q = os.contents q := by
  unfold File.exists at h
  cases hn : os.names f.path with
  | none => rw [hn] at h; cases h
  | some i =>
    simp only [File.renameTo, FileIO.rename, hn, Os.contents, if_true, Option.map_some, true_and]
    refine ⟨rfl, fun hne => ?_, fun q h1 h2 => ?_⟩
    · rw [if_neg (Ne.symm hne)]; rfl
    · rw [if_neg h2, if_neg h1]; rfl

/-- a file that does not exist: nothing changes -/
theorem rename_missing (os : Os) (f : File) (new : Path) (h : f.exists os = false) : f.renameTo os new = (os, f, false) := by
  unfold File.exists at h
  cases hn : os.names f.path with
  | none => simp only [File.renameTo, FileIO.rename, hn]
  | some i => rw [hn] at h; cases h

/-! ### the status of open -/

/-- when logging leaves `errno` alone, a file that is not there is reported as such, one that is refused as not allowed -/
theorem open_status (os : Os) (f : File) (m : Mode) :
    (m ≠ .write → f.exists os = false → (f.open os m none id).2.2 = .ok .notFound) ∧
    (f.open os m (some .access) id).2.2 = .ok .notAllowed ∧
    (f.exists os = true ∨ m = .write → (f.open os m none id).2.2 = .ok .ok) := by
  unfold File.exists
  refine ⟨fun hm h => ?_, rfl, fun h => ?_⟩
  · cases hn : os.names f.path with
    | some i => rw [hn] at h; cases h
    | none => cases m <;> simp_all [File.open, fopen, statusOf]
  · cases hn : os.names f.path with
    | some i => cases m <;> simp [File.open, fopen, hn]
    | none =>
      rw [hn] at h
      have hm : m = .write := by simpa using h
      subst hm
      simp [File.open, fopen, hn]

/-- `errno` is read after the message was logged: when logging changed it, the answer is another one, or an exception, whatever the
reason was -/
theorem open_status_lost (os : Os) (f : File) (m : Mode) (e e' : Errno) : (f.open os m (some e) (fun _ => e')).2.2 = statusOf e' := rfl

/-! ### two files at once -/

/-- calls on two files, in any order -/
def acts2 (os : Os) (f g : File) : List (Bool × Act) → Res (Os × List (Bool × Ans))
  | [] => .ok (os, [])
  | (side, a) :: l =>
    match FileIO.act os (if side then f else g) a with
    | .error e => .error e
    | .ok (os, x) =>
      match acts2 os f g l with
      | .error e => .error e
      | .ok (os, xs) => .ok (os, (side, x) :: xs)

/-- those of one of them -/
def part {α : Type} (side : Bool) (l : List (Bool × α)) : List α := (l.filter (fun p => p.1 == side)).map Prod.snd

/-- what happens to one file does not concern a stream of another one -/
theorem sim_frame {os os' : Os} {h j h2 : Nat} {s : Stream} {i : Ideal} (S : Sim os h2 s i) (F : Frame os os' h j) (h1 : h2 ≠ h) (h3 : s.file ≠ j) :
    Sim os' h2 s i :=
  ⟨by rw [F.stream h2 h1]; exact S.live, S.mode, S.pos, S.fits, by rw [F.files]; exact S.has, by rw [F.other s.file h3]; exact S.content, S.turn, S.ro⟩

/-- Two files open at once: each answers as if it were alone. -/
theorem two_files {f g : File} {h k : Nat} (hf : f.handle = some h) (hg : g.handle = some k) (hk : h ≠ k) (l : List (Bool × Act)) {os os' : Os}
    {s t : Stream} {i j : Ideal} {xs : List (Bool × Ans)} (S : Sim os h s i) (T : Sim os k t j) (hst : s.file ≠ t.file)
    (e : acts2 os f g l = .ok (os', xs)) :
    part true xs = (i.acts (part true l)).2 ∧ part false xs = (j.acts (part false l)).2 ∧
    ∃ s' t', Sim os' h s' (i.after (part true l)) ∧ Sim os' k t' (j.after (part false l)) := by
  induction l generalizing os s t i j xs with
  | nil => cases e; exact ⟨rfl, rfl, s, t, S, T⟩
  | cons p l ih =>
    obtain ⟨side, a⟩ := p
    simp only [acts2] at e
    cases side with
    | true =>
      simp only [if_true] at e
      cases ea : FileIO.act os f a with
      | error x => rw [ea] at e; cases e
      | ok r =>
        obtain ⟨os1, x⟩ := r
        rw [ea] at e
        simp only at e
        cases e2 : acts2 os1 f g l with
        | error x => rw [e2] at e; cases e
        | ok r =>
          obtain ⟨os2, ys⟩ := r
          rw [e2] at e
          cases e
          obtain ⟨hx, s1, S1, F1, hs1⟩ := act_sim hf S ea
          obtain ⟨h1, h2, s2, t2, S2, T2⟩ := ih S1 (sim_frame T F1 (Ne.symm hk) (Ne.symm hst)) (by rw [hs1]; exact hst) e2
          refine ⟨?_, h2, s2, t2, S2, T2⟩
          show x :: part true ys = _
          rw [h1, hx]
          rfl
    | false =>
      simp only [Bool.false_eq_true, if_false] at e
      cases ea : FileIO.act os g a with
      | error x => rw [ea] at e; cases e
      | ok r =>
        obtain ⟨os1, x⟩ := r
        rw [ea] at e
        simp only at e
        cases e2 : acts2 os1 f g l with
        | error x => rw [e2] at e; cases e
        | ok r =>
          obtain ⟨os2, ys⟩ := r
          rw [e2] at e
          cases e
          obtain ⟨hx, t1, T1, F1, ht1⟩ := act_sim hg T ea
          obtain ⟨h1, h2, s2, t2, S2, T2⟩ := ih (sim_frame S F1 hk hst) T1 (by rw [ht1]; exact hst) e2
          refine ⟨h1, ?_, s2, t2, S2, T2⟩
          show x :: part false ys = _
          rw [h2, hx]
          rfl

/-! ### the hypotheses are met -/

example : Start ⟨blank, []⟩ := ⟨rfl, fun h ⟨s, hs⟩ => (by cases hs)⟩

/-- make, open, write, close, copy, open the copy, read, close it, destroy both -/
def sample : List Op :=
  [.make [97], .open 0 .write none id, .act 0 (.write [1, 2]), .close 0 false, .copy 0, .open 1 .read none id, .act 1 (.readFully 9 9), .close 1 false, .destroy 0, .destroy 1]

/-- the rules, as a function -/
def fairB (st : St) : Op → Bool
  | .make _ => true
  | .copy v => !(st.var v).any (·.handle.isSome)
  | .assign v w => !(st.var v).any (·.handle.isSome) && !(st.var w).any (·.handle.isSome)
  | .destroy v => !(st.var v).any (·.handle.isSome)
  | .open v _ _ _ => !(st.var v).any (·.handle.isSome)
  | .close _ fail => !fail
  | .act v _ => (st.var v).any (·.handle.isSome)
  | .create v _ fail => !(st.var v).any (·.handle.isSome) && !fail
  | .remove _ => true
  | .rename _ _ => true

def fairRunB (st : St) : List Op → Bool
  | [] => true
  | op :: l =>
    match step st op with
    | .error _ => fairB st op
    | .ok st' => fairB st op && fairRunB st' l

theorem closed_iff (st : St) (v : Nat) : (!(st.var v).any (·.handle.isSome)) = true ↔ st.closed v := by
  unfold St.closed
  cases st.var v with
  | none => simp
  | some f => cases hh : f.handle <;> simp [hh]

theorem fairB_sound (st : St) (op : Op) (h : fairB st op = true) : Fair st op := by
  cases op with
  | make p => trivial
  | remove v => trivial
  | rename v p => trivial
  | copy v => exact (closed_iff st v).1 h
  | destroy v => exact (closed_iff st v).1 h
  | «open» v _ _ _ => exact (closed_iff st v).1 h
  | assign v w =>
    simp only [fairB, Bool.and_eq_true] at h
    exact ⟨(closed_iff st v).1 h.1, (closed_iff st w).1 h.2⟩
  | close v fail => simpa [fairB, Fair] using h
  | act v a =>
    intro hc
    have := (closed_iff st v).2 hc
    simp only [fairB] at h
    rw [h] at this
    cases this
  | create v _ fail =>
    simp only [fairB, Bool.and_eq_true] at h
    exact ⟨(closed_iff st v).1 h.1, by simpa using h.2⟩

theorem fairRunB_sound (l : List Op) (st : St) (h : fairRunB st l = true) : FairRun st l := by
  induction l generalizing st with
  | nil => trivial
  | cons op l ih =>
    simp only [fairRunB] at h
    cases es : step st op with
    | error x => rw [es] at h; exact ⟨fairB_sound st op h, fun st' e => by rw [es] at e; cases e⟩
    | ok st1 =>
      rw [es] at h
      simp only [Bool.and_eq_true] at h
      refine ⟨fairB_sound st op h.1, fun st' e => ?_⟩
      rw [es] at e
      cases e
      exact ih st1 h.2

example : FairRun ⟨blank, []⟩ sample := fairRunB_sound _ _ (by decide +kernel)

example : ∃ st, run ⟨blank, []⟩ sample = .ok st ∧ st.os.streams = [none, none] ∧ st.os.contents [97] = some [1, 2] ∧ st.vars = [none, none] :=
  ⟨_, rfl, rfl, rfl, rfl⟩

/-- two files, written in turn -/
example : ∃ st st', run ⟨blank, []⟩ [.make [97], .make [98], .open 0 .write none id, .open 1 .write none id] = .ok st ∧
    run st [.act 0 (.write [1]), .act 1 (.write [2]), .act 0 (.write [3]), .close 1 false, .close 0 false] = .ok st' ∧
    st'.os.contents [97] = some [1, 3] ∧ st'.os.contents [98] = some [2] :=
  ⟨_, _, rfl, rfl, rfl, rfl⟩

/-- a file, opened, copied, closed -/
example : ∃ os f os', File.open blank (File.make [97]) .write none id = (os, f, .ok .ok) ∧ f.close os false = .ok (os', { f with handle := none }, false) :=
  ⟨_, _, _, rfl, rfl⟩

end Verif.FileIO.Handles
