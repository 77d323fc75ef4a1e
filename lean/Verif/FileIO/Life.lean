import Verif.FileIO.Session
/-
C101: from opening to closing.
-/
namespace Verif.FileIO
open Verif

/-- the names lead to files, different names to different files (no hard links) -/
structure Os.Ok (os : Os) : Prop where
  has : ∀ p i, os.names p = some i → i < os.files.length
  one : ∀ p q i, os.names p = some i → os.names q = some i → p = q

/-- what is in the file of a name, as others see it -/
def Os.contents (os : Os) (p : Path) : Option (List Byte) := (os.names p).map os.file

/-- what a file has when it is opened -/
def openContent (os : Os) (p : Path) (m : Mode) : List Byte := if m = .write then [] else (os.contents p).getD []

theorem Os.Ok.frame {os os' : Os} {h j : Nat} (w : os.Ok) (F : Frame os os' h j) : os'.Ok :=
  ⟨fun p i e => by rw [F.files]; exact w.has p i (by rw [← F.names]; exact e),
   fun p q i e1 e2 => w.one p q i (by rw [← F.names]; exact e1) (by rw [← F.names]; exact e2)⟩

theorem frame_contents {os os' : Os} {h j : Nat} (w : os.Ok) (F : Frame os os' h j) {path : Path} (hj : os.names path = some j) {q : Path} (hq : q ≠ path) :
    os'.contents q = os.contents q := by
  unfold Os.contents
  rw [F.names]
  cases e : os.names q with
  | none => rfl
  | some k =>
    simp only [Option.map_some]
    rw [F.other k (fun h => hq (w.one q path j (by rw [e, h]) hj))]

theorem statusOf_ne (e : Errno) : statusOf e ≠ .ok .ok := by cases e <;> simp [statusOf]

/-- what opening does -/
theorem open_sim {os os1 : Os} {f f1 : File} {m : Mode} {deny : Option Errno} {lg : Errno → Errno} (w : os.Ok)
    (e : f.open os m deny lg = (os1, f1, .ok .ok)) :
    ∃ s, Sim os1 os.streams.length s ⟨m, openContent os f.path m, 0⟩ ∧ f1 = ⟨f.path, some os.streams.length⟩ ∧ os1.names f.path = some s.file ∧
      os1.Ok ∧ (∀ q, q ≠ f.path → os1.contents q = os.contents q) ∧ (∃ s, os1.streams = os.streams ++ [some s]) ∧
      (∀ i, os.names f.path = some i → s.file = i) ∧ (os.names f.path = none → s.file = os.files.length) ∧
      (∀ k, k ≠ s.file → os1.file k = os.file k) ∧ os.files.length ≤ os1.files.length := by
  unfold File.open at e
  cases d : deny with
  | some x =>
    simp only [d, fopen] at e
    simp only [Prod.mk.injEq] at e
    exact absurd e.2.2 (statusOf_ne _)
  | none =>
    have live : ∀ (l : List (Option Stream)) (s : Stream), (l ++ [some s])[l.length]? = some (some s) := by
      intro l s; simp
    have fresh : ∀ i m, (newStream i m).pend = [] := fun _ _ => rfl
    cases hn : os.names f.path with
    | none =>
      cases m with
      | write =>
        simp only [d, fopen, hn, Prod.mk.injEq] at e
        obtain ⟨rfl, rfl, _⟩ := e
        have hfile : ∀ (nm : Path → Option Nat) (st : List (Option Stream)) (k : Nat), (Os.mk nm (os.files ++ [[]]) st).file k = os.file k := by
          intro nm st k
          simp only [Os.file, List.getD]
          by_cases hk : k < os.files.length
          · rw [List.getElem?_append_left hk]
          · rw [List.getElem?_append_right (by omega), List.getElem?_eq_none_iff.2 (show os.files.length ≤ k by omega)]
            cases h : k - os.files.length <;> simp
        refine ⟨newStream os.files.length .write, ⟨live _ _, rfl, rfl, by simp [newStream], by simp [newStream], ?_, by simp [newStream], by simp [newStream]⟩, rfl, ?_, ⟨?_, ?_⟩, ?_, ⟨_, rfl⟩, ?_, ?_, ?_, by simp⟩
        · simp [openContent, newStream, putAt, Os.file]
        · simp [newStream]
        · intro p i hp
          simp only [List.length_append, List.length_cons, List.length_nil] at hp ⊢
          split at hp
          · cases hp; omega
          · have := w.has p i hp; omega
        · intro p q i h1 h2
          simp only at h1 h2
          split at h1 <;> split at h2
          · simp_all
          · cases h1; have := w.has _ _ h2; omega
          · cases h2; have := w.has _ _ h1; omega
          · exact w.one _ _ _ h1 h2
        · intro q hq
          simp only [Os.contents, hq, if_false]
          cases hq2 : os.names q with
          | none => rfl
          | some k => simp only [Option.map_some, hfile]
        · intro i hi; cases hi
        · intro _; rfl
        · intro k _; exact hfile _ _ k
      | read =>
        simp only [d, fopen, hn, Prod.mk.injEq] at e
        exact absurd e.2.2 (statusOf_ne _)
      | readWrite =>
        simp only [d, fopen, hn, Prod.mk.injEq] at e
        exact absurd e.2.2 (statusOf_ne _)
    | some i =>
      have hi := w.has _ _ hn
      cases m with
      | write =>
        simp only [d, fopen, hn, Prod.mk.injEq] at e
        obtain ⟨rfl, rfl, _⟩ := e
        refine ⟨newStream i .write, ⟨live _ _, rfl, rfl, by simp [newStream], by simpa [newStream] using hi, ?_, by simp [newStream], by simp [newStream]⟩, rfl, hn, ⟨?_, w.one⟩, ?_, ⟨_, rfl⟩, ?_, ?_, ?_, by simp⟩
        · simp only [openContent, if_true, newStream, putAt_nil]
          exact (file_set_self hi _ _).symm
        · intro p k hp; simpa using w.has p k hp
        · intro q hq
          simp only [Os.contents]
          cases hq2 : os.names q with
          | none => rfl
          | some k =>
            simp only [Option.map_some]
            rw [file_set_ne (fun h => hq (w.one q f.path i (by rw [hq2, h]) hn))]
        · intro j hj; cases hj; rfl
        · intro h; cases h
        · intro k hk; exact file_set_ne hk _ _
      | read =>
        simp only [d, fopen, hn, Prod.mk.injEq] at e
        obtain ⟨rfl, rfl, _⟩ := e
        refine ⟨newStream i .read, ⟨live _ _, rfl, rfl, by simp [newStream], hi, ?_, by simp [newStream], by simp [newStream]⟩, rfl, hn, ⟨w.has, w.one⟩, fun _ _ => rfl, ⟨_, rfl⟩, ?_, ?_, fun _ _ => rfl, Nat.le_refl _⟩
        · simp [openContent, Os.contents, hn, newStream, putAt, Os.file]
        · intro j hj; cases hj; rfl
        · intro h; cases h
      | readWrite =>
        simp only [d, fopen, hn, Prod.mk.injEq] at e
        obtain ⟨rfl, rfl, _⟩ := e
        refine ⟨newStream i .readWrite, ⟨live _ _, rfl, rfl, by simp [newStream], hi, ?_, by simp [newStream], by simp [newStream]⟩, rfl, hn, ⟨w.has, w.one⟩, fun _ _ => rfl, ⟨_, rfl⟩, ?_, ?_, fun _ _ => rfl, Nat.le_refl _⟩
        · simp [openContent, Os.contents, hn, newStream, putAt, Os.file]
        · intro j hj; cases hj; rfl
        · intro h; cases h

/-- what closing does -/
theorem close_sim {os os' : Os} {f f' : File} {h : Nat} {s : Stream} {i : Ideal} {t : Bool} (hf : f.handle = some h) (S : Sim os h s i)
    (e : f.close os false = .ok (os', f', t)) :
    t = false ∧ f' = { f with handle := none } ∧ os'.file s.file = i.content ∧ Frame os os' h s.file ∧ os'.streams[h]? = some none := by
  simp only [File.close, hf, fclose, get_ok S.live, Bool.false_eq_true, if_false] at e
  cases e
  have F := hand_frame os h s s.pend.length
  have S1 := hand_sim S s.pend.length
  refine ⟨rfl, rfl, ?_, ⟨F.names, F.files, F.other, ?_, ?_⟩, ?_⟩
  · have := S1.content
    simp only [List.drop_length, putAt_nil] at this
    exact this.symm
  · simp [Os.hand]
  · intro g hg
    simp only [List.getElem?_set_ne (Ne.symm hg)]
    exact F.stream g hg
  · exact List.getElem?_set_self (lt_of_live S1.live)

end Verif.FileIO
