import Verif.Home.Model
import Verif.Prog.Props
import Verif.Path.Props
import Verif.Charset.Utf8Props
/-
C123: the directories of the user and of the process.
-/
namespace Verif.Home.Props
open Verif Verif.Str Verif.Path.Spec Verif.Home
open Verif.Charset hiding Ch

/-! ### specification -/

/-- a path of the operating system: not empty, no NUL, no byte order mark in front -/
def OsPath (p : List Ch) : Prop := p ≠ [] ∧ (0 : Ch) ∉ p ∧ p.head? ≠ some 0xFEFF

/-- its bytes (UTF-8) -/
def bytes (p : List Ch) : List Byte := p.flatMap enc1

/-- a program path that fits into the buffer -/
def Fits (p : List Ch) : Prop := (bytes p).length ≤ 1023

def dotName : List Ch := [0x2E]

/-! ### strings -/

/-- the null pointer, or the bytes of a text -/
theorem ofCString_bytes (l : List Ch) (h0 : (0 : Ch) ∉ l) (hb : l.head? ≠ some 0xFEFF) :
    ∃ s, ofCString (some (bytes l ++ [0])) = .ok s ∧ WF s ∧ chars s = l := by
  have h := Utf8Props.roundtrip_partial l (bytes l) [] h0 hb (utf8Encode_eq l)
  obtain ⟨s, e, w, c⟩ := EditProps.constructed l
  refine ⟨s, ?_, w, c⟩
  simp only [ofCString, h, bind, Except.bind]
  exact e

theorem ofCString_none : ∃ s, ofCString none = .ok s ∧ WF s ∧ chars s = [] := by
  refine ⟨_, rfl, ?_, ?_⟩
  · simp [WF, newBuf]
  · simp [chars]

theorem enc1_ne (c : Ch) : enc1 c ≠ [] := by
  intro h
  have := enc1_length c
  rw [h] at this
  simp only [List.length_nil] at this
  split at this <;> first | omega | (split at this <;> omega)

theorem bytes_ne {p : List Ch} (h : p ≠ []) : 0 < (bytes p).length := by
  obtain ⟨c, l, rfl⟩ := List.exists_cons_of_ne_nil h
  have := List.length_pos_iff.2 (enc1_ne c)
  simp only [bytes, List.flatMap_cons, List.length_append]
  omega

/-! ### the path of the program -/

/-- Violation (C111): a longer path is cut off without notice; here at a character boundary. -/
theorem execPath_cut {p q : List Ch} (hp : OsPath p) (h : (bytes p).length = 1023) :
    ∃ s, Prog.execPath (some (bytes (p ++ q))) = .ok s ∧ WF s ∧ chars s = p := by
  obtain ⟨s, e, w, c⟩ := Prog.Props.execPath_partial p hp (le_of_eq h)
  refine ⟨s, ?_, w, c⟩
  rw [← e]
  have : Prog.readlink (some (bytes (p ++ q))) = Prog.readlink (Prog.Props.linkTo p) := by
    unfold Prog.readlink Prog.Props.linkTo
    simp only [Option.getD_some]
    unfold bytes at h ⊢
    rw [List.flatMap_append, ← h, List.take_left, List.take_of_length_le (le_refl _)]
  simp only [Prog.execPath, this]

example : OsPath (slash :: List.replicate 1022 0x61) ∧ (bytes (slash :: List.replicate 1022 0x61)).length = 1023 :=
  ⟨⟨List.cons_ne_nil _ _, by decide +kernel, by decide⟩, by decide +kernel⟩

/-! ### the directories of the user -/

/-- what HOME says, as text: `none` is a variable that is not set -/
def homeText (home : Option (List Ch)) : List Ch := home.getD []

def HomeOk (home : Option (List Ch)) : Prop := (0 : Ch) ∉ homeText home ∧ (homeText home).head? ≠ some 0xFEFF

theorem home_string {home : Option (List Ch)} (h : HomeOk home) :
    ∃ s, ofCString (getenv (home.map bytes)) = .ok s ∧ WF s ∧ chars s = homeText home := by
  cases home with
  | none => exact ofCString_none
  | some l => exact ofCString_bytes l h.1 h.2

/-- **C123 (user directory).** The directory of the user is HOME, normalised; without HOME it is the empty path. -/
theorem userDir_home {home : Option (List Ch)} (h : HomeOk home) :
    ∃ r, userDir (home.map bytes) = .ok r ∧ WF r ∧ chars r = canonical (homeText home) := by
  obtain ⟨s, e, w, c⟩ := home_string h
  obtain ⟨r, e2, w2, c2⟩ := Path.Lemmas.normalize_ok w
  exact ⟨r, by simp only [userDir, e, bind, Except.bind, Path.file, e2], w2, by rw [c2, c]⟩

/-- **C123 (settings).** The directory for settings of a program called `n`: the child ".n" of HOME – for every HOME and every place the
program lies in.  So programs of the same name share their settings wherever they are installed, and without HOME (or with an empty one)
the settings are in "/.n", in the root directory. -/
theorem propertyDir_partial {home : Option (List Ch)} (h : HomeOk home) {d n : List Ch} (hp : OsPath (d ++ slash :: n))
    (hf : Fits (d ++ slash :: n)) (hn : slash ∉ n) :
    ∃ r, propertyDir (home.map bytes) (some (bytes (d ++ slash :: n))) = .ok r ∧ WF r ∧ Normal (chars r) ∧
      chars r = (if homeText home = [] ∨ Absolute (homeText home) then [slash] else []) ++ join (comps (homeText home) ++ [0x2E :: n]) := by
  obtain ⟨sn, e1, w1, en⟩ := Prog.Props.execName_partial d n hn hp hf
  replace e1 : Prog.execName (some (bytes (d ++ slash :: n))) = .ok sn := e1
  obtain ⟨dt, e6, w6, c6⟩ := EditProps.constructed [0x2E]
  obtain ⟨ch, e7, w7, c7⟩ := Path.plus_ok w6 w1
  rw [c6, en] at c7
  obtain ⟨hs, e8, w8, c8⟩ := home_string h
  have hc : comps (chars ch) = [0x2E :: n] := by
    rw [c7]
    exact Path.comps_plain (by simpa [slash] using hn) (by simp)
  obtain ⟨r, e9, w9, n9, c9, _⟩ := Path.fileIn_partial w8 w7 (by rw [hc]; simp)
  refine ⟨r, ?_, w9, n9, ?_⟩
  · simp only [propertyDir, bind, Except.bind, e1, e6, e7, e8, e9]
  · rw [c9, hc, c8]

/-- HOME = "/home/u", the program "/opt/p": "/home/u/.p" -/
example : HomeOk (some [slash, 0x68, slash, 0x75]) ∧ OsPath ([slash, 0x6F] ++ slash :: [0x70]) ∧ Fits ([slash, 0x6F] ++ slash :: [0x70]) ∧
    ([slash] ++ join (comps [slash, 0x68, slash, 0x75] ++ [[0x2E, 0x70]]) : List Ch) = [slash, 0x68, slash, 0x75, slash, 0x2E, 0x70] :=
  ⟨⟨by decide, by decide⟩, ⟨by decide, by decide, by decide⟩, by unfold Fits; decide, by decide⟩

/-- Violation: two programs of the same name in different directories use the same directory for their settings. -/
theorem propertyDir_shared {home : Option (List Ch)} (h : HomeOk home) {d d' n : List Ch} (hp : OsPath (d ++ slash :: n))
    (hf : Fits (d ++ slash :: n)) (hp' : OsPath (d' ++ slash :: n)) (hf' : Fits (d' ++ slash :: n)) (hn : slash ∉ n) :
    ∃ r r', propertyDir (home.map bytes) (some (bytes (d ++ slash :: n))) = .ok r ∧
      propertyDir (home.map bytes) (some (bytes (d' ++ slash :: n))) = .ok r' ∧ chars r = chars r' := by
  obtain ⟨r, e, _, _, c⟩ := propertyDir_partial h hp hf hn
  obtain ⟨r', e', _, _, c'⟩ := propertyDir_partial h hp' hf' hn
  exact ⟨r, r', e, e', by rw [c, c']⟩

/-- Violation: without HOME the settings are in the root directory. -/
theorem propertyDir_homeless {home : Option (List Ch)} (h : homeText home = []) {d n : List Ch} (hp : OsPath (d ++ slash :: n))
    (hf : Fits (d ++ slash :: n)) (hn : slash ∉ n) :
    ∃ r, propertyDir (home.map bytes) (some (bytes (d ++ slash :: n))) = .ok r ∧ chars r = slash :: 0x2E :: n := by
  obtain ⟨r, e, _, _, c⟩ := propertyDir_partial (home := home) ⟨by rw [h]; simp, by rw [h]; simp⟩ hp hf hn
  refine ⟨r, e, ?_⟩
  rw [c, h, if_pos (.inl rfl)]
  rfl

/-! ### current and temporary directory -/

/-- **C123 (current directory).** The current directory is the one of the process, normalised. -/
theorem currentDir_exact_partial {p : List Ch} (hp : OsPath p) : ∃ r, currentDir (some (bytes p)) = .ok r ∧ WF r ∧ chars r = canonical p := by
  obtain ⟨s, e, w, c⟩ := ofCString_bytes p hp.2.1 hp.2.2
  obtain ⟨r, e2, w2, c2⟩ := Path.Lemmas.normalize_ok w
  exact ⟨r, by simp only [currentDir, e, bind, Except.bind, Path.file, e2], w2, by rw [c2, c]⟩

example : OsPath [slash, 0x74] := ⟨by decide, by decide, by decide⟩

/-- Violation: a process whose current directory is gone has undefined behaviour in both functions. -/
theorem currentDir_gone (tmp : Option (List Byte)) : currentDir none = .error .ub ∧ tempDir tmp none = .error .ub := ⟨rfl, rfl⟩

/-- Violation: the "temporary" directory is the current directory, whatever TMPDIR says. -/
theorem tempDir_is_current {p : List Ch} (hp : OsPath p) (tmp : Option (List Byte)) :
    ∃ r, tempDir tmp (some (bytes p)) = .ok r ∧ WF r ∧ chars r = canonical p := by
  obtain ⟨s, e, w, c⟩ := ofCString_bytes p hp.2.1 hp.2.2
  obtain ⟨r, e2, w2, c2⟩ := Path.Lemmas.normalize_ok w
  exact ⟨r, by simp only [tempDir, e, bind, Except.bind, Path.file, e2], w2, by rw [c2, c]⟩

/-- so it is not "/tmp" for a process in another directory -/
theorem tempDir_not_tmp (tmp : Option (List Byte)) : ∃ r, tempDir tmp (some (bytes [slash, 0x61])) = .ok r ∧ chars r = [slash, 0x61] := by
  obtain ⟨r, e, _, c⟩ := tempDir_is_current (p := [slash, 0x61]) ⟨by decide, by decide, by decide⟩ tmp
  exact ⟨r, e, by rw [c]; decide⟩

end Verif.Home.Props
