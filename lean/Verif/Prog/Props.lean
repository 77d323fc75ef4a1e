import Verif.Prog.Model
import Verif.Str.SearchProps
import Verif.Str.PartProps
import Verif.Str.EditProps
import Verif.Charset.Utf8Props
set_option linter.unusedVariables false
/-
C111: the time of the last modification of a file; the path, name and directory of a program.
-/
namespace Verif.Prog.Props
open Verif Verif.Str Verif.Prog Verif.Str.SearchProps

/-! ### time of modification -/

/-- a time as operating systems give it, within 292 million years of 1970 -/
def Valid (t : TimeSpec) : Prop := 0 ≤ t.nsec ∧ t.nsec < 1000000000 ∧ -9000000000000000 ≤ t.sec ∧ t.sec ≤ 9000000000000000

/-- the time in whole milliseconds -/
def millis (t : TimeSpec) : Int := t.sec * 1000 + t.nsec / 1000000

/-- `a` is earlier than `b` -/
def Earlier (a b : TimeSpec) : Prop := a.sec < b.sec ∨ a.sec = b.sec ∧ a.nsec < b.nsec

theorem lastModified_eq {t : TimeSpec} (h : Valid t) : lastModified (some t) = .ok (t.sec * 1000 + t.nsec / 1000) := by
  obtain ⟨h1, h2, h3, h4⟩ := h
  have e : t.nsec.tdiv 1000 = t.nsec / 1000 := Int.tdiv_eq_ediv_of_nonneg h1
  have a : Num.i64 (t.sec * 1000) = .ok (t.sec * 1000) := by
    unfold Num.i64 Num.minInt64 Num.maxInt64; rw [if_pos (by omega)]
  have b : Num.i64 (t.sec * 1000 + t.nsec / 1000) = .ok (t.sec * 1000 + t.nsec / 1000) := by
    unfold Num.i64 Num.minInt64 Num.maxInt64; rw [if_pos (by omega)]
  simp only [lastModified, a, bind, Except.bind, e, b]

/-- **C111 (time, partial).** The date is never before the time of the modification and less than 1000 seconds after it;
it is exact only in the first microsecond of each second. -/
theorem lastModified_within_partial {t : TimeSpec} (h : Valid t) :
    ∃ z, lastModified (some t) = .ok z ∧ millis t ≤ z ∧ z < millis t + 1000000 ∧ (z = millis t ↔ t.nsec < 1000) := by
  obtain ⟨h1, h2, h3, h4⟩ := h
  refine ⟨_, lastModified_eq ⟨h1, h2, h3, h4⟩, ?_, ?_, ?_⟩ <;> unfold millis <;> omega

/-- **C111 (order, partial).** Of two files modified at least 1000 seconds apart the later one has the later date; within
the same second dates do not go backwards. -/
theorem lastModified_order_partial {a b : TimeSpec} (ha : Valid a) (hb : Valid b) :
    ∃ x y, lastModified (some a) = .ok x ∧ lastModified (some b) = .ok y ∧ (a.sec + 1000 ≤ b.sec → x < y) ∧
      (a.sec = b.sec → a.nsec < b.nsec → x ≤ y) := by
  refine ⟨_, _, lastModified_eq ha, lastModified_eq hb, ?_, ?_⟩
  · intro h; obtain ⟨h1, h2, h3, h4⟩ := ha; obtain ⟨g1, g2, g3, g4⟩ := hb; omega
  · intro h h'; obtain ⟨h1, h2, h3, h4⟩ := ha; omega

/-- **C111 violated (order).** Whatever the time, and for every distance from 1 to 999 seconds, there are two files of
which the one modified later has the earlier date. -/
theorem lastModified_backwards (sec d : Int) (h : -8000000000000000 ≤ sec ∧ sec ≤ 8000000000000000) (hd : 1 ≤ d ∧ d ≤ 999) :
    ∃ a b x y, Valid a ∧ Valid b ∧ a.sec = sec ∧ b.sec = sec + d ∧ Earlier a b ∧ lastModified (some a) = .ok x ∧
      lastModified (some b) = .ok y ∧ y < x := by
  have ha : Valid ⟨sec, 999999999⟩ := by unfold Valid; simp only; omega
  have hb : Valid ⟨sec + d, 0⟩ := by unfold Valid; simp only; omega
  refine ⟨⟨sec, 999999999⟩, ⟨sec + d, 0⟩, _, _, ha, hb, rfl, rfl, Or.inl (by simp only; omega), lastModified_eq ha, lastModified_eq hb, ?_⟩
  simp only
  omega

/-- **C111 violated (memory).** For a file which does not exist the result is read from memory never written. -/
theorem lastModified_missing : lastModified none = .error .ub := rfl

/-! ### the program -/

/-- the link which the operating system gives for the path `l` -/
def linkTo (l : List Ch) : Option (List Byte) := some (l.flatMap Charset.enc1)

/-- A path: no NUL, no byte order mark in front. -/
def PathOk (l : List Ch) : Prop := l ≠ [] ∧ (0 : Ch) ∉ l ∧ l.head? ≠ some 0xFEFF

theorem enc1_pos (c : Ch) : 0 < (Charset.enc1 c).length := by
  rcases Charset.enc1_cases c with h | h | h <;> simp [h]

/-- **C111 (path, partial).** A path of up to 1023 bytes is the result of `ExecPath()`. -/
theorem execPath_partial (l : List Ch) (h : PathOk l) (hl : (l.flatMap Charset.enc1).length ≤ 1023) :
    ∃ s, execPath (linkTo l) = .ok s ∧ WF s ∧ chars s = l := by
  obtain ⟨s, e, w, c⟩ := EditProps.constructed l
  have h1 : readlink (linkTo l) = l.flatMap Charset.enc1 := by
    unfold readlink linkTo; exact List.take_of_length_le hl
  have h2 : (l.flatMap Charset.enc1).length > 0 := by
    cases l with
    | nil => exact absurd rfl h.1
    | cons x l => have := enc1_pos x; simp only [List.flatMap_cons, List.length_append]; omega
  have h3 : Charset.utf8Decode (l.flatMap Charset.enc1 ++ [0]) = .ok l :=
    Charset.Utf8Props.roundtrip_partial l _ [] h.2.1 h.2.2 (Charset.utf8Encode_eq l)
  refine ⟨s, ?_, w, c⟩
  simp only [execPath, h1, if_pos h2, h3, bind, Except.bind, e]

/-- **C111 violated (memory).** A longer path is cut after 1023 bytes; if a two-byte character like `é` is cut, memory is
read behind the buffer. -/
theorem execPath_reads_behind (l t : List Ch) (h0 : (0 : Ch) ∉ l) (hb : l.head? ≠ some 0xFEFF)
    (hl : (l.flatMap Charset.enc1).length = 1022) : execPath (linkTo (l ++ 0xE9 :: t)) = .error .ub := by
  have he : Charset.enc1 0xE9 = [0xC3, 0xA9] := by decide
  have h1 : readlink (linkTo (l ++ 0xE9 :: t)) = l.flatMap Charset.enc1 ++ [0xC3] := by
    unfold readlink linkTo
    simp only [List.flatMap_append, List.flatMap_cons, he, Option.getD_some]
    rw [List.take_append, hl, List.take_of_length_le (by omega)]
    rfl
  have h3 : Charset.utf8Decode (l.flatMap Charset.enc1 ++ [0xC3] ++ [0]) = .error .ub := by
    rw [List.append_assoc]
    exact Charset.Utf8Props.truncated_reads_outside l h0 hb
  simp only [execPath, h1, h3, bind, Except.bind]
  rw [if_pos (by simp)]

/-- the last separator of `d/n` -/
theorem last_sep {s : Str} (hs : WF s) {d n : List Ch} (hc : chars s = d ++ dirSep :: n) (hn : dirSep ∉ n) :
    lastIndexOfChar s dirSep = .ok d.length := by
  obtain ⟨r, e, h⟩ := lastIndexOfChar_spec hs dirSep
  have hlen := chars_length hs
  rw [hc] at hlen
  simp only [List.length_append, List.length_cons] at hlen
  have hat : CharAt (chars s) dirSep d.length := by unfold CharAt; rw [hc]; simp
  rw [e]
  rcases h with ⟨rfl, h⟩ | ⟨a, rfl, ha, hp, h⟩
  · exact absurd hat (h d.length (by omega))
  · have h1 : ¬ a < d.length := fun hlt => h d.length (by omega) hlt hat
    have h2 : ¬ d.length < a := by
      intro hlt
      unfold CharAt at hp
      rw [hc, List.getElem?_append_right (by omega)] at hp
      have : a - d.length = (a - d.length - 1) + 1 := by omega
      rw [this, List.getElem?_cons_succ] at hp
      exact hn (List.mem_of_getElem? hp)
    have : a = d.length := by omega
    subst this; rfl

/-- the directory without a trailing `/.` -/
def withoutDot (d : List Ch) : List Ch := if [dirSep, dot] <:+ d then d.take (d.length - 2) else d

/-- **C111 (name).** The name of a program with the path `directory/name` is `name`. -/
theorem execName_partial (d n : List Ch) (hn : dirSep ∉ n) (h : PathOk (d ++ dirSep :: n))
    (hl : ((d ++ dirSep :: n).flatMap Charset.enc1).length ≤ 1023) :
    ∃ s, execName (linkTo (d ++ dirSep :: n)) = .ok s ∧ WF s ∧ chars s = n := by
  obtain ⟨s, e, w, c⟩ := execPath_partial _ h hl
  obtain ⟨r, e2, w2, c2⟩ := PartProps.substringFrom_spec w ((d.length : Int) + 1)
  refine ⟨r, ?_, w2, ?_⟩
  · simp only [execName, e, last_sep w c hn, bind, Except.bind]
    exact e2
  · rw [c2, c]
    have : ((d.length : Int) + 1).toNat = d.length + 1 := by omega
    rw [this, List.drop_append]
    simp

/-- the directory of a program has at least two characters -/
def DirOk (d : List Ch) : Prop := 2 ≤ d.length

theorem endsWithDot_ok {s : Str} (hs : WF s) {d n : List Ch} (hc : chars s = d ++ dirSep :: n) (hd : DirOk d) :
    endsWithDot s d.length = .ok (decide ([dirSep, dot] <:+ d)) := by
  unfold DirOk at hd
  have hlen := chars_length hs
  rw [hc] at hlen
  simp only [List.length_append, List.length_cons] at hlen
  have hch : ∀ i (h : i < d.length), charAt s (i : Nat) = .ok d[i] := by
    intro i hi
    rw [charAt_ok hs (by omega)]
    simp only [hc, List.getElem_append_left hi]
  obtain ⟨d', x, y, rfl⟩ : ∃ d' x y, d = d' ++ [x, y] := by
    refine ⟨d.take (d.length - 2), d[d.length - 2], d[d.length - 1], ?_⟩
    apply List.ext_getElem?
    intro i
    rw [List.getElem?_append]
    simp only [List.length_take]
    split
    · rw [List.getElem?_take, if_pos (by omega)]
    · by_cases h2 : i < d.length
      · have : i = d.length - 2 ∨ i = d.length - 1 := by omega
        rcases this with rfl | rfl
        · rw [show d.length - 2 - min (d.length - 2) d.length = 0 by omega]
          simp [List.getElem?_eq_getElem (show d.length - 2 < d.length by omega)]
        · rw [show d.length - 1 - min (d.length - 2) d.length = 1 by omega]
          simp [List.getElem?_eq_getElem (show d.length - 1 < d.length by omega)]
      · rw [List.getElem?_eq_none (by omega), List.getElem?_eq_none (by simp; omega)]
  have e1 : charAt s (((d' ++ [x, y]).length : Int) - 1) = .ok y := by
    have := hch (d'.length + 1) (by simp)
    rw [show (((d' ++ [x, y]).length : Int) - 1) = ((d'.length + 1 : Nat) : Int) by simp; omega, this]
    simp
  have e2 : charAt s (((d' ++ [x, y]).length : Int) - 2) = .ok x := by
    have := hch d'.length (by simp)
    rw [show (((d' ++ [x, y]).length : Int) - 2) = ((d'.length : Nat) : Int) by simp, this]
    simp
  have hsuf : ([dirSep, dot] <:+ d' ++ [x, y]) ↔ (x = dirSep ∧ y = dot) := by
    constructor
    · intro h
      have := (List.suffix_append d' [x, y]).eq_of_length
      have h2 : [dirSep, dot] <:+ [x, y] := List.suffix_of_suffix_length_le h (List.suffix_append _ _) (by simp)
      have h3 := h2.eq_of_length (by simp)
      simp only [List.cons.injEq, and_true] at h3
      exact ⟨h3.1.symm, h3.2.symm⟩
    · rintro ⟨rfl, rfl⟩; exact List.suffix_append _ _
  simp only [endsWithDot, e1, bind, Except.bind]
  by_cases hy : y = dot
  · rw [if_pos hy]
    simp only [e2, pure, Except.pure]
    congr 1
    subst hy
    exact decide_eq_decide.2 (by rw [hsuf]; simp)
  · rw [if_neg hy]
    simp only [pure, Except.pure]
    congr 1
    exact (decide_eq_false (by rw [hsuf]; exact fun h => hy h.2)).symm

/-- **C111 (directory, partial).** The directory of a program with the path `directory/name` is `directory`, without a
`/.` at its end. -/
theorem execDir_partial (d n : List Ch) (hn : dirSep ∉ n) (hd : DirOk d) (h : PathOk (d ++ dirSep :: n))
    (hl : ((d ++ dirSep :: n).flatMap Charset.enc1).length ≤ 1023) :
    ∃ s, execDir (linkTo (d ++ dirSep :: n)) = .ok s ∧ WF s ∧ chars s = withoutDot d := by
  obtain ⟨s, e, w, c⟩ := execPath_partial _ h hl
  obtain ⟨r, e2, w2, c2, _⟩ := PartProps.substring_ok w 0 (if decide ([dirSep, dot] <:+ d) then (d.length : Int) - 2 else d.length)
  refine ⟨r, ?_, w2, ?_⟩
  · simp only [execDir, e, last_sep w c hn, endsWithDot_ok w c hd, bind, Except.bind]
    exact e2
  · rw [c2, c]
    unfold withoutDot PartProps.sub
    unfold DirOk at hd
    by_cases hs : [dirSep, dot] <:+ d
    · simp only [hs, decide_true, if_true]
      rw [show ((d.length : Int) - 2).toNat = d.length - 2 by omega, List.take_append]
      simp [show d.length - 2 - d.length = 0 by omega]
    · simp only [hs, decide_false, if_false, Bool.false_eq_true]
      simp

/-- **C111 violated (directory).** A program in the root directory has no directory: `ExecDir()` throws. So it does if
the path cannot be found out. -/
theorem execDir_root_throws (n : List Ch) (hn : dirSep ∉ n) (h : PathOk (dirSep :: n))
    (hl : ((dirSep :: n).flatMap Charset.enc1).length ≤ 1023) :
    execDir (linkTo (dirSep :: n)) = .error .thrown ∧ execDir none = .error .thrown := by
  obtain ⟨s, e, w, c⟩ := execPath_partial _ h hl
  have h1 := last_sep (d := []) w c hn
  constructor
  · simp only [execDir, e, h1, bind, Except.bind]
    rfl
  · decide +kernel

/-! ### examples: the hypotheses are met -/

example : Valid ⟨1700000000, 123456789⟩ ∧ lastModified (some ⟨1700000000, 123456789⟩) = .ok 1700000123456 ∧
    millis ⟨1700000000, 123456789⟩ = 1700000000123 := by
  refine ⟨by unfold Valid; decide, by decide +kernel, by decide⟩

/-- `/ü/p` -/
def exDir : List Ch := [0x2F, 0xFC]

example : dirSep ∉ ([0x70] : List Ch) ∧ DirOk exDir ∧ PathOk (exDir ++ dirSep :: [0x70]) ∧
    ((exDir ++ dirSep :: [0x70]).flatMap Charset.enc1).length ≤ 1023 := by
  refine ⟨by decide, by unfold DirOk; decide, ⟨by decide, by decide, by decide⟩, by decide⟩

example : (execDir (linkTo (exDir ++ dirSep :: [0x70]))).map chars = .ok exDir ∧
    (execName (linkTo (exDir ++ dirSep :: [0x70]))).map chars = .ok [0x70] := by decide +kernel

example : (0 : Ch) ∉ List.replicate 1022 (0x61 : Ch) ∧ (List.replicate 1022 (0x61 : Ch)).head? ≠ some 0xFEFF ∧
    ((List.replicate 1022 (0x61 : Ch)).flatMap Charset.enc1).length = 1022 := by
  refine ⟨fun h => ?_, by decide, by decide +kernel⟩
  rw [List.mem_replicate] at h
  exact absurd h.2 (by decide)

end Verif.Prog.Props
