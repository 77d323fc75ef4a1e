import Verif.TextIO.Model
import Verif.Charset.Utf8Props
/-
C104: a line is read as it was written.
-/
namespace Verif.TextIO.Props
open Verif Verif.Charset Verif.TextIO

/-- a text that fits on a line -/
structure Line (t : Text) (b : List Byte) : Prop where
  bytes : utf8Encode t = .ok b
  noZero : (0 : Ch) ∉ t
  noNewline : (10 : Ch) ∉ t
  noMark : t.head? ≠ some 0xFEFF

theorem enc1_newline (c : Ch) (h : (10 : Byte) ∈ enc1 c) : c = 10 := by
  have high : ∀ (x y : Byte), y.getLsbD 7 = true → (10 : Byte) ≠ x ||| y := by
    intro x y hy e
    have := congrArg (fun b : Byte => b.getLsbD 7) e
    simp only [BitVec.getLsbD_or, hy, Bool.or_true] at this
    exact absurd this (by decide)
  rcases enc1_cases c with ⟨h1, e⟩ | ⟨_, _, e⟩ | ⟨_, _, e⟩
  · rw [e] at h
    simp only [List.mem_cons, List.not_mem_nil, or_false] at h
    apply BitVec.eq_of_toNat_eq
    have := congrArg BitVec.toNat h
    rw [BitVec.toNat_setWidth] at this
    have h2 : (10 : Ch).toNat = 10 := rfl
    have h3 : (10 : Byte).toNat = 10 := rfl
    omega
  · rw [e] at h
    simp only [List.mem_cons, List.not_mem_nil, or_false] at h
    rcases h with h | h
    · exact absurd h (high _ _ (by decide))
    · exact absurd h (high _ _ (by decide))
  · rw [e] at h
    simp only [List.mem_cons, List.not_mem_nil, or_false] at h
    rcases h with h | h | h
    · exact absurd h (high _ _ (by decide))
    · exact absurd h (high _ _ (by decide))
    · exact absurd h (high _ _ (by decide))

theorem Line.no10 {t : Text} {b : List Byte} (h : Line t b) : (10 : Byte) ∉ b := by
  have e := h.bytes
  rw [utf8Encode_eq] at e
  cases e
  intro hm
  obtain ⟨c, hc, hm⟩ := List.mem_flatMap.1 hm
  exact h.noNewline (enc1_newline c hm ▸ hc)

theorem scan_line (b rest : List Byte) (h : (10 : Byte) ∉ b) (room : Nat) (hr : b.length ≤ room) :
    scan room (b ++ 10 :: rest) = ⟨b, true, rest, false, false⟩ := by
  induction b generalizing room with
  | nil => cases room <;> simp [scan]
  | cons c b ih =>
    have hc : c ≠ 10 := fun e => h (by simp [e])
    cases room with
    | zero => simp at hr
    | succ room =>
      simp only [List.cons_append, scan, hc, if_false]
      rw [ih (fun e => h (List.mem_cons_of_mem _ e)) room (by simpa using hr)]

theorem scan_end (b : List Byte) (h : (10 : Byte) ∉ b) (room : Nat) (hr : b.length ≤ room) : scan room b = ⟨b, false, [], true, false⟩ := by
  induction b generalizing room with
  | nil => cases room <;> simp [scan]
  | cons c b ih =>
    have hc : c ≠ 10 := fun e => h (by simp [e])
    cases room with
    | zero => simp at hr
    | succ room =>
      simp only [scan, hc, if_false]
      rw [ih (fun e => h (List.mem_cons_of_mem _ e)) room (by simpa using hr)]

theorem scan_full (b : List Byte) (c : Byte) (rest : List Byte) (h : (10 : Byte) ∉ b) (hc : c ≠ 10) :
    scan b.length (b ++ c :: rest) = ⟨b, false, c :: rest, false, true⟩ := by
  induction b with
  | nil => simp only [List.length_nil, List.nil_append, scan, hc, if_false]
  | cons d b ih =>
    have hd : d ≠ 10 := fun e => h (by simp [e])
    simp only [List.length_cons, List.cons_append, scan, hd, if_false]
    rw [ih (fun e => h (List.mem_cons_of_mem _ e))]

theorem decode_line {t : Text} {b : List Byte} (h : Line t b) (rest : List Byte) : utf8Decode (b ++ 0 :: rest) = .ok t :=
  Utf8Props.roundtrip_partial t b rest h.noZero h.noMark h.bytes

/-- A line of at most 255 bytes in UTF-8 is read as the text it encodes, and the stream stands behind it. -/
theorem read_line {t : Text} {b : List Byte} (h : Line t b) (hl : b.length ≤ 255) (rest : List Byte) :
    read ⟨b ++ 10 :: rest, false, false⟩ = .ok (t, ⟨rest, false, false⟩) := by
  have e : getline ⟨b ++ 10 :: rest, false, false⟩ 256 = (b ++ [0], b.length + 1, ⟨rest, false, false⟩) := by
    simp only [getline, In.good, Bool.not_false, Bool.and_self, if_true]
    rw [scan_line b rest h.no10 (256 - 1) (by omega)]
    simp
  have d := decode_line h [0]
  simp only [read, e, ofBuffer]
  rw [if_pos (by simp), List.take_of_length_le (by simp)]
  simp only [List.append_assoc, List.cons_append, List.nil_append, d]

/-- the last line needs no end of line; the stream then is at the end -/
theorem read_last {t : Text} {b : List Byte} (h : Line t b) (hl : b.length ≤ 255) (h0 : b ≠ []) :
    read ⟨b, false, false⟩ = .ok (t, ⟨[], true, false⟩) := by
  have e : getline ⟨b, false, false⟩ 256 = (b ++ [0], b.length, ⟨[], true, false⟩) := by
    simp only [getline, In.good, Bool.not_false, Bool.and_self, if_true]
    rw [scan_end b h.no10 (256 - 1) (by omega)]
    simp [h0]
  have d := decode_line h []
  simp only [read, e, ofBuffer]
  rw [if_pos (by simp), List.take_left' rfl, d]

/-- behind the last line: the empty text, and the stream has failed -/
theorem read_end (s : In) (h : s.good = false ∨ s.rest = []) : ∃ s', read s = .ok ([], s') ∧ s'.failed = true ∧ s'.rest = s.rest := by
  have hd : utf8Decode ([] ++ [0]) = .ok [] := by decide +kernel
  by_cases hg : s.good = true
  · have hr : s.rest = [] := by
      rcases h with h | h
      · rw [h] at hg; cases hg
      · exact h
    have e : getline s 256 = ([0], 0, ⟨[], true, true⟩) := by
      simp only [getline, hg, if_true, hr]
      rfl
    refine ⟨⟨[], true, true⟩, ?_, rfl, hr.symm⟩
    simp only [read, e, ofBuffer, List.take_zero, Nat.zero_le, if_true, hd]
  · have e : getline s 256 = ([0], 0, { s with failed := true }) := by simp only [getline, hg, Bool.false_eq_true, if_false]
    refine ⟨{ s with failed := true }, ?_, rfl, rfl⟩
    simp only [read, e, ofBuffer, List.take_zero, Nat.zero_le, if_true, hd]

/-- Reading in a loop gives all the lines, in order: a file of lines, each ended by a newline. -/
theorem read_all (lines : List (Text × List Byte)) (h : ∀ p ∈ lines, Line p.1 p.2 ∧ p.2.length ≤ 255) (fuel : Nat) (hf : lines.length < fuel) :
    readAll fuel ⟨lines.flatMap (fun p => p.2 ++ [10]), false, false⟩ = .ok (some (lines.map Prod.fst)) := by
  induction lines generalizing fuel with
  | nil =>
    cases fuel with
    | zero => simp at hf
    | succ fuel =>
      obtain ⟨s, e, hs, _⟩ := read_end ⟨[], false, false⟩ (.inr rfl)
      simp only [readAll, List.flatMap_nil, e, hs, if_true, List.map_nil]
  | cons p l ih =>
    cases fuel with
    | zero => simp at hf
    | succ fuel =>
      obtain ⟨h1, h2⟩ := h p (by simp)
      have e := read_line h1 h2 (l.flatMap (fun p => p.2 ++ [10]))
      simp only [readAll, List.flatMap_cons, List.append_assoc, List.cons_append, List.nil_append, e, Bool.false_eq_true, if_false]
      rw [ih (fun q hq => h q (by simp [hq])) fuel (by simpa using hf)]
      rfl

/-- A longer line stops everything: its first 255 bytes are read, the stream has failed, and every further read gives the empty text
without reading anything. -/
theorem long_line (b : List Byte) (c : Byte) (rest : List Byte) (hb : b.length = 255) (h : (10 : Byte) ∉ b) (hc : c ≠ 10) {t : Text} {s : In}
    (e : read ⟨b ++ c :: rest, false, false⟩ = .ok (t, s)) :
    utf8Decode (b ++ [0]) = .ok t ∧ s = ⟨c :: rest, false, true⟩ ∧ read s = .ok ([], s) := by
  have g : getline ⟨b ++ c :: rest, false, false⟩ 256 = (b ++ [0], 255, ⟨c :: rest, false, true⟩) := by
    simp only [getline, In.good, Bool.not_false, Bool.and_self, if_true]
    have := scan_full b c rest h hc
    rw [hb] at this
    rw [show 256 - 1 = 255 from rfl, this]
    simp [hb]
  simp only [read, g, ofBuffer] at e
  rw [if_pos (by simp [hb]), List.take_left' hb] at e
  cases hd : utf8Decode (b ++ [0]) with
  | error x => rw [hd] at e; cases e
  | ok u =>
    rw [hd] at e
    cases e
    refine ⟨rfl, rfl, ?_⟩
    obtain ⟨s', e1, e2, e3⟩ := read_end ⟨c :: rest, false, true⟩ (.inl rfl)
    rw [e1]
    have : s' = ⟨c :: rest, false, true⟩ := by
      have g2 : getline ⟨c :: rest, false, true⟩ 256 = ([0], 0, ⟨c :: rest, false, true⟩) := rfl
      simp only [read, g2] at e1
      cases hx : ofBuffer [0] 0 with
      | error x => rw [hx] at e1; cases e1
      | ok x => rw [hx] at e1; cases e1; rfl
    rw [this]

/-! ### writing and reading -/

/-- written and read again -/
def Comes (cs : Console) (t : Text) : Prop := ∀ rest, ∃ b, write cs t = .ok b ∧ read ⟨b ++ 10 :: rest, false, false⟩ = .ok (t, ⟨rest, false, false⟩)

theorem takeWhile_all {b : List Byte} (h : ∀ x ∈ b, x ≠ 0) : b.takeWhile (· ≠ 0) = b := by
  induction b with
  | nil => rfl
  | cons x b ih =>
    have hx := h x (by simp)
    rw [List.takeWhile_cons, if_pos (by simpa using hx), ih (fun y hy => h y (by simp [hy]))]

theorem enc1_zero (c : Ch) (h : (0 : Byte) ∈ enc1 c) : c = 0 := by
  have high : ∀ (x y : Byte), y.getLsbD 7 = true → (0 : Byte) ≠ x ||| y := by
    intro x y hy e
    have := congrArg (fun b : Byte => b.getLsbD 7) e
    simp only [BitVec.getLsbD_or, hy, Bool.or_true] at this
    exact absurd this (by decide)
  rcases enc1_cases c with ⟨h1, e⟩ | ⟨_, _, e⟩ | ⟨_, _, e⟩
  · rw [e] at h
    simp only [List.mem_cons, List.not_mem_nil, or_false] at h
    apply BitVec.eq_of_toNat_eq
    have := congrArg BitVec.toNat h
    rw [BitVec.toNat_setWidth] at this
    have h2 : (0 : Ch).toNat = 0 := rfl
    have h3 : (0 : Byte).toNat = 0 := rfl
    omega
  · rw [e] at h
    simp only [List.mem_cons, List.not_mem_nil, or_false] at h
    rcases h with h | h
    · exact absurd h (high _ _ (by decide))
    · exact absurd h (high _ _ (by decide))
  · rw [e] at h
    simp only [List.mem_cons, List.not_mem_nil, or_false] at h
    rcases h with h | h | h
    · exact absurd h (high _ _ (by decide))
    · exact absurd h (high _ _ (by decide))
    · exact absurd h (high _ _ (by decide))

/-- with UTF-8 as console charset every line comes back -/
theorem utf8_comes_back {t : Text} {b : List Byte} (h : Line t b) (hl : b.length ≤ 255) : Comes .utf8 t := by
  intro rest
  refine ⟨b, ?_, read_line h hl rest⟩
  have hz : ∀ x ∈ b, x ≠ 0 := by
    have e := h.bytes
    rw [utf8Encode_eq] at e
    cases e
    intro x hx e0
    subst e0
    obtain ⟨c, hc, hm⟩ := List.mem_flatMap.1 hx
    exact h.noZero (enc1_zero c hm ▸ hc)
  simp only [write, h.bytes, takeWhile_all hz]

/-- ASCII without control of the line -/
def Plain (t : Text) : Prop := ∀ c ∈ t, c.toNat < 0x80 ∧ c ≠ 0 ∧ c ≠ 10

theorem plain_bytes {t : Text} (h : Plain t) : t.flatMap enc1 = t.map (fun c => c.setWidth 8) := by
  induction t with
  | nil => rfl
  | cons c t ih =>
    rcases enc1_cases c with ⟨_, e⟩ | ⟨h2, _⟩ | ⟨h2, _⟩
    · simp only [List.flatMap_cons, List.map_cons, e, ih (fun d hd => h d (by simp [hd])), List.cons_append, List.nil_append]
    · exact absurd (h c (by simp)).1 h2
    · exact absurd (h c (by simp)).1 h2

theorem plain_line {t : Text} (h : Plain t) : Line t (t.map (fun c => c.setWidth 8)) := by
  refine ⟨by rw [utf8Encode_eq, plain_bytes h], fun hm => (h 0 hm).2.1 rfl, fun hm => (h 10 hm).2.2 rfl, ?_⟩
  cases t with
  | nil => simp
  | cons c t =>
    intro e
    simp only [List.head?_cons, Option.some.injEq] at e
    have := (h c (by simp)).1
    rw [e] at this
    exact absurd this (by decide)

/-- In ASCII, Windows-1252 is the same as UTF-8 -/
theorem win_plain (c : Ch) (h : c.toNat < 0x80) (h0 : c ≠ 0) : win1252Enc1 c = c.setWidth 8 := by
  have key : ∀ n : Nat, n < 0x80 → n ≠ 0 → win1252Cases.lookup n = none := by decide +kernel
  have hn : c.toNat ≠ 0 := fun e => h0 (BitVec.eq_of_toNat_eq e)
  simp only [win1252Enc1, key _ h hn]

/-- As it is (console charset Windows-1252), ASCII comes back ... -/
theorem ascii_comes_back {t : Text} (h : Plain t) (hl : t.length ≤ 255) : Comes .windows1252 t := by
  intro rest
  refine ⟨t.map (fun c => c.setWidth 8), ?_, read_line (plain_line h) (by simpa using hl) rest⟩
  have e : win1252Encode t = t.map (fun c => c.setWidth 8) := by
    unfold win1252Encode
    exact List.map_congr_left fun c hc => win_plain c (h c hc).1 (h c hc).2.1
  have hz : ∀ x ∈ t.map (fun c => c.setWidth 8), x ≠ (0 : Byte) := by
    intro x hx e0
    obtain ⟨c, hc, hm⟩ := List.mem_map.1 hx
    have h1 := h c hc
    apply h1.2.1
    apply BitVec.eq_of_toNat_eq
    have h2 := congrArg BitVec.toNat (hm.trans e0)
    rw [BitVec.toNat_setWidth] at h2
    have h3 : (0 : Ch).toNat = 0 := rfl
    have h4 : (0 : Byte).toNat = 0 := rfl
    omega
  simp only [write, e, takeWhile_all hz]

/-- ... other characters do not: "é" is written in Windows-1252 and read as UTF-8 - behind the end of the buffer. -/
theorem accent_lost : write .windows1252 [0xE9] = .ok [0xE9] ∧ read ⟨[0xE9, 10], false, false⟩ = .error .ub ∧ ¬ Comes .windows1252 [0xE9] := by
  have h1 : write .windows1252 [0xE9] = .ok [0xE9] := by decide +kernel
  have h2 : read ⟨[0xE9, 10], false, false⟩ = .error .ub := by decide +kernel
  refine ⟨h1, h2, fun h => ?_⟩
  obtain ⟨b, e1, e2⟩ := h []
  rw [h1] at e1
  cases e1
  simp only [List.cons_append, List.nil_append] at e2
  rw [h2] at e2
  cases e2

/-- ... or as another text: "Ã¤" comes back as "ä" -/
theorem accent_changed : write .windows1252 [0xC3, 0xA4] = .ok [0xC3, 0xA4] ∧
    read ⟨[0xC3, 0xA4, 10], false, false⟩ = .ok ([0xE4], ⟨[], false, false⟩) := by
  constructor <;> decide +kernel

theorem takeWhile_cut (a b : List Byte) : (a ++ 0 :: b).takeWhile (fun x => decide (x ≠ 0)) = a.takeWhile (fun x => decide (x ≠ 0)) := by
  induction a with
  | nil => simp
  | cons x a ih =>
    rw [List.cons_append, List.takeWhile_cons, List.takeWhile_cons]
    split
    · rw [ih]
    · rfl

/-- Violation: in UTF-8 nothing behind a NUL character is written, ... -/
theorem nul_cuts (a b : Text) : write .utf8 (a ++ 0 :: b) = write .utf8 a := by
  simp only [write, utf8Encode_eq, List.flatMap_append, List.flatMap_cons, show enc1 0 = [0] by decide, List.cons_append, List.nil_append]
  rw [takeWhile_cut]

/-- ... in Windows-1252 nothing behind a character whose low byte is zero and that the table does not list, for example "Ā" (U+0100). -/
theorem macron_cuts (a b : Text) (c : Ch) (hc : win1252Cases.lookup c.toNat = none) (hz : c.toNat % 256 = 0) :
    write .windows1252 (a ++ c :: b) = write .windows1252 a := by
  have e : win1252Enc1 c = 0 := by
    simp only [win1252Enc1, hc]
    apply BitVec.eq_of_toNat_eq
    rw [BitVec.toNat_setWidth]
    exact hz
  simp only [write, win1252Encode, List.map_append, List.map_cons, e]
  rw [takeWhile_cut]

example : win1252Cases.lookup (0x100 : Ch).toNat = none ∧ (0x100 : Ch).toNat % 256 = 0 := by decide +kernel

/-! ### the hypotheses are met -/

example : Line [0x61, 0xE4, 0x20AC] [0x61, 0xC3, 0xA4, 0xE2, 0x82, 0xAC] := ⟨by decide +kernel, by decide, by decide, by decide⟩
example : Plain [0x48, 0x65, 0x6c, 0x6c, 0x6f] := by
  have : ([0x48, 0x65, 0x6c, 0x6c, 0x6f] : Text).all (fun c => decide (c.toNat < 0x80 ∧ c ≠ 0 ∧ c ≠ 10)) = true := by decide +kernel
  intro c hc
  simpa using List.all_eq_true.1 this c hc
example : readAll 5 ⟨[0x61, 10, 10, 0xC3, 0xA4, 10], false, false⟩ = .ok (some [[0x61], [], [0xE4]]) := by decide +kernel
example : (10 : Byte) ∉ List.replicate 255 (97 : Byte) := by decide +kernel

end Verif.TextIO.Props
