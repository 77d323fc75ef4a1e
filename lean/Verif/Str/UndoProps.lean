import Verif.Str.HashProps
/-
C21 for strings: `UndoChangeString` (src/core/UndoChange.cpp:281-293) – the one recorded value that keeps memory of its own and a cached hash code.
Verif/Undo treats values as atoms; this module shows that the strings behind them are exchanged as such, and what happens to the hash code.
-/
namespace Verif.Str.UndoProps
open Verif Verif.Str Verif.Str.HashProps

/-- UndoChange.cpp:281-285: the default constructed `mValue` (String.cpp:36-42) is assigned the text behind the pointer -/
def record (v : Str) : Res Str := assign empty v

/-- UndoChange.cpp:287-293: the variable and `mValue` afterwards -/
def swap (v value : Str) : Res (Str × Str) := do
  let tmp ← copyCtor v
  let v ← assign v value
  let value ← assign value tmp
  return (v, value)

/-- `n` times undo or redo -/
def swaps : Nat → Str → Str → Res (Str × Str)
  | 0, v, value => .ok (v, value)
  | n + 1, v, value => do
    let r ← swap v value
    swaps n r.1 r.2

theorem record_ok {v : Str} (hv : WF v) : ∃ c, record v = .ok c ∧ WF c ∧ chars c = chars v := by
  obtain ⟨r, e, w, c, _, _⟩ := assign_ok empty hv
  exact ⟨r, e, w, c⟩

theorem swap_ok {v c : Str} (hv : WF v) (hc : WF c) :
    ∃ v' c', swap v c = .ok (v', c') ∧ WF v' ∧ WF c' ∧ chars v' = chars c ∧ chars c' = chars v ∧ v'.hash = v.hash := by
  obtain ⟨t, e1, w1, c1, _⟩ := copyCtor_ok hv
  obtain ⟨v', e2, w2, c2, h2, _⟩ := assign_ok v hc
  obtain ⟨c', e3, w3, c3, h3, _⟩ := assign_ok c w1
  refine ⟨v', c', ?_, w2, w3, c2, by rw [c3, c1], h2⟩
  simp only [swap, e1, e2, e3, bind, Except.bind, pure, Except.pure]

/-- **C21 (strings).** A text is recorded, then changed in any way to `v'`, then undone and redone `n` times in all: the variable holds the
recorded text after an odd number, the later one after an even number, and every access stays inside of the blocks. -/
theorem undo_redo {v v' : Str} (hv : WF v) (hv' : WF v') (n : Nat) :
    ∃ c r, record v = .ok c ∧ swaps n v' c = .ok r ∧ WF r.1 ∧ chars r.1 = (if n % 2 = 1 then chars v else chars v') := by
  obtain ⟨c, e, hc, hcc⟩ := record_ok hv
  rw [← hcc]
  clear hcc
  suffices h : ∀ n (v' c : Str), WF v' → WF c → ∃ r, swaps n v' c = .ok r ∧ WF r.1 ∧ chars r.1 = (if n % 2 = 1 then chars c else chars v') by
    obtain ⟨r, h1, h2, h3⟩ := h n v' c hv' hc
    exact ⟨c, r, e, h1, h2, h3⟩
  intro n
  induction n with
  | zero => intro v' c hv' _; exact ⟨_, rfl, hv', rfl⟩
  | succ n ih =>
    intro v' c hv' hc
    obtain ⟨w, d, e1, hw, hd, cw, cd, _⟩ := swap_ok hv' hc
    obtain ⟨r, e2, hr, hcr⟩ := ih w d hw hd
    refine ⟨r, ?_, hr, ?_⟩
    · simp only [swaps, e1, bind, Except.bind]; exact e2
    · rw [hcr, cw, cd]
      by_cases h : n % 2 = 1
      · rw [if_pos h, if_neg (by omega)]
      · rw [if_neg h, if_pos (by omega)]

/-- **C21, C07 (strings).** The hash code after an undo is the one of the restored text exactly if the changed text had no hash code yet, or had
the same one: the cached value of the text that is undone stays. -/
theorem undo_hash_iff {v v' c r : Str} {d : Str} (hv : WF v) (hv' : WF v') (hr : record v = .ok c) (hs : swap v' c = .ok (r, d)) :
    constHashCode r = .ok (H64 (chars v)) ↔ v'.hash = 0 ∨ v'.hash.signExtend 64 = H64 (chars v) := by
  obtain ⟨c', e, hc, hcc⟩ := record_ok hv
  rw [hr] at e
  cases e
  obtain ⟨w, d', e1, hw, _, cw, _, hh⟩ := swap_ok hv' hc
  rw [hs] at e1
  cases e1
  unfold constHashCode
  rw [hh]
  by_cases h : v'.hash = 0
  · rw [if_neg (by simpa using h), hashLoop_ok hw 0 0 (by omega), cw, hcc]
    simp only [h, true_or, iff_true]
    rfl
  · rw [if_pos h]
    simp only [h, false_or, Except.ok.injEq]

/-- Violation: a text is recorded, changed by `setCharAt`, its hash code is asked for, the change is undone. The text is the old one, its hash code is
that of the changed one: as a key of a table it is not found. -/
theorem undo_hash_fails :
    (do let a ← ofChars [0x61#16]
        let c ← record a
        let b ← setCharAt a 0 0x62#16
        let b ← hashCode b
        let r ← swap b.1 c
        let h ← constHashCode r.1
        let h0 ← constHashCode a
        return (decide (chars r.1 = chars a), decide (h = h0))) = .ok (true, false) := by decide +kernel

example : ∃ a b c r, ofChars [0x61#16] = .ok a ∧ WF a ∧ setCharAt a 0 0x62#16 = .ok b ∧ WF b ∧ record a = .ok c ∧ swaps 1 b c = .ok r ∧
    chars r.1 = [0x61#16] := ⟨_, _, _, _, rfl, by decide, rfl, by decide, rfl, rfl, rfl⟩

end Verif.Str.UndoProps
