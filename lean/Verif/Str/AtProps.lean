import Verif.Str.SearchProps
import Verif.Str.PartProps
/-
C11, `atIs` and `atIsIgnoreCase` for all positions, also negative ones.
-/
namespace Verif.Str.AtProps
open Verif Verif.Str Verif.Str.CmpProps Verif.Str.SearchProps Verif.Str.PartProps

/-- **C11 (`atIsIgnoreCase`)** for a position from 0 on: the second string stands there, up to the case of the characters. -/
theorem atIsIgnoreCase_spec {s t : Str} (hs : WF s) (ht : WF t) (p : Nat) :
    atIsIgnoreCase s p t = .ok (decide (p + (chars t).length ≤ (chars s).length ∧
      (chars t).map toLowerCh <+: ((chars s).map toLowerCh).drop p)) := by
  have l1 := chars_length hs
  have l2 := chars_length ht
  unfold atIsIgnoreCase
  split
  · rename_i h
    have : ¬ (p + (chars t).length ≤ (chars s).length) := by omega
    simp [this]
  · rw [if_neg (by omega), Int.toNat_natCast, sameRange_ok toLowerCh p 0 hs ht t.len (by omega) (by omega)]
    have h2 : p + (chars t).length ≤ (chars s).length := by omega
    congr 1
    rw [decide_eq_decide, List.drop_zero, List.take_of_length_le (l := chars t) (by omega)]
    simp only [h2, true_and]
    rw [prefix_drop_iff (by simp only [List.length_map]; omega), List.length_map, l2, List.map_take, List.map_drop]

/-- Ignoring the case is asking about the lower-case copies. -/
theorem atIsIgnoreCase_lower {s t : Str} (hs : WF s) (ht : WF t) (p : Nat) :
    ∃ s' t', toLowerCase s = .ok s' ∧ toLowerCase t = .ok t' ∧ atIsIgnoreCase s p t = atIs s' p t' := by
  obtain ⟨s', e1, w1, c1⟩ := toLowerCase_spec hs
  obtain ⟨t', e2, w2, c2⟩ := toLowerCase_spec ht
  refine ⟨s', t', e1, e2, ?_⟩
  rw [atIsIgnoreCase_spec hs ht, atIs_spec w1 w2, c1, c2, List.length_map, List.length_map]

/-- What stands there exactly stands there up to case. -/
theorem atIs_atIsIgnoreCase {s t : Str} (hs : WF s) (ht : WF t) (p : Nat) (h : atIs s p t = .ok true) :
    atIsIgnoreCase s p t = .ok true := by
  rw [atIs_spec hs ht] at h
  rw [atIsIgnoreCase_spec hs ht]
  simp only [Except.ok.injEq, decide_eq_true_eq] at h ⊢
  refine ⟨h.1, ?_⟩
  rw [← List.map_drop]
  exact h.2.map _

/-- Violation: there is no check for positions in front of the text. A non-empty text that ends inside of the string is looked for in
the storage in front of it. -/
theorem negative_partial {s t : Str} (p : Int) (hp : p < 0) :
    atIs s p t = (if p + t.len > s.len then .ok false else if t.len = 0 then .ok true else .error .ub) ∧
    atIsIgnoreCase s p t = atIs s p t := by
  unfold atIs atIsIgnoreCase
  by_cases h : p + t.len > s.len
  · simp [h]
  · simp [h, hp]

example : ∃ s t, ofChars [0x61#16, 0x42#16] = .ok s ∧ ofChars [0x62#16] = .ok t ∧ WF s ∧ WF t ∧ atIs s 1 t = .ok false ∧
    atIsIgnoreCase s 1 t = .ok true ∧ atIsIgnoreCase s 0 t = .ok false ∧ atIs s (-1) t = .error .ub :=
  ⟨_, _, rfl, rfl, by decide, by decide, rfl, rfl, rfl, rfl⟩

end Verif.Str.AtProps
