import Verif.Date.Props
import Verif.DateVal.Model
/-
C124: the day of the year.
-/
namespace Verif.DateVal.DayProps
open Verif Verif.Date Verif.Date.Props

theorem first_day (lp : Bool) (n : Fin 366) : (n.val : Int) < 365 + (if lp then 1 else 0) →
    (monthOf n.val (if lp then 1 else 0), dateOf n.val (if lp then 1 else 0) (monthOf n.val (if lp then 1 else 0))) = ((0, 1) : Int × Int) →
    n.val = 0 := by revert lp n; decide +kernel

/-- The day of the year counts the days from 0 on the first of January to 364, or 365 in a leap year; the day after has the next
number, or is the first of the next year. -/
theorem dayOfYear_spec (t : Int) (ht : InRange t) (ht' : InRange (t + 86400000)) :
    ∃ y n, year t = .ok y ∧ dayOfYear t = .ok n ∧ 0 ≤ n ∧ n < (if leap y then 366 else 365) ∧
      (n = 0 ↔ month t = .ok 0 ∧ date t = .ok 1) ∧
      (if n + 1 < (if leap y then 366 else 365) then year (t + 86400000) = .ok y ∧ dayOfYear (t + 86400000) = .ok (n + 1)
        else year (t + 86400000) = .ok (y + 1) ∧ dayOfYear (t + 86400000) = .ok 0) := by
  obtain ⟨y, e1, e2, e3⟩ := yearFromTime_ok t ht
  obtain ⟨p1, p2, p3, p4⟩ := parts_ok t ht y e2 e3
  have hl := D_len y
  have hs : (t + 86400000) / 86400000 = t / 86400000 + 1 := by omega
  have e0 : ∀ u, localTime u = u := fun u => by unfold localTime localTimeZoneAdjustment daylightSavingTimeAdjustment; omega
  have hlen : (if leap y then 366 else 365 : Int) = 365 + ly y := by unfold ly; split <;> rfl
  have hb : ly y = 0 ∨ ly y = 1 := by unfold ly; split <;> simp
  have hm : month t = .ok (md y (t / 86400000 - D y)).1 ∧ date t = .ok (md y (t / 86400000 - D y)).2 := by
    unfold month date
    rw [e0]
    simp only [monthFromTime, dateFromTime, p1, p2, p3, bind, Except.bind, pure, Except.pure, md, and_self]
  refine ⟨y, t / 86400000 - D y, by unfold year; rw [e0]; exact p1, by unfold dayOfYear; rw [e0]; exact p3, by omega,
    by rw [hlen]; omega, ?_, ?_⟩
  · rw [hm.1, hm.2]
    constructor
    · intro h; rw [h, md_zero]; exact ⟨rfl, rfl⟩
    · rintro ⟨h1, h2⟩
      have h1 := Except.ok.inj h1
      have h2 := Except.ok.inj h2
      have hc : (((t / 86400000 - D y).toNat : Nat) : Int) = t / 86400000 - D y := by omega
      have := first_day (leap y) ⟨(t / 86400000 - D y).toNat, by omega⟩
      simp only [hc] at this
      have := this (by rw [← show ly y = if leap y then 1 else 0 from rfl]; omega) (Prod.ext h1 h2)
      omega
  · rw [hlen]
    by_cases h : t / 86400000 - D y + 1 < 365 + ly y
    · rw [if_pos h]
      obtain ⟨q1, _, q3, _⟩ := parts_ok (t + 86400000) ht' y (by omega) (by omega)
      refine ⟨by unfold year; rw [e0]; exact q1, ?_⟩
      unfold dayOfYear
      rw [e0, q3]
      congr 1; omega
    · rw [if_neg h]
      have hl1 := D_len (y + 1)
      have hb1 : 0 ≤ ly (y + 1) := by unfold ly; split <;> omega
      obtain ⟨q1, _, q3, _⟩ := parts_ok (t + 86400000) ht' (y + 1) (by omega) (by omega)
      refine ⟨by unfold year; rw [e0]; exact q1, ?_⟩
      unfold dayOfYear
      rw [e0, q3]
      congr 1; omega

/-- a time in range, the last day of 1972 -/
example : InRange 94608000000 ∧ InRange (94608000000 + 86400000) ∧ dayOfYear 94608000000 = .ok 365 := by
  refine ⟨by unfold InRange; omega, by unfold InRange; omega, ?_⟩
  decide +kernel

end Verif.DateVal.DayProps
