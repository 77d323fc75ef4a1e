import Verif.Base
/-
C99: the time until which `Thread::sleep(millis)` sleeps.
-/
namespace Verif.Thread
open Verif

/-- the value of a `uint64` when it is stored in a `long` -/
def asLong (x : Int) : Int := Int.bmod x (2 ^ 64)

/-- Thread.cpp:113-126: seconds and nanoseconds, from the time of day in seconds and microseconds; `ts.tv_nsec += m * 1000000` is computed
as `uint64` and stored as `long` -/
def deadline (sec usec millis : Int) : Res (Int × Int) :=
  let m := millis % 2 ^ 64
  let nsec := usec * 1000
  let nsec := asLong ((nsec + m * 1000000) % 2 ^ 64)
  let s := sec + Int.tdiv nsec 1000000000
  if s < -2 ^ 63 ∨ 2 ^ 63 ≤ s then .error .ub
  else .ok (s, Int.tmod nsec 1000000000)

/-- the time in nanoseconds -/
def nanos (t : Int × Int) : Int := t.1 * 1000000000 + t.2

/-- what `pthread_cond_timedwait` accepts -/
def Valid (t : Int × Int) : Prop := 0 ≤ t.2 ∧ t.2 < 1000000000

theorem asLong_eq (x : Int) (h1 : -2 ^ 63 ≤ x) (h2 : x < 2 ^ 63) : asLong (x % 2 ^ 64) = x := by
  unfold asLong Int.bmod
  have e : x % 2 ^ 64 % ((2 ^ 64 : Nat) : Int) = x % 2 ^ 64 := by
    have : ((2 ^ 64 : Nat) : Int) = 2 ^ 64 := by decide
    rw [this]; omega
  simp only [e]
  have : ((2 ^ 64 : Nat) : Int) = 2 ^ 64 := by decide
  rw [this]
  split <;> omega

theorem tdiv_tmod (x : Int) : Int.tdiv x 1000000000 * 1000000000 + Int.tmod x 1000000000 = x := by
  have := Int.mul_tdiv_add_tmod x 1000000000
  omega

/-- up to 292 years the thread sleeps until exactly `millis` milliseconds from now -/
theorem sleep_deadline (sec usec millis : Int) (h1 : 0 ≤ sec) (h2 : sec < 2 ^ 62) (h3 : 0 ≤ usec) (h4 : usec < 1000000)
    (h5 : 0 ≤ millis) (h6 : millis ≤ 9223372035854) :
    ∃ t, deadline sec usec millis = .ok t ∧ Valid t ∧ nanos t = nanos (sec, usec * 1000) + millis * 1000000 := by
  have e1 : millis % 2 ^ 64 = millis := by omega
  have e2 : asLong ((usec * 1000 + millis * 1000000) % 2 ^ 64) = usec * 1000 + millis * 1000000 := asLong_eq _ (by omega) (by omega)
  have hd := tdiv_tmod (usec * 1000 + millis * 1000000)
  have hm1 : 0 ≤ Int.tmod (usec * 1000 + millis * 1000000) 1000000000 := Int.tmod_nonneg _ (by omega)
  have hm2 : Int.tmod (usec * 1000 + millis * 1000000) 1000000000 < 1000000000 := Int.tmod_lt_of_pos _ (by omega)
  refine ⟨(sec + Int.tdiv (usec * 1000 + millis * 1000000) 1000000000, Int.tmod (usec * 1000 + millis * 1000000) 1000000000), ?_, ⟨hm1, hm2⟩, ?_⟩
  · simp only [deadline, e1, e2]
    rw [if_neg (by omega)]
  · simp only [nanos]
    omega

/-- with a negative time it does not sleep: the deadline is over already -/
theorem sleep_negative (sec usec millis : Int) (h1 : 0 ≤ sec) (h2 : sec < 2 ^ 62) (h3 : 0 ≤ usec) (h4 : usec < 1000000)
    (h5 : millis < 0) (h6 : -9223372035854 ≤ millis) :
    ∃ t, deadline sec usec millis = .ok t ∧ nanos t < nanos (sec, usec * 1000) := by
  have e2 : asLong ((usec * 1000 + millis % 2 ^ 64 * 1000000) % 2 ^ 64) = usec * 1000 + millis * 1000000 := by
    have : (usec * 1000 + millis % 2 ^ 64 * 1000000) % 2 ^ 64 = (usec * 1000 + millis * 1000000) % 2 ^ 64 := by omega
    rw [this]
    exact asLong_eq _ (by omega) (by omega)
  have hd := tdiv_tmod (usec * 1000 + millis * 1000000)
  have hm1 : -1000000000 < Int.tmod (usec * 1000 + millis * 1000000) 1000000000 := by
    have := Int.lt_tmod_of_pos (usec * 1000 + millis * 1000000) (b := 1000000000) (by omega)
    omega
  have hm2 : Int.tmod (usec * 1000 + millis * 1000000) 1000000000 < 1000000000 := Int.tmod_lt_of_pos _ (by omega)
  refine ⟨(sec + Int.tdiv (usec * 1000 + millis * 1000000) 1000000000, Int.tmod (usec * 1000 + millis * 1000000) 1000000000), ?_, ?_⟩
  · simp only [deadline, e2]
    rw [if_neg (by omega)]
  · simp only [nanos]
    omega

/-- a time that is too long wraps around: the thread does not sleep at all (the comment in the code says the conversion prevents that) -/
theorem sleep_too_long (sec usec : Int) (h1 : 0 ≤ sec) (h2 : sec < 2 ^ 62) (h3 : 0 ≤ usec) (h4 : usec < 1000000) :
    ∃ t, deadline sec usec 9223372036855 = .ok t ∧ nanos t < nanos (sec, usec * 1000) := by
  have e2 : asLong ((usec * 1000 + 9223372036855 % 2 ^ 64 * 1000000) % 2 ^ 64) = usec * 1000 + 9223372036855 * 1000000 - 2 ^ 64 := by
    have : (usec * 1000 + 9223372036855 % 2 ^ 64 * 1000000) % 2 ^ 64 = (usec * 1000 + 9223372036855 * 1000000 - 2 ^ 64) % 2 ^ 64 := by omega
    rw [this]
    exact asLong_eq _ (by omega) (by omega)
  have hd := tdiv_tmod (usec * 1000 + 9223372036855 * 1000000 - 2 ^ 64)
  generalize hq : Int.tdiv (usec * 1000 + 9223372036855 * 1000000 - 2 ^ 64) 1000000000 = q at *
  generalize hr : Int.tmod (usec * 1000 + 9223372036855 * 1000000 - 2 ^ 64) 1000000000 = r at *
  have hm1 : -1000000000 < r := by
    have := Int.lt_tmod_of_pos (usec * 1000 + 9223372036855 * 1000000 - 2 ^ 64) (b := 1000000000) (by omega)
    omega
  have hm2 : r < 1000000000 := by rw [← hr]; exact Int.tmod_lt_of_pos _ (by omega)
  refine ⟨(sec + q, r), ?_, ?_⟩
  · simp only [deadline, e2, hq, hr]
    rw [if_neg (by omega)]
  · simp only [nanos]
    omega

/-- half a second after 1.6 billion seconds and 700 milliseconds -/
example : deadline 1600000000 700000 500 = .ok (1600000001, 200000000) := by decide

end Verif.Thread
