import Verif.Num.Model
import Verif.Str.PartProps
/-
Property C13: integer to text and back.
-/
set_option linter.unusedSimpArgs false
namespace Verif.Num.Props
open Verif Verif.Str Verif.Num

/-! ### Specification -/

/-- the value of a decimal digit character -/
def digitVal (c : Ch) : Nat := c.toNat - 0x30

/-- the natural number a digit sequence denotes -/
def natVal (l : List Ch) : Nat := l.foldl (fun v c => 10 * v + digitVal c) 0

/-- `l` is the canonical decimal numeral of the natural number `n`: digits only, no superfluous
leading zero, denoting `n`. -/
def IsNumeral (l : List Ch) (n : Nat) : Prop :=
  l ≠ [] ∧ (∀ c ∈ l, isDigit c) ∧ (l.head? = some 0x30 → l = [0x30]) ∧ natVal l = n

/-- `l` is the canonical numeral of the integer `z`. -/
def IsIntNumeral (l : List Ch) (z : Int) : Prop :=
  if z < 0 then ∃ m, l = 0x2d :: m ∧ IsNumeral m z.natAbs else IsNumeral l z.natAbs

/-! ### Lemmas -/

theorem revLoop_reverse (l : List Ch) : revLoop (l.length / 2) 0 (l.length - 1) l = .ok l.reverse := by
  obtain ⟨w, e, wl, hw⟩ := PartProps.revLoop_ok l.length 0 (l.length - 1) l (Nat.le_refl _) (by omega) (by omega)
  rw [e]
  congr 1
  apply List.ext_getElem?
  intro i
  rw [hw]
  by_cases h : i < l.length
  · rw [if_pos (by omega), List.getElem?_reverse h]
  · rw [if_neg (by omega), List.getElem?_eq_none (by omega), List.getElem?_eq_none (by simp; omega)]

theorem digitCh {d : Nat} (h : d < 10) : isDigit (BitVec.ofNat 16 (d + 0x30)) ∧ digitVal (BitVec.ofNat 16 (d + 0x30)) = d := by
  have : (BitVec.ofNat 16 (d + 0x30)).toNat = d + 0x30 := by rw [BitVec.toNat_ofNat]; omega
  refine ⟨?_, ?_⟩
  · simp only [isDigit, this, decide_eq_true_eq]; omega
  · simp only [digitVal, this]; omega

theorem natVal_append (l m : List Ch) : natVal (l ++ m) = natVal l * 10 ^ m.length + natVal m := by
  have key : ∀ (m : List Ch) (v : Nat), m.foldl (fun v c => 10 * v + digitVal c) v = v * 10 ^ m.length + natVal m := by
    intro m
    induction m with
    | nil => intro v; simp [natVal]
    | cons c m ih =>
      intro v
      simp only [natVal, List.foldl_cons, List.length_cons]
      rw [ih, ih (10 * 0 + digitVal c), Nat.pow_succ]
      simp only [Nat.mul_zero, Nat.zero_add, Nat.add_mul]
      rw [Nat.mul_comm 10 v, Nat.mul_assoc, Nat.mul_comm 10]
      omega
  unfold natVal
  rw [List.foldl_append, key]
  rfl

theorem digits_spec (n : Nat) (h : 0 < n) : (digits n).reverse ≠ [] ∧ (∀ c ∈ (digits n).reverse, isDigit c) ∧
    (digits n).reverse.head? ≠ some 0x30 ∧ natVal (digits n).reverse = n := by
  induction n using Nat.strongRecOn with
  | ind n ih =>
    rw [digits, if_pos h]
    have hd := digitCh (Nat.mod_lt n (by omega : 10 > 0))
    rw [List.reverse_cons]
    by_cases hn : n / 10 = 0
    · rw [hn, digits, if_neg (by omega)]
      refine ⟨by simp, by simpa using hd.1, ?_, ?_⟩
      · simp only [List.reverse_nil, List.nil_append, List.head?_cons, ne_eq, Option.some.injEq]
        intro e
        have := congrArg digitVal e
        rw [hd.2] at this
        simp [digitVal] at this
        omega
      · simp only [List.reverse_nil, List.nil_append, natVal, List.foldl_cons, List.foldl_nil, hd.2]; omega
    · obtain ⟨a, b, c, d⟩ := ih (n / 10) (by omega) (by omega)
      refine ⟨by simp, ?_, ?_, ?_⟩
      · intro x hx
        rcases List.mem_append.1 hx with hx | hx
        · exact b x hx
        · simp only [List.mem_cons, List.not_mem_nil, or_false] at hx; rw [hx]; exact hd.1
      · rw [List.head?_append]
        cases hh : (digits (n / 10)).reverse.head? with
        | none => rw [List.head?_eq_none_iff] at hh; exact absurd hh a
        | some x => rw [hh] at c; simpa using c
      · rw [natVal_append, d]
        simp only [natVal, List.foldl_cons, List.foldl_nil, List.length_cons, List.length_nil, hd.2]
        omega

theorem digits_numeral {n : Nat} (h : 0 < n) : IsNumeral (digits n).reverse n := by
  obtain ⟨a, b, c, d⟩ := digits_spec n h
  exact ⟨a, b, fun e => absurd e c, d⟩

theorem zero_numeral : IsNumeral [0x30] 0 := 
  ⟨by simp, by intro c hc; rw [List.mem_singleton.1 hc]; decide, fun _ => rfl, by decide⟩

/-! ### Properties -/

/-- **C13 (text, partial).** For every 64-bit integer except the smallest, `valueOf` yields its canonical
decimal numeral. -/
theorem valueOf_partial (z : Int) (h1 : minInt64 < z) (h2 : z ≤ maxInt64) :
    ∃ l, valueOf z = .ok l ∧ IsIntNumeral l z := by
  unfold valueOf IsIntNumeral
  by_cases hz : z < 0
  · have hi : i64 (z * -1) = .ok (z * -1) := by unfold i64; rw [if_pos]; unfold minInt64 maxInt64 at *; omega
    simp only [hz, hi, if_true, decide_true, bind, Except.bind]
    rw [if_neg (by simp), List.nil_append, revLoop_reverse, List.reverse_append]
    refine ⟨_, rfl, _, rfl, ?_⟩
    rw [show (z * -1).toNat = z.natAbs by omega]
    exact digits_numeral (by omega)
  · simp only [hz, if_false, decide_false, bind, Except.bind]
    rw [if_neg (by simp : ¬ (false = true)), revLoop_reverse]
    refine ⟨_, rfl, ?_⟩
    rcases Int.lt_trichotomy z 0 with h | h | h
    · exact absurd h hz
    · subst h
      have : digits 0 = [] := by rw [digits]; simp
      simp only [Int.toNat_zero, this]
      exact zero_numeral
    · rw [if_neg (by omega), List.nil_append, show z.toNat = z.natAbs by omega]
      exact digits_numeral (by omega)

/-- **C13 (unsigned).** -/
theorem valueOfU_spec (n : Nat) : ∃ l, valueOfU n = .ok l ∧ IsNumeral l n := by
  unfold valueOfU
  split
  · rename_i h; subst h; exact ⟨_, rfl, zero_numeral⟩
  · rename_i h; dsimp only; rw [revLoop_reverse]; exact ⟨_, rfl, digits_numeral (by omega)⟩

theorem toIntLoop_digits (l : List Ch) (hl : ∀ c ∈ l, isDigit c) (v : Nat) (neg : Bool)
    (hb : ((v * 10 ^ l.length + natVal l : Nat) : Int) ≤ maxInt64) :
    toIntLoop l v neg = .ok (((v * 10 ^ l.length + natVal l : Nat) : Int), neg) := by
  induction l generalizing v with
  | nil => simp [toIntLoop, natVal]
  | cons c l ih =>
    have hc : isDigit c = true := hl c (by simp)
    have hdv : digitValue c = (digitVal c : Int) := by
      simp only [isDigit, decide_eq_true_eq] at hc
      simp only [digitValue, hc, and_self, if_true, digitVal]; omega
    have e : v * 10 ^ (c :: l).length + natVal (c :: l) = (v * 10 + digitVal c) * 10 ^ l.length + natVal l := by
      have := natVal_append [c] l
      simp only [List.singleton_append] at this
      rw [this]
      simp only [natVal, List.foldl_cons, List.foldl_nil, List.length_cons, Nat.pow_succ, Nat.add_mul]
      simp only [Nat.mul_zero, Nat.zero_add]
      rw [Nat.mul_assoc v 10, Nat.mul_comm 10]
      omega
    rw [e] at hb ⊢
    have hp : 1 ≤ 10 ^ l.length := Nat.one_le_pow _ _ (by omega)
    have hle : v * 10 + digitVal c ≤ (v * 10 + digitVal c) * 10 ^ l.length := Nat.le_mul_of_pos_right _ hp
    have hmx : v * 10 + digitVal c ≤ 2 ^ 63 - 1 := by unfold maxInt64 at hb; omega
    unfold toIntLoop
    rw [if_pos hc]
    have i1 : i64 ((v : Int) * 10) = .ok ((v : Int) * 10) := by
      unfold i64; rw [if_pos]; unfold minInt64 maxInt64; omega
    have i2 : i64 ((v : Int) * 10 + digitValue c) = .ok (((v * 10 + digitVal c : Nat) : Int)) := by
      rw [hdv]; unfold i64; rw [if_pos]
      · rfl
      · unfold minInt64 maxInt64; omega
    simp only [i1, i2, bind, Except.bind]
    exact ih (fun x hx => hl x (by simp [hx])) _ hb

/-- `toInt` reads the canonical numeral of every integer representable with its sign. -/
theorem toInt_numeral {l : List Ch} {z : Int} (h : IsIntNumeral l z) (h1 : minInt64 < z) (h2 : z ≤ maxInt64) :
    toInt l = .ok z := by
  unfold IsIntNumeral at h
  unfold toInt
  split at h
  · rename_i hz
    obtain ⟨m, rfl, _, hd, _, hv⟩ := h
    have hnd : isDigit (0x2d : Ch) = false := by decide
    unfold toIntLoop
    rw [if_neg (by rw [hnd]; simp), if_pos rfl]
    have := toIntLoop_digits m hd 0 true (by rw [Nat.zero_mul, Nat.zero_add, hv]; unfold minInt64 maxInt64 at *; omega)
    rw [Nat.zero_mul, Nat.zero_add, hv] at this
    have this' : toIntLoop m 0 true = .ok (((z.natAbs : Nat) : Int), true) := this
    simp only [this', bind, Except.bind, if_true]
    unfold i64; rw [if_pos]
    · congr 1; omega
    · unfold minInt64 maxInt64 at *; omega
  · rename_i hz
    obtain ⟨_, hd, _, hv⟩ := h
    have := toIntLoop_digits l hd 0 false (by rw [Nat.zero_mul, Nat.zero_add, hv]; unfold maxInt64 at *; omega)
    rw [Nat.zero_mul, Nat.zero_add, hv] at this
    have this' : toIntLoop l 0 false = .ok (((z.natAbs : Nat) : Int), false) := this
    simp only [this', bind, Except.bind, pure, Except.pure]
    rw [if_neg (by simp)]
    congr 1; omega

/-- **C13 (round trip, partial).** Missing: the smallest 64-bit integer, for which `valueOf`
overflows (`valueOf_min_overflows`). -/
theorem toInt_valueOf_partial (z : Int) (h1 : minInt64 < z) (h2 : z ≤ maxInt64) :
    ∃ l, valueOf z = .ok l ∧ toInt l = .ok z := by
  obtain ⟨l, e, h⟩ := valueOf_partial z h1 h2
  exact ⟨l, e, toInt_numeral h h1 h2⟩

/-- Different integers have different texts. -/
theorem valueOf_injective {a b : Int} (ha : minInt64 < a ∧ a ≤ maxInt64) (hb : minInt64 < b ∧ b ≤ maxInt64)
    (e : valueOf a = valueOf b) : a = b := by
  obtain ⟨l, e1, h1⟩ := toInt_valueOf_partial a ha.1 ha.2
  obtain ⟨m, e2, h2⟩ := toInt_valueOf_partial b hb.1 hb.2
  rw [e1, e2] at e
  injection e with e
  rw [e, h2] at h1
  injection h1 with h1
  exact h1.symm

/-- Violation: `String::valueOf(INT64_MIN)` overflows. -/
theorem valueOf_min_overflows : valueOf minInt64 = .error .ub := by decide +kernel

/-- `toInt` throws on a text containing anything but digits and `-`, provided the digits in front
stay in range. -/
theorem toInt_bad_char (l m : List Ch) (c : Ch) (hl : ∀ c ∈ l, isDigit c) (hb : (natVal l : Int) ≤ maxInt64)
    (hc : isDigit c = false) (hc2 : c ≠ 0x2d) : toInt (l ++ c :: m) = .error .thrown := by
  have key : ∀ (l : List Ch) (v : Nat), (∀ c ∈ l, isDigit c) → ((v * 10 ^ l.length + natVal l : Nat) : Int) ≤ maxInt64 →
      toIntLoop (l ++ c :: m) v false = .error .thrown := by
    intro l
    induction l with
    | nil => intro v _ _; rw [List.nil_append, toIntLoop, if_neg (by simp [hc]), if_neg hc2]
    | cons x l ih =>
      intro v hl hb
      have h1 := toIntLoop_digits (x :: l) hl v false hb
      unfold toIntLoop at h1 ⊢
      rw [List.cons_append]
      simp only
      have hx : isDigit x = true := hl x (by simp)
      rw [if_pos hx] at h1 ⊢
      cases h2 : i64 ((v : Int) * 10) with
      | error f => rw [h2] at h1; cases h1
      | ok a =>
        rw [h2] at h1
        simp only [bind, Except.bind] at h1 ⊢
        cases h3 : i64 (a + digitValue x) with
        | error f => rw [h3] at h1; cases h1
        | ok b =>
          have e : v * 10 ^ (x :: l).length + natVal (x :: l) = (v * 10 + digitVal x) * 10 ^ l.length + natVal l := by
            have := natVal_append [x] l
            simp only [List.singleton_append] at this
            rw [this]
            simp only [natVal, List.foldl_cons, List.foldl_nil, List.length_cons, Nat.pow_succ, Nat.add_mul]
            simp only [Nat.mul_zero, Nat.zero_add]
            rw [Nat.mul_assoc v 10, Nat.mul_comm 10]
            omega
          have hb' : b = ((v * 10 + digitVal x : Nat) : Int) := by
            unfold i64 at h2 h3
            split at h2 <;> cases h2
            split at h3 <;> cases h3
            simp only [isDigit, decide_eq_true_eq] at hx
            simp only [digitValue, hx, and_self, if_true, digitVal]; omega
          simp only
          rw [hb']
          exact ih _ (fun y hy => hl y (by simp [hy])) (by rw [← e]; exact hb)
  have := key l 0 hl (by simpa using hb)
  have this' : toIntLoop (l ++ c :: m) 0 false = .error .thrown := this
  simp only [toInt, this', bind, Except.bind]

/-- Quirks of `toInt` proved: a minus sign counts wherever it stands, the empty text is 0, and a
numeral beyond 64 bits overflows. -/
theorem toInt_quirks : toInt [0x35, 0x2d] = .ok (-5) ∧ toInt [] = .ok 0 ∧
    toInt ([9,2,2,3,3,7,2,0,3,6,8,5,4,7,7,5,8,0,8].map (fun d => BitVec.ofNat 16 (d + 0x30))) = .error .ub := by
  decide +kernel

/-- Booleans survive the round trip. -/
theorem toBool_valueOfBool (b : Bool) : toBool (valueOfBool b) = b := by cases b <;> decide

/-- Non-vacuity -/
example : valueOf (-1203) = .ok [0x2d, 0x31, 0x32, 0x30, 0x33] := by decide +kernel

end Verif.Num.Props
