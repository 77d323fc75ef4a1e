import Verif.DoubleText.Texts
import Verif.DoubleFmt.Props
/-
C95: doubles as text and back.
-/
namespace Verif.DoubleText
open Verif Verif.Str Verif.Fp Verif.DoubleText.Spec
open Verif.Num.Props (natVal natVal_append digitVal)
open Verif.DateFmt.Spec (dec padded)

attribute [local irreducible] Fp.one Fp.lit Fp.val Fp.units

/-! ### symmetry -/

theorem ten_neg {q : ℚ} (h : Ten q) : Ten (-q) := by
  obtain ⟨M, X, h1, rfl⟩ := h
  exact ⟨-M, X, by simpa using h1, by push_cast; ring⟩

theorem rounded_neg {v q : ℚ} (h : Rounded v q) : Rounded (-v) (-q) := by
  refine ⟨ten_neg h.ten, fun q' hq => ?_⟩
  have := h.nearest (-q') (ten_neg hq)
  rw [show -q - -v = -(q - v) by ring, abs_neg, show q' - -v = -(-q' - v) by ring, abs_neg]
  exact this

theorem val_num (s : Bool) (b : Nat) (h : b ≤ infBits) : val (.num s b h) = (if s then -1 else 1) * ((mag b : ℚ) / (Fp.one : Nat)) := by
  have h1 := val_eq (.num s b h)
  have h2 : units (.num s b h) = sgn s (mag b) := by unfold units; rfl
  rw [h2] at h1
  have h3 : (0 : ℚ) < 2 ^ 1074 := by positivity
  rw [one_cast, eq_comm, ← mul_div_assoc, div_eq_iff h3.ne', h1]
  cases s <;> simp [sgn]

/-- the sign of a double -/
def signOf : F64 → Sign
  | .num true _ _ => .minus
  | _ => .none

theorem valueOf_num (s : Bool) (b : Nat) (h : b ≤ infBits) (h1 : b < infBits) : valueOf (.num s b h) =
    (if s then [0x2d] else []) ++ (if b = 0 then [0x30] else general (ten (mag b)).1 (ten (mag b)).2) := by
  show (if s then [0x2d] else []) ++ (if b = infBits then _ else _) = _
  rw [if_neg (show ¬ b = infBits by omega)]

/-! ### C95: writing -/

/-- `valueOf(double)` of any finite double: the text is a number (digits, perhaps a point, perhaps an exponent), namely
the given one, rounded to ten significant digits: no other number with at most ten digits is nearer.  It has a minus
sign exactly if the double has, and never a plus sign.  The error is at most half a billionth of the number. -/
theorem valueOf_ten (x : F64) (hx : Finite x) : ∃ n : Numeral, n.Valid ∧ valueOf x = n.text ∧ n.sign = signOf x ∧
    Rounded (val x) n.value ∧ |n.value - val x| ≤ |val x| / (2 * 10 ^ 9) := by
  cases x with
  | nan => exact absurd hx id
  | num s b hb =>
    have h1 : b < infBits := hx
    have hsig : signOf (.num s b hb) = if s then .minus else .none := by cases s <;> rfl
    have htext : (if s then [0x2d] else [] : List Ch) = (signOf (.num s b hb)).text := by cases s <;> rfl
    have hfac : ((signOf (.num s b hb)).fac : ℚ) = if s then -1 else 1 := by cases s <;> simp [signOf, Sign.fac, Sign.neg]
    rw [valueOf_num s b hb h1, htext, val_num]
    generalize signOf (.num s b hb) = sg at *
    by_cases h0 : b = 0
    · subst h0
      refine ⟨⟨sg, [0x30], none, none⟩, ⟨by simp [isDigit], by simp [Numeral.fracDigits], by simp, by simp⟩, ?_, rfl, ?_, ?_⟩
      · rw [if_pos rfl]; simp [Numeral.text, fracText, expoText]
      all_goals
        have hv : (Numeral.value ⟨sg, [0x30], none, none⟩) = 0 := by
          unfold Numeral.value
          rw [show natVal ((Numeral.mk sg [0x30] none none).whole ++ (Numeral.mk sg [0x30] none none).fracDigits) = 0 from rfl]
          simp
        rw [hv, mag_zero]
      · refine ⟨⟨0, 0, by decide, by simp⟩, fun q _ => ?_⟩
        simp
      · simp
    · rw [if_neg h0]
      have hu : 0 < mag b := Nat.pos_of_ne_zero (fun h => h0 (mag_eq_zero.1 h))
      obtain ⟨-, -, hr, he⟩ := ten_spec (mag b) hu
      obtain ⟨n, n1, n2, n3, n4⟩ := general_numeral sg (ten (mag b)).1 (ten (mag b)).2
      refine ⟨n, n1, n2.symm, n3, ?_, ?_⟩
      · rw [n4, hfac]
        cases s with
        | true =>
          simp only [if_true, neg_mul, one_mul]
          exact rounded_neg hr
        | false =>
          simp only [Bool.false_eq_true, if_false, one_mul]
          exact hr
      · rw [n4, hfac, ← mul_sub, abs_mul, abs_mul]
        have : |(if s = true then (-1 : ℚ) else 1)| = 1 := by cases s <;> simp
        rw [this, one_mul, one_mul]
        rw [abs_of_nonneg (by positivity : (0 : ℚ) ≤ (mag b : ℚ) / (Fp.one : Nat))]
        exact he

/-! ### C95: reading -/

theorem value_exact (n : Numeral) : n.value =
    exact n.sign.neg (natVal (n.whole ++ n.fracDigits)) (n.exponent - n.fracDigits.length) := by
  unfold Numeral.value exact Sign.fac
  cases n.sign.neg <;> simp

/-- `toDouble()` of any text that starts with a number, perhaps behind white space, and perhaps followed by
something that cannot belong to it: the nearest finite double, ties to even. -/
theorem toDouble_nearest (ws : List Ch) (n : Numeral) (rest : List Ch) (hw : ∀ c ∈ ws, isSpace c = true) (hv : n.Valid)
    (hr : ∀ c, rest.head? = some c → ¬ n.Continues c) :
    Finite (toDouble (ws ++ n.text ++ rest)) ∧ Nearest (toDouble (ws ++ n.text ++ rest)) n.value := by
  unfold toDouble
  rw [scan_numeral ws n rest hw hv hr, value_exact]
  exact ⟨strtod_fin _ _ _, strtod_nearest _ _ _⟩

theorem toDouble_text (n : Numeral) (hv : n.Valid) : toDouble n.text =
    strtod n.sign.neg (natVal (n.whole ++ n.fracDigits)) (n.exponent - n.fracDigits.length) := by
  have := scan_numeral [] n [] (by simp) hv (by simp)
  rw [List.nil_append, List.append_nil] at this
  exact this

/-- Text that does not start with a number yields 0: no digit where the number should start. -/
theorem toDouble_no_number (l : List Ch) (h : ∀ c, (takeSign (l.dropWhile isSpace)).2.head? = some c → isDigit c = false ∧ c ≠ 0x2e) :
    toDouble l = Fp.zero := by
  unfold toDouble
  simp only [scan]
  generalize (takeSign (l.dropWhile isSpace)).2 = t at h
  cases t with
  | nil => simp [takeFrac]
  | cons c t =>
    obtain ⟨h1, h2⟩ := h c rfl
    simp only [List.takeWhile_cons, List.dropWhile_cons, h1, Bool.false_eq_true, if_false, takeFrac, if_neg h2,
      List.append_nil, if_true]

/-! ### C95: there and back -/

/-- Writing a finite double and reading the text yields a finite double that differs by at most a billionth. -/
theorem roundtrip_close (x : F64) (hx : Finite x) :
    Finite (toDouble (valueOf x)) ∧ |val (toDouble (valueOf x)) - val x| ≤ |val x| / 10 ^ 9 := by
  obtain ⟨n, h1, h2, -, -, h4⟩ := valueOf_ten x hx
  obtain ⟨f, hn⟩ := toDouble_nearest [] n [] (by simp) h1 (by simp)
  rw [List.nil_append, List.append_nil, ← h2] at f hn
  refine ⟨f, ?_⟩
  have h5 := (hn x hx).1
  have h6 := abs_sub_le (val (toDouble (valueOf x))) n.value (val x)
  have h7 : |val x - n.value| = |n.value - val x| := abs_sub_comm _ _
  have e : |val x| / 10 ^ 9 = 2 * (|val x| / (2 * 10 ^ 9)) := by ring
  rw [e]
  linarith

/-- different numbers with ten digits are apart -/
theorem ten_apart {q q' : ℚ} (h : Ten q) (h' : Ten q') (hne : q ≠ q') : min |q| |q'| < 10 ^ 10 * |q - q'| := by
  have key : ∀ {q q' : ℚ} (M X M' X' : ℤ), M.natAbs < 10 ^ 10 → q = M * (10 : ℚ) ^ X → q' = M' * (10 : ℚ) ^ X' → X ≤ X' → q ≠ q' →
      |q| < 10 ^ 10 * |q - q'| := by
    intro q q' M X M' X' hM hq hq' hX hne
    have hc : (0 : ℚ) < 10 ^ X := zpow_pos (by norm_num) _
    have e : q' = ((M' * 10 ^ (X' - X).toNat : ℤ) : ℚ) * 10 ^ X := by
      rw [hq']
      push_cast
      rw [mul_assoc, ← zpow_natCast (10 : ℚ), ← zpow_add₀ (by norm_num)]
      congr 2
      omega
    have h1 : M - M' * 10 ^ (X' - X).toNat ≠ 0 := by
      intro h0
      apply hne
      rw [hq, e, show M = M' * 10 ^ (X' - X).toNat by omega]
    have h2 : (1 : ℚ) ≤ |(M : ℚ) - ((M' * 10 ^ (X' - X).toNat : ℤ) : ℚ)| := by
      have := Int.one_le_abs h1
      exact_mod_cast this
    have h3 : |q - q'| = |(M : ℚ) - ((M' * 10 ^ (X' - X).toNat : ℤ) : ℚ)| * 10 ^ X := by
      rw [hq, e, ← sub_mul, abs_mul, abs_of_pos hc]
    have h4 : |q| < 10 ^ 10 * 10 ^ X := by
      rw [hq, abs_mul, abs_of_pos hc]
      refine mul_lt_mul_of_pos_right ?_ hc
      have : ((M.natAbs : Nat) : ℚ) < 10 ^ 10 := by exact_mod_cast hM
      rwa [Nat.cast_natAbs, Int.cast_abs] at this
    rw [h3]
    have := mul_le_mul_of_nonneg_right h2 hc.le
    rw [one_mul] at this
    linarith
  obtain ⟨M, X, hM, hq⟩ := h
  obtain ⟨M', X', hM', hq'⟩ := h'
  rcases le_total X X' with hX | hX
  · exact lt_of_le_of_lt (min_le_left _ _) (key M X M' X' hM hq hq' hX hne)
  · have := key M' X' M X hM' hq' hq hX (Ne.symm hne)
    rw [abs_sub_comm] at this
    exact lt_of_le_of_lt (min_le_right _ _) this

/-- the normal range: 2^-1022 ≤ |q| ≤ 2^1023 -/
def Normal (q : ℚ) : Prop := (2 : ℚ) ^ (-1022 : ℤ) ≤ |q| ∧ |q| ≤ (2 : ℚ) ^ (1023 : ℤ)

theorem normal_rel {x : F64} {q : ℚ} (h : Rounds x q) (hn : Normal q) : Finite x ∧ |val x - q| ≤ |q| / 2 ^ 53 :=
  h.rel _ _ le_rfl le_rfl hn.1 hn.2

theorem Normal.pos {q : ℚ} (h : Normal q) : 0 < |q| := lt_of_lt_of_le (zpow_pos (by norm_num) _) h.1

/-- the ten digits of the double nearest to a number with ten digits are that number -/
theorem ten_back {x : F64} {q q' : ℚ} (h : Rounds x q) (hn : Normal q) (ht : Ten q) (hr : Rounded (val x) q') : q' = q := by
  by_contra hne
  obtain ⟨-, he⟩ := normal_rel h hn
  have h1 := hr.nearest q ht
  have h0 := hn.pos
  rw [abs_sub_comm q] at h1
  have h2 : |q - q'| ≤ 2 * (|q| / 2 ^ 53) := by
    have := abs_sub_le q (val x) q'
    rw [abs_sub_comm q (val x), abs_sub_comm (val x) q'] at this
    linarith
  have h3 := ten_apart ht hr.ten (Ne.symm hne)
  have h4 : |q| ≤ |q'| + |q - q'| := by
    have := abs_sub_abs_le_abs_sub q q'
    linarith
  rcases min_choice |q| |q'| with hm | hm
  · rw [hm] at h3; linarith
  · rw [hm] at h3; linarith

/-- reading gives the double the number is rounded to -/
theorem strtod_eq {x : F64} {neg : Bool} {m : Nat} {e : Int} (hx : Finite x) (h : Rounds x (exact neg m e)) (hn : Normal (exact neg m e)) :
    strtod neg m e = x := by
  obtain ⟨hf, he⟩ := normal_rel h hn
  have h0 := hn.pos
  have hv0 : val x ≠ 0 := by
    intro h
    rw [h, zero_sub, abs_neg] at he
    linarith
  have hle : |exact neg m e| ≤ val largest ∨ val largest < |exact neg m e| := le_or_gt _ _
  have hr : Rounds (strtod neg m e) (exact neg m e) := by
    rcases hle with h1 | h1
    · exact strtod_rounds neg m e h1
    · rcases strtod_large neg m e h1 with h2 | h2
      · -- 2^1023 is not above the largest double
        exfalso
        have hp := Rp.zgrid (2 ^ 53) 970 (by decide) (by omega) (by omega)
        obtain ⟨z, -, fz, vz⟩ := hp.rounds
        have := mag_lt_inf fz
        rw [vz] at this
        have e1 : (((2 ^ 53 : ℤ) : ℚ) * 2 ^ (970 : ℤ)) = 2 ^ (1023 : ℤ) := by
          rw [Int.cast_pow, ← zpow_natCast, Int.cast_ofNat, ← zpow_add₀ (by norm_num)]
          congr 1
        rw [e1, abs_of_pos (zpow_pos (by norm_num) _)] at this
        exact absurd (lt_of_lt_of_le h1 hn.2) (not_lt.2 this)
      · exact h2
  exact (val_inj hx (strtod_fin neg m e) (h.unique hr) hv0).symm

/-- A double nearest to a number with at most ten significant digits is written as that number, and reading
yields the same double. -/
theorem ten_returns {x : F64} {q : ℚ} (hx : Finite x) (h : Rounds x q) (hn : Normal q) (ht : Ten q) :
    (∃ n : Numeral, n.Valid ∧ valueOf x = n.text ∧ n.value = q) ∧ toDouble (valueOf x) = x := by
  obtain ⟨n, h1, h2, h3, h4, h5⟩ := valueOf_ten x hx
  have hq := ten_back h hn ht h4
  refine ⟨⟨n, h1, h2, hq⟩, ?_⟩
  rw [h2, toDouble_text n h1]
  rw [value_exact] at hq
  exact strtod_eq hx (by rw [hq]; exact h) (by rw [hq]; exact hn)

/-- A number with at most ten significant digits survives: read from a text and written again it is the same number,
and read once more the same double. -/
theorem text_returns (n : Numeral) (hv : n.Valid) (ht : Ten n.value) (hn : Normal n.value) :
    (∃ m : Numeral, m.Valid ∧ valueOf (toDouble n.text) = m.text ∧ m.value = n.value) ∧
    toDouble (valueOf (toDouble n.text)) = toDouble n.text := by
  rw [toDouble_text n hv]
  have hf := strtod_fin n.sign.neg (natVal (n.whole ++ n.fracDigits)) (n.exponent - n.fracDigits.length)
  rw [value_exact] at ht hn ⊢
  generalize n.sign.neg = neg at *
  generalize natVal (n.whole ++ n.fracDigits) = m at *
  generalize n.exponent - n.fracDigits.length = e at *
  have hr := rounds_bits neg
  obtain ⟨r, hr⟩ : ∃ r, Rounds r (exact neg m e) := by
    obtain ⟨a, d, hd, hq, -⟩ := strtod_frac m e
    refine ⟨_, (show exact neg m e = (if neg then -1 else 1) * (a / d : ℚ) from ?_) ▸ rounds_bits neg a d hd⟩
    rw [hq]; unfold exact; ring
  have hs := strtod_eq (normal_rel hr hn).1 hr hn
  rw [← hs] at hr
  exact ten_returns hf hr hn ht

/-- The same for the decimal literals of a program: `valueOf(0.1)` read again is 0.1. -/
theorem literal_returns (a : Int) (d : Nat) (hd : 0 < d) (ht : Ten (a / d)) (hn : Normal (a / d)) :
    (∃ n : Numeral, n.Valid ∧ valueOf (lit a d) = n.text ∧ n.value = a / d) ∧ toDouble (valueOf (lit a d)) = lit a d :=
  ten_returns (normal_rel (lit_rounds a d hd) hn).1 (lit_rounds a d hd) hn ht

/-- Both zeros survive. -/
theorem zero_returns (s : Bool) : toDouble (valueOf (mk s 0)) = mk s 0 := by cases s <;> decide +kernel

/-! ### the plain form -/

theorem padded_shift (p k : Nat) : ∀ m : Nat, padded (p + k) (m * 10 ^ k) = padded p m ++ List.replicate k 0x30 := by
  induction k with
  | zero => intro m; simp
  | succ k ih =>
    intro m
    show padded (p + k) (m * 10 ^ (k + 1) / 10) ++ [BitVec.ofNat 16 (48 + m * 10 ^ (k + 1) % 10)] = _
    have e1 : m * 10 ^ (k + 1) / 10 = m * 10 ^ k := by rw [Nat.pow_succ, ← Nat.mul_assoc]; omega
    have e2 : m * 10 ^ (k + 1) % 10 = 0 := by rw [Nat.pow_succ, ← Nat.mul_assoc]; omega
    rw [e1, e2, ih m, List.replicate_succ', List.append_assoc]
    rfl

theorem strip_zeros (l : List Ch) (k : Nat) : (l ++ List.replicate k 0x30).rdropWhile (· = 0x30) = l.rdropWhile (· = 0x30) := by
  induction k with
  | zero => simp
  | succ k ih =>
    rw [List.replicate_succ', ← List.append_assoc, List.rdropWhile_concat_pos _ _ _ (by simp)]
    exact ih

theorem plain_shift (M p k : Nat) : plain (M * 10 ^ k) (p + k) = plain M p := by
  have hk : 0 < 10 ^ k := by positivity
  unfold plain
  rw [Nat.pow_add, Nat.mul_div_mul_right _ _ hk, Nat.mul_mod_mul_right, padded_shift, strip_zeros]
  congr 1
  by_cases h : M % 10 ^ p = 0
  · rw [if_pos h, if_pos (by rw [h, Nat.zero_mul])]
  · rw [if_neg h, if_neg (Nat.mul_ne_zero h hk.ne')]

/-- the text depends on the number only -/
theorem plain_unique {M p N r : Nat} (h : (M : ℚ) / 10 ^ p = N / 10 ^ r) : plain M p = plain N r := by
  have h1 : (M : ℚ) * 10 ^ r = N * 10 ^ p := by
    field_simp at h
    linarith
  have h2 : M * 10 ^ r = N * 10 ^ p := by exact_mod_cast h1
  rcases le_total p r with hp | hp
  · obtain ⟨k, rfl⟩ := Nat.exists_eq_add_of_le hp
    have : N = M * 10 ^ k := by
      have h3 : M * 10 ^ k * 10 ^ p = N * 10 ^ p := by rw [← h2, Nat.pow_add]; ring
      exact (Nat.eq_of_mul_eq_mul_right (by positivity) h3).symm
    rw [this, plain_shift]
  · obtain ⟨k, rfl⟩ := Nat.exists_eq_add_of_le hp
    have : M = N * 10 ^ k := by
      have h3 : M * 10 ^ r = N * 10 ^ k * 10 ^ r := by rw [h2, Nat.pow_add]; ring
      exact Nat.eq_of_mul_eq_mul_right (by positivity) h3
    rw [this, plain_shift]

/-- Numbers from 0.0001 to below 10^10 with at most ten significant digits are written without exponent: the digits of
`N / 10^p` with a point, without zeros at the end, and without a point if nothing follows. -/
theorem valueOf_plain (x : F64) (hx : Finite x) (neg : Bool) (N p : Nat) (hr : Rounds x ((if neg then -1 else 1) * (N / 10 ^ p)))
    (ht : Ten (N / 10 ^ p)) (h1 : (1 / 10 ^ 4 : ℚ) ≤ N / 10 ^ p) (h2 : (N / 10 ^ p : ℚ) < 10 ^ 10) :
    valueOf x = shortText neg N p := by
  have hgoal : shortText neg N p = (if neg then [0x2d] else []) ++ plain N p := by
    unfold shortText plain
    rw [List.append_assoc]
    congr 2
  rw [hgoal]
  clear hgoal
  have hq0 : (0 : ℚ) < N / 10 ^ p := lt_of_lt_of_le (by norm_num) h1
  have habs : |(if neg then -1 else 1) * (N / 10 ^ p : ℚ)| = N / 10 ^ p := by
    rw [abs_mul, abs_of_pos hq0]; cases neg <;> simp
  have hsq : ((if neg then -1 else 1) * (N / 10 ^ p : ℚ)) = N / 10 ^ p ∨ ((if neg then -1 else 1) * (N / 10 ^ p : ℚ)) = -(N / 10 ^ p) := by
    cases neg <;> simp
  have ht' : Ten ((if neg then -1 else 1) * (N / 10 ^ p)) := by
    rcases hsq with h | h
    · rw [h]; exact ht
    · rw [h]; exact ten_neg ht
  have hL : (2 : ℚ) ^ (-14 : ℤ) ≤ |(if neg then -1 else 1) * (N / 10 ^ p : ℚ)| := by
    rw [habs]; refine le_trans ?_ h1; norm_num
  have hU : |(if neg then -1 else 1) * (N / 10 ^ p : ℚ)| ≤ (2 : ℚ) ^ (34 : ℤ) := by
    rw [habs]; refine le_trans h2.le ?_; norm_num
  have hn : Normal ((if neg then -1 else 1) * (N / 10 ^ p)) :=
    ⟨le_trans (zpow_le_zpow_right₀ (by norm_num) (by omega)) hL, le_trans hU (zpow_le_zpow_right₀ (by norm_num) (by omega))⟩
  obtain ⟨-, he⟩ := normal_rel hr hn
  rw [habs] at he
  cases x with
  | nan => exact absurd hx id
  | num s b hb =>
    have hb1 : b < infBits := hx
    have h0 : b ≠ 0 := by
      intro h
      subst h
      rw [val_num, mag_zero] at he
      simp only [Nat.cast_zero, zero_div, mul_zero, zero_sub, abs_neg, habs] at he
      linarith
    have hu : 0 < mag b := Nat.pos_of_ne_zero (fun h => h0 (mag_eq_zero.1 h))
    have hm0 : (0 : ℚ) < (mag b : ℚ) / (Fp.one : Nat) := by
      have := one_pos'
      positivity
    -- the sign
    have hs : s = neg := by
      rw [val_num] at he
      generalize (mag b : ℚ) / (Fp.one : Nat) = v at *
      generalize (N : ℚ) / 10 ^ p = q at *
      cases s <;> cases neg <;> simp only [if_true, Bool.false_eq_true, if_false, one_mul, neg_mul] at he ⊢ <;> exfalso
      · rw [abs_of_pos (by linarith)] at he; linarith
      · rw [abs_of_neg (by linarith)] at he; linarith
    subst hs
    obtain ⟨t1, t2, t3, t4⟩ := ten_spec (mag b) hu
    have hback : ((ten (mag b)).1 : ℚ) * 10 ^ ((ten (mag b)).2 - 9) = N / 10 ^ p := by
      have h3 : Rounded (val (.num s b hb)) ((if s then -1 else 1) * (((ten (mag b)).1 : ℚ) * 10 ^ ((ten (mag b)).2 - 9))) := by
        rw [val_num]
        cases s with
        | true => simp only [if_true, neg_mul, one_mul]; exact rounded_neg t3
        | false => simp only [Bool.false_eq_true, if_false, one_mul]; exact t3
      have h4 := ten_back hr hn ht' h3
      have h5 : (if s = true then (-1 : ℚ) else 1) ≠ 0 := by cases s <;> simp
      exact mul_left_cancel₀ h5 h4
    generalize hM : (ten (mag b)).1 = M at *
    generalize hX : (ten (mag b)).2 = X at *
    have hc : (0 : ℚ) < 10 ^ (X - 9) := zpow_pos (by norm_num) _
    have e1 : (10 : ℚ) ^ X = 10 ^ 9 * 10 ^ (X - 9) := by
      rw [← zpow_natCast (10 : ℚ) 9, ← zpow_add₀ (by norm_num)]; congr 1; push_cast; ring
    have e2 : (10 : ℚ) ^ (X + 1) = 10 ^ 10 * 10 ^ (X - 9) := by
      rw [← zpow_natCast (10 : ℚ) 10, ← zpow_add₀ (by norm_num)]; congr 1; push_cast; ring
    have M1 : (10 : ℚ) ^ 9 ≤ M := by exact_mod_cast t1
    have M2 : (M : ℚ) < 10 ^ 10 := by exact_mod_cast t2
    have x1 : X < 10 := by
      have h3 : (10 : ℚ) ^ X < 10 ^ (10 : ℤ) := by
        have e3 : (10 : ℚ) ^ (10 : ℤ) = 10 ^ 10 := by norm_num
        rw [e1, e3]
        refine lt_of_le_of_lt ?_ h2
        rw [← hback]
        exact mul_le_mul_of_nonneg_right M1 hc.le
      exact (zpow_lt_zpow_iff_right₀ (by norm_num)).1 h3
    have x2 : -4 ≤ X := by
      have h3 : (10 : ℚ) ^ (-4 : ℤ) < 10 ^ (X + 1) := by
        have e3 : (10 : ℚ) ^ (-4 : ℤ) = 1 / 10 ^ 4 := by norm_num
        rw [e2, e3]
        refine lt_of_le_of_lt h1 ?_
        rw [← hback]
        exact mul_lt_mul_of_pos_right M2 hc
      have := (zpow_lt_zpow_iff_right₀ (by norm_num : (1 : ℚ) < 10)).1 h3
      omega
    rw [valueOf_num s b hb hb1, if_neg h0, hM, hX]
    unfold general
    rw [if_pos (show -4 ≤ X ∧ X < 10 from ⟨x2, x1⟩)]
    congr 1
    apply plain_unique
    rw [← hback, ← zpow_natCast, Int.toNat_of_nonneg (by omega), div_eq_mul_inv, ← zpow_neg]
    congr 2
    ring

/-- Whole numbers below 10^10 are written as their digits, without a point. -/
theorem valueOf_whole (n : Nat) (hn : n < 10 ^ 10) : valueOf (lit n 1) = dec n := by
  rcases Nat.eq_zero_or_pos n with h0 | h0
  · subst h0; decide +kernel
  · have hq : (n : ℚ) < 10 ^ 10 := by exact_mod_cast hn
    have h1 : (1 : ℚ) ≤ n := by exact_mod_cast h0
    have hr := lit_rounds (n : Int) 1 (by omega)
    have hi := (lit_int (n : Int) (by omega)).1
    have := valueOf_plain (lit n 1) hi false n 0 (by simpa using hr) ⟨n, 0, by simpa using hn, by simp⟩ (by simp; linarith) (by simpa using hq)
    rw [this]
    unfold shortText
    simp [Nat.mod_one]

/-! ### C95: commas -/

/-- the text with a comma in place of the point -/
def comma (l : List Ch) : List Ch := l.map fun c => if c = 0x2e then 0x2c else c

theorem comma_back (l : List Ch) (h : (0x2c : Ch) ∉ l) : (comma l).map (fun c => if c = 0x2c then 0x2e else c) = l := by
  unfold comma
  rw [List.map_map]
  conv_rhs => rw [← List.map_id l]
  refine List.map_congr_left (fun c hc => ?_)
  have hne : c ≠ 0x2c := fun e => h (e ▸ hc)
  simp only [Function.comp, id]
  by_cases hd : c = 0x2e
  · rw [if_pos hd, if_pos rfl, hd]
  · rw [if_neg hd, if_neg hne]

theorem numeral_no_comma (n : Numeral) (hv : n.Valid) : (0x2c : Ch) ∉ n.text := by
  have hd : ∀ l : List Ch, (∀ c ∈ l, isDigit c = true) → (0x2c : Ch) ∉ l := by
    intro l hl hm
    have := hl _ hm
    revert this
    decide
  have hs : ∀ s : Sign, (0x2c : Ch) ∉ s.text := by intro s; cases s <;> decide
  unfold Numeral.text
  simp only [List.mem_append, not_or]
  refine ⟨⟨⟨hs _, hd _ hv.whole⟩, ?_⟩, ?_⟩
  · have := hv.frac
    unfold Numeral.fracDigits at this
    cases hf : n.frac with
    | none => simp [fracText]
    | some f =>
      rw [hf] at this
      simp only [fracText, List.mem_cons, not_or]
      exact ⟨by decide, hd _ this⟩
  · cases he : n.exp with
    | none => simp [expoText]
    | some e =>
      obtain ⟨up, s, ds⟩ := e
      have := (hv.exp _ he).2
      simp only [expoText, List.mem_cons, List.mem_append, not_or]
      refine ⟨?_, hs s, hd _ this⟩
      cases up <;> decide

/-- `ConvertToDouble` accepts a point as well as a comma. -/
theorem convert_nearest (n : Numeral) (hv : n.Valid) :
    convertToDouble n.text = toDouble n.text ∧ convertToDouble (comma n.text) = toDouble n.text ∧
    Finite (toDouble n.text) ∧ Nearest (toDouble n.text) n.value := by
  have hc := numeral_no_comma n hv
  have h := toDouble_nearest [] n [] (by simp) hv (by simp)
  rw [List.nil_append, List.append_nil] at h
  refine ⟨?_, ?_, h⟩
  · unfold convertToDouble
    congr 1
    conv_rhs => rw [← List.map_id n.text]
    refine List.map_congr_left (fun c hx => ?_)
    have hne : c ≠ 0x2c := fun e => hc (e ▸ hx)
    rw [if_neg hne]
    rfl
  · unfold convertToDouble
    rw [comma_back _ hc]

/-- the numeral of the text with `p` decimal places -/
def fixedNumeral (neg : Bool) (N p : Nat) : Numeral :=
  ⟨if neg then .minus else .none, dec (N / 10 ^ p), some (padded p (N % 10 ^ p)), none⟩

theorem fixedNumeral_valid (neg : Bool) (N p : Nat) : (fixedNumeral neg N p).Valid := by
  refine ⟨(dec_digits _).1, (padded_digits _ _).1, ?_, by simp [fixedNumeral]⟩
  intro h
  have h1 := (List.append_eq_nil_iff.1 h).1
  have := DoubleFmt.dec_length_pos (N / 10 ^ p)
  rw [show dec (N / 10 ^ p) = [] from h1] at this
  simp at this

theorem fixedNumeral_value (neg : Bool) (N p : Nat) : (fixedNumeral neg N p).value = (if neg then -1 else 1) * (N / 10 ^ p) := by
  have hsplit : (N : ℚ) = ((N / 10 ^ p : Nat) : ℚ) * 10 ^ p + ((N % 10 ^ p : Nat) : ℚ) := by
    have := Nat.div_add_mod N (10 ^ p)
    rw [Nat.mul_comm] at this
    exact_mod_cast this.symm
  have h1 : natVal ((fixedNumeral neg N p).whole ++ (fixedNumeral neg N p).fracDigits) = N := by
    show natVal (dec (N / 10 ^ p) ++ padded p (N % 10 ^ p)) = N
    rw [natVal_append, (dec_digits _).2, (padded_digits _ _).2, DoubleFmt.padded_length, Nat.mod_mod, Nat.mul_comm]
    exact Nat.div_add_mod _ _
  have h2 : ((fixedNumeral neg N p).fracDigits.length : ℤ) = p := by
    show (((padded p (N % 10 ^ p)).length : Nat) : ℤ) = p
    rw [DoubleFmt.padded_length]
  unfold Numeral.value
  rw [h1, h2]
  show (((if neg then Sign.minus else Sign.none).fac : ℤ) : ℚ) * N * (10 : ℚ) ^ ((0 : ℤ) - p) = _
  rw [zero_sub, zpow_neg, zpow_natCast]
  cases neg <;> simp [Sign.fac, Sign.neg] <;> ring

theorem digits_no_point {l : List Ch} (h : ∀ c ∈ l, isDigit c = true) : comma l = l := by
  unfold comma
  conv_rhs => rw [← List.map_id l]
  refine List.map_congr_left (fun c hc => ?_)
  rw [if_neg (digit_ne (h c hc)).2.2.2.1]
  rfl

theorem comma_append (a b : List Ch) : comma (a ++ b) = comma a ++ comma b := List.map_append

theorem fixedNumeral_text (neg : Bool) (N p : Nat) : comma (fixedNumeral neg N p).text = DoubleFmt.Spec.fixedText neg N p := by
  unfold Numeral.text DoubleFmt.Spec.fixedText
  show comma ((if neg then Sign.minus else Sign.none).text ++ dec (N / 10 ^ p) ++ (0x2e :: padded p (N % 10 ^ p)) ++ []) = _
  rw [List.append_nil, comma_append, comma_append, digits_no_point (dec_digits _).1]
  have e : comma (0x2e :: padded p (N % 10 ^ p)) = [0x2c] ++ padded p (N % 10 ^ p) := by
    show _ :: comma (padded p (N % 10 ^ p)) = _
    rw [digits_no_point (padded_digits _ _).1]
    rfl
  rw [e]
  cases neg <;> simp [Sign.text, comma, DoubleFmt.Spec.sign]

theorem shortNumeral_text (neg : Bool) (N p : Nat) :
    comma (decimal (if neg then .minus else .none) N p none).text = DoubleFmt.Spec.shortText neg N p := by
  rw [decimal_text, comma_append]
  unfold plain DoubleFmt.Spec.shortText
  rw [comma_append, digits_no_point (dec_digits _).1, ← List.append_assoc]
  congr 1
  · cases neg <;> simp [Sign.text, comma, DoubleFmt.Spec.sign]
  · by_cases h : N % 10 ^ p = 0
    · rw [if_pos h, if_pos h]; rfl
    · rw [if_neg h, if_neg h]
      show _ :: comma ((padded p (N % 10 ^ p)).rdropWhile (· = 0x30)) = _
      rw [digits_no_point]
      · rfl
      · intro c hc
        obtain ⟨k, hk⟩ := strip_digits (padded p (N % 10 ^ p))
        refine (padded_digits p (N % 10 ^ p)).1 c ?_
        rw [hk]
        exact List.mem_append_left _ hc

theorem shortNumeral_value (neg : Bool) (N p : Nat) :
    (decimal (if neg then .minus else .none) N p none).value = (if neg then -1 else 1) * (N / 10 ^ p) := by
  rw [decimal_value]
  show _ * (10 : ℚ) ^ (0 : ℤ) = _
  cases neg <;> simp [Sign.fac, Sign.neg]

/-- reading what was written with `p` decimal places -/
theorem convert_close {x : F64} (hx : Finite x) (hs : 0 ≤ val x ∨ val x ≤ -(1000001 / 10 ^ 12)) {p N : Nat} {neg : Bool}
    (hr : DoubleFmt.Spec.Rendered x p neg N) (n : Numeral) (hv : n.Valid) (hval : n.value = (if neg then -1 else 1) * (N / 10 ^ p)) :
    Finite (toDouble n.text) ∧ |val (toDouble n.text) - val x| ≤ (26 / 25) / 10 ^ p := by
  obtain ⟨-, -, c3, c4⟩ := convert_nearest n hv
  refine ⟨c3, ?_⟩
  have h4 := (c4 x hx).1
  rw [hval] at h4
  generalize val (toDouble n.text) = r at *
  have hp0 : (0 : ℚ) < 10 ^ p := by positivity
  have hclose : |(N : ℚ) / 10 ^ p - (|val x|)| ≤ (13 / 25) / 10 ^ p := by
    have := hr.close
    have e : (N : ℚ) / 10 ^ p - (|val x|) = ((N : ℚ) - 10 ^ p * (|val x|)) / 10 ^ p := by field_simp
    rw [e, abs_div, abs_of_pos hp0]
    refine div_le_div_of_nonneg_right (this.trans (by norm_num)) hp0.le
  have hd : |val x - (if neg = true then -1 else 1) * ((N : ℚ) / 10 ^ p)| ≤ (13 / 25) / 10 ^ p := by
    cases neg with
    | true =>
      have := hr.sign rfl
      rw [abs_of_neg this] at hclose
      simp only [if_true, neg_mul, one_mul, sub_neg_eq_add]
      rw [show val x + (N : ℚ) / 10 ^ p = (N : ℚ) / 10 ^ p - -val x by ring]
      exact hclose
    | false =>
      have h0 : 0 ≤ val x := by
        rcases hs with h | h
        · exact h
        · exact absurd (hr.signed h) (by simp)
      rw [abs_of_nonneg h0] at hclose
      simp only [Bool.false_eq_true, if_false, one_mul]
      rw [abs_sub_comm]
      exact hclose
  have h6 := abs_sub_le r ((if neg = true then -1 else 1) * ((N : ℚ) / 10 ^ p)) (val x)
  have h7 := abs_sub_comm (val x) ((if neg = true then -1 else 1) * ((N : ℚ) / 10 ^ p))
  have e : (26 / 25 : ℚ) / 10 ^ p = 2 * ((13 / 25) / 10 ^ p) := by ring
  rw [e]
  linarith

/-- Numbers written by `valueOf(x, p, trunc)` (C94) and read by `ConvertToDouble`: the result differs from `x` by at
most 1.04 units of the last place written. -/
theorem convert_fixed_partial (x : F64) (hx : Finite x) (hb : |val x| < 2 ^ 63) (hs : 0 ≤ val x ∨ val x ≤ -(1000001 / 10 ^ 12))
    (p : Nat) (h1 : 1 ≤ p) (hp : p ≤ 14) (trunc : Bool) : ∃ l, DoubleFmt.valueOf x p trunc = .ok l ∧
    Finite (convertToDouble l) ∧ |val (convertToDouble l) - val x| ≤ (26 / 25) / 10 ^ p := by
  cases trunc with
  | false =>
    obtain ⟨neg, N, he, hr⟩ := DoubleFmt.valueOf_fixed_partial x hx hb p h1 hp
    refine ⟨_, he, ?_⟩
    have hv := fixedNumeral_valid neg N p
    have c2 := (convert_nearest _ hv).2.1
    rw [fixedNumeral_text] at c2
    rw [c2]
    exact convert_close hx hs hr _ hv (fixedNumeral_value neg N p)
  | true =>
    obtain ⟨neg, N, he, hr⟩ := DoubleFmt.valueOf_short_partial x hx hb p hp
    refine ⟨_, he, ?_⟩
    have hv := decimal_valid (if neg then .minus else .none) N p none (by simp)
    have c2 := (convert_nearest _ hv).2.1
    rw [shortNumeral_text] at c2
    rw [c2]
    exact convert_close hx hs hr _ hv (shortNumeral_value neg N p)

/-- A number `±M / 10^p` (up to 2^51 units of its last place, not between -0.0000011 and 0) is written with exactly these
digits, and `ConvertToDouble` gives the same double again. -/
theorem convert_returns_partial (x : F64) (neg : Bool) (M p : Nat) (h1 : 1 ≤ p) (hp : p ≤ 14) (hM0 : 0 < M) (hM : M ≤ 2 ^ 51)
    (hr : Rounds x ((if neg then -1 else 1) * (M / 10 ^ p))) (hneg : neg = true → (11 / 10 ^ 7 : ℚ) ≤ M / 10 ^ p) :
    DoubleFmt.valueOf x p false = .ok (DoubleFmt.Spec.fixedText neg M p) ∧
    DoubleFmt.valueOf x p true = .ok (DoubleFmt.Spec.shortText neg M p) ∧
    convertToDouble (DoubleFmt.Spec.fixedText neg M p) = x ∧ convertToDouble (DoubleFmt.Spec.shortText neg M p) = x := by
  have hMq : (1 : ℚ) ≤ M := by exact_mod_cast hM0
  have hMq' : (M : ℚ) ≤ 2 ^ 51 := by exact_mod_cast hM
  have hp0 : (0 : ℚ) < 10 ^ p := by positivity
  have hp1 : (10 : ℚ) ^ p ≤ 10 ^ 14 := pow_le_pow_right₀ (by norm_num) hp
  have hp2 : (10 : ℚ) ≤ 10 ^ p := by
    calc (10 : ℚ) = 10 ^ 1 := by norm_num
      _ ≤ 10 ^ p := pow_le_pow_right₀ (by norm_num) h1
  have hq0 : (0 : ℚ) < M / 10 ^ p := by positivity
  have habs : |(if neg then -1 else 1) * (M / 10 ^ p : ℚ)| = M / 10 ^ p := by
    rw [abs_mul, abs_of_pos hq0]; cases neg <;> simp
  have hL : (2 : ℚ) ^ (-47 : ℤ) ≤ |(if neg then -1 else 1) * (M / 10 ^ p : ℚ)| := by
    rw [habs]
    calc (2 : ℚ) ^ (-47 : ℤ) ≤ 1 / 10 ^ 14 := by norm_num
      _ ≤ M / 10 ^ p := by rw [div_le_div_iff₀ (by norm_num) hp0]; nlinarith
  have hU : |(if neg then -1 else 1) * (M / 10 ^ p : ℚ)| ≤ (2 : ℚ) ^ (51 : ℤ) := by
    rw [habs, div_le_iff₀ hp0]
    have : (2 : ℚ) ^ (51 : ℤ) = 2 ^ 51 := by norm_num
    rw [this]
    linarith
  have hn : Normal ((if neg then -1 else 1) * (M / 10 ^ p)) :=
    ⟨le_trans (zpow_le_zpow_right₀ (by norm_num) (by omega)) hL, le_trans hU (zpow_le_zpow_right₀ (by norm_num) (by omega))⟩
  obtain ⟨hx, he⟩ := normal_rel hr hn
  rw [habs] at he
  -- absolute value and sign
  have hxa : |(|val x|) - M / 10 ^ p| ≤ M / 10 ^ p / 2 ^ 53 := by
    have h2 := abs_abs_sub_abs_le (val x) ((if neg then -1 else 1) * (M / 10 ^ p : ℚ))
    rw [habs] at h2
    exact h2.trans he
  have hsign : (neg = true → val x < 0) ∧ (neg = false → 0 < val x) := by
    have h2 := abs_le.1 he
    constructor
    · intro h; subst h
      simp only [if_true, neg_mul, one_mul] at h2
      linarith [h2.2]
    · intro h; subst h
      simp only [Bool.false_eq_true, if_false, one_mul] at h2
      linarith [h2.1]
  have hlo : M / 10 ^ p - M / 10 ^ p / 2 ^ 53 ≤ |val x| := by linarith [(abs_le.1 hxa).1]
  have hhi : |val x| ≤ M / 10 ^ p + M / 10 ^ p / 2 ^ 53 := by linarith [(abs_le.1 hxa).2]
  have hb : |val x| < 2 ^ 63 := by
    have : (M : ℚ) / 10 ^ p ≤ 2 ^ 51 := by rw [div_le_iff₀ hp0]; linarith
    have hc : (2 : ℚ) ^ 51 + 2 ^ 51 / 2 ^ 53 < 2 ^ 63 := by norm_num
    have : (M : ℚ) / 10 ^ p / 2 ^ 53 ≤ 2 ^ 51 / 2 ^ 53 := div_le_div_of_nonneg_right this (by positivity)
    linarith
  have hs : 0 ≤ val x ∨ val x ≤ -(1000001 / 10 ^ 12) := by
    cases hneg' : neg with
    | false => exact Or.inl (hsign.2 hneg').le
    | true =>
      right
      have h2 := hneg hneg'
      have h3 := hsign.1 hneg'
      rw [abs_of_neg h3] at hlo
      linarith
  have key : ∀ ng N, DoubleFmt.Spec.Rendered x p ng N → ng = neg ∧ N = M := by
    intro ng N h
    refine ⟨?_, ?_⟩
    · cases ng <;> cases hneg' : neg
      · rfl
      · exfalso
        have h3 := hsign.1 hneg'
        rcases hs with h4 | h4
        · linarith
        · exact absurd (h.signed h4) (by simp)
      · exfalso
        have h3 := hsign.2 hneg'
        linarith [h.sign rfl]
      · rfl
    · have hc := abs_le.1 h.close
      have e1 : (10 : ℚ) ^ p * (|val x|) ≤ M + M / 2 ^ 53 := by
        have := mul_le_mul_of_nonneg_left hhi hp0.le
        have e : (10 : ℚ) ^ p * (M / 10 ^ p + M / 10 ^ p / 2 ^ 53) = M + M / 2 ^ 53 := by field_simp
        linarith
      have e2 : M - M / 2 ^ 53 ≤ (10 : ℚ) ^ p * (|val x|) := by
        have := mul_le_mul_of_nonneg_left hlo hp0.le
        have e : (10 : ℚ) ^ p * (M / 10 ^ p - M / 10 ^ p / 2 ^ 53) = M - M / 2 ^ 53 := by field_simp
        linarith
      have e3 : (M : ℚ) / 2 ^ 53 ≤ 1 / 4 := by
        rw [div_le_div_iff₀ (by positivity) (by norm_num)]
        linarith
      have a : (N : ℚ) < M + 1 := by linarith [hc.2]
      have b : (M : ℚ) < N + 1 := by linarith [hc.1]
      have a' : N < M + 1 := by exact_mod_cast a
      have b' : M < N + 1 := by exact_mod_cast b
      omega
  have back : ∀ n : Numeral, n.Valid → n.value = (if neg then -1 else 1) * (M / 10 ^ p) → toDouble n.text = x := by
    intro n hv hval
    rw [toDouble_text n hv]
    rw [value_exact] at hval
    exact strtod_eq hx (by rw [hval]; exact hr) (by rw [hval]; exact hn)
  refine ⟨?_, ?_, ?_, ?_⟩
  · obtain ⟨ng, N, e, h⟩ := DoubleFmt.valueOf_fixed_partial x hx hb p h1 hp
    obtain ⟨rfl, rfl⟩ := key _ _ h
    exact e
  · obtain ⟨ng, N, e, h⟩ := DoubleFmt.valueOf_short_partial x hx hb p hp
    obtain ⟨rfl, rfl⟩ := key _ _ h
    exact e
  · have hv := fixedNumeral_valid neg M p
    have c2 := (convert_nearest _ hv).2.1
    rw [fixedNumeral_text] at c2
    rw [c2]
    exact back _ hv (fixedNumeral_value neg M p)
  · have hv := decimal_valid (if neg then .minus else .none) M p none (by simp)
    have c2 := (convert_nearest _ hv).2.1
    rw [shortNumeral_text] at c2
    rw [c2]
    exact back _ hv (shortNumeral_value neg M p)

/-! ### C95: what does not hold -/

/-- Not every double survives: one third is written with ten digits and comes back as another number. -/
theorem third_changed : valueOf (lit 1 3) = txt "0.3333333333" ∧ toDouble (valueOf (lit 1 3)) ≠ lit 1 3 := by decide +kernel

/-- The documentation gives "24.0" as an example of a result; the result is "24". -/
theorem no_point_zero : valueOf (lit 24 1) = txt "24" ∧ valueOf (lit 1223 100) = txt "12.23" := by decide +kernel

/-- Infinities and NaN are written as words that are read as 0. -/
theorem special_lost : valueOf (mk false infBits) = txt "inf" ∧ valueOf (mk true infBits) = txt "-inf" ∧ valueOf .nan = txt "nan" ∧
    toDouble (txt "inf") = Fp.zero ∧ toDouble (txt "-inf") = Fp.zero ∧ toDouble (txt "nan") = Fp.zero := by decide +kernel

/-- A number with a broken exponent is read as 0, too large numbers as the largest double, and what follows a number is ignored. -/
theorem odd_texts : toDouble (txt "12e") = Fp.zero ∧ toDouble (txt "12e+x") = Fp.zero ∧ toDouble (txt "1e999") = largest ∧
    toDouble (txt "12abc") = lit 12 1 ∧ toDouble (txt "1.2.3") = lit 12 10 ∧ toDouble (txt "3,5") = lit 3 1 ∧
    convertToDouble (txt "3,5") = lit 35 10 ∧ convertToDouble (txt "1.234,5") = lit 1234 1000 := by decide +kernel

/-! ### the hypotheses are met -/

example : Numeral.Valid ⟨.minus, txt "12", some (txt "50"), some (true, .plus, txt "3")⟩ := by
  refine ⟨?_, ?_, by decide, ?_⟩
  · intro c hc; exact List.all_eq_true.1 (by decide : (txt "12").all isDigit = true) c hc
  · intro c hc; exact List.all_eq_true.1 (by decide : (txt "50").all isDigit = true) c hc
  · intro e he
    simp only [Option.some.injEq] at he
    subst he
    exact ⟨by decide, fun c hc => List.all_eq_true.1 (by decide : (txt "3").all isDigit = true) c hc⟩
example : Numeral.text ⟨.minus, txt "12", some (txt "50"), some (true, .plus, txt "3")⟩ = txt "-12.50E+3" := by decide
example : Numeral.value ⟨.minus, txt "12", some (txt "50"), some (true, .plus, txt "3")⟩ = -12500 := by
  have h1 : natVal (txt "12" ++ txt "50") = 1250 := by decide
  have h2 : natVal (txt "3") = 3 := by decide
  have h3 : ((txt "50").length : ℤ) = 2 := by decide
  simp only [Numeral.value, Numeral.fracDigits, Option.getD_some, Numeral.exponent, expoVal, Sign.fac, Sign.neg, h1, h2, h3]
  norm_num
example : Finite (lit 1 3) ∧ Finite (lit (-1) 30000000) := by decide +kernel
example : Ten (1 / 10) ∧ (1 / 10 ^ 4 : ℚ) ≤ 1 / 10 := ⟨⟨1, -1, by decide, by norm_num⟩, by norm_num⟩
example : valueOf (lit (-1) 30000000) = txt "-3.333333333e-08" ∧ toDouble (txt " -3.333333333e-08 m") = lit (-3333333333) (10 ^ 17) := by decide +kernel

example : Rounds (lit (-1999) 100) ((if true then -1 else 1) * ((1999 : Nat) / 10 ^ 2)) ∧ (11 / 10 ^ 7 : ℚ) ≤ (1999 : Nat) / 10 ^ 2 := by
  refine ⟨?_, by norm_num⟩
  have h := lit_rounds (-1999) 100 (by omega)
  have e : ((if true then -1 else 1) * (((1999 : Nat) : ℚ) / 10 ^ 2)) = ((-1999 : Int) : ℚ) / ((100 : Nat) : ℚ) := by norm_num
  rw [e]
  exact h
example : Normal (1 / 10) :=
  ⟨le_trans (zpow_le_zpow_right₀ (by norm_num) (by omega : (-1022 : ℤ) ≤ -4)) (by norm_num),
    le_trans (by norm_num : |(1 / 10 : ℚ)| ≤ 2 ^ (0 : ℤ)) (zpow_le_zpow_right₀ (by norm_num) (by omega))⟩

end Verif.DoubleText
