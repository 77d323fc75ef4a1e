import Verif.DoubleText.Lemmas
import Verif.DoubleFmt.Lemmas
/-
Texts: which numbers the printed texts denote, and how texts are read.
-/
namespace Verif.DoubleText
open Verif Verif.Str Verif.Fp Verif.DoubleText.Spec
open Verif.Num.Props (natVal natVal_append digitVal)
open Verif.DateFmt.Spec (dec padded)

/-! ### reading -/

theorem span_digits {a t : List Ch} (ha : ∀ c ∈ a, isDigit c = true) (ht : ∀ c, t.head? = some c → isDigit c = false) :
    (a ++ t).takeWhile isDigit = a ∧ (a ++ t).dropWhile isDigit = t := by
  induction a with
  | nil =>
    cases t with
    | nil => exact ⟨rfl, rfl⟩
    | cons c t =>
      have := ht c rfl
      exact ⟨by rw [List.nil_append, List.takeWhile_cons_of_neg (by simp [this])],
        by rw [List.nil_append, List.dropWhile_cons_of_neg (by simp [this])]⟩
  | cons c a ih =>
    obtain ⟨h1, h2⟩ := ih (fun d hd => ha d (List.mem_cons_of_mem _ hd))
    have := ha c List.mem_cons_self
    rw [List.cons_append, List.takeWhile_cons_of_pos this, List.dropWhile_cons_of_pos this, h1, h2]
    exact ⟨rfl, rfl⟩

theorem skip_spaces {ws t : List Ch} (hw : ∀ c ∈ ws, isSpace c = true) (ht : ∀ c, t.head? = some c → isSpace c = false) :
    (ws ++ t).dropWhile isSpace = t := by
  induction ws with
  | nil =>
    cases t with
    | nil => rfl
    | cons c t => rw [List.nil_append, List.dropWhile_cons_of_neg (by simp [ht c rfl])]
  | cons c a ih =>
    rw [List.cons_append, List.dropWhile_cons_of_pos (hw c List.mem_cons_self)]
    exact ih (fun d hd => hw d (List.mem_cons_of_mem _ hd))

theorem take_sign (s : Sign) (t : List Ch) (ht : ∀ c, t.head? = some c → c ≠ 0x2d ∧ c ≠ 0x2b) :
    takeSign (s.text ++ t) = (s.neg, t) := by
  cases s with
  | none =>
    cases t with
    | nil => rfl
    | cons c t =>
      obtain ⟨h1, h2⟩ := ht c rfl
      show takeSign (c :: t) = _
      simp only [takeSign, if_neg h1, if_neg h2]
      rfl
  | plus => rfl
  | minus => rfl

/-- characters of numbers -/
theorem digit_ne {c : Ch} (h : isDigit c = true) : isSpace c = false ∧ c ≠ 0x2d ∧ c ≠ 0x2b ∧ c ≠ 0x2e ∧ c ≠ 0x65 ∧ c ≠ 0x45 := by
  have h1 : 0x30 ≤ c.toNat ∧ c.toNat ≤ 0x39 := by simpa [isDigit] using h
  have key : ∀ d : Ch, (d.toNat < 0x30 ∨ 0x39 < d.toNat) → c ≠ d := by
    intro d hd e; subst e; omega
  refine ⟨?_, key _ (by decide), key _ (by decide), key _ (by decide), key _ (by decide), key _ (by decide)⟩
  simp only [isSpace, Bool.or_eq_false_iff, beq_eq_false_iff_ne, ne_eq, decide_eq_false_iff_not]
  exact ⟨key _ (by decide), by omega⟩

theorem frac_text (f : Option (List Ch)) (t : List Ch) (hf : ∀ c ∈ f.getD [], isDigit c = true)
    (ht : ∀ c, t.head? = some c → isDigit c = false ∧ (f = none → c ≠ 0x2e)) :
    takeFrac (fracText f ++ t) = (f.getD [], t) := by
  cases f with
  | none =>
    cases t with
    | nil => rfl
    | cons c t =>
      show takeFrac (c :: t) = _
      simp only [takeFrac]
      rw [if_neg ((ht c rfl).2 rfl)]
      rfl
  | some f =>
    show takeFrac (0x2e :: (f ++ t)) = _
    obtain ⟨h1, h2⟩ := span_digits hf (fun c hc => (ht c hc).1)
    simp only [takeFrac]
    rw [if_pos trivial]
    simp only [Option.getD_some] at h1 h2 ⊢
    rw [h1, h2]

theorem exp_text (e : Option (Bool × Sign × List Ch)) (t : List Ch)
    (he : ∀ x, e = some x → x.2.2 ≠ [] ∧ ∀ c ∈ x.2.2, isDigit c = true)
    (ht : ∀ c, t.head? = some c → isDigit c = false ∧ (e = none → c ≠ 0x65 ∧ c ≠ 0x45)) :
    takeExp (expoText e ++ t) = some (expoVal e) := by
  cases e with
  | none =>
    cases t with
    | nil => rfl
    | cons c t =>
      have := (ht c rfl).2 rfl
      show takeExp (c :: t) = _
      simp only [takeExp]
      rw [if_neg (by rintro (h | h); exacts [this.1 h, this.2 h])]
      rfl
  | some x =>
    obtain ⟨up, s, ds⟩ := x
    obtain ⟨h0, hd⟩ := he _ rfl
    simp only at h0 hd ⊢
    have hsign : takeSign (s.text ++ (ds ++ t)) = (s.neg, ds ++ t) := by
      refine take_sign s _ (fun c hc => ?_)
      cases ds with
      | nil => exact absurd rfl h0
      | cons d ds =>
        have : d = c := by simpa using hc
        subst this
        have := digit_ne (hd d List.mem_cons_self)
        exact ⟨this.2.1, this.2.2.1⟩
    obtain ⟨h1, -⟩ := span_digits hd (fun c hc => (ht c hc).1)
    show takeExp ((if up then 0x45 else 0x65) :: ((s.text ++ ds) ++ t)) = _
    rw [List.append_assoc]
    have hup : (if up = true then (0x45 : Ch) else 0x65) = 0x65 ∨ (if up = true then (0x45 : Ch) else 0x65) = 0x45 := by
      cases up <;> simp
    simp only [takeExp]
    rw [if_pos hup, hsign]
    simp only [h1]
    rw [if_neg h0]
    congr 1
    simp only [expoVal]
    unfold Sign.fac
    cases s.neg <;> simp

/-- reading a number that is followed by something that does not belong to it -/
theorem scan_numeral (ws : List Ch) (n : Numeral) (rest : List Ch) (hw : ∀ c ∈ ws, isSpace c = true) (hv : n.Valid)
    (hr : ∀ c, rest.head? = some c → ¬ n.Continues c) :
    scan (ws ++ n.text ++ rest) =
      strtod n.sign.neg (natVal (n.whole ++ n.fracDigits)) (n.exponent - n.fracDigits.length) := by
  obtain ⟨s, whole, frac, exp⟩ := n
  obtain ⟨h1, h2, h3, h4⟩ := hv
  simp only [Numeral.fracDigits, Numeral.Continues, Numeral.text, Numeral.exponent] at *
  -- the pieces
  generalize hE : expoText exp = E
  generalize hF : fracText frac = F
  have r1 : ∀ c, rest.head? = some c → isDigit c = false := by
    intro c hc
    have := hr c hc
    simp only [not_or] at this
    simpa using this.1
  have rE : takeExp (E ++ rest) = some (expoVal exp) := by
    rw [← hE]
    refine exp_text exp rest h4 (fun c hc => ⟨r1 c hc, fun he => ?_⟩)
    have := hr c hc
    simp only [not_or, not_and] at this
    exact ⟨fun h => this.2.2 (Or.inl h) he, fun h => this.2.2 (Or.inr h) he⟩
  -- what follows the digits behind the point
  have hE1 : ∀ c, (E ++ rest).head? = some c → isDigit c = false ∧ (frac = none → c ≠ 0x2e) := by
    intro c hc
    cases exp with
    | none =>
      simp only [expoText] at hE
      subst hE
      refine ⟨r1 c hc, fun hf h => ?_⟩
      exact hr c hc (Or.inr (Or.inl ⟨h, hf, rfl⟩))
    | some e =>
      simp only [expoText] at hE
      subst hE
      have hce : c = if e.1 then 0x45 else 0x65 := by simpa using hc.symm
      rw [hce]
      cases e.1 <;> exact ⟨by decide, fun _ => by decide⟩
  have rF : takeFrac (F ++ (E ++ rest)) = (frac.getD [], E ++ rest) := by
    rw [← hF]; exact frac_text frac _ h2 hE1
  have hF1 : ∀ c, (F ++ (E ++ rest)).head? = some c → isDigit c = false := by
    intro c hc
    cases frac with
    | none =>
      simp only [fracText] at hF
      subst hF
      exact (hE1 c hc).1
    | some f =>
      simp only [fracText] at hF
      subst hF
      have : c = 0x2e := by simpa using hc.symm
      rw [this]; decide
  obtain ⟨w1, w2⟩ := span_digits h1 hF1
  -- the first character
  have hfirst : ∀ c, (whole ++ (F ++ (E ++ rest))).head? = some c → isSpace c = false ∧ c ≠ 0x2d ∧ c ≠ 0x2b := by
    intro c hc
    cases whole with
    | cons d ds =>
      have : d = c := by simpa using hc
      subst this
      have := digit_ne (h1 d List.mem_cons_self)
      exact ⟨this.1, this.2.1, this.2.2.1⟩
    | nil =>
      cases frac with
      | none => exact absurd rfl h3
      | some f =>
        simp only [fracText] at hF
        subst hF
        have : c = 0x2e := by simpa using hc.symm
        rw [this]; decide
  have rS := take_sign s _ (fun c hc => (hfirst c hc).2)
  have rW : (ws ++ (s.text ++ whole ++ F ++ E) ++ rest).dropWhile isSpace = s.text ++ (whole ++ (F ++ (E ++ rest))) := by
    have e1 : ws ++ (s.text ++ whole ++ F ++ E) ++ rest = ws ++ (s.text ++ (whole ++ (F ++ (E ++ rest)))) := by
      simp only [List.append_assoc]
    rw [e1]
    refine skip_spaces hw (fun c hc => ?_)
    cases s with
    | none => exact (hfirst c hc).1
    | plus => have : c = 0x2b := by simpa [Sign.text] using hc.symm
              rw [this]; decide
    | minus => have : c = 0x2d := by simpa [Sign.text] using hc.symm
               rw [this]; decide
  simp only [scan, rW, rS, w1, w2, rF, rE]
  rw [if_neg h3]

/-! ### digits -/

theorem digitCh' {d : Nat} (h : d < 10) : isDigit (BitVec.ofNat 16 (48 + d)) = true ∧ natVal [BitVec.ofNat 16 (48 + d)] = d := by
  have : (BitVec.ofNat 16 (48 + d)).toNat = 48 + d := by rw [BitVec.toNat_ofNat]; omega
  refine ⟨?_, ?_⟩
  · simp only [isDigit, this, decide_eq_true_eq]; omega
  · show 10 * 0 + digitVal _ = d
    simp only [digitVal, this]; omega

theorem dec_digits (n : Nat) : (∀ c ∈ dec n, isDigit c = true) ∧ natVal (dec n) = n := by
  induction n using Nat.strongRecOn with
  | ind n ih =>
    by_cases h : n < 10
    · rw [DateFmt.dec1 h]
      have := digitCh' h
      exact ⟨by simpa using this.1, this.2⟩
    · rw [DateFmt.dec2 (by omega)]
      obtain ⟨i1, i2⟩ := ih (n / 10) (by omega)
      have := digitCh' (Nat.mod_lt n (by omega : 10 > 0))
      refine ⟨?_, ?_⟩
      · intro c hc
        rcases List.mem_append.1 hc with hc | hc
        · exact i1 c hc
        · rw [List.mem_singleton.1 hc]; exact this.1
      · rw [natVal_append, i2, this.2]
        simp only [List.length_singleton, Nat.pow_one]
        omega

theorem padded_digits (w : Nat) : ∀ n : Nat, (∀ c ∈ padded w n, isDigit c = true) ∧ natVal (padded w n) = n % 10 ^ w := by
  induction w with
  | zero => intro n; exact ⟨by simp [padded], by simp [padded, natVal, Nat.mod_one]⟩
  | succ w ih =>
    intro n
    obtain ⟨i1, i2⟩ := ih (n / 10)
    have := digitCh' (Nat.mod_lt n (by omega : 10 > 0))
    show (∀ c ∈ padded w (n / 10) ++ [BitVec.ofNat 16 (48 + n % 10)], _) ∧ natVal (padded w (n / 10) ++ [BitVec.ofNat 16 (48 + n % 10)]) = _
    refine ⟨?_, ?_⟩
    · intro c hc
      rcases List.mem_append.1 hc with hc | hc
      · exact i1 c hc
      · rw [List.mem_singleton.1 hc]; exact this.1
    · rw [natVal_append, i2, this.2, List.length_singleton, Nat.pow_one, Nat.pow_succ, Nat.mul_comm (10 ^ w), Nat.mod_mul]
      omega

theorem natVal_zeros (k : Nat) : natVal (List.replicate k (0x30 : Ch)) = 0 := by
  induction k with
  | zero => rfl
  | succ k ih =>
    rw [List.replicate_succ', natVal_append, ih]
    simp [natVal, digitVal]

/-- leaving out zeros at the end -/
theorem strip_digits (l : List Ch) : ∃ k, l = l.rdropWhile (· = 0x30) ++ List.replicate k 0x30 := by
  refine ⟨(l.rtakeWhile (· = 0x30)).length, ?_⟩
  have h1 := List.rdropWhile_append_rtakeWhile (p := fun c : Ch => decide (c = 0x30)) (l := l)
  have h2 : l.rtakeWhile (· = 0x30) = List.replicate (l.rtakeWhile (· = 0x30)).length 0x30 := by
    refine List.eq_replicate_iff.2 ⟨rfl, fun c hc => ?_⟩
    simpa using List.mem_rtakeWhile_imp hc
  rw [← h2]
  exact h1.symm

/-- the numeral of `M / 10^p` -/
def decimal (s : Sign) (M p : Nat) (e : Option (Bool × Sign × List Ch)) : Numeral :=
  ⟨s, dec (M / 10 ^ p), if M % 10 ^ p = 0 then none else some ((padded p (M % 10 ^ p)).rdropWhile (· = 0x30)), e⟩

theorem decimal_digits (s : Sign) (M p : Nat) (e : Option (Bool × Sign × List Ch)) :
    (∀ c ∈ (decimal s M p e).whole, isDigit c = true) ∧ (∀ c ∈ (decimal s M p e).fracDigits, isDigit c = true) ∧
    (decimal s M p e).whole ≠ [] ∧
    (natVal ((decimal s M p e).whole ++ (decimal s M p e).fracDigits) : ℚ) * (10 : ℚ) ^ (-((decimal s M p e).fracDigits.length : ℤ)) = M / 10 ^ p := by
  obtain ⟨d1, d2⟩ := dec_digits (M / 10 ^ p)
  obtain ⟨p1, p2⟩ := padded_digits p (M % 10 ^ p)
  rw [Nat.mod_mod] at p2
  have hne : dec (M / 10 ^ p) ≠ [] := by
    intro h
    have := DoubleFmt.dec_length_pos (M / 10 ^ p)
    rw [h] at this
    simp at this
  have hsplit : (M : ℚ) = ((M / 10 ^ p : Nat) : ℚ) * 10 ^ p + ((M % 10 ^ p : Nat) : ℚ) := by
    have := Nat.div_add_mod M (10 ^ p)
    rw [Nat.mul_comm] at this
    exact_mod_cast this.symm
  refine ⟨d1, ?_, hne, ?_⟩
  · simp only [decimal, Numeral.fracDigits]
    split
    · simp
    · intro c hc
      refine p1 c ?_
      obtain ⟨k, hk⟩ := strip_digits (padded p (M % 10 ^ p))
      rw [hk]
      exact List.mem_append_left _ hc
  · simp only [decimal, Numeral.fracDigits]
    split
    · rename_i h0
      rw [h0] at hsplit
      simp only [Option.getD_none, List.append_nil, List.length_nil]
      rw [d2, hsplit]
      push_cast
      simp
    · obtain ⟨k, hk⟩ := strip_digits (padded p (M % 10 ^ p))
      have hlen := congrArg List.length hk
      have hval := congrArg natVal hk
      rw [DoubleFmt.padded_length, List.length_append, List.length_replicate] at hlen
      rw [natVal_append, natVal_zeros, List.length_replicate, p2, Nat.add_zero] at hval
      simp only [Option.getD_some]
      rw [natVal_append, d2]
      generalize (padded p (M % 10 ^ p)).rdropWhile (· = 0x30) = f at *
      generalize M / 10 ^ p = A at *
      rw [hsplit, zpow_neg, zpow_natCast, hval, hlen]
      push_cast
      rw [pow_add]
      field_simp

theorem decimal_valid (s : Sign) (M p : Nat) (e : Option (Bool × Sign × List Ch))
    (he : ∀ x, e = some x → x.2.2 ≠ [] ∧ ∀ c ∈ x.2.2, isDigit c = true) : (decimal s M p e).Valid := by
  obtain ⟨h1, h2, h3, -⟩ := decimal_digits s M p e
  exact ⟨h1, h2, fun h => h3 (List.append_eq_nil_iff.1 h).1, he⟩

theorem decimal_value (s : Sign) (M p : Nat) (e : Option (Bool × Sign × List Ch)) :
    (decimal s M p e).value = s.fac * (M / 10 ^ p) * (10 : ℚ) ^ (decimal s M p e).exponent := by
  obtain ⟨-, -, -, h⟩ := decimal_digits s M p e
  unfold Numeral.value
  rw [← h, sub_eq_add_neg, zpow_add₀ (by norm_num)]
  show (s.fac : ℚ) * _ * _ = _
  ring

theorem decimal_text (s : Sign) (M p : Nat) : (decimal s M p none).text = s.text ++ plain M p := by
  simp only [decimal, Numeral.text, plain, List.append_assoc, expoText, List.append_nil]
  split <;> rfl

/-- the exponent part -/
def expPart (X : Int) : Bool × Sign × List Ch :=
  (false, if X < 0 then .minus else .plus, if X.natAbs < 10 then 0x30 :: dec X.natAbs else dec X.natAbs)

theorem expPart_valid (X : Int) : (expPart X).2.2 ≠ [] ∧ (∀ c ∈ (expPart X).2.2, isDigit c = true) ∧
    (expPart X).2.1.fac * natVal (expPart X).2.2 = X := by
  obtain ⟨d1, d2⟩ := dec_digits X.natAbs
  have hne : dec X.natAbs ≠ [] := by
    intro h
    have := DoubleFmt.dec_length_pos X.natAbs
    rw [h] at this
    simp at this
  have hval : natVal (expPart X).2.2 = X.natAbs := by
    simp only [expPart]
    split
    · show natVal ([0x30] ++ dec X.natAbs) = _
      rw [natVal_append, d2, show natVal [(0x30 : Ch)] = 0 from rfl]
      omega
    · exact d2
  refine ⟨?_, ?_, ?_⟩
  · simp only [expPart]; split
    · simp
    · exact hne
  · simp only [expPart]; split
    · intro c hc
      rcases List.mem_cons.1 hc with hc | hc
      · rw [hc]; decide
      · exact d1 c hc
    · exact d1
  · rw [hval]
    simp only [expPart]
    split <;> simp only [Sign.fac, Sign.neg, if_true, Bool.false_eq_true, if_false] <;> omega

theorem decimal_exp_text (s : Sign) (M p : Nat) (X : Int) : (decimal s M p (some (expPart X))).text = s.text ++ (plain M p ++ expText X) := by
  have e1 : expoText (some (expPart X)) = expText X := by
    simp only [expPart, expText, expoText]
    by_cases h : X < 0
    · rw [if_pos h, if_pos h]; rfl
    · rw [if_neg h, if_neg h]; rfl
  have e2 : (decimal s M p (some (expPart X))).text = (decimal s M p none).text ++ expoText (some (expPart X)) := by
    simp only [decimal, Numeral.text, List.append_nil, List.append_assoc, expoText]
  rw [e2, e1, decimal_text, List.append_assoc]

/-- the printed text denotes the ten digits -/
theorem general_numeral (s : Sign) (M : Nat) (X : Int) : ∃ n : Numeral, n.Valid ∧ n.text = s.text ++ general M X ∧
    n.sign = s ∧ n.value = s.fac * (M * (10 : ℚ) ^ (X - 9)) := by
  unfold general
  split
  · rename_i h
    refine ⟨decimal s M (9 - X).toNat none, decimal_valid _ _ _ _ (by simp), decimal_text _ _ _, rfl, ?_⟩
    rw [decimal_value]
    show (s.fac : ℚ) * _ * (10 : ℚ) ^ (0 : ℤ) = _
    rw [zpow_zero, mul_one]
    congr 1
    rw [← zpow_natCast, Int.toNat_of_nonneg (by omega), div_eq_mul_inv, ← zpow_neg]
    congr 2
    ring
  · obtain ⟨e1, e2, e3⟩ := expPart_valid X
    refine ⟨decimal s M 9 (some (expPart X)), decimal_valid _ _ _ _ ?_, decimal_exp_text _ _ _ _, rfl, ?_⟩
    · intro x hx
      simp only [Option.some.injEq] at hx
      subst hx
      exact ⟨e1, e2⟩
    · rw [decimal_value]
      have : (decimal s M 9 (some (expPart X))).exponent = X := e3
      rw [this, zpow_sub₀ (by norm_num)]
      have : (10 : ℚ) ^ (9 : ℤ) = 10 ^ 9 := by norm_num
      rw [this]
      ring

end Verif.DoubleText
