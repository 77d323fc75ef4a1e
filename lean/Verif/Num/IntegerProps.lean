import Verif.Num.Integer
import Verif.Num.Props
/-
C32 (hexadecimal), C33 (Roman numerals), C34 (alphabetic numbering).
-/
namespace Verif.Num.IntegerProps
open Verif Verif.Str Verif.Num

/-! ### C32 -/

/-- The hexadecimal digit 0-9, A-F of a value below 16. -/
def digitChar (d : Nat) : Ch := BitVec.ofNat 16 (if d < 10 then 0x30 + d else 0x41 + (d - 10))

/-- The number a text of hexadecimal digits (either case) denotes. -/
def hexValue (l : List Ch) : Nat := l.foldl (fun v c => v * 16 + hexDigit c) 0

theorem hexDigit_lt (c : Ch) : hexDigit c < 16 := by
  unfold hexDigit
  split
  · next h => simp [isDigit] at h; omega
  · split
    · omega
    · split <;> omega

theorem gMask_get (d : Nat) (h : d < 16) : rd gMask d = .ok (digitChar d) := by
  have : ∀ d < 16, rd gMask d = .ok (digitChar d) := by decide
  exact this d h

theorem hexDigit_digitChar (d : Nat) (h : d < 16) : hexDigit (digitChar d) = d := by
  have : ∀ d < 16, hexDigit (digitChar d) = d := by decide
  exact this d h

theorem hexLoop_spec (n : Nat) (ret : List Ch) : ∃ l, hexLoop n ret = .ok (ret ++ l) ∧
    l.foldr (fun c v => v * 16 + hexDigit c) 0 = n ∧ (∀ c ∈ l, ∃ d < 16, c = digitChar d) ∧ (0 < n → l ≠ []) ∧
    (∀ c, l.getLast? = some c → c ≠ 0x30) := by
  induction n using Nat.strongRecOn generalizing ret with
  | ind n ih =>
    rw [hexLoop]
    by_cases h : n > 0
    · rw [if_pos h, gMask_get _ (by omega)]
      simp only [bind, Except.bind]
      obtain ⟨l, h1, h2, h3, h4, h5⟩ := ih (n / 16) (by omega) (ret ++ [digitChar (n % 16)])
      refine ⟨digitChar (n % 16) :: l, ?_, ?_, ?_, ?_, ?_⟩
      · rw [h1]; simp
      · rw [List.foldr_cons, h2, hexDigit_digitChar _ (by omega)]; omega
      · intro c hc
        rcases List.mem_cons.mp hc with rfl | hc
        · exact ⟨n % 16, by omega, rfl⟩
        · exact h3 c hc
      · simp
      · intro c hc
        cases l with
        | nil =>
          simp at hc
          subst hc
          simp at h2
          intro e
          have := congrArg hexDigit e
          rw [hexDigit_digitChar _ (by omega)] at this
          have h0 : hexDigit 0x30 = 0 := by decide
          rw [h0] at this
          omega
        | cons a l => simp at hc; exact h5 c (by simpa using hc)
    · rw [if_neg h]
      exact ⟨[], by simp, by simp; omega, by simp, by omega, by simp⟩

/-- **C32** For every nonnegative 64-bit number `toHexString` is its hexadecimal numeral: digits 0-9 and
A-F, no leading zero, and the numeral denotes the number. -/
theorem toHexString_spec (n : Int) (h0 : 0 ≤ n) : ∃ l, toHexString n = .ok l ∧ (hexValue l : Int) = n ∧ l ≠ [] ∧
    (∀ c ∈ l, ∃ d < 16, c = digitChar d) ∧ (l.head? = some 0x30 → n = 0) := by
  unfold toHexString
  by_cases h : n = 0
  · subst h
    refine ⟨[0x30], by simp [pure, Except.pure], by decide, by simp, ?_, by simp⟩
    intro c hc
    simp at hc
    exact ⟨0, by decide, hc⟩
  · obtain ⟨l, h1, h2, h3, h4, h5⟩ := hexLoop_spec n.toNat []
    refine ⟨l.reverse, ?_, ?_, ?_, ?_, ?_⟩
    · rw [if_neg h, h1]; simp [bind, Except.bind, pure, Except.pure]
    · rw [hexValue, List.foldl_reverse, h2]; omega
    · simpa using h4 (by omega)
    · intro c hc; exact h3 c (by simpa using hc)
    · intro hh
      rw [List.head?_reverse] at hh
      exact absurd rfl (h5 _ hh)

theorem fromHexLoop_val (l : List Ch) (r : BitVec 64) (v : Nat) (hr : r.toNat = v % 2 ^ 64) :
    (fromHexLoop l r).toNat = (l.foldl (fun v c => v * 16 + hexDigit c) v) % 2 ^ 64 := by
  induction l generalizing r v with
  | nil => exact hr
  | cons c l ih =>
    rw [fromHexLoop, List.foldl_cons]
    apply ih
    have hd := hexDigit_lt c
    rw [BitVec.toNat_or, BitVec.toNat_shiftLeft, BitVec.toNat_ofNat, hr, Nat.shiftLeft_eq]
    have : v % 2 ^ 64 * 2 ^ 4 % 2 ^ 64 = 2 ^ 4 * (v % 2 ^ 60) := by omega
    rw [this, Nat.mod_eq_of_lt (a := hexDigit c) (by omega), ← Nat.two_pow_add_eq_or_of_lt (by omega)]
    omega

/-- **C32** `fromHex` of any text denotes its hexadecimal value modulo 2^64, as a signed number. -/
theorem fromHex_spec (l : List Ch) : fromHex l = (BitVec.ofNat 64 (hexValue l)).toInt := by
  rw [fromHex]
  congr 1
  apply BitVec.eq_of_toNat_eq
  rw [fromHexLoop_val l 0 0 (by simp), BitVec.toNat_ofNat]; rfl

/-- **C32** (partial: nonnegative numbers.)  Round trip. -/
theorem hex_roundtrip_partial (n : Int) (h0 : 0 ≤ n) (h1 : n ≤ maxInt64) :
    ∃ l, toHexString n = .ok l ∧ fromHex l = n := by
  obtain ⟨l, h, hv, _⟩ := toHexString_spec n h0
  refine ⟨l, h, ?_⟩
  rw [fromHex_spec]
  simp only [maxInt64] at h1
  have : hexValue l = n.toNat := by omega
  rw [this, BitVec.toInt_eq_toNat_of_lt]
  · rw [BitVec.toNat_ofNat]; omega
  · rw [BitVec.toNat_ofNat]; omega

example : (0 : Int) ≤ 48879 ∧ (48879 : Int) ≤ maxInt64 ∧ toHexString 48879 = .ok [0x42, 0x45, 0x45, 0x46] := by
  refine ⟨by decide, by decide, by decide +kernel⟩

/-- Violation of C32: every negative number becomes the empty text, which reads as 0. -/
theorem hex_negative (n : Int) (h : n < 0) : toHexString n = .ok [] ∧ fromHex [] = 0 := by
  refine ⟨?_, by decide⟩
  unfold toHexString
  rw [if_neg (by omega), hexLoop, if_neg (by omega)]
  rfl

/-- `Integer::digits`: decimal digits of a nonnegative number below 10^k need at most k places, and it
is the least such k. -/
theorem digitCountLoop_spec (n i : Nat) : i ≤ digitCountLoop n i ∧ n < 10 ^ (digitCountLoop n i - i + 1) ∧
    (i < digitCountLoop n i → 10 ^ (digitCountLoop n i - i) ≤ n) := by
  induction n using Nat.strongRecOn generalizing i with
  | ind n ih =>
    rw [digitCountLoop]
    by_cases h : n > 9
    · rw [if_pos h]
      obtain ⟨h1, h2, h3⟩ := ih (n / 10) (by omega) (i + 1)
      generalize digitCountLoop (n / 10) (i + 1) = k at *
      have e : k - i = (k - (i + 1)) + 1 := by omega
      refine ⟨by omega, ?_, ?_⟩
      · rw [e, Nat.pow_succ]; omega
      · intro _
        rw [e, Nat.pow_succ]
        rcases Nat.lt_or_ge (i + 1) k with hk | hk
        · have := h3 hk; omega
        · have : k - (i + 1) = 0 := by omega
          rw [this]; omega
    · rw [if_neg h]
      refine ⟨by omega, ?_, by omega⟩
      simp; omega

theorem digitCount_spec (n : Int) (h0 : 0 ≤ n) : ∃ k, digitCount n = .ok k ∧ 1 ≤ k ∧ n < 10 ^ k ∧ (1 < k → 10 ^ (k - 1) ≤ n) := by
  obtain ⟨h1, h2, h3⟩ := digitCountLoop_spec n.toNat 1
  refine ⟨digitCountLoop n.toNat 1, by simp [digitCount, show ¬ n < 0 by omega, pure, Except.pure], h1, ?_, ?_⟩
  · rw [show digitCountLoop n.toNat 1 - 1 + 1 = digitCountLoop n.toNat 1 by omega] at h2
    have : ((n.toNat : Int)) < ((10 ^ digitCountLoop n.toNat 1 : Nat) : Int) := by omega
    push_cast at this
    omega
  · intro hk
    have := h3 hk
    have : ((10 ^ (digitCountLoop n.toNat 1 - 1) : Nat) : Int) ≤ (n.toNat : Int) := by omega
    push_cast at this
    omega

/-! ### C33 -/

/-- The value of a Roman symbol. -/
def symValue (c : Ch) : Int :=
  if c = 0x49 then 1 else if c = 0x56 then 5 else if c = 0x58 then 10 else if c = 0x4C then 50
  else if c = 0x43 then 100 else if c = 0x44 then 500 else if c = 0x4D then 1000 else 0

/-- The usual reading: a symbol before a greater one is subtracted, otherwise added. -/
def romanValue : List Ch → Int
  | [] => 0
  | [c] => symValue c
  | c :: d :: l => (if symValue c < symValue d then - symValue c else symValue c) + romanValue (d :: l)

/-- The standard numerals of the decimal digits for units, tens and hundreds
(`i`, `v`, `x` are the symbols for one, five and ten). -/
def digitNumeral (i v x : Ch) : Nat → List Ch
  | 1 => [i] | 2 => [i, i] | 3 => [i, i, i] | 4 => [i, v] | 5 => [v] | 6 => [v, i] | 7 => [v, i, i] | 8 => [v, i, i, i] | 9 => [i, x]
  | _ => []

/-- The standard numeral: M for every thousand, then hundreds, tens, units. -/
def standardRoman (n : Nat) : List Ch :=
  List.replicate (n / 1000) 0x4D ++ digitNumeral 0x43 0x44 0x4D (n / 100 % 10) ++
    digitNumeral 0x58 0x4C 0x43 (n / 10 % 10) ++ digitNumeral 0x49 0x56 0x58 (n % 10)

theorem romanRep_eq (sym : List Ch) (n : Nat) (out : List Ch) : romanRep sym n out = out ++ (List.replicate n sym).flatten := by
  induction n generalizing out with
  | zero => simp [romanRep]
  | succ n ih => rw [romanRep, ih]; simp [List.replicate_succ]

theorem romanLoop_append (t : List (Int × List Ch)) (n : Int) (out : List Ch) : romanLoop t n out = out ++ romanLoop t n [] := by
  induction t generalizing n out with
  | nil => simp [romanLoop]
  | cons p t ih =>
    obtain ⟨a, sym⟩ := p
    rw [romanLoop, ih, romanLoop, ih _ (romanRep _ _ [])]
    rw [romanRep_eq, romanRep_eq]; simp

theorem small_roman : ∀ m < 1000, romanLoop romanTable.tail (m : Nat) [] =
    digitNumeral 0x43 0x44 0x4D (m / 100 % 10) ++ digitNumeral 0x58 0x4C 0x43 (m / 10 % 10) ++ digitNumeral 0x49 0x56 0x58 (m % 10) := by
  decide +kernel

/-- **C33** `toRomanString` writes the standard numeral of every nonnegative number. -/
theorem toRomanString_spec (n : Nat) : toRomanString n = standardRoman n := by
  have : romanTable = (1000, [0x4D]) :: romanTable.tail := rfl
  rw [toRomanString, this, romanLoop, romanLoop_append, romanRep_eq]
  have h1 : ((n : Int).tdiv 1000).toNat = n / 1000 := by
    rw [Int.tdiv_eq_ediv_of_nonneg (by omega)]; omega
  have h2 : (n : Int).tmod 1000 = ((n % 1000 : Nat) : Int) := by
    rw [Int.tmod_eq_emod_of_nonneg (by omega)]; omega
  rw [h1, h2, small_roman _ (by omega), standardRoman]
  have e1 : n % 1000 / 100 % 10 = n / 100 % 10 := by omega
  have e2 : n % 1000 / 10 % 10 = n / 10 % 10 := by omega
  have e3 : n % 1000 % 10 = n % 10 := by omega
  rw [e1, e2, e3]
  have : ∀ k, (List.replicate k [(0x4D : Ch)]).flatten = List.replicate k 0x4D := by
    intro k; induction k with
    | zero => rfl
    | succ k ih => simp [List.replicate_succ, ih]
  rw [this]; simp

theorem small_value : ∀ m < 1000, romanValue (romanLoop romanTable.tail (m : Nat) []) = (m : Int) := by decide +kernel

theorem symValue_le (c : Ch) : symValue c ≤ 1000 := by
  unfold symValue
  (repeat' split) <;> omega

theorem romanValue_thousands (k : Nat) (l : List Ch) : romanValue (List.replicate k 0x4D ++ l) = 1000 * k + romanValue l := by
  induction k with
  | zero => simp
  | succ k ih =>
    rw [List.replicate_succ, List.cons_append]
    have hM : symValue 0x4D = 1000 := by decide
    cases hl : List.replicate k 0x4D ++ l with
    | nil =>
      rw [hl] at ih
      simp only [romanValue] at ih ⊢
      rw [hM]; omega
    | cons d m =>
      rw [hl] at ih
      rw [romanValue, if_neg (by rw [hM]; have := symValue_le d; omega), ih, hM]
      omega

/-- **C33** Under the usual reading the numeral denotes the number. -/
theorem roman_value (n : Nat) : romanValue (toRomanString n) = n := by
  have h := small_value (n % 1000) (by omega)
  rw [small_roman _ (by omega)] at h
  have e1 : n % 1000 / 100 % 10 = n / 100 % 10 := by omega
  have e2 : n % 1000 / 10 % 10 = n / 10 % 10 := by omega
  have e3 : n % 1000 % 10 = n % 10 := by omega
  rw [e1, e2, e3] at h
  rw [toRomanString_spec, standardRoman, List.append_assoc, List.append_assoc, romanValue_thousands, ← List.append_assoc, h]
  omega

/-- **C33** Different numbers have different numerals. -/
theorem roman_injective (m n : Nat) (h : toRomanString m = toRomanString n) : m = n := by
  have h1 := roman_value m
  rw [h, roman_value n] at h1
  omega

example : toRomanString 1994 = [0x4D, 0x43, 0x4D, 0x58, 0x43, 0x49, 0x56] := by decide +kernel

/-- Numbers below one give the empty text. -/
theorem roman_nonpositive (n : Int) (h : n ≤ 0) : toRomanString n = [] := by
  have key : ∀ (t : List (Int × List Ch)) (n : Int), (∀ p ∈ t, 0 < p.1) → n ≤ 0 → romanLoop t n [] = [] := by
    intro t
    induction t with
    | nil => intros; rfl
    | cons p t ih =>
      obtain ⟨a, sym⟩ := p
      intro n ht hn
      have ha : 0 < a := ht (a, sym) (by simp)
      have hd : n.tdiv a ≤ 0 := by
        have : n = - (-n) := by omega
        rw [this, Int.neg_tdiv]
        have := Int.tdiv_nonneg (a := -n) (b := a) (by omega) (by omega)
        omega
      have hm : n.tmod a ≤ 0 := by
        have : n = - (-n) := by omega
        rw [this, Int.neg_tmod]
        have := Int.tmod_nonneg (a := -n) a (by omega)
        omega
      rw [romanLoop, show (n.tdiv a).toNat = 0 by omega, romanRep]
      exact ih _ (fun p hp => ht p (by simp [hp])) hm
  refine key _ _ ?_ h
  decide

/-! ### C34 -/

/-- Value of an alphabetic numeral: A=1 … Z=26 in base 26, most significant letter first
(`@`, the character before A, would count 0). -/
def latinValue (l : List Ch) : Nat := l.foldl (fun v c => v * 26 + (c.toNat - 0x40)) 0

/-- Letters A to Z only. -/
def Letters (l : List Ch) : Prop := ∀ c ∈ l, 0x41 ≤ c.toNat ∧ c.toNat ≤ 0x5A

/-- The letters-only numeral of a number is unique: this is the numbering A,…,Z,AA,AB,…. -/
theorem latinValue_unique (l m : List Ch) (hl : Letters l) (hm : Letters m) (h : latinValue l = latinValue m) : l = m := by
  have key : ∀ (l m : List Ch), Letters l → Letters m →
      l.foldr (fun c v => v * 26 + (c.toNat - 0x40)) 0 = m.foldr (fun c v => v * 26 + (c.toNat - 0x40)) 0 → l = m := by
    intro l
    induction l with
    | nil =>
      intro m _ hm h
      cases m with
      | nil => rfl
      | cons c m => have := hm c (by simp); simp at h; omega
    | cons c l ih =>
      intro m hl hm h
      cases m with
      | nil => have := hl c (by simp); simp at h; omega
      | cons d m =>
        simp only [List.foldr_cons] at h
        have h1 := hl c (by simp)
        have h2 := hm d (by simp)
        have h3 := ih m (fun x hx => hl x (by simp [hx])) (fun x hx => hm x (by simp [hx])) (by omega)
        have h4 : c = d := by apply BitVec.eq_of_toNat_eq; omega
        rw [h3, h4]
  have := key l.reverse m.reverse (fun c hc => hl c (by simpa using hc)) (fun c hc => hm c (by simpa using hc))
    (by simpa [latinValue] using h)
  simpa using congrArg List.reverse this

theorem latinLoop_eq (n : Nat) (h : n < 26 * 2 ^ 31) (out : List Ch) :
    ∃ l, latinLoop n out = out ++ l ∧ l.foldr (fun (c : Ch) v => v * 26 + (c.toNat - 0x40)) 0 = n ∧
      (∀ c ∈ l, 0x40 ≤ c.toNat ∧ c.toNat ≤ 0x59) ∧ (0 < n → l ≠ []) ∧ (∀ c, l.getLast? = some c → 0x41 ≤ c.toNat) := by
  induction n using Nat.strongRecOn generalizing out with
  | ind n ih =>
    rw [latinLoop]
    by_cases h0 : 0 < n
    · rw [dif_pos (by omega)]
      have h1 : toInt32 ((n : Int).tdiv 26) = ((n / 26 : Nat) : Int) := by
        rw [Int.tdiv_eq_ediv_of_nonneg (by omega), toInt32, BitVec.toInt_ofInt, Int.bmod_eq_of_le] <;> omega
      have h2 : (n : Int).tmod 26 - 1 = ((n % 26 : Nat) : Int) - 1 := by
        rw [Int.tmod_eq_emod_of_nonneg (by omega)]; omega
      simp only [h1, h2]
      obtain ⟨l, e1, e2, e3, e4, e5⟩ := ih (n / 26) (by omega) (by omega) (out ++ [BitVec.ofInt 16 (0x41 + (((n % 26 : Nat) : Int) - 1))])
      have hc : (BitVec.ofInt 16 (0x41 + (((n % 26 : Nat) : Int) - 1))).toNat = 0x40 + n % 26 := by
        rw [BitVec.toNat_ofInt]
        omega
      refine ⟨BitVec.ofInt 16 (0x41 + (((n % 26 : Nat) : Int) - 1)) :: l, ?_, ?_, ?_, ?_, ?_⟩
      · rw [e1]; simp
      · rw [List.foldr_cons, e2, hc]; omega
      · intro c hcm
        rcases List.mem_cons.mp hcm with rfl | hcm
        · rw [hc]; omega
        · exact e3 c hcm
      · simp
      · intro c hcm
        cases l with
        | nil =>
          simp only [List.getLast?_singleton, Option.some.injEq] at hcm
          subst hcm
          rw [hc]
          simp at e2; omega
        | cons a l => exact e5 c (by simpa using hcm)
    · rw [dif_neg (by omega)]
      exact ⟨[], by simp, by simp; omega, by simp, by omega, by simp⟩

/-- **C34** (partial) What `toLatinAlphabetString` computes for every number below 26·2^31: the text over
`@`, A … Y whose value, `@` counting 0, is the number.  So different numbers get different texts. -/
theorem latin_value_partial (n : Nat) (h : n < 26 * 2 ^ 31) :
    latinValue (toLatinAlphabetString n) = n ∧ ∀ c ∈ toLatinAlphabetString n, 0x40 ≤ c.toNat ∧ c.toNat ≤ 0x59 := by
  obtain ⟨l, e1, e2, e3, _⟩ := latinLoop_eq n h []
  rw [toLatinAlphabetString, e1]
  constructor
  · rw [latinValue]; simpa using e2
  · intro c hc; exact e3 c (by simpa using hc)

theorem latin_injective_partial (m n : Nat) (hm : m < 26 * 2 ^ 31) (hn : n < 26 * 2 ^ 31)
    (h : toLatinAlphabetString m = toLatinAlphabetString n) : m = n := by
  have h1 := (latin_value_partial m hm).1
  rw [h, (latin_value_partial n hn).1] at h1
  exact h1.symm

/-- **C34** (partial) It is the right numeral whenever no remainder of the division chain is zero. -/
theorem latin_correct_partial (n : Nat) (h : n < 26 * 2 ^ 31) (hr : ∀ k, n / 26 ^ k ≠ 0 → n / 26 ^ k % 26 ≠ 0) :
    Letters (toLatinAlphabetString n) ∧ latinValue (toLatinAlphabetString n) = n := by
  refine ⟨?_, (latin_value_partial n h).1⟩
  have key : ∀ (n : Nat), n < 26 * 2 ^ 31 → (∀ k, n / 26 ^ k ≠ 0 → n / 26 ^ k % 26 ≠ 0) → ∀ out, ∃ l, latinLoop n out = out ++ l ∧ Letters l := by
    intro n
    induction n using Nat.strongRecOn with
    | ind n ih =>
      intro h hr out
      rw [latinLoop]
      by_cases h0 : 0 < n
      · rw [dif_pos (by omega)]
        have h1 : toInt32 ((n : Int).tdiv 26) = ((n / 26 : Nat) : Int) := by
          rw [Int.tdiv_eq_ediv_of_nonneg (by omega), toInt32, BitVec.toInt_ofInt, Int.bmod_eq_of_le] <;> omega
        have h2 : (n : Int).tmod 26 - 1 = ((n % 26 : Nat) : Int) - 1 := by
          rw [Int.tmod_eq_emod_of_nonneg (by omega)]; omega
        simp only [h1, h2]
        obtain ⟨l, e1, e2⟩ := ih (n / 26) (by omega) (by omega) (fun k hk => by
          have := hr (k + 1)
          rw [Nat.pow_succ, Nat.mul_comm, ← Nat.div_div_eq_div_mul] at this
          exact this hk) (out ++ [BitVec.ofInt 16 (0x41 + (((n % 26 : Nat) : Int) - 1))])
        refine ⟨_ :: l, by rw [e1]; simp; rfl, ?_⟩
        intro c hc
        rcases List.mem_cons.mp hc with rfl | hc
        · have := hr 0 (by simp; omega)
          simp at this
          rw [BitVec.toNat_ofInt]
          omega
        · exact e2 c hc
      · rw [dif_neg (by omega)]
        exact ⟨[], by simp, by simp [Letters]⟩
  obtain ⟨l, e1, e2⟩ := key n h hr []
  rw [toLatinAlphabetString, e1]
  intro c hc
  exact e2 c (by simpa using hc)

example : (28 : Nat) < 26 * 2 ^ 31 ∧ toLatinAlphabetString 28 = [0x41, 0x42] := by
  refine ⟨by decide, by decide +kernel⟩

example : ∀ k, 28 / 26 ^ k ≠ 0 → 28 / 26 ^ k % 26 ≠ 0 := by
  intro k hk
  match k with
  | 0 => decide
  | 1 => decide
  | k + 2 =>
    exfalso; apply hk
    apply Nat.div_eq_of_lt
    have : 0 < 26 ^ k := Nat.pow_pos (by decide)
    rw [Nat.pow_succ, Nat.pow_succ]; omega

/-- Violation of C34: every multiple of 26 ends in `@`, not a letter; 26 is "A@" instead of "Z". -/
theorem latin_26_multiples (k : Nat) (h0 : 0 < k) (h : k < 2 ^ 31) : (toLatinAlphabetString (26 * k : Nat)).getLast? = some 0x40 := by
  obtain ⟨l, e1, e2, e3, e4, _⟩ := latinLoop_eq (26 * k) (by omega) []
  rw [toLatinAlphabetString, e1, List.nil_append, List.getLast?_reverse]
  cases l with
  | nil => exact absurd rfl (e4 (by omega))
  | cons c l =>
    simp only [List.foldr_cons] at e2
    have := e3 c (by simp)
    simp only [List.head?_cons, Option.some.injEq]
    apply BitVec.eq_of_toNat_eq
    show c.toNat = 64
    omega

theorem latin_26 : toLatinAlphabetString 26 = [0x41, 0x40] ∧ ¬ Letters (toLatinAlphabetString 26) ∧ latinValue [0x5A] = 26 := by
  have h : toLatinAlphabetString 26 = [0x41, 0x40] := by decide +kernel
  refine ⟨h, ?_, by decide⟩
  rw [h]
  intro hl
  have := hl 0x40 (by simp)
  revert this; decide

/-- Violation of C34: the quotient is cut to 32 bits, so large numbers collide with small ones. -/
theorem latin_collision : toLatinAlphabetString 1 = toLatinAlphabetString (26 * 2 ^ 32 + 1) := by decide +kernel

end Verif.Num.IntegerProps
