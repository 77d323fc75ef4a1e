import Verif.Str.ArgModel
import Verif.Num.Props
/-
C50 (arg) and C57 (compareFancyTo).
-/
namespace Verif.Str.ArgProps
open Verif Verif.Str Verif.Num Verif.Str.Arg

/-- Value of a digit character. -/
def dval (c : Ch) : Nat := c.toNat - 0x30

/-- A placeholder: `%` and one or two decimal digits (as many as possible) at position `i`, with its
number and its length. -/
inductive Placeholder (s : List Ch) (i : Nat) : Nat → Nat → Prop
  | one {d : Ch} : s[i]? = some 0x25 → s[i + 1]? = some d → isDigit d → (∀ e, s[i + 2]? = some e → ¬ isDigit e) →
      Placeholder s i (dval d) 2
  | two {d e : Ch} : s[i]? = some 0x25 → s[i + 1]? = some d → isDigit d → s[i + 2]? = some e → isDigit e →
      Placeholder s i (10 * dval d + dval e) 3

theorem digitValue_eq {c : Ch} (h : isDigit c) : digitValue c = (dval c : Int) ∧ dval c ≤ 9 := by
  simp [isDigit] at h
  unfold digitValue dval
  rw [if_pos h]
  omega

theorem numberAt_some {s : List Ch} {i : Nat} {n : Int} (h : numberAt s i = some n) :
    ∃ m len, Placeholder s i m len ∧ n = m ∧ m ≤ 99 ∧ i + len ≤ s.length := by
  unfold numberAt at h
  split at h
  · next c d hc hd =>
    split at h
    · next hcd =>
      have ⟨h1, h2⟩ := digitValue_eq hcd.2
      have hl1 := (List.getElem?_eq_some_iff.mp hd).1
      split at h
      · next e he =>
        have hl2 := (List.getElem?_eq_some_iff.mp he).1
        split at h
        · next hde =>
          have ⟨h3, h4⟩ := digitValue_eq hde
          injection h with h
          exact ⟨_, _, .two (hcd.1 ▸ hc) hd hcd.2 he hde, by omega, by omega, by omega⟩
        · next hde =>
          injection h with h
          exact ⟨_, _, .one (hcd.1 ▸ hc) hd hcd.2 (by intro e' he'; rw [he] at he'; injection he' with he'; rw [← he']; exact hde), by omega, by omega, by omega⟩
      · next he =>
        injection h with h
        exact ⟨_, _, .one (hcd.1 ▸ hc) hd hcd.2 (by intro e' he'; rw [he] at he'; cases he'), by omega, by omega, by omega⟩
    · cases h
  · cases h

theorem numberAt_of {s : List Ch} {i m len : Nat} (h : Placeholder s i m len) :
    numberAt s i = some (m : Int) ∧ i + 1 < s.length ∧ m ≤ 99 := by
  cases h with
  | one h1 h2 h3 h4 =>
    have ⟨h5, h6⟩ := digitValue_eq h3
    have hl1 := (List.getElem?_eq_some_iff.mp h2).1
    refine ⟨?_, hl1, by omega⟩
    unfold numberAt
    rw [h1, h2]
    simp only [h3, and_self, if_true]
    split
    · next e he => rw [if_neg (h4 e he), h5]
    · rw [h5]
  | two h1 h2 h3 h4 h5 =>
    have ⟨h6, h7⟩ := digitValue_eq h3
    have ⟨h8, h9⟩ := digitValue_eq h5
    have hl1 := (List.getElem?_eq_some_iff.mp h2).1
    refine ⟨?_, hl1, by omega⟩
    unfold numberAt
    rw [h1, h2, h4]
    simp only [h3, h5, and_self, if_true, h6, h8]
    congr 1
    omega

theorem placeholder_fun {s : List Ch} {i m len m' len' : Nat} (h : Placeholder s i m len) (h' : Placeholder s i m' len') : m = m' ∧ len = len' := by
  have e := (numberAt_of h).1
  rw [(numberAt_of h').1] at e
  injection e with e
  refine ⟨by omega, ?_⟩
  cases h with
  | one a b c d =>
    cases h' with
    | one => rfl
    | two a' b' c' d' e' => exact absurd e' (d _ d')
  | two a b c d f =>
    cases h' with
    | one a' b' c' d' => exact absurd f (d' _ d)
    | two => rfl

/-- `(i, n)` is the leftmost placeholder with the lowest number among those before `k`. -/
def Best (s : List Ch) (k i n : Nat) : Prop :=
  i < k ∧ (∃ len, Placeholder s i n len) ∧ ∀ j m len, j < k → Placeholder s j m len → n ≤ m ∧ (m = n → i ≤ j)

def Inv (s : List Ch) (k : Nat) (st : Int × Int × Int) : Prop :=
  (st = (-1, -1, 100) ∧ ∀ j m len, j < k → ¬ Placeholder s j m len) ∨
  (∃ i n : Nat, st = ((i : Int), (if n > 9 then (i : Int) + 3 else (i : Int) + 2), (n : Int)) ∧ Best s k i n)

theorem argLoop_inv (s : List Ch) (k : Nat) (st : Int × Int × Int) (h : Inv s k st) : ∃ k', s.length ≤ k' + 1 ∧ Inv s k' (argLoop s k st) := by
  fun_induction argLoop s k st with
  | case1 k st hk ih =>
    apply ih
    unfold argStep
    cases hn : numberAt s k with
    | none =>
      simp only
      have hno : ∀ m len, ¬ Placeholder s k m len := by
        intro m len hp; rw [(numberAt_of hp).1] at hn; cases hn
      rcases h with ⟨h1, h2⟩ | ⟨i, n, h1, hi, hp, hb⟩
      · left
        refine ⟨h1, ?_⟩
        intro j m len hj hp
        rcases Nat.lt_or_ge j k with hjk | hjk
        · exact h2 j m len hjk hp
        · have : j = k := by omega
          subst this; exact hno _ _ hp
      · right
        refine ⟨i, n, h1, by omega, hp, ?_⟩
        intro j m len hj hp
        rcases Nat.lt_or_ge j k with hjk | hjk
        · exact hb j m len hjk hp
        · have : j = k := by omega
          subst this; exact absurd hp (hno _ _)
    | some x =>
      obtain ⟨m, len, hp, rfl, hm, _⟩ := numberAt_some hn
      simp only
      rcases h with ⟨h1, h2⟩ | ⟨i, n, h1, hi, hp', hb⟩
      · right
        refine ⟨k, m, ?_, by omega, ⟨len, hp⟩, ?_⟩
        · rw [h1, if_pos (by simp; omega)]
          congr 1
          congr 1
          by_cases h9 : m > 9
          · rw [if_pos (by omega), if_pos h9]; omega
          · rw [if_neg (by omega), if_neg h9]
        · intro j m' len' hj hp''
          rcases Nat.lt_or_ge j k with hjk | hjk
          · exact absurd hp'' (h2 j m' len' hjk)
          · have : j = k := by omega
            subst this
            have := placeholder_fun hp hp''
            omega
      · by_cases hlt : (m : Int) < n
        · right
          refine ⟨k, m, ?_, by omega, ⟨len, hp⟩, ?_⟩
          · rw [h1, if_pos (by simpa using hlt)]
            congr 1
            congr 1
            by_cases h9 : m > 9
            · rw [if_pos (by omega), if_pos h9]; omega
            · rw [if_neg (by omega), if_neg h9]
          · intro j m' len' hj hp''
            rcases Nat.lt_or_ge j k with hjk | hjk
            · have := (hb j m' len' hjk hp'').1
              omega
            · have : j = k := by omega
              subst this
              have := placeholder_fun hp hp''
              omega
        · right
          refine ⟨i, n, ?_, by omega, hp', ?_⟩
          · rw [h1, if_neg (by simpa using hlt)]
          · intro j m' len' hj hp''
            rcases Nat.lt_or_ge j k with hjk | hjk
            · exact hb j m' len' hjk hp''
            · have : j = k := by omega
              subst this
              have := placeholder_fun hp hp''
              omega
  | case2 k st hk => exact ⟨k, by omega, h⟩

/-- The padded value: filled at the left for a positive, at the right for a negative field width. -/
def padded (v : List Ch) (width : Int) (fillchar : Ch) : List Ch :=
  if width > 0 then List.replicate (width.natAbs - v.length) fillchar ++ v
  else v ++ List.replicate (width.natAbs - v.length) fillchar

theorem pad_eq (v : List Ch) (width : Int) (f : Ch) :
    (if width > 0 then fill v.length width f else []) ++ v ++ (if width < 0 then fill v.length (-width) f else []) = padded v width f := by
  unfold padded fill
  by_cases h1 : width > 0
  · rw [if_pos h1, if_neg (by omega), if_pos h1, List.append_nil]
    congr 2
    omega
  · rw [if_neg h1, if_neg h1]
    by_cases h2 : width < 0
    · rw [if_pos h2]
      simp only [List.nil_append]
      congr 2
      omega
    · rw [if_neg h2, show width = 0 by omega]
      simp

/-- **C50** (partial: a placeholder written with a leading zero, `%05`, is excluded.)  `arg` replaces the
leftmost of the lowest-numbered placeholders by the padded value; everything else stays. -/
theorem arg_spec_partial (s v : List Ch) (width : Int) (f : Ch) (i n len : Nat) (hp : Placeholder s i n len)
    (hmin : ∀ j m k, Placeholder s j m k → n ≤ m ∧ (m = n → i ≤ j)) (hz : len = 2 ∨ 10 ≤ n) :
    arg s v width f = s.take i ++ padded v width f ++ s.drop (i + len) := by
  have hpct : (0x25 : Ch) ∈ s := by
    cases hp with
    | one h _ _ _ => exact List.mem_of_getElem? h
    | two h _ _ _ _ => exact List.mem_of_getElem? h
  have hlen : n > 9 ↔ len = 3 := by
    cases hp with
    | one h1 h2 h3 h4 => have := (digitValue_eq h3).2; omega
    | two h1 h2 h3 h4 h5 => omega
  obtain ⟨k', hk', hinv⟩ := argLoop_inv s 0 (-1, -1, 100) (Or.inl ⟨rfl, by intro j m l hj; omega⟩)
  have hik : i < k' := by have := (numberAt_of hp).2.1; omega
  rcases hinv with ⟨_, hno⟩ | ⟨i', n', hst, hi', ⟨len', hp'⟩, hb⟩
  · exact absurd hp (hno i n len hik)
  · have h1 := hb i n len hik hp
    have h2 := hmin i' n' len' hp'
    have hii : i' = i := by omega
    have hnn : n' = n := by omega
    subst hii; subst hnn
    have hai : argIndicies s = some ((i' : Int), (i' : Int) + len) := by
      unfold argIndicies
      rw [if_neg (by simpa using hpct)]
      simp only [hst]
      congr 2
      by_cases h9 : n' > 9
      · rw [if_pos h9, hlen.mp h9]; rfl
      · rw [if_neg h9]
        have : len = 2 := by omega
        rw [this]; rfl
    unfold arg
    rw [hai]
    simp only
    rw [List.append_assoc (sub s 0 _), List.append_assoc (sub s 0 _), pad_eq]
    unfold sub
    rw [show ((i' : Int) + len).toNat = i' + len by omega]
    simp

/-- A pattern for the example: "%2-%1" -/
def pat : List Ch := [0x25, 0x32, 0x2D, 0x25, 0x31]

example : Placeholder pat 3 1 2 ∧ ∀ j m k, Placeholder pat j m k → 1 ≤ m ∧ (m = 1 → 3 ≤ j) := by
  refine ⟨?_, ?_⟩
  · have : Placeholder pat 3 (dval 0x31) 2 := .one rfl rfl rfl (by intro e he; simp [pat] at he)
    exact this
  · intro j m k hp
    have hn := (numberAt_of hp).1
    have hl := (numberAt_of hp).2.1
    simp only [pat, List.length_cons, List.length_nil] at hl
    have : j = 0 ∨ j = 1 ∨ j = 2 ∨ j = 3 := by omega
    rcases this with rfl | rfl | rfl | rfl
    · have e : numberAt pat 0 = some 2 := by decide
      rw [e] at hn; injection hn with hn; omega
    · have e : numberAt pat 1 = none := by decide
      rw [e] at hn; cases hn
    · have e : numberAt pat 2 = none := by decide
      rw [e] at hn; cases hn
    · have e : numberAt pat 3 = some 1 := by decide
      rw [e] at hn; injection hn with hn; omega

/-- **C50** The integer version inserts the decimal numeral. -/
theorem argInt_spec (s : List Ch) (x : Int) (v : List Ch) (width : Int) (f : Ch) (hv : valueOf x = .ok v) :
    argInt s x width f = .ok (arg s v width f) := by
  unfold argInt
  cases h : argIndicies s with
  | none => simp [arg, h]
  | some p => simp [hv, bind, Except.bind, pure, Except.pure]

/-- **C50** Text without `%` is returned unchanged. -/
theorem arg_no_percent (s v : List Ch) (width : Int) (f : Ch) (h : (0x25 : Ch) ∉ s) : arg s v width f = s := by
  unfold arg argIndicies
  rw [if_pos h]

/-- Violation of C50: if there is a `%` but no placeholder, the value is put in front of the text. -/
theorem arg_no_placeholder (s v : List Ch) (width : Int) (f : Ch) (h : (0x25 : Ch) ∈ s) (hno : ∀ i n len, ¬ Placeholder s i n len) :
    arg s v width f = padded v width f ++ s := by
  obtain ⟨k', hk', hinv⟩ := argLoop_inv s 0 (-1, -1, 100) (Or.inl ⟨rfl, by intro j m l hj; omega⟩)
  rcases hinv with ⟨hst, _⟩ | ⟨i', n', hst, hi', ⟨len', hp'⟩, hb⟩
  · unfold arg argIndicies
    rw [if_neg (by simpa using h)]
    simp only [hst]
    rw [List.append_assoc (sub s 0 _), List.append_assoc (sub s 0 _), pad_eq]
    unfold sub
    simp
  · exact absurd hp' (hno _ _ _)

/-- "100%".arg("x") is "x100%". -/
theorem arg_percent_sign : arg [0x31, 0x30, 0x30, 0x25] [0x78] 0 0x20 = [0x78, 0x31, 0x30, 0x30, 0x25] := by decide +kernel

/-- Violation of C50: "%05".arg("x") is "x5": of a number with leading zero one digit stays. -/
theorem arg_leading_zero : arg [0x25, 0x30, 0x35] [0x78] 0 0x20 = [0x78, 0x35] := by decide +kernel

/-- Violation of C50 in a chain: "%1 %2".arg("%2").arg("x") is "x %2": the second call replaces text
inserted by the first. -/
theorem arg_chain : arg (arg [0x25, 0x31, 0x20, 0x25, 0x32] [0x25, 0x32] 0 0x20) [0x78] 0 0x20 = [0x78, 0x20, 0x25, 0x32] := by decide +kernel

/-! ### C57 compareFancyTo -/

/-- Value of a text of digits, modulo 2^32. -/
def runValue (l : List Ch) : BitVec 32 := l.foldl (fun v c => v * 10 + BitVec.ofNat 32 (dval c)) 0

/-- The sort key: every maximal run of digits counts as one number, every other character as its code. -/
def key (l : List Ch) : List (BitVec 32) :=
  match l with
  | [] => []
  | c :: l =>
    if isDigit c then runValue (c :: l.takeWhile isDigit) :: key (l.dropWhile isDigit)
    else c.setWidth 32 :: key l
termination_by l.length
decreasing_by
  · have := (List.dropWhile_sublist (l := l) (p := isDigit)).length_le
    simp; omega
  · simp

theorem ofInt_digit {c : Ch} (h : isDigit c) : BitVec.ofInt 32 (digitValue c) = BitVec.ofNat 32 (dval c) := by
  rw [(digitValue_eq h).1]
  apply BitVec.eq_of_toNat_eq
  simp

theorem digitRun_eq (s : List Ch) (strl : Nat) (hs : strl ≤ s.length) (cntin : Nat) (number : BitVec 32) (h : cntin < strl) :
    digitRun s strl cntin number =
      (cntin + (((s.take strl).drop (cntin + 1)).takeWhile isDigit).length,
       (((s.take strl).drop (cntin + 1)).takeWhile isDigit).foldl (fun v c => v * 10 + BitVec.ofNat 32 (dval c)) number) := by
  fun_induction digitRun s strl cntin number with
  | case1 cntin number h1 hd ih =>
    have e : (s.take strl).drop (cntin + 1) = s[cntin + 1] :: (s.take strl).drop (cntin + 1 + 1) := by
      rw [List.drop_eq_getElem_cons (by simp; omega)]
      simp
    rw [ih h1.1, e, List.takeWhile_cons, if_pos hd]
    simp only [List.length_cons, List.foldl_cons]
    rw [ofInt_digit hd]
    congr 1
    omega
  | case2 cntin number h1 hd =>
    have e : (s.take strl).drop (cntin + 1) = s[cntin + 1] :: (s.take strl).drop (cntin + 1 + 1) := by
      rw [List.drop_eq_getElem_cons (by simp; omega)]
      simp
    rw [e, List.takeWhile_cons, if_neg hd]
    simp
  | case3 cntin number h1 =>
    have e : (s.take strl).drop (cntin + 1) = [] := by
      apply List.drop_eq_nil_of_le; simp; omega
    rw [e]; simp

theorem fancyLoop_eq (s : List Ch) (strl : Nat) (hs : strl ≤ s.length) (h256 : strl ≤ 256) (cntin : Nat) (out : List (BitVec 32))
    (ho : out.length ≤ cntin) : fancyLoop s strl cntin out = .ok (out ++ key ((s.take strl).drop cntin)) := by
  induction hk : strl - cntin using Nat.strongRecOn generalizing cntin out with
  | ind k ih =>
    rw [fancyLoop]
    by_cases h : cntin < strl
    · rw [dif_pos h, rd_ok (by omega)]
      simp only [bind, Except.bind]
      have e : (s.take strl).drop cntin = s[cntin] :: (s.take strl).drop (cntin + 1) := by
        rw [List.drop_eq_getElem_cons (by simp; omega)]
        simp
      by_cases hd : isDigit s[cntin]
      · rw [if_pos hd, digitRun_eq s strl hs cntin _ h]
        simp only
        rw [emit_ok (by omega)]
        simp only
        rw [ih _ (by omega) _ _ (by simp; omega) rfl, e, key, if_pos hd, List.append_assoc, List.singleton_append]
        congr 3
        · rw [runValue, List.foldl_cons, ofInt_digit hd]
          congr 1
          simp
        · have hdd : ∀ l : List Ch, l.dropWhile isDigit = l.drop (l.takeWhile isDigit).length := by
            intro l
            induction l with
            | nil => rfl
            | cons a l ih =>
              rw [List.dropWhile_cons, List.takeWhile_cons]
              split
              · simpa using ih
              · simp
          rw [hdd, List.drop_drop]
          congr 2
          omega
      · rw [if_neg hd, emit_ok (by omega)]
        simp only
        rw [ih _ (by omega) _ _ (by simp; omega) rfl, e, key, if_neg hd]
        simp
    · rw [dif_neg h, List.drop_eq_nil_of_le (by simp; omega), key]
      simp

theorem lex_cons_iff (r : BitVec 32 → BitVec 32 → Prop) (a b : BitVec 32) (k l : List (BitVec 32)) :
    List.Lex r (a :: k) (b :: l) ↔ r a b ∨ (a = b ∧ List.Lex r k l) := by
  constructor
  · intro h
    cases h with
    | rel h => exact Or.inl h
    | cons h => exact Or.inr ⟨rfl, h⟩
  · rintro (h | ⟨rfl, h⟩)
    · exact .rel h
    · exact .cons h

/-- Lexicographic order of the keys. -/
def keyLess (k l : List (BitVec 32)) : Prop := List.Lex (fun a b : BitVec 32 => a.toNat < b.toNat) k l

theorem cmpKeys_spec (k l : List (BitVec 32)) :
    (cmpKeys k l = 0 ↔ k = l) ∧ (cmpKeys k l < 0 ↔ keyLess k l) ∧ (cmpKeys k l > 0 ↔ keyLess l k) ∧ cmpKeys l k = - cmpKeys k l := by
  induction k generalizing l with
  | nil =>
    cases l with
    | nil => simp [cmpKeys, keyLess]
    | cons b l => simp [cmpKeys, keyLess]
  | cons a k ih =>
    cases l with
    | nil => simp [cmpKeys, keyLess]
    | cons b l =>
      obtain ⟨h1, h2, h3, h4⟩ := ih l
      unfold keyLess at *
      simp only [cmpKeys, lex_cons_iff, List.cons.injEq]
      rcases Nat.lt_trichotomy a.toNat b.toNat with h | h | h
      · have hne : a ≠ b := by intro e; subst e; omega
        rw [if_pos h, if_neg (by omega), if_pos h]
        refine ⟨by simp [hne], by simp [h], ?_, by omega⟩
        constructor
        · intro h; omega
        · rintro (h' | ⟨e, _⟩)
          · omega
          · exact absurd e.symm hne
      · have hne : a = b := BitVec.eq_of_toNat_eq h
        subst hne
        simp [h1, h2, h3, h4]
      · have hne : a ≠ b := by intro e; subst e; omega
        rw [if_neg (by omega), if_pos h, if_pos h]
        refine ⟨by simp [hne], ?_, by simp [h], by omega⟩
        constructor
        · intro h; omega
        · rintro (h' | ⟨e, _⟩)
          · omega
          · exact absurd e hne

/-- **C57** `compareFancyTo` always succeeds and compares the keys of the first 256 characters. -/
theorem compareFancy_spec (s t : List Ch) : ∃ r, compareFancyTo s t = .ok r ∧
    (r = 0 ↔ key (s.take 256) = key (t.take 256)) ∧ (r < 0 ↔ keyLess (key (s.take 256)) (key (t.take 256))) ∧
    (r > 0 ↔ keyLess (key (t.take 256)) (key (s.take 256))) := by
  have h : ∀ s : List Ch, fancyLoop s (min s.length 256) 0 [] = .ok (key (s.take 256)) := by
    intro s
    rw [fancyLoop_eq s _ (by omega) (by omega) 0 [] (by simp)]
    simp only [List.drop_zero, List.nil_append]
    congr 2
    rw [List.take_eq_take_iff]; omega
  obtain ⟨h1, h2, h3, _⟩ := cmpKeys_spec (key (s.take 256)) (key (t.take 256))
  exact ⟨_, by simp only [compareFancyTo, h s, h t, bind, Except.bind, pure, Except.pure], h1, h2, h3⟩

/-- **C57** The comparison is a total preorder: reflexive, antisymmetric in sign, transitive. -/
theorem compareFancy_preorder (s t u : List Ch) :
    compareFancyTo s s = .ok 0 ∧
    (∀ r, compareFancyTo s t = .ok r → compareFancyTo t s = .ok (-r)) ∧
    (∀ p q r, compareFancyTo s t = .ok p → compareFancyTo t u = .ok q → compareFancyTo s u = .ok r → p ≤ 0 → q ≤ 0 → r ≤ 0) := by
  have h : ∀ s : List Ch, fancyLoop s (min s.length 256) 0 [] = .ok (key (s.take 256)) := by
    intro s
    rw [fancyLoop_eq s _ (by omega) (by omega) 0 [] (by simp)]
    simp only [List.drop_zero, List.nil_append]
    congr 2
    rw [List.take_eq_take_iff]; omega
  have hc : ∀ s t, compareFancyTo s t = .ok (cmpKeys (key (s.take 256)) (key (t.take 256))) := by
    intro s t; simp only [compareFancyTo, h s, h t, bind, Except.bind, pure, Except.pure]
  have htrans : ∀ a b c : List (BitVec 32), cmpKeys a b ≤ 0 → cmpKeys b c ≤ 0 → cmpKeys a c ≤ 0 := by
    intro a
    induction a with
    | nil => intro b c _ _; cases c <;> simp [cmpKeys]
    | cons x a ih =>
      intro b c h1 h2
      cases b with
      | nil => simp [cmpKeys] at h1
      | cons y b =>
        cases c with
        | nil => simp [cmpKeys] at h2
        | cons z c =>
          simp only [cmpKeys] at h1 h2 ⊢
          split at h1
          · split at h2
            · rw [if_pos (by omega)]; omega
            · split at h2
              · omega
              · rw [if_pos (by omega)]; omega
          · split at h1
            · omega
            · split at h2
              · rw [if_pos (by omega)]; omega
              · split at h2
                · omega
                · rw [if_neg (by omega), if_neg (by omega)]
                  exact ih b c h1 h2
  refine ⟨?_, ?_, ?_⟩
  · rw [hc, (cmpKeys_spec _ _).1.mpr rfl]
  · intro r hr
    rw [hc] at hr ⊢
    injection hr with hr
    rw [(cmpKeys_spec (key (s.take 256)) (key (t.take 256))).2.2.2, hr]
  · intro p q r hp hq hr h1 h2
    rw [hc] at hp hq hr
    injection hp with hp
    injection hq with hq
    injection hr with hr
    rw [← hr]
    exact htrans _ _ _ (hp ▸ h1) (hq ▸ h2)

/-- "a2" sorts before "a10", unlike in `compareTo`. -/
example : compareFancyTo [0x61, 0x32] [0x61, 0x31, 0x30] = .ok (-1) := by decide +kernel

/-- Limits of the order (none is mentioned in the documentation): a number equals the character with
that code ("65" and "A"), and numbers are taken modulo 2^32. -/
theorem compareFancy_confuses : compareFancyTo [0x36, 0x35] [0x41] = .ok 0 ∧
    compareFancyTo [0x34, 0x32, 0x39, 0x34, 0x39, 0x36, 0x37, 0x32, 0x39, 0x36] [0x30] = .ok 0 := by decide +kernel

end Verif.Str.ArgProps
