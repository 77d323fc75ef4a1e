import Verif.UnitTest.Model
import Verif.Num.Props
/-
C103: the number execute() returns is the number of assertions that failed.
-/
namespace Verif.UnitTest.Props
open Verif Verif.Str Verif.UnitTest

/-! ### the assertions about integers, pointers, texts -/

/-- what an assertion claims (doubles: see DoubleProps) -/
def Claims : Assert → Prop
  | .fail => False
  | .double _ _ => True
  | .int64 a e => a.toInt = e.toInt
  | .int64int32 a e => a.toInt = e.toInt
  | .uint64 a e => a.toNat = e.toNat
  | .pointer a e => a.toNat = e.toNat
  | .uint64int32 a e => (a.toNat : Int) = e.toInt
  | .uint64uint32 a e => a.toNat = e.toNat
  | .int32 a e => a.toInt = e.toInt
  | .uint32 a e => a.toNat = e.toNat
  | .uint32int32 a e => (a.toNat : Int) = e.toInt
  | .int32uint32 a e => a.toInt = (e.toNat : Int)
  | .string a e => a = e
  | .stringIgnoreCase a e => a.map toLowerCh = e.map toLowerCh
  | .null a => a.toNat = 0
  | .notNull a => a.toNat ≠ 0
  | .isTrue a => a = true
  | .isFalse a => a = false

/-- an unsigned number compared with a negative one -/
def Mixed : Assert → Prop
  | .uint64int32 _ e => e.toInt < 0
  | _ => False

def isDouble : Assert → Bool
  | .double _ _ => true
  | _ => false

theorem signed_toInt (x : BitVec 32) : (signed x).toInt = x.toInt := by
  unfold signed
  rw [BitVec.toInt_signExtend_of_le (by omega)]

theorem unsigned_toNat (x : BitVec 32) : (unsigned x).toNat = x.toNat := by
  unfold unsigned
  rw [BitVec.toNat_setWidth]
  have := x.isLt
  omega

theorem unsigned_toInt (x : BitVec 32) : (unsigned x).toInt = x.toNat := by
  have h := x.isLt
  rw [BitVec.toInt_eq_toNat_of_lt (by rw [unsigned_toNat]; omega), unsigned_toNat]

/-- every assertion passes exactly when its claim is true, if no unsigned number is compared with a negative one -/
theorem passes_iff (a : Assert) (hd : isDouble a = false) (hm : ¬ Mixed a) : passes a = true ↔ Claims a := by
  cases a with
  | double a e => cases hd
  | fail => simp [passes, Claims]
  | int64 a e => simp only [passes, Claims, beq_iff_eq, BitVec.toInt_inj]
  | int64int32 a e => simp only [passes, Claims, beq_iff_eq, ← BitVec.toInt_inj, signed_toInt]
  | uint64 a e => simp only [passes, Claims, beq_iff_eq, BitVec.toNat_inj]
  | pointer a e => simp only [passes, Claims, beq_iff_eq, BitVec.toNat_inj]
  | uint64int32 a e =>
    simp only [passes, Claims, beq_iff_eq]
    have h1 : ¬ e.toInt < 0 := hm
    have h2 := signed_toInt e
    have h3 : (signed e).toInt = ((signed e).toNat : Int) := by
      rw [BitVec.toInt_eq_toNat_cond] at h2 ⊢
      split
      · rfl
      · rename_i h4
        rw [if_neg h4] at h2
        have := (signed e).isLt
        omega
    rw [← BitVec.toNat_inj]
    omega
  | uint64uint32 a e => simp only [passes, Claims, beq_iff_eq, ← BitVec.toNat_inj, unsigned_toNat]
  | int32 a e => simp only [passes, Claims, beq_iff_eq, ← BitVec.toInt_inj, signed_toInt]
  | uint32 a e => simp only [passes, Claims, beq_iff_eq, ← BitVec.toNat_inj, unsigned_toNat]
  | uint32int32 a e => simp only [passes, Claims, beq_iff_eq, ← BitVec.toInt_inj, signed_toInt, unsigned_toInt]
  | int32uint32 a e => simp only [passes, Claims, beq_iff_eq, ← BitVec.toInt_inj, signed_toInt, unsigned_toInt]
  | string a e => simp only [passes, Claims, beq_iff_eq]; exact eq_comm
  | stringIgnoreCase a e => simp only [passes, Claims, beq_iff_eq]; exact eq_comm
  | null a => simp only [passes, Claims, beq_iff_eq, ← BitVec.toNat_inj]; rfl
  | notNull a =>
    simp only [passes, Claims, Bool.not_eq_true', beq_eq_false_iff_ne, ne_eq, ← BitVec.toNat_inj]
    exact Iff.rfl
  | isTrue a => simp [passes, Claims]
  | isFalse a => simp [passes, Claims]

/-- testEquals(uint64, int32) takes a negative expected value for a very large one: 2^64 - 1 "equals" -1 -/
theorem negative_passes (e : BitVec 32) (h : e.toInt < 0) : ∃ a : BitVec 64, passes (.uint64int32 a e) = true ∧ ¬ Claims (.uint64int32 a e) := by
  refine ⟨signed e, by simp [passes], ?_⟩
  simp only [Claims]
  omega

/-! ### counting -/

/-- the number of failed assertions of a test; an exception counts as one -/
def failures (t : TestCase) : Nat := (t.asserts.filter (fun a => !passes a)).length + (if t.throws then 1 else 0)

def total (t : TestCase) : Nat := t.asserts.length + (if t.throws then 1 else 0)

theorem checks_counts (l : List Assert) {c c' : Counters} (e : checks c l = .ok c') :
    c' = ⟨c.tests + l.length, c.errors + (l.filter (fun a => !passes a)).length, c.totalTests + l.length, c.totalErrors + (l.filter (fun a => !passes a)).length⟩ := by
  induction l generalizing c with
  | nil => cases e; rfl
  | cons a l ih =>
    simp only [checks, check] at e
    by_cases hp : passes a = true
    · simp only [hp, if_true] at e
      rw [ih e]
      simp only [count, if_true, List.length_cons, List.filter_cons, hp, Bool.not_true, Bool.false_eq_true, if_false, Counters.mk.injEq, true_and, and_true]
      omega
    · simp only [hp, Bool.false_eq_true, if_false] at e
      cases hs : shown a with
      | error x => rw [hs] at e; cases e
      | ok x =>
        rw [hs] at e
        rw [ih e]
        have hp' : passes a = false := by simpa using hp
        simp only [count, Bool.false_eq_true, if_false, List.length_cons, List.filter_cons, hp', Bool.not_false, if_true, Counters.mk.injEq]
        omega

theorem testrun_counts {c c' : Counters} {t : TestCase} {r : List (Nat × Nat)} (e : testrun c (some t) = .ok (c', r)) :
    c' = ⟨0, 0, c.totalTests + total t, c.totalErrors + failures t⟩ ∧ r = [(c.tests + total t, c.errors + failures t)] := by
  simp only [testrun] at e
  cases h : checks c t.asserts with
  | error x => rw [h] at e; cases e
  | ok c1 =>
    rw [h] at e
    have := checks_counts _ h
    subst this
    cases e
    cases ht : t.throws <;> simp only [total, failures, ht, count, if_true, Bool.false_eq_true, if_false, Nat.add_zero, Nat.add_assoc, and_self]

/-- the tests that an argument selects, with their places -/
def selected (s : Int) (tests : List (Option TestCase)) : List TestCase :=
  if s < 0 then tests.filterMap id else ((tests[s.toNat]?).getD none).toList

theorem run_all (s : Int) (hs : s < 0) (tests : List (Option TestCase)) {c c' : Counters} {a : Int} {r : List (Nat × Nat)}
    (e : loop s c a tests = .ok (c', r)) :
    c'.totalErrors = c.totalErrors + ((tests.filterMap id).map failures).sum ∧
    c'.totalTests = c.totalTests + ((tests.filterMap id).map total).sum ∧
    (c.tests = 0 → c.errors = 0 → r = (tests.filterMap id).map (fun t => (total t, failures t))) ∧
    (c'.tests = 0 ∧ c'.errors = 0 ∨ c'.tests = c.tests ∧ c'.errors = c.errors) := by
  induction tests generalizing c a r with
  | nil => cases e; simp
  | cons t l ih =>
    simp only [loop, hs, true_or, if_true] at e
    cases ht : testrun c t with
    | error x => rw [ht] at e; cases e
    | ok p =>
      obtain ⟨c1, r1⟩ := p
      rw [ht] at e
      simp only at e
      cases hl : loop s c1 (a + 1) l with
      | error x => rw [hl] at e; cases e
      | ok p =>
        obtain ⟨c2, r2⟩ := p
        rw [hl] at e
        cases e
        obtain ⟨h1, h2, h3, h4⟩ := ih hl
        cases t with
        | none =>
          cases ht
          exact ⟨h1, h2, h3, h4⟩
        | some t =>
          obtain ⟨hc, hr⟩ := testrun_counts ht
          subst hc
          subst hr
          simp only [List.filterMap_cons, id, List.map_cons, List.sum_cons]
          refine ⟨by rw [h1]; simp only [Nat.add_assoc], by rw [h2]; simp only [Nat.add_assoc], fun a1 a2 => ?_, ?_⟩
          · rw [h3 rfl rfl, a1, a2]
            simp
          · rcases h4 with h4 | h4
            · exact .inl h4
            · exact .inl h4

theorem run_none (s : Int) (tests : List (Option TestCase)) {c : Counters} {a : Int} (hs : 0 ≤ s) (h : s < a ∨ a + tests.length ≤ s) :
    loop s c a tests = .ok (c, []) := by
  induction tests generalizing a with
  | nil => rfl
  | cons t l ih =>
    simp only [loop]
    simp only [List.length_cons] at h
    rw [if_neg (by omega)]
    exact ih (by omega)

theorem run_single (s : Int) (tests : List (Option TestCase)) {c : Counters} {a : Int} (hs : 0 ≤ s) (h1 : a ≤ s) (h2 : s < a + tests.length) :
    loop s c a tests = testrun c ((tests[(s - a).toNat]?).getD none) := by
  induction tests generalizing a with
  | nil => simp at h2; omega
  | cons t l ih =>
    simp only [loop]
    simp only [List.length_cons] at h2
    by_cases h : s = a
    · subst h
      rw [if_pos (.inr rfl), Int.sub_self]
      simp only [Int.toNat_zero, List.getElem?_cons_zero, Option.getD_some]
      cases testrun c t with
      | error x => rfl
      | ok p =>
        simp only [run_none s l hs (.inl (by omega : s < s + 1)), Except.map, List.append_nil]
    · rw [if_neg (by omega), ih (by omega) (by omega)]
      have e : (s - a).toNat = (s - (a + 1)).toNat + 1 := by omega
      rw [e, List.getElem?_cons_succ]

/-- execute() returns the number of assertions that failed in the selected tests (an exception is one), whatever happened before; the
report of each test has its numbers, provided no assertion was made before the first test. -/
theorem execute_counts {c : Counters} {arg : List Ch} {tests : List (Option TestCase)} {s : Int} {r : List (Nat × Nat)} {c' : Counters} {n : Nat}
    (hs : single arg = .ok s) (e : execute c arg tests = .ok (r, c', n)) :
    n = ((selected s tests).map failures).sum ∧ c'.totalTests = ((selected s tests).map total).sum ∧
    (c.tests = 0 → c.errors = 0 → r = (selected s tests).map (fun t => (total t, failures t)) ∧ c'.tests = 0 ∧ c'.errors = 0) := by
  simp only [execute, hs, bind, Except.bind, pure, Except.pure] at e
  cases hl : loop s ⟨c.tests, c.errors, 0, 0⟩ 0 tests with
  | error x => rw [hl] at e; cases e
  | ok p =>
    obtain ⟨c1, r1⟩ := p
    rw [hl] at e
    cases e
    by_cases h : s < 0
    · obtain ⟨h1, h2, h3, h4⟩ := run_all s h tests hl
      simp only [Nat.zero_add] at h1 h2
      simp only [selected, h, if_true]
      refine ⟨h1, h2, fun a1 a2 => ⟨h3 a1 a2, ?_⟩⟩
      rcases h4 with h4 | h4
      · exact h4
      · simp only at h4; exact ⟨h4.1.trans a1, h4.2.trans a2⟩
    · simp only [selected, h, if_false]
      by_cases h2 : s < tests.length
      · rw [run_single s tests (by omega) (by omega) (by omega)] at hl
        simp only [Int.sub_zero] at hl
        cases ht : (tests[s.toNat]?).getD none with
        | none =>
          rw [ht] at hl
          cases hl
          exact ⟨rfl, rfl, fun a1 a2 => ⟨rfl, a1, a2⟩⟩
        | some t =>
          rw [ht] at hl
          obtain ⟨hc, hr⟩ := testrun_counts hl
          subst hc
          subst hr
          simp only [Option.toList_some, List.map_cons, List.map_nil, List.sum_cons, List.sum_nil, Nat.zero_add, Nat.add_zero]
          refine ⟨trivial, trivial, fun a1 a2 => ?_⟩
          simp only [a1, a2, Nat.zero_add, and_self]
      · rw [run_none s tests (by omega) (.inr (by omega))] at hl
        cases hl
        have : tests[s.toNat]? = none := List.getElem?_eq_none_iff.2 (by omega)
        simp only [this, Option.getD_none, Option.toList_none, List.map_nil, List.sum_nil]
        exact ⟨trivial, trivial, fun a1 a2 => ⟨trivial, a1, a2⟩⟩

/-- the result is 0 exactly when everything in the selected tests went well -/
theorem execute_zero {c : Counters} {arg : List Ch} {tests : List (Option TestCase)} {s : Int} {r : List (Nat × Nat)} {c' : Counters} {n : Nat}
    (hs : single arg = .ok s) (e : execute c arg tests = .ok (r, c', n)) :
    n = 0 ↔ ∀ t ∈ selected s tests, t.throws = false ∧ ∀ a ∈ t.asserts, passes a = true := by
  rw [(execute_counts hs e).1]
  have key : ∀ t : TestCase, failures t = 0 ↔ t.throws = false ∧ ∀ a ∈ t.asserts, passes a = true := by
    intro t
    unfold failures
    have h1 : (t.asserts.filter (fun a => !passes a)).length = 0 ↔ ∀ a ∈ t.asserts, passes a = true := by
      rw [List.length_eq_zero_iff, List.filter_eq_nil_iff]
      constructor
      · intro h a ha; have := h a ha; simpa using this
      · intro h a ha; have := h a ha; simp [this]
    rw [← h1]
    cases t.throws <;> simp
  generalize selected s tests = l
  induction l with
  | nil => simp
  | cons t l ih =>
    simp only [List.map_cons, List.sum_cons, List.mem_cons, forall_eq_or_imp, ← key t, ← ih]
    omega

/-! ### the selection -/

/-- without an argument all tests run -/
theorem no_argument : single [] = .ok (-1) := rfl

/-- the number of a test selects this test -/
theorem number_selects {l : List Ch} {n : Nat} (h : Num.Props.IsNumeral l n) (hn : (n : Int) ≤ Num.maxInt64) : single l = .ok n := by
  have h1 : Num.toInt l = .ok (n : Int) := Num.Props.toInt_numeral (by
    unfold Num.Props.IsIntNumeral
    rw [if_neg (by omega)]
    simpa using h) (by unfold Num.minInt64; omega) hn
  have hne : l.length > 0 := by
    cases l with
    | nil => exact absurd rfl h.1
    | cons c l => simp
  simp only [single, hne, if_true, h1]

/-- an argument that is no number selects all tests -/
theorem word_selects_all (l m : List Ch) (c : Ch) (hl : ∀ c ∈ l, isDigit c) (hb : (Num.Props.natVal l : Int) ≤ Num.maxInt64)
    (hc : isDigit c = false) (hc2 : c ≠ 0x2d) : single (l ++ c :: m) = .ok (-1) := by
  simp only [single, Num.Props.toInt_bad_char l m c hl hb hc hc2, List.length_append, List.length_cons, gt_iff_lt]
  rw [if_pos (by omega)]

/-- the number of a test that does not exist: nothing is run, and the result is 0 - "everything is ok" -/
theorem beyond_is_fine {c : Counters} {arg : List Ch} {tests : List (Option TestCase)} {s : Int} (hs : single arg = .ok s) (h : (tests.length : Int) ≤ s) :
    execute c arg tests = .ok ([], ⟨c.tests, c.errors, 0, 0⟩, 0) := by
  simp only [execute, hs, bind, Except.bind, pure, Except.pure, run_none s tests (by omega) (.inr (by omega : (0 : Int) + tests.length ≤ s))]

/-- a single minus sign selects the first test, and a very long number is undefined -/
theorem odd_arguments : single [0x2d] = .ok 0 ∧
    single ([9,2,2,3,3,7,2,0,3,6,8,5,4,7,7,5,8,0,8].map (fun d => BitVec.ofNat 16 (d + 0x30))) = .error .ub := by decide +kernel

/-! ### the messages -/

/-- an assertion that compares the smallest int64 with another number is not reported: writing the message is undefined -/
theorem min_message (c : Counters) (e : BitVec 64) (h : e ≠ BitVec.intMin 64) : check c (.int64 (BitVec.intMin 64) e) = .error .ub := by
  have h1 : passes (.int64 (BitVec.intMin 64) e) = false := by
    simp only [passes, beq_eq_false_iff_ne]
    exact Ne.symm h
  have h2 : Num.valueOf (BitVec.intMin 64).toInt = .error .ub := Num.Props.valueOf_min_overflows
  simp only [check, h1, Bool.false_eq_true, if_false, shown, h2, bind, Except.bind, Except.map]

/-- no other number does this -/
def Extreme : Assert → Prop
  | .int64 a e => a = BitVec.intMin 64 ∨ e = BitVec.intMin 64
  | .int64int32 a _ => a = BitVec.intMin 64
  | _ => False

theorem valueOf_shown (a : BitVec 64) (h : a ≠ BitVec.intMin 64) : ∃ l, Num.valueOf a.toInt = .ok l := by
  have h1 := BitVec.toInt_lt (x := a)
  have h2 := BitVec.le_toInt (x := a)
  have h3 : a.toInt ≠ -2 ^ 63 := by
    intro e
    apply h
    rw [← BitVec.toInt_inj]
    rw [e]
    rfl
  obtain ⟨l, e, _⟩ := Num.Props.valueOf_partial a.toInt (by unfold Num.minInt64; omega) (by unfold Num.maxInt64; omega)
  exact ⟨l, e⟩

theorem valueOf_small (z : Int) (h1 : -2 ^ 32 ≤ z) (h2 : z < 2 ^ 32) : ∃ l, Num.valueOf z = .ok l := by
  obtain ⟨l, e, _⟩ := Num.Props.valueOf_partial z (by unfold Num.minInt64; omega) (by unfold Num.maxInt64; omega)
  exact ⟨l, e⟩

theorem check_defined (c : Counters) (a : Assert) (h : ¬ Extreme a) : ∃ c', check c a = .ok c' := by
  unfold check
  by_cases hp : passes a = true
  · rw [if_pos hp]; exact ⟨_, rfl⟩
  · rw [if_neg hp]
    suffices h2 : ∃ x, shown a = .ok x by
      obtain ⟨x, e⟩ := h2
      rw [e]
      exact ⟨_, rfl⟩
    have small : ∀ x : BitVec 32, ∃ l, Num.valueOf x.toInt = .ok l := by
      intro x
      have h1 := BitVec.toInt_lt (x := x)
      have h2 := BitVec.le_toInt (x := x)
      exact valueOf_small _ (by omega) (by omega)
    have usmall : ∀ x : BitVec 32, ∃ l, Num.valueOf (unsigned x).toInt = .ok l := by
      intro x
      have h1 := x.isLt
      rw [unsigned_toInt]
      exact valueOf_small _ (by omega) (by omega)
    have nat : ∀ n : Nat, ∃ l, Num.valueOfU n = .ok l := fun n => (Num.Props.valueOfU_spec n).imp fun l hl => hl.1
    cases a with
    | int64 a e =>
      obtain ⟨l, h1⟩ := valueOf_shown a (fun x => h (.inl x))
      obtain ⟨m, h2⟩ := valueOf_shown e (fun x => h (.inr x))
      exact ⟨[l, m], by simp only [shown, h1, h2, bind, Except.bind, pure, Except.pure]⟩
    | int64int32 a e =>
      obtain ⟨l, h1⟩ := valueOf_shown a h
      obtain ⟨m, h2⟩ := small e
      exact ⟨[l, m], by simp only [shown, h1, h2, bind, Except.bind, pure, Except.pure]⟩
    | uint64 a e =>
      obtain ⟨l, h1⟩ := nat a.toNat
      obtain ⟨m, h2⟩ := nat e.toNat
      exact ⟨[l, m], by simp only [shown, h1, h2, bind, Except.bind, pure, Except.pure]⟩
    | pointer a e =>
      obtain ⟨l, h1⟩ := nat a.toNat
      obtain ⟨m, h2⟩ := nat e.toNat
      exact ⟨[l, m], by simp only [shown, h1, h2, bind, Except.bind, pure, Except.pure]⟩
    | uint64int32 a e =>
      obtain ⟨l, h1⟩ := nat a.toNat
      obtain ⟨m, h2⟩ := nat (signed e).toNat
      exact ⟨[l, m], by simp only [shown, h1, h2, bind, Except.bind, pure, Except.pure]⟩
    | uint64uint32 a e =>
      obtain ⟨l, h1⟩ := nat a.toNat
      obtain ⟨m, h2⟩ := nat e.toNat
      exact ⟨[l, m], by simp only [shown, h1, h2, bind, Except.bind, pure, Except.pure]⟩
    | int32 a e =>
      obtain ⟨l, h1⟩ := small a
      obtain ⟨m, h2⟩ := small e
      exact ⟨[l, m], by simp only [shown, h1, h2, bind, Except.bind, pure, Except.pure]⟩
    | uint32 a e =>
      obtain ⟨l, h1⟩ := nat a.toNat
      obtain ⟨m, h2⟩ := nat e.toNat
      exact ⟨[l, m], by simp only [shown, h1, h2, bind, Except.bind, pure, Except.pure]⟩
    | uint32int32 a e =>
      obtain ⟨l, h1⟩ := usmall a
      obtain ⟨m, h2⟩ := small e
      exact ⟨[l, m], by simp only [shown, h1, h2, bind, Except.bind, pure, Except.pure]⟩
    | int32uint32 a e =>
      obtain ⟨l, h1⟩ := small a
      obtain ⟨m, h2⟩ := usmall e
      exact ⟨[l, m], by simp only [shown, h1, h2, bind, Except.bind, pure, Except.pure]⟩
    | _ => exact ⟨_, rfl⟩

/-- tests without such comparisons always run to the end -/
theorem execute_defined (c : Counters) (arg : List Ch) (tests : List (Option TestCase)) {s : Int} (hs : single arg = .ok s)
    (h : ∀ t ∈ tests.filterMap id, ∀ a ∈ t.asserts, ¬ Extreme a) : ∃ r c' n, execute c arg tests = .ok (r, c', n) := by
  have hchecks : ∀ (l : List Assert) (c : Counters), (∀ a ∈ l, ¬ Extreme a) → ∃ c', checks c l = .ok c' := by
    intro l
    induction l with
    | nil => exact fun c _ => ⟨c, rfl⟩
    | cons a l ih =>
      intro c hl
      obtain ⟨c1, e⟩ := check_defined c a (hl a (by simp))
      obtain ⟨c2, e2⟩ := ih c1 (fun b hb => hl b (by simp [hb]))
      exact ⟨c2, by simp only [checks, e, e2]⟩
  have hrun : ∀ (c : Counters) (t : Option TestCase), (∀ t', t = some t' → ∀ a ∈ t'.asserts, ¬ Extreme a) → ∃ p, testrun c t = .ok p := by
    intro c t ht
    cases t with
    | none => exact ⟨_, rfl⟩
    | some t =>
      obtain ⟨c1, e⟩ := hchecks t.asserts c (ht t rfl)
      simp only [testrun, e]
      exact ⟨_, rfl⟩
  have hloop : ∀ (tests : List (Option TestCase)) (c : Counters) (a : Int), (∀ t ∈ tests.filterMap id, ∀ a ∈ t.asserts, ¬ Extreme a) → ∃ p, loop s c a tests = .ok p := by
    intro tests
    induction tests with
    | nil => exact fun c a _ => ⟨_, rfl⟩
    | cons t l ih =>
      intro c a ht
      have hl : ∀ t ∈ l.filterMap id, ∀ a ∈ t.asserts, ¬ Extreme a := fun t' h' => ht t' (by
        rw [List.filterMap_cons]
        split
        · exact h'
        · exact List.mem_cons_of_mem _ h')
      obtain ⟨p, e⟩ := hrun c t (fun t' h' => ht t' (by rw [h']; simp))
      simp only [loop, e]
      split
      · obtain ⟨q, e2⟩ := ih p.1 (a + 1) hl
        rw [e2]
        exact ⟨_, rfl⟩
      · exact ih c (a + 1) hl
  obtain ⟨p, e⟩ := hloop tests ⟨c.tests, c.errors, 0, 0⟩ 0 h
  exact ⟨_, _, _, by simp only [execute, hs, bind, Except.bind, pure, Except.pure, e]; rfl⟩

/-! ### the hypotheses are met -/

/-- the example of Test.h, a test that throws, no test -/
def sample : List (Option TestCase) := [some ⟨[.int32 2 5, .int32 5 5], false⟩, none, some ⟨[.isTrue true], true⟩]

example : execute ⟨0, 0, 7, 7⟩ [] sample = .ok ([(2, 1), (2, 1)], ⟨0, 0, 4, 2⟩, 2) := by decide +kernel
example : execute ⟨0, 0, 0, 0⟩ [0x32] sample = .ok ([(2, 1)], ⟨0, 0, 2, 1⟩, 1) := by rfl
example : ∀ t ∈ sample.filterMap id, ∀ a ∈ t.asserts, ¬ Extreme a := by simp [sample, Extreme]
example : single [0x32] = .ok 2 := by rfl

end Verif.UnitTest.Props
