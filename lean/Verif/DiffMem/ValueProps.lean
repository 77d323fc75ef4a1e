import Verif.DiffMem.Values
import Verif.Math.FpTolProps
/-
C117: the lines of a diff report for numbers and strings.
-/
namespace Verif.DiffMem
open Verif Verif.Diff
open Verif.Charset (Ch)

/-! ### Specification: decimal numerals -/

def IsDigit (c : Byte) : Prop := 0x30 ≤ c.toNat ∧ c.toNat ≤ 0x39
/-- positional value -/
def natVal (l : List Byte) : Nat := l.foldl (fun v c => 10 * v + (c.toNat - 0x30)) 0
/-- a decimal numeral of a natural number, without needless zeros -/
def IsNat (l : List Byte) (n : Nat) : Prop := l ≠ [] ∧ (∀ c ∈ l, IsDigit c) ∧ natVal l = n ∧ (l.head? = some 0x30 → l = [0x30])
/-- a decimal numeral of an integer -/
def IsInt (l : List Byte) (z : Int) : Prop := (0 ≤ z ∧ IsNat l z.toNat) ∨ (z < 0 ∧ ∃ m, l = 0x2d :: m ∧ IsNat m (-z).toNat)

/-- one line of the report: the label and the rest -/
def Line (label : List Ch) (rest : List Byte) (out : List Byte) : Prop := out = asc "  " ++ con label ++ asc ": " ++ rest ++ asc "\n"

/-! ### Numerals -/

theorem digit_nat {d : Nat} (h : d < 10) : (BitVec.ofNat 8 (0x30 + d)).toNat = 0x30 + d := by
  rw [BitVec.toNat_ofNat]; omega

theorem natVal_snoc (l : List Byte) (c : Byte) : natVal (l ++ [c]) = 10 * natVal l + (c.toNat - 0x30) := by
  simp [natVal, List.foldl_append]

theorem decN_spec (n : Nat) : IsNat (decN n) n ∧ (0 < n → (decN n).head? ≠ some 0x30) := by
  induction n using Nat.strongRecOn with
  | ind n ih =>
    unfold decN
    split
    · rename_i h
      have hd := digit_nat h
      refine ⟨⟨by simp, ?_, ?_, ?_⟩, ?_⟩
      · intro c hc
        rw [List.mem_singleton] at hc
        subst hc
        unfold IsDigit; omega
      · simp only [natVal, List.foldl_cons, List.foldl_nil, hd]; omega
      · intro e
        simp only [List.head?_cons, Option.some.injEq] at e
        rw [e]
      · intro h0 e
        simp only [List.head?_cons, Option.some.injEq] at e
        have := congrArg BitVec.toNat e
        rw [hd] at this
        simp at this
        omega
    · rename_i h
      have hm : n % 10 < 10 := Nat.mod_lt _ (by decide)
      have hd := digit_nat hm
      obtain ⟨⟨h1, h2, h3, h4⟩, h5⟩ := ih (n / 10) (by omega)
      have hh : (decN (n / 10) ++ [BitVec.ofNat 8 (0x30 + n % 10)]).head? = (decN (n / 10)).head? := by
        cases e : decN (n / 10) with
        | nil => exact absurd e h1
        | cons a l => rfl
      have hne : (decN (n / 10)).head? ≠ some 0x30 := h5 (by omega)
      refine ⟨⟨by simp, ?_, ?_, ?_⟩, ?_⟩
      · intro c hc
        rw [List.mem_append, List.mem_singleton] at hc
        rcases hc with hc | rfl
        · exact h2 c hc
        · unfold IsDigit; omega
      · rw [natVal_snoc, h3, hd]; omega
      · rw [hh]; exact fun e => absurd e hne
      · rw [hh]; exact fun _ => hne

theorem dec_spec (z : Int) : IsInt (dec z) z := by
  unfold dec
  split
  · rename_i h
    refine Or.inr ⟨h, _, rfl, ?_⟩
    have : (-z).toNat = z.natAbs := by omega
    rw [this]; exact (decN_spec _).1
  · rename_i h
    refine Or.inl ⟨by omega, ?_⟩
    have : z.toNat = z.natAbs := by omega
    rw [this]; exact (decN_spec _).1

/-- a numeral names one number -/
theorem IsInt.unique {l : List Byte} {y z : Int} (h : IsInt l y) (g : IsInt l z) : y = z := by
  have key : ∀ {m : List Byte} {n : Nat}, IsNat (0x2d :: m) n → False := by
    intro m n hn
    have := hn.2.1 0x2d (by simp)
    simp [IsDigit] at this
  rcases h with ⟨h0, h1⟩ | ⟨h0, m, h1, h2⟩ <;> rcases g with ⟨g0, g1⟩ | ⟨g0, m', g1, g2⟩
  · have := h1.2.2.1.symm.trans g1.2.2.1; omega
  · rw [g1] at h1; exact (key h1).elim
  · rw [h1] at g1; exact (key g1).elim
  · rw [h1] at g1
    simp only [List.cons.injEq, true_and] at g1
    subst g1
    have := h2.2.2.1.symm.trans g2.2.2.1; omega

/-- numerals have no blanks: in front of a blank or a line end they can be found again -/
theorem IsInt.no_blank {l : List Byte} {z : Int} (h : IsInt l z) : ∀ c ∈ l, c ≠ 0x20 ∧ c ≠ 0x0a := by
  have key : ∀ {m : List Byte} {n : Nat}, IsNat m n → ∀ c ∈ m, c ≠ 0x20 ∧ c ≠ 0x0a := by
    intro m n hn c hc
    obtain ⟨h1, -⟩ := hn.2.1 c hc
    constructor <;> (rintro rfl; simp at h1)
  rcases h with ⟨-, h1⟩ | ⟨-, m, rfl, h2⟩
  · exact key h1
  · intro c hc
    rw [List.mem_cons] at hc
    rcases hc with rfl | hc
    · decide
    · exact key h2 c hc

theorem split_at {l m : List Byte} {c : Byte} {r s : List Byte} (hl : c ∉ l) (hm : c ∉ m) (h : l ++ c :: r = m ++ c :: s) : l = m ∧ r = s := by
  induction l generalizing m with
  | nil =>
    cases m with
    | nil => simpa using h
    | cons y m =>
      simp only [List.nil_append, List.cons_append, List.cons.injEq] at h
      exact absurd (by simp [h.1]) hm
  | cons x l ih =>
    cases m with
    | nil =>
      simp only [List.nil_append, List.cons_append, List.cons.injEq] at h
      exact absurd (by simp [h.1]) hl
    | cons y m =>
      simp only [List.cons_append, List.cons.injEq] at h
      obtain ⟨e1, e2⟩ := ih (fun hc => hl (by simp [hc])) (fun hc => hm (by simp [hc])) h.2
      exact ⟨by rw [h.1, e1], e2⟩

/-! ### Integers -/

/-- the line of a changed number -/
def Change (label : List Ch) (a b d : Int) (out : List Byte) : Prop :=
  ∃ A B D, IsInt A a ∧ IsInt B b ∧ IsInt D d ∧ Line label (A ++ asc " -> " ++ B ++ asc " delta: " ++ D) out
/-- the line of an added or deleted number -/
def Single (label : List Ch) (a : Int) (out : List Byte) : Prop := ∃ A, IsInt A a ∧ Line label A out

theorem ssub_iff (a b : BitVec 64) : BitVec.ssubOverflow b a = true ↔ ¬ (-2 ^ 63 ≤ b.toInt - a.toInt ∧ b.toInt - a.toInt < 2 ^ 63) := by
  simp only [BitVec.ssubOverflow, Bool.or_eq_true, decide_eq_true_eq]
  omega

theorem toInt_sub (a b : BitVec 64) (h : BitVec.ssubOverflow b a ≠ true) : (b - a).toInt = b.toInt - a.toInt := by
  exact BitVec.toInt_sub_of_not_ssubOverflow (by simpa using h)

/-- int64: nothing is written exactly if nothing changed; otherwise one line with the old value, the new one and their difference,
if that fits into int64. -/
theorem int64_change_partial (a b : BitVec 64) (label : List Ch) (h : -2 ^ 63 ≤ b.toInt - a.toInt ∧ b.toInt - a.toInt < 2 ^ 63) :
    (a = b → printI64 .modified a b label = .ok []) ∧
    (a ≠ b → ∃ out, printI64 .modified a b label = .ok out ∧ Change label a.toInt b.toInt (b.toInt - a.toInt) out) := by
  have ho : ¬ BitVec.ssubOverflow b a = true := by rw [ssub_iff]; exact fun g => g h
  refine ⟨fun e => by simp [printI64, e], fun e => ?_⟩
  simp only [printI64, e, ne_eq, not_false_eq_true, if_true, ho, Bool.false_eq_true, if_false]
  exact ⟨_, rfl, _, _, _, dec_spec _, dec_spec _, by rw [← toInt_sub a b ho]; exact dec_spec _, by simp [Line, lead]⟩

/-- int64: a change by 2^63 or more is undefined behaviour. -/
theorem int64_overflow (a b : BitVec 64) (label : List Ch) (h : ¬ (-2 ^ 63 ≤ b.toInt - a.toInt ∧ b.toInt - a.toInt < 2 ^ 63)) :
    printI64 .modified a b label = .error .ub := by
  have ho := (ssub_iff a b).2 h
  have hn : a ≠ b := by rintro rfl; exact h (by omega)
  simp [printI64, hn, ho]

example : printI64 .modified 0x8000000000000000 1 [] = .error .ub := int64_overflow _ _ _ (by decide)

/-- int32: never undefined, for all pairs -/
theorem int32_change (a b : BitVec 32) (label : List Ch) :
    (a = b → printI32 .modified a b label = .ok []) ∧
    (a ≠ b → ∃ out, printI32 .modified a b label = .ok out ∧ Change label a.toInt b.toInt (b.toInt - a.toInt) out) := by
  have ea : (a.signExtend 64).toInt = a.toInt := BitVec.toInt_signExtend_of_le (by decide)
  have eb : (b.signExtend 64).toInt = b.toInt := BitVec.toInt_signExtend_of_le (by decide)
  have ha := @BitVec.toInt_lt 32 a
  have ha' := @BitVec.le_toInt 32 a
  have hb := @BitVec.toInt_lt 32 b
  have hb' := @BitVec.le_toInt 32 b
  have key := int64_change_partial (a.signExtend 64) (b.signExtend 64) label (by rw [ea, eb]; omega)
  rw [ea, eb] at key
  have inj : a.signExtend 64 = b.signExtend 64 ↔ a = b := by
    refine ⟨fun h => BitVec.eq_of_toInt_eq ?_, fun h => by rw [h]⟩
    rw [← ea, ← eb, h]
  rw [inj] at key
  exact ⟨key.1, fun h => key.2 (fun e => h (inj.1 e))⟩

/-- uint64: the difference is taken modulo 2^64 -/
theorem uint64_change (a b : BitVec 64) (label : List Ch) :
    (a = b → printU64 .modified a b label = .ok []) ∧
    (a ≠ b → ∃ out, printU64 .modified a b label = .ok out ∧ Change label a.toNat b.toNat (((b.toNat : Int) - a.toNat) % 2 ^ 64) out) := by
  refine ⟨fun e => by simp [printU64, e], fun e => ?_⟩
  simp only [printU64, e, ne_eq, not_false_eq_true, if_true]
  refine ⟨_, rfl, _, _, dec ((b - a).toNat : Int), dec_spec _, dec_spec _, ?_, by simp only [Line, lead, List.append_assoc]⟩
  have : ((b.toNat : Int) - a.toNat) % 2 ^ 64 = ((b - a).toNat : Int) := by
    rw [BitVec.toNat_sub]
    have := a.isLt
    have := b.isLt
    omega
  rw [this]
  exact dec_spec _

/-- so the difference of unsigned numbers is right exactly if the number did not get smaller -/
theorem unsigned_delta (a b : BitVec 64) : ((b.toNat : Int) - a.toNat) % 2 ^ 64 = (b.toNat : Int) - a.toNat ↔ a.toNat ≤ b.toNat := by
  have := a.isLt
  have := b.isLt
  omega

theorem uint32_change (a b : BitVec 32) (label : List Ch) :
    (a = b → printU32 .modified a b label = .ok []) ∧
    (a ≠ b → ∃ out, printU32 .modified a b label = .ok out ∧ Change label a.toNat b.toNat (((b.toNat : Int) - a.toNat) % 2 ^ 64) out) := by
  have ea : (a.setWidth 64).toNat = a.toNat := by rw [BitVec.toNat_setWidth]; have := a.isLt; omega
  have eb : (b.setWidth 64).toNat = b.toNat := by rw [BitVec.toNat_setWidth]; have := b.isLt; omega
  have key := uint64_change (a.setWidth 64) (b.setWidth 64) label
  rw [ea, eb] at key
  have inj : a.setWidth 64 = b.setWidth 64 ↔ a = b := by
    refine ⟨fun h => BitVec.eq_of_toNat_eq ?_, fun h => by rw [h]⟩
    rw [← ea, ← eb, h]
  rw [inj] at key
  exact ⟨key.1, fun h => key.2 (fun e => h (inj.1 e))⟩

/-- a counter that goes down from 5 to 4 is said to have changed by 18446744073709551615 -/
theorem unsigned_decrease : printU32 .modified 5 4 [0x6e] = .ok (asc "  n: 5 -> 4 delta: 18446744073709551615\n") := by decide +kernel

/-- The line of a change tells the values: two changes with the same label and the same line are the same. -/
theorem change_unique {label : List Ch} {a b d a' b' d' : Int} {out : List Byte} (h : Change label a b d out) (h' : Change label a' b' d' out) :
    a = a' ∧ b = b' ∧ d = d' := by
  obtain ⟨A, B, D, hA, hB, hD, e⟩ := h
  obtain ⟨A', B', D', hA', hB', hD', e'⟩ := h'
  unfold Line at e e'
  rw [e] at e'
  simp only [List.append_assoc, List.append_cancel_left_eq] at e'
  have s1 : asc " -> " = 0x20 :: asc "-> " := rfl
  have s2 : asc " delta: " = 0x20 :: asc "delta: " := rfl
  have s3 : asc "\n" = 0x0a :: [] := rfl
  rw [s1, s2, s3] at e'
  simp only [List.cons_append] at e'
  have nb : ∀ {l : List Byte} {z : Int}, IsInt l z → (0x20 : Byte) ∉ l := fun h hc => (h.no_blank _ hc).1 rfl
  have nl : ∀ {l : List Byte} {z : Int}, IsInt l z → (0x0a : Byte) ∉ l := fun h hc => (h.no_blank _ hc).2 rfl
  obtain ⟨rfl, e1⟩ := split_at (nb hA) (nb hA') e'
  rw [List.append_cancel_left_eq] at e1
  obtain ⟨rfl, e2⟩ := split_at (nb hB) (nb hB') e1
  rw [List.append_cancel_left_eq] at e2
  obtain ⟨rfl, -⟩ := split_at (nl hD) (nl hD') e2
  exact ⟨hA.unique hA', hB.unique hB', hD.unique hD'⟩

/-- Added and deleted objects: one line with the value; everything else: nothing. -/
theorem integer_single (op : DOp) (h : op = .add ∨ op = .delete) (label : List Ch) :
    (∀ a b : BitVec 64, ∃ out, printI64 op a b label = .ok out ∧ Single label a.toInt out) ∧
    (∀ a b : BitVec 64, ∃ out, printU64 op a b label = .ok out ∧ Single label a.toNat out) ∧
    (∀ a b : BitVec 32, ∃ out, printI32 op a b label = .ok out ∧ Single label a.toInt out) ∧
    (∀ a b : BitVec 32, ∃ out, printU32 op a b label = .ok out ∧ Single label a.toNat out) := by
  have e32 : ∀ a : BitVec 32, (a.signExtend 64).toInt = a.toInt := fun a => BitVec.toInt_signExtend_of_le (by decide)
  have u32 : ∀ a : BitVec 32, (a.setWidth 64).toNat = a.toNat := fun a => by rw [BitVec.toNat_setWidth]; have := a.isLt; omega
  have k1 : ∀ a b : BitVec 64, ∃ out, printI64 op a b label = .ok out ∧ Single label a.toInt out := by
    intro a b
    rcases h with rfl | rfl <;> exact ⟨_, rfl, _, dec_spec _, by simp [Line, lead]⟩
  have k2 : ∀ a b : BitVec 64, ∃ out, printU64 op a b label = .ok out ∧ Single label a.toNat out := by
    intro a b
    rcases h with rfl | rfl <;> exact ⟨_, rfl, _, dec_spec _, by simp [Line, lead]⟩
  refine ⟨k1, k2, fun a b => ?_, fun a b => ?_⟩
  · have := k1 (a.signExtend 64) (b.signExtend 64)
    rw [e32] at this; exact this
  · have := k2 (a.setWidth 64) (b.setWidth 64)
    rw [u32] at this; exact this

/-- steps that keep an object write nothing -/
theorem keep_silent (pr : Fp.F64 → List Byte) (op : DOp) (h : op = .equal ∨ op = .start) (label : List Ch) :
    (∀ a b, printI64 op a b label = .ok []) ∧ (∀ a b, printU64 op a b label = .ok []) ∧ (∀ a b, printI32 op a b label = .ok []) ∧
    (∀ a b, printU32 op a b label = .ok []) ∧ (∀ a b, printF64 pr op a b label = []) ∧ (∀ a b, printStr op a b label = []) ∧
    (∀ a b, printStrIgnoreCase op a b label = []) ∧ (∀ a b, printV pr op a b label = []) := by
  rcases h with rfl | rfl <;> exact ⟨fun _ _ => rfl, fun _ _ => rfl, fun _ _ => rfl, fun _ _ => rfl, fun _ _ => rfl, fun _ _ => rfl, fun _ _ => rfl, fun _ _ => rfl⟩

/-! ### Strings -/

theorem line_ne_nil {label : List Ch} {r out : List Byte} (h : Line label r out) : out ≠ [] := by
  unfold Line at h
  rw [h]; simp [asc]

/-- Strings: nothing is written exactly if they are equal; otherwise both are. -/
theorem string_change (a b label : List Ch) :
    (a = b → printStr .modified a b label = []) ∧ (a ≠ b → Line label (con a ++ asc " -> " ++ con b) (printStr .modified a b label)) ∧
    (printStr .modified a b label = [] ↔ a = b) := by
  have h1 : a = b → printStr .modified a b label = [] := fun e => by simp [printStr, e]
  have h2 : a ≠ b → Line label (con a ++ asc " -> " ++ con b) (printStr .modified a b label) := fun e => by simp [printStr, e, Line, lead]
  exact ⟨h1, h2, ⟨fun e => Decidable.byContradiction fun g => line_ne_nil (h2 g) e, h1⟩⟩

/-- ignoring case: exactly if they are equal after lower-casing -/
theorem string_change_ignore_case (a b label : List Ch) :
    (a.map Str.toLowerCh = b.map Str.toLowerCh → printStrIgnoreCase .modified a b label = []) ∧
    (a.map Str.toLowerCh ≠ b.map Str.toLowerCh → Line label (con a ++ asc " -> " ++ con b) (printStrIgnoreCase .modified a b label)) ∧
    (printStrIgnoreCase .modified a b label = [] ↔ a.map Str.toLowerCh = b.map Str.toLowerCh) := by
  have h1 : a.map Str.toLowerCh = b.map Str.toLowerCh → printStrIgnoreCase .modified a b label = [] := fun e => by simp [printStrIgnoreCase, e]
  have h2 : a.map Str.toLowerCh ≠ b.map Str.toLowerCh → Line label (con a ++ asc " -> " ++ con b) (printStrIgnoreCase .modified a b label) :=
    fun e => by simp [printStrIgnoreCase, e, Line, lead]
  exact ⟨h1, h2, ⟨fun e => Decidable.byContradiction fun g => line_ne_nil (h2 g) e, h1⟩⟩

/-- added and deleted strings -/
theorem string_single (op : DOp) (h : op = .add ∨ op = .delete) (a b label : List Ch) :
    Line label (con a) (printStr op a b label) ∧ Line label (con a) (printStrIgnoreCase op a b label) := by
  rcases h with rfl | rfl <;> simp [Line, lead, printStr, printStrIgnoreCase]

/-- The line of a changed string does not tell the values: a string may contain the arrow, characters whose code is a
multiple of 256 end the string, and others the console does not have look like letters. -/
theorem string_ambiguous : printStr .modified [0x61] [0x62, 0x20, 0x2d, 0x3e, 0x20, 0x63] [0x6e] = printStr .modified [0x61, 0x20, 0x2d, 0x3e, 0x20, 0x62] [0x63] [0x6e] ∧
    printStr .modified [0x61] [0x61, 0x100, 0x62] [0x6e] = asc "  n: a -> a\n" ∧ printStr .modified [0x41] [0x141] [0x6e] = asc "  n: A -> A\n" := by
  decide +kernel

/-! ### Doubles -/

open Verif.Fp (F64)

/-- Doubles: at most one line, and none exactly if the values are equal up to the tolerance of `isEqual`. -/
theorem double_change (pr : F64 → List Byte) (a b : F64) (label : List Ch) :
    (Math.Fl.isEqual a b = true → printF64 pr .modified a b label = []) ∧
    (Math.Fl.isEqual a b = false → Line label (pr a ++ asc " -> " ++ pr b ++ asc " delta: " ++ pr (b - a)) (printF64 pr .modified a b label)) := by
  simp only [printF64, Math.Fl.isNotEqual_not]
  exact ⟨fun h => by simp [h], fun h => by simp [h, Line, lead]⟩

/-- changes by 10^-6 or more are never missed, changes up to 9·10^-7 of values below 2^29 never shown -/
theorem double_tolerance_partial (pr : F64 → List Byte) (a b : F64) (ha : Fp.Finite a) (hb : Fp.Finite b) (label : List Ch) :
    (1 / 10 ^ 6 ≤ |Fp.val b - Fp.val a| → printF64 pr .modified a b label ≠ []) ∧
    (|Fp.val a| < 2 ^ 29 → |Fp.val b| < 2 ^ 29 → |Fp.val b - Fp.val a| ≤ 9 / 10 ^ 7 → printF64 pr .modified a b label = []) := by
  obtain ⟨t1, t2, t3⟩ := Math.Fl.tolerance_fp_partial a b ha hb
  refine ⟨fun h => line_ne_nil ((double_change pr a b label).2 ?_), fun h1 h2 h3 => (double_change pr a b label).1 (t3 h1 h2 h3).2.1⟩
  rcases le_abs.1 h with h | h
  · exact (t1 h).2.1
  · exact (t2 (by linarith)).2.1

/-- the same for the vertices -/
theorem vertexNe_iff : ∀ (a b : List F64), a.length = b.length → (vertexNe a b = false ↔ ∀ p ∈ a.zip b, Math.Fl.isEqual p.1 p.2 = true)
  | [], [], _ => by simp [vertexNe]
  | x :: a, y :: b, h => by
    have := vertexNe_iff a b (by simpa using h)
    simp only [vertexNe, Bool.or_eq_false_iff, this, Math.Fl.isNotEqual_not, Bool.not_eq_false', List.zip_cons_cons, List.forall_mem_cons]
  | [], _ :: _, h => by simp at h
  | _ :: _, [], h => by simp at h

theorem vertex_change (pr : F64 → List Byte) (a b : List F64) (hl : a.length = b.length) (label : List Ch) :
    ((∀ p ∈ a.zip b, Math.Fl.isEqual p.1 p.2 = true) → printV pr .modified a b label = []) ∧
    ((∃ p ∈ a.zip b, Math.Fl.isEqual p.1 p.2 = false) → Line label (showV pr a ++ asc " -> " ++ showV pr b) (printV pr .modified a b label)) := by
  have e := vertexNe_iff a b hl
  refine ⟨fun h => by simp [printV, e.2 h], fun ⟨p, hp, h⟩ => ?_⟩
  have : vertexNe a b = true := by
    rw [← Bool.not_eq_false, e]
    intro g
    rw [g p hp] at h
    cases h
  simp [printV, this, Line, lead]

/-- an unchanged infinity or NaN is reported as a change -/
theorem special_reported (pr : F64 → List Byte) (label : List Ch) : printF64 pr .modified .nan .nan label ≠ [] ∧
    ∀ s, printF64 pr .modified (Fp.mk s Fp.infBits) (Fp.mk s Fp.infBits) label ≠ [] :=
  ⟨line_ne_nil ((double_change pr _ _ label).2 Math.Fl.isEqual_refl_special.1),
   fun s => line_ne_nil ((double_change pr _ _ label).2 (Math.Fl.isEqual_refl_special.2 s))⟩

/-! ### The theorems apply -/

example : printI32 .modified 7 (-3) [0x6e] = .ok (asc "  n: 7 -> -3 delta: -10\n") := by decide +kernel
example : printI64 .modified 7 (-3) [0x6e] = .ok (asc "  n: 7 -> -3 delta: -10\n") := by decide +kernel
example : printI64 .add (-12) 0 [0x6e] = .ok (asc "  n: -12\n") := by decide +kernel
example := (int64_change_partial 7 (-3) [0x6e] (by decide)).2 (by decide)
example := (double_tolerance_partial (fun _ => []) (Fp.lit 1 10) (Fp.lit 2 10) (by decide +kernel) (by decide +kernel) []).1

end Verif.DiffMem
