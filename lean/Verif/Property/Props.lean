import Verif.Property.Spec
import Verif.Math.FpTol
import Mathlib.Data.List.Induction
/-
C90: values of properties.  C91: comparing properties.
-/
namespace Verif.Property
open Verif Verif.Str Verif.Property.Spec

theorem run_append (p : Property) (a b : List Op) : run p (a ++ b) = run (run p a) b := List.foldl_append

theorem low_byte (n : BitVec 64) (v : Bool) : ((n &&& 0xFFFFFFFFFFFFFF00) ||| (if v then 1 else 0)).setWidth 8 = if v then 1 else 0 := by
  apply BitVec.eq_of_getLsbD_eq
  intro i hi
  have h : ∀ i : Nat, i < 8 → (0xFFFFFFFFFFFFFF00 : BitVec 64).getLsbD i = false := by decide
  rw [BitVec.getLsbD_setWidth, BitVec.getLsbD_or, BitVec.getLsbD_and, h i hi, Bool.and_false, Bool.false_or]
  have h2 : ∀ v : Bool, ∀ i : Nat, i < 8 → (decide (i < 8) && (if v then (1 : BitVec 64) else 0).getLsbD i) = (if v then (1 : BitVec 8) else 0).getLsbD i := by decide
  exact h2 v i hi

theorem bool_read (p : Property) (v : Bool) : (p.setBoolValue v).boolValue = .ok v := by
  have h : (p.setBoolValue v).number.setWidth 8 = if v then 1 else 0 := low_byte p.number v
  unfold Property.boolValue
  rw [h]
  cases v <;> rfl

theorem keeps (p : Property) : ∀ b : List Op, (∀ o ∈ b, KeepsNumber o) → (run p b).number = p.number
  | [], _ => rfl
  | o :: b, h => by
    have h1 := h o (by simp)
    rw [show run p (o :: b) = run (step p o) b from rfl, keeps (step p o) b (fun x hx => h x (by simp [hx]))]
    cases o <;> first | rfl | exact absurd h1 id

/-! ### C90 -/

/-- **C90.** Whatever was called before, and whatever texts are set afterwards: the number that was set last is read back.  For a truth
value the same holds, though the other bytes of the number stay. -/
theorem number_last (p : Property) (a b : List Op) (hb : ∀ o ∈ b, KeepsNumber o) :
    (∀ v, (run p (a ++ .integer v :: b)).integerValue = v) ∧ (∀ v, (run p (a ++ .double v :: b)).doubleValue = v) ∧
    (∀ v u, (run p (a ++ .unit v u :: b)).doubleValue = v) ∧ (∀ v, (run p (a ++ .bool v :: b)).boolValue = .ok v) := by
  have e : ∀ o, run p (a ++ o :: b) = run (step (run p a) o) b := fun o => by rw [run_append]; rfl
  refine ⟨fun v => ?_, fun v => ?_, fun v u => ?_, fun v => ?_⟩
  · show (run p _).number = v; rw [e, keeps _ _ hb]; rfl
  · show (run p _).number = v; rw [e, keeps _ _ hb]; rfl
  · show (run p _).number = v; rw [e, keeps _ _ hb]; rfl
  · have h := bool_read (run p a) v
    unfold Property.boolValue at h ⊢
    rw [e, keeps _ _ hb]
    exact h

/-- **C90.** The text is the one set last, the type that of the last call. -/
theorem text_last (p : Property) (ops : List Op) :
    (run p ops).stringValue = (ops.reverse.findSome? textOf).getD p.text ∧ (run p ops).type = (ops.getLast?.map typeOf).getD p.type ∧
    (run p ops).id = p.id ∧ (run p ops).editor = p.editor := by
  induction ops using List.reverseRecOn with
  | nil => exact ⟨rfl, rfl, rfl, rfl⟩
  | append_singleton ops o ih =>
    obtain ⟨h1, h2, h3, h4⟩ := ih
    rw [run_append]
    simp only [List.reverse_append, List.reverse_cons, List.reverse_nil, List.nil_append, List.cons_append, List.findSome?_cons,
      List.getLast?_append, List.getLast?_singleton, Option.or_some, Option.some_or, Option.map_some, Option.getD_some]
    refine ⟨?_, ?_, ?_, ?_⟩
    · cases o <;> first | rfl | exact h1
    · cases o <;> rfl
    · cases o <;> exact h3
    · cases o <;> exact h4

/-- A number that is neither 0 nor 1 in its lowest byte is no truth value. -/
theorem bool_of_number (p : Property) (v : BitVec 64) : (p.setIntegerValue v).boolValue = .error .ub ↔ v.setWidth 8 ≠ 0 ∧ v.setWidth 8 ≠ 1 := by
  unfold Property.boolValue
  show (if v.setWidth 8 = 0 then _ else if v.setWidth 8 = 1 then _ else _) = _ ↔ _
  by_cases h0 : v.setWidth 8 = 0
  · rw [if_pos h0]; exact iff_of_false (fun h => by cases h) (fun h => h.1 h0)
  · rw [if_neg h0]
    by_cases h1 : v.setWidth 8 = 1
    · rw [if_pos h1]; exact iff_of_false (fun h => by cases h) (fun h => h.2 h1)
    · rw [if_neg h1]; exact iff_of_true rfl ⟨h0, h1⟩

/-- Such numbers exist: 2. -/
theorem bool_of_two (p : Property) : (p.setIntegerValue 2).boolValue = .error .ub := (bool_of_number p 2).2 (by decide)

/-! ### C91: `isValueEquals`, `setValue` -/

/-- **C91 (`isValueEquals`).** Text and all 64 bits of the number are compared, not the type. -/
theorem valueEquals_iff (p q : Property) : p.isValueEquals q = true ↔ p.text = q.text ∧ p.number = q.number := by
  unfold Property.isValueEquals
  by_cases h : p.text = q.text
  · have : (p.text == q.text) = true := by simpa using h
    rw [this, if_neg (by simp)]
    by_cases h2 : p.number = q.number
    · rw [if_neg (by simpa using h2)]; exact iff_of_true rfl ⟨h, h2⟩
    · rw [if_pos h2]; exact iff_of_false (by simp) (fun x => h2 x.2)
  · have : (p.text == q.text) = false := by simpa using h
    rw [this, if_pos rfl]; exact iff_of_false (by simp) (fun x => h x.1)

/-- **C91.** `isValueEquals` is an equivalence. -/
theorem valueEquals_equivalence : (∀ p, Property.isValueEquals p p = true) ∧ (∀ p q, Property.isValueEquals p q = Property.isValueEquals q p) ∧
    ∀ p q r, Property.isValueEquals p q = true → Property.isValueEquals q r = true → Property.isValueEquals p r = true := by
  refine ⟨fun p => (valueEquals_iff p p).2 ⟨rfl, rfl⟩, fun p q => ?_, fun p q r h1 h2 => ?_⟩
  · rw [Bool.eq_iff_iff, valueEquals_iff, valueEquals_iff]
    exact ⟨fun h => ⟨h.1.symm, h.2.symm⟩, fun h => ⟨h.1.symm, h.2.symm⟩⟩
  · rw [valueEquals_iff] at *
    exact ⟨h1.1.trans h2.1, h1.2.trans h2.2⟩

/-- **C91.** After `setValue` the values are equal, and all reads answer the same. -/
theorem setValue_equal (p q : Property) : (p.setValue q).isValueEquals q = true ∧ (p.setValue q).stringValue = q.stringValue ∧
    (p.setValue q).integerValue = q.integerValue ∧ (p.setValue q).doubleValue = q.doubleValue ∧ (p.setValue q).boolValue = q.boolValue ∧
    (p.setValue q).type = q.type ∧ (p.setValue q).id = p.id :=
  ⟨(valueEquals_iff _ _).2 ⟨rfl, rfl⟩, rfl, rfl, rfl, rfl, rfl, rfl⟩

theorem run_same (p q : Property) (h1 : p.text = q.text) (h2 : p.number = q.number) : ∀ ops : List Op,
    (run p ops).text = (run q ops).text ∧ (run p ops).number = (run q ops).number := by
  intro ops
  induction ops using List.reverseRecOn with
  | nil => exact ⟨h1, h2⟩
  | append_singleton ops o ih =>
    rw [run_append, run_append]
    cases o with
    | string v => exact ⟨rfl, ih.2⟩
    | unit v u => exact ⟨rfl, rfl⟩
    | integer v => exact ⟨ih.1, rfl⟩
    | double v => exact ⟨ih.1, rfl⟩
    | bool v => exact ⟨ih.1, by show (_ &&& _) ||| _ = (_ &&& _) ||| _; rw [ih.2]⟩
    | type t => exact ih

/-- **C91.** The same calls on two new properties lead to equal values. -/
theorem same_calls (i j e f : List Ch) (ops : List Op) : (run (.newWith i e) ops).isValueEquals (run (.newWith j f) ops) = true :=
  (valueEquals_iff _ _).2 (run_same (.newWith i e) (.newWith j f) rfl rfl ops)

/-- **C91 fails**: two properties with the same truth value, set last, are different, because one was a number before. -/
theorem bool_history : ∃ p q : Property, (p.setBoolValue true).boolValue = (q.setBoolValue true).boolValue ∧ p.text = q.text ∧
    (p.setBoolValue true).isValueEquals (q.setBoolValue true) = false :=
  ⟨(Property.new []).setIntegerValue 256, Property.new [], by decide +kernel, rfl, by decide +kernel⟩

/-- **C91 fails**: the same number, set last, with another text before. -/
theorem number_history : ∃ p q : Property, ∀ v, (p.setIntegerValue v).integerValue = (q.setIntegerValue v).integerValue ∧
    (p.setIntegerValue v).isValueEquals (q.setIntegerValue v) = false := by
  refine ⟨(Property.new []).setStringValue [0x61], Property.new [], fun v => ⟨rfl, ?_⟩⟩
  rw [← Bool.not_eq_true, valueEquals_iff]
  exact fun h => absurd (show ([0x61] : List Ch) = [] from h.1) (by simp)

/-! ### C91: `operator==` -/

theorem bool_run {p : Property} (h : BoolOk p) : p.boolValue = .ok (p.number.setWidth 8 == 1) := by
  unfold Property.boolValue
  rcases h with h | h
  · rw [if_pos h, h]; rfl
  · rw [h, if_neg (by decide), if_pos rfl]; rfl

/-- **C91 (`operator==`), partial.** For properties with a known editor and another type than `kValue`: equal if and only if id, editor
and the content of the editor are the same. -/
theorem equals_partial (p q : Property) (c : Content) (hc : (p.editor, c) ∈ contents) (ht : p.type ≠ .value)
    (hb : c = .bool → BoolOk p ∧ BoolOk q) :
    ∃ r, p.equals q = .ok r ∧ (r = true ↔ p.id = q.id ∧ p.editor = q.editor ∧ Same p q c) := by
  unfold Property.equals
  by_cases h1 : p.id = q.id
  swap
  · rw [if_pos (show (p.id == q.id) = false by simpa using h1)]; exact ⟨_, rfl, by simp [h1]⟩
  by_cases h2 : p.editor = q.editor
  swap
  · rw [if_neg (show ¬ (p.id == q.id) = false by simpa using h1), if_pos (show (p.editor == q.editor) = false by simpa using h2)]
    exact ⟨_, rfl, by simp [h2]⟩
  rw [if_neg (show ¬ (p.id == q.id) = false by simpa using h1), if_neg (show ¬ (p.editor == q.editor) = false by simpa using h2), if_neg ht]
  have hu : Property.unitsEqual p q = true ↔ Same p q .unit := by
    unfold Property.unitsEqual Same
    rw [Bool.and_eq_true, beq_iff_eq]
  have hbo : BoolOk p ∧ BoolOk q → ∃ r, Property.boolsEqual p q = .ok r ∧ (r = true ↔ Same p q .bool) := by
    intro ⟨b1, b2⟩
    refine ⟨_, by simp only [Property.boolsEqual, bool_run b1, bool_run b2, bind, Except.bind, pure, Except.pure]; rfl, ?_⟩
    show _ ↔ p.number.setWidth 8 = q.number.setWidth 8
    rcases b1 with e1 | e1 <;> rcases b2 with e2 | e2 <;> rw [e1, e2] <;> decide
  simp only [contents, List.mem_cons, Prod.mk.injEq, List.not_mem_nil, or_false] at hc
  rcases hc with ⟨e, rfl⟩ | ⟨e, rfl⟩ | ⟨e, rfl⟩ | ⟨e, rfl⟩ | ⟨e, rfl⟩ | ⟨e, rfl⟩ | ⟨e, rfl⟩ | ⟨e, rfl⟩ <;> rw [← h2, e]
  · rw [if_pos rfl]; exact ⟨_, rfl, by simp [h1, Same]⟩
  · rw [if_neg (by decide +kernel), if_pos rfl]; exact ⟨_, rfl, by simp [h1, Same]⟩
  · rw [if_neg (by decide +kernel), if_neg (by decide +kernel), if_pos rfl]
    obtain ⟨r, er, hr⟩ := hbo (hb rfl)
    exact ⟨r, er, by simp [h1, hr]⟩
  · rw [if_neg (by decide +kernel), if_neg (by decide +kernel), if_neg (by decide +kernel), if_pos rfl]; exact ⟨_, rfl, by simp [h1, Same]⟩
  · rw [if_neg (by decide +kernel), if_neg (by decide +kernel), if_neg (by decide +kernel), if_neg (by decide +kernel), if_pos rfl]
    exact ⟨_, rfl, by simp [h1, Same]⟩
  · rw [if_neg (by decide +kernel), if_neg (by decide +kernel), if_neg (by decide +kernel), if_neg (by decide +kernel), if_neg (by decide +kernel),
      if_pos rfl]
    exact ⟨_, rfl, by rw [hu]; simp [h1]⟩
  · rw [if_neg (by decide +kernel), if_neg (by decide +kernel), if_neg (by decide +kernel), if_neg (by decide +kernel), if_neg (by decide +kernel),
      if_neg (by decide +kernel), if_pos rfl]
    exact ⟨_, rfl, by simp [h1, Same]⟩
  · rw [if_neg (by decide +kernel), if_neg (by decide +kernel), if_neg (by decide +kernel), if_neg (by decide +kernel), if_neg (by decide +kernel),
      if_neg (by decide +kernel), if_neg (by decide +kernel), if_pos rfl]
    exact ⟨_, rfl, by simp [h1, Same]⟩

/-- With the type `kValue` on the left: number (with the tolerance of `isEqual`) and unit, for every editor. -/
theorem equals_value (p q : Property) (ht : p.type = .value) :
    ∃ r, p.equals q = .ok r ∧ (r = true ↔ p.id = q.id ∧ p.editor = q.editor ∧ Same p q .unit) := by
  unfold Property.equals
  by_cases h1 : p.id = q.id
  swap
  · rw [if_pos (show (p.id == q.id) = false by simpa using h1)]; exact ⟨_, rfl, by simp [h1]⟩
  by_cases h2 : p.editor = q.editor
  swap
  · rw [if_neg (show ¬ (p.id == q.id) = false by simpa using h1), if_pos (show (p.editor == q.editor) = false by simpa using h2)]
    exact ⟨_, rfl, by simp [h2]⟩
  rw [if_neg (show ¬ (p.id == q.id) = false by simpa using h1), if_neg (show ¬ (p.editor == q.editor) = false by simpa using h2), if_pos ht]
  refine ⟨_, rfl, ?_⟩
  unfold Property.unitsEqual Same
  rw [Bool.and_eq_true, beq_iff_eq]; simp [h1, h2]

theorem same_refl (p : Property) (h : Fp.Finite (toF64 p.number)) (c : Content) : Same p p c := by
  cases c with
  | text => rfl
  | number => rfl
  | bool => rfl
  | unit => exact ⟨rfl, Math.Fl.isEqual_refl _ h⟩

theorem same_symm (p q : Property) (c : Content) : Same p q c ↔ Same q p c := by
  cases c with
  | text => exact eq_comm
  | number => exact eq_comm
  | bool => exact eq_comm
  | unit => unfold Same; rw [Math.Fl.isEqual_symm (toF64 p.number), eq_comm]

/-- A property with a known editor equals itself. -/
theorem equals_refl_partial (p : Property) (c : Content) (hc : (p.editor, c) ∈ contents) (hf : Fp.Finite (toF64 p.number))
    (hb : c = .bool → BoolOk p) : p.equals p = .ok true := by
  by_cases ht : p.type = .value
  · obtain ⟨r, e, h⟩ := equals_value p p ht
    rw [e, h.2 ⟨rfl, rfl, same_refl p hf _⟩]
  · obtain ⟨r, e, h⟩ := equals_partial p p c hc ht (fun x => ⟨hb x, hb x⟩)
    rw [e, h.2 ⟨rfl, rfl, same_refl p hf _⟩]

/-- Comparing is symmetric for a known editor, if both or none of the two have the type `kValue`. -/
theorem equals_symm_partial (p q : Property) (c : Content) (hp : (p.editor, c) ∈ contents) (hq : (q.editor, c) ∈ contents) (ht : p.type = .value ↔ q.type = .value)
    (hb : c = .bool → BoolOk p ∧ BoolOk q) : p.equals q = q.equals p := by
  have key : ∀ r s : Bool, (r = true ↔ s = true) → (Except.ok r : Res Bool) = .ok s := by
    intro r s h; rw [Bool.eq_iff_iff.2 h]
  by_cases h : p.type = .value
  · obtain ⟨r, e, hr⟩ := equals_value p q h
    obtain ⟨s, e', hs⟩ := equals_value q p (ht.1 h)
    rw [e, e']
    apply key
    rw [hr, hs, same_symm p q, eq_comm (a := p.id), eq_comm (a := p.editor)]
  · obtain ⟨r, e, hr⟩ := equals_partial p q c hp h hb
    obtain ⟨s, e', hs⟩ := equals_partial q p c hq (fun x => h (ht.2 x)) (fun x => (hb x).symm)
    rw [e, e']
    apply key
    rw [hr, hs, same_symm p q, eq_comm (a := p.id), eq_comm (a := p.editor)]

/-- **C91 fails** for every other editor, also for that of a property made without one: it does not equal itself. -/
theorem unknown_editor (p : Property) (h : ∀ c ∈ contents, c.1 ≠ p.editor) (ht : p.type ≠ .value) : p.equals p = .ok false := by
  unfold Property.equals
  simp only [contents, List.mem_cons, List.not_mem_nil, or_false, forall_eq_or_imp, forall_eq, ne_eq] at h
  obtain ⟨a1, a2, a3, a4, a5, a6, a7, a8⟩ := h
  rw [if_neg (by simp), if_neg (by simp), if_neg ht, if_neg (Ne.symm a1), if_neg (Ne.symm a2), if_neg (Ne.symm a3), if_neg (Ne.symm a4),
    if_neg (Ne.symm a5), if_neg (Ne.symm a6), if_neg (Ne.symm a7), if_neg (Ne.symm a8)]

theorem new_not_equal (id : List Ch) : (Property.new id).equals (Property.new id) = .ok false :=
  unknown_editor _ (show ∀ c ∈ contents, c.1 ≠ [] by decide +kernel) (by simp [Property.new])

/-- **C91 fails**: comparing is not symmetric; the type of the left property decides. -/
theorem equals_asymmetric : ∃ p q : Property, p.equals q = .ok true ∧ q.equals p = .ok false := by
  refine ⟨((Property.newWith [] (lit "textfield")).setIntegerValue 1), ((Property.newWith [] (lit "textfield")).setUnitValue 0x4000000000000000 []), ?_, ?_⟩
  · decide +kernel
  · decide +kernel

/-- **C91 fails**: not a number is not equal to itself, with the editor for values. -/
theorem nan_not_equal (u : List Ch) : ((Property.newWith [] (lit "value")).setUnitValue 0x7FF8000000000000 u).equals
    ((Property.newWith [] (lit "value")).setUnitValue 0x7FF8000000000000 u) = .ok false := by
  obtain ⟨r, e, h⟩ := equals_value ((Property.newWith [] (lit "value")).setUnitValue 0x7FF8000000000000 u)
    ((Property.newWith [] (lit "value")).setUnitValue 0x7FF8000000000000 u) rfl
  rw [e]
  cases r with
  | false => rfl
  | true =>
    have h3 : Same _ _ Content.unit := (h.1 rfl).2.2
    have h4 := h3.2
    have : toF64 0x7FF8000000000000 = .nan := by decide +kernel
    rw [show ((Property.newWith [] (lit "value")).setUnitValue 0x7FF8000000000000 u).number = 0x7FF8000000000000 from rfl, this,
      Math.Fl.isEqual_refl_special.1] at h4
    cases h4

/-- A case for the theorems: a check box that is set. -/
theorem checkbox_sample : ((Property.newWith [] (lit "checkbox")).setBoolValue true).equals ((Property.newWith [] (lit "checkbox")).setBoolValue true) = .ok true ∧
    ((Property.newWith [] (lit "checkbox")).setBoolValue true).equals ((Property.newWith [] (lit "checkbox")).setBoolValue false) = .ok false := by
  constructor <;> decide +kernel

/-! ### Variant -/

/-- A copy of a variant reads as the original, whatever is asked for in its type. -/
theorem variant_copy (v w : Variant) : (v.copy.type = v.type ∧ (w.assign v).type = v.type) ∧ (v.copy.toInt64 = v.toInt64 ∧ (w.assign v).toInt64 = v.toInt64) ∧
    (v.copy.toDouble = v.toDouble ∧ (w.assign v).toDouble = v.toDouble) ∧
    (v.type = .string → v.copy.toString = v.toString ∧ (w.assign v).toString = v.toString) :=
  ⟨⟨rfl, rfl⟩, ⟨rfl, rfl⟩, ⟨rfl, rfl⟩, fun h => by simp [Variant.copy, Variant.assign, Variant.toString, h]⟩

/-- The value of a variant is the one it was made of. -/
theorem variant_make (i d : BitVec 64) (g : BitVec 64) (s : List Ch) : (Variant.ofInt i).toInt64 = i ∧ (Variant.ofInt i).type = .integer ∧
    (Variant.ofDouble d).toDouble = d ∧ (Variant.ofDouble d).type = .double ∧ (Variant.ofString g s).toString = s ∧ (Variant.ofString g s).type = .string ∧
    (-2 ^ 31 ≤ i.toInt → i.toInt < 2 ^ 31 → (Variant.ofInt i).toInt32.toInt = i.toInt) := by
  refine ⟨rfl, rfl, rfl, rfl, rfl, rfl, fun h1 h2 => ?_⟩
  show (i.setWidth 32).toInt = i.toInt
  rw [BitVec.toInt_setWidth, BitVec.toInt_eq_toNat_bmod] at *
  have h3 : (i.toNat : Int).bmod (2 ^ 32) = (((i.toNat : Int).bmod (2 ^ 64)).bmod (2 ^ 32)) := by
    rw [Int.bmod_bmod_of_dvd (by decide)]
  rw [h3, Int.bmod_eq_of_le (n := (i.toNat : Int).bmod (2 ^ 64)) (by simpa using h1) (by simpa using h2)]

/-- A variant keeps an old text when a number is assigned to it; a copy of it does not. -/
theorem variant_stale (s : List Ch) (g : BitVec 64) (i : BitVec 64) : ((Variant.ofString g s).assign (.ofInt i)).toString = s ∧
    ((Variant.ofString g s).assign (.ofInt i)).copy.toString = [] := ⟨rfl, rfl⟩

/-- **C90.** A new property has no value: 0, false, the empty text. -/
theorem fresh (id editor : List Ch) : (∀ p ∈ [Property.new id, Property.newWith id editor], p.integerValue = 0 ∧ p.boolValue = .ok false ∧
    toF64 p.doubleValue = Fp.zero ∧ p.stringValue = [] ∧ p.type = .string ∧ p.id = id) ∧ (Property.new id).editor = [] ∧
    (Property.newWith id editor).editor = editor := by
  refine ⟨fun p hp => ?_, rfl, rfl⟩
  have hz : toF64 0 = Fp.zero := by decide +kernel
  rcases List.mem_cons.1 hp with rfl | hp
  · exact ⟨rfl, rfl, hz, rfl, rfl, rfl⟩
  · rw [List.mem_singleton.1 hp]; exact ⟨rfl, rfl, hz, rfl, rfl, rfl⟩

/-- **C90.** `is` asks for the id, which no call changes. -/
theorem is_iff (p : Property) (ops : List Op) (id : List Ch) : (run p ops).is id = true ↔ p.id = id := by
  unfold Property.is
  rw [(text_last p ops).2.2.1]
  exact beq_iff_eq

/-- The bits of a number are those of IEEE 754: sign, then exponent and mantissa; above the bits of infinity, it is not a number. -/
theorem toF64_bits (v : BitVec 64) : (toF64 v = .nan ↔ Fp.infBits < v.toNat % 2 ^ 63) ∧
    ∀ s b h, toF64 v = .num s b h → v.toNat = b + if s then 2 ^ 63 else 0 := by
  unfold toF64
  split
  · next h =>
    refine ⟨iff_of_false (fun e => by cases e) (by omega), fun s b hb e => ?_⟩
    simp only [Fp.F64.num.injEq] at e
    obtain ⟨e1, e2⟩ := e
    rw [← e1, ← e2, BitVec.msb_eq_decide]
    have := v.isLt
    by_cases hv : 2 ^ (64 - 1) ≤ v.toNat
    · simp only [hv, decide_true, if_true]; omega
    · simp only [hv, decide_false, Bool.false_eq_true, if_false]; omega
  · next h => exact ⟨iff_of_true rfl (by omega), fun s b hb e => by cases e⟩

end Verif.Property
