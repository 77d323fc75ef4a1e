import Verif.Str.Spec
/-
Property C09: string edits are sequence edits.
-/
namespace Verif.Str.EditProps
open Verif Verif.Str Verif.Str.Spec

/-- One edit carried out on the modelled object. -/
def exec (s : Str) : Op → Res Str
  | .append t => append s t
  | .appendSelf => appendSelf s
  | .appendChar c => appendChar s c
  | .insertChar i c => insertChar s i c
  | .insert i t => insert s i t
  | .setCharAt i c => setCharAt s i c
  | .deleteCharAt i => deleteCharAt s i
  | .deleteRange i n => deleteCharRangeAt s i n
  | .clear => .ok (clear s)

/-- A history of edits; all `throw`s precede the first write of their function, so an edit
that throws leaves the object as it was.  UB ends the run. -/
def execAll (s : Str) : List Op → Res (Str × List Bool)
  | [] => .ok (s, [])
  | op :: ops =>
    match exec s op with
    | .ok s' => do let r ← execAll s' ops; return (r.1, false :: r.2)
    | .error .thrown => do let r ← execAll s ops; return (r.1, true :: r.2)
    | .error .ub => .error .ub

theorem exec_ok {s : Str} (hs : WF s) (op : Op) (ha : op.ArgsWF) (hr : op.InRange (chars s)) :
    match edit (chars s) op with
    | some l => ∃ s', exec s op = .ok s' ∧ WF s' ∧ chars s' = l
    | none => exec s op = .error .thrown := by
  have hl := chars_length hs
  cases op with
  | append t => obtain ⟨r, a, b, c, _⟩ := append_ok hs ha; exact ⟨r, a, b, c⟩
  | appendSelf => obtain ⟨r, a, b, c, _⟩ := appendSelf_ok hs; exact ⟨r, a, b, c⟩
  | appendChar c => obtain ⟨r, a, b, c, _⟩ := appendChar_ok hs c; exact ⟨r, a, b, c⟩
  | insertChar i c =>
    simp only [edit]
    by_cases h : 0 ≤ i ∧ i ≤ (chars s).length
    · obtain ⟨n, rfl⟩ := Int.eq_ofNat_of_zero_le h.1
      rw [if_pos h]
      obtain ⟨r, a, b, c, _⟩ := insertChar_ok hs (i := n) (by omega) c
      exact ⟨r, a, b, by rw [c]; simp⟩
    · rw [if_neg h]
      simp only [exec, insertChar]
      rw [if_pos (by omega)]
  | insert i t =>
    simp only [edit]
    by_cases h : 0 ≤ i ∧ i ≤ (chars s).length
    · obtain ⟨n, rfl⟩ := Int.eq_ofNat_of_zero_le h.1
      rw [if_pos h]
      obtain ⟨r, a, b, c, _⟩ := insert_ok hs ha (i := n) (by omega)
      exact ⟨r, a, b, by rw [c]; simp⟩
    · rw [if_neg h]
      simp only [exec, insert]
      rw [if_pos (by omega)]
  | setCharAt i c =>
    simp only [edit]
    by_cases h : 0 ≤ i ∧ i < (chars s).length
    · obtain ⟨n, rfl⟩ := Int.eq_ofNat_of_zero_le h.1
      rw [if_pos h]
      obtain ⟨r, a, b, c, _⟩ := setCharAt_ok hs (i := n) (by omega) c
      exact ⟨r, a, b, by rw [c]; simp⟩
    · rw [if_neg h]
      simp only [exec, setCharAt]
      rw [if_pos (by omega)]
  | deleteCharAt i =>
    simp only [edit]
    by_cases h : 0 ≤ i ∧ i < (chars s).length
    · obtain ⟨n, rfl⟩ := Int.eq_ofNat_of_zero_le h.1
      rw [if_pos h]
      obtain ⟨r, a, b, c, _⟩ := deleteCharAt_ok hs (i := n) (by omega)
      exact ⟨r, a, b, by rw [c]; simp⟩
    · rw [if_neg h]
      simp only [exec, deleteCharAt]
      rw [if_pos (by omega)]
  | deleteRange i k =>
    simp only [edit]
    by_cases h : 0 ≤ i ∧ i ≤ (chars s).length
    · have := hr h.1 h.2
      obtain ⟨n, rfl⟩ := Int.eq_ofNat_of_zero_le h.1
      rw [if_pos h]
      rw [Int.toNat_natCast] at this
      obtain ⟨r, a, b, c, _⟩ := deleteCharRangeAt_ok hs (i := n) (n := k) (by omega)
      exact ⟨r, a, b, by rw [c]; simp⟩
    · rw [if_neg h]
      simp only [exec, deleteCharRangeAt, deleteCharRangeAtRaw]
      rw [if_pos (by omega)]
      rfl
  | clear => exact ⟨_, rfl, (clear_ok s).1, (clear_ok s).2.1⟩

/-- **C09 (partial).** Every history of edits on a string runs without touching memory outside
its block, produces exactly the edited sequence, and throws exactly at the indices out of range —
provided every range deletion stays inside the string.
Missing for the full claim: range deletions reaching past the end (`deleteRange_past_end`,
`deleteRange_negative_length`) and inserting a string into itself (`insert_into_itself`), which
the code gets wrong. -/
theorem edits_partial (ops : List Op) : ∀ (s : Str), WF s → (∀ op ∈ ops, op.ArgsWF) → AllInRange (chars s) ops →
    ∃ s', execAll s ops = .ok (s', (editAll (chars s) ops).2) ∧ WF s' ∧ chars s' = (editAll (chars s) ops).1 := by
  induction ops with
  | nil => intro s hs _ _; exact ⟨s, rfl, hs, rfl⟩
  | cons op ops ih =>
    intro s hs ha hr
    have h := exec_ok hs op (ha op (by simp)) hr.1
    unfold execAll editAll
    have hr2 := hr.2
    cases he : edit (chars s) op with
    | some l =>
      rw [he] at h hr2
      obtain ⟨s', e, w, rfl⟩ := h
      rw [e]
      obtain ⟨s2, e2, w2, c2⟩ := ih s' w (fun o ho => ha o (by simp [ho])) hr2
      refine ⟨s2, ?_, w2, c2⟩
      simp only [e2, bind, Except.bind, pure, Except.pure]
    | none =>
      rw [he] at h hr2
      simp only at h
      rw [h]
      obtain ⟨s2, e2, w2, c2⟩ := ih s hs (fun o ho => ha o (by simp [ho])) hr2
      refine ⟨s2, ?_, w2, c2⟩
      simp only [e2, bind, Except.bind, pure, Except.pure]

/-- Every string constructed from characters starts such a history. -/
theorem constructed (cs : List Ch) : ∃ s, ofChars cs = .ok s ∧ WF s ∧ chars s = cs := by
  obtain ⟨s, e, w, c, _⟩ := ofChars_ok cs; exact ⟨s, e, w, c⟩

/-- Violation: `String("abc").deleteCharRangeAt(2, 2)` is `"a"`: the character at position 1,
outside the range, is lost. -/
theorem deleteRange_past_end :
    (do let s ← ofChars [0x61, 0x62, 0x63]; let r ← deleteCharRangeAt s 2 2; return chars r) = .ok [0x61] := by
  decide +kernel

/-- Violation: `String("abc").deleteCharRangeAt(0, 5)` leaves a string of length -2. -/
theorem deleteRange_negative_length :
    (do let s ← ofChars [0x61, 0x62, 0x63]; let r ← deleteCharRangeAtRaw s 0 5; return r.2) = .ok (-2) := by
  decide +kernel

/-- Violation: `s.insert(1, s)` for `s = "abc"` gives `"aaaabc"` instead of `"aabcbc"`: the
argument is overwritten while it is read. -/
theorem insert_into_itself :
    (do let s ← ofChars [0x61, 0x62, 0x63]; let r ← insertSelf s 1; return chars r) =
      .ok [0x61, 0x61, 0x61, 0x61, 0x62, 0x63] := by
  decide +kernel

/-- Non-vacuity: a history that grows over the 16 character block, throws twice and deletes. -/
example : ∃ s, ofChars [0x61, 0x62, 0x63] = .ok s ∧
    (∀ op ∈ [Op.insertChar 1 0x78, .setCharAt 9 0, .append s, .deleteRange 2 3, .deleteCharAt (-1), .appendSelf],
      op.ArgsWF) ∧
    AllInRange (chars s) [.insertChar 1 0x78, .setCharAt 9 0, .append s, .deleteRange 2 3, .deleteCharAt (-1), .appendSelf] ∧
    editAll (chars s) [.insertChar 1 0x78, .setCharAt 9 0, .append s, .deleteRange 2 3, .deleteCharAt (-1), .appendSelf] =
      ([0x61, 0x78, 0x62, 0x63, 0x61, 0x78, 0x62, 0x63], [false, true, false, false, true, false]) := by
  refine ⟨_, rfl, ?_, ?_, rfl⟩
  · intro op hop
    simp only [List.mem_cons, List.not_mem_nil, or_false] at hop
    rcases hop with rfl | rfl | rfl | rfl | rfl | rfl <;> simp [Op.ArgsWF, WF, newBuf, round16]
  · refine ⟨trivial, trivial, trivial, ?_, trivial, trivial, trivial⟩
    intro _ _; decide

end Verif.Str.EditProps
