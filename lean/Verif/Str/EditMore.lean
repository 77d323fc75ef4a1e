import Verif.Str.EditProps
/-
C09, the calls that `edits_partial` excludes, for all strings: what the code does with a range that reaches past the end, with a negative
length, and with a string inserted into itself – and exactly when the result is right.
-/
namespace Verif.Str.EditMore
open Verif Verif.Str

/-! ### ranges past the end -/

/-- **C09 (range past the end).** Whatever the index: a range that reaches past the end removes the last `n` characters, if there are as many. -/
theorem deleteRange_past_end_exact {s : Str} (hs : WF s) {i n : Nat} (hi : i ≤ s.len) (hn : n ≤ s.len) (h : s.len < i + n) :
    ∃ r, deleteCharRangeAt s i n = .ok r ∧ WF r ∧ chars r = (chars s).take (s.len - n) := by
  have hs' := hs
  unfold WF at hs'
  obtain ⟨w, e, wl, hw⟩ := shiftDown_ok (s.len - n) n i s.buf (.inr (by omega))
  unfold deleteCharRangeAt deleteCharRangeAtRaw
  rw [if_neg (by omega)]
  simp only [Int.toNat_natCast, e, bind, Except.bind, pure, Except.pure]
  have e2 : ((s.len : Int) - n).toNat = s.len - n := by omega
  refine ⟨_, rfl, ?_, ?_⟩
  · unfold WF; simp only [e2]; omega
  · apply chars_eq
    · simp only [e2, List.length_take, chars_length hs]; omega
    · intro j hj
      simp only [e2] at hj
      rw [hw, if_neg (by omega), List.getElem?_take, if_pos hj, chars_get?, if_pos (by omega)]

/-- Violation, always: the right result – what stands before the index – is longer. -/
theorem deleteRange_past_end_wrong {s : Str} (hs : WF s) {i n : Nat} (hi : i ≤ s.len) (hn : n ≤ s.len) (h : s.len < i + n) :
    ∃ r, deleteCharRangeAt s i n = .ok r ∧ chars r ≠ (chars s).take i ++ (chars s).drop (i + n) := by
  obtain ⟨r, e, _, c⟩ := deleteRange_past_end_exact hs hi hn h
  refine ⟨r, e, ?_⟩
  rw [c]
  intro hc
  have := congrArg List.length hc
  simp only [List.length_take, List.length_append, List.length_drop, chars_length hs] at this
  omega

/-- Violation, always: a range longer than the string leaves a string of negative length, whatever the index. -/
theorem deleteRange_negative {s : Str} {i n : Nat} (hi : i ≤ s.len) (h : s.len < n) :
    ∃ v len, deleteCharRangeAtRaw s i n = .ok (v, len) ∧ len < 0 ∧ v = s.buf := by
  unfold deleteCharRangeAtRaw
  rw [if_neg (by omega)]
  have : shiftDown (s.len - n) n i s.buf = .ok s.buf := by
    unfold shiftDown; rw [if_neg (by omega)]
  simp only [Int.toNat_natCast, this, bind, Except.bind, pure, Except.pure]
  exact ⟨_, _, rfl, by omega, rfl⟩

/-- so the range deletion is right exactly for ranges inside of the string -/
theorem deleteRange_right_iff {s : Str} (hs : WF s) {i n : Nat} (hi : i ≤ s.len) (hn : n ≤ s.len) :
    (∃ r, deleteCharRangeAt s i n = .ok r ∧ chars r = (chars s).take i ++ (chars s).drop (i + n)) ↔ i + n ≤ s.len := by
  constructor
  · rintro ⟨r, e, c⟩
    refine Decidable.byContradiction fun hc => ?_
    obtain ⟨r', e', c'⟩ := deleteRange_past_end_wrong hs hi hn (by omega)
    rw [e] at e'
    cases e'
    exact c' c
  · intro h
    obtain ⟨r, e, _, c, _⟩ := deleteCharRangeAt_ok hs h
    exact ⟨r, e, c⟩

example : ∃ s : Str, WF s ∧ s.len = 3 := by
  obtain ⟨s, _, w, _, _, hl, _⟩ := ofChars_ok [0x61, 0x62, 0x63]
  exact ⟨s, w, hl⟩

/-! ### a negative length -/

/-- the loop of String.cpp:581-584 for `length = -k`, `n = mStrLength + k`: `mValue[a] = mValue[a - k]`; a negative index is undefined -/
def shiftNeg (n k a : Nat) (v : List Ch) : Res (List Ch) :=
  if a < n then
    if k ≤ a then do
      let c ← rd v (a - k)
      let v ← wr v a c
      shiftNeg n k (a + 1) v
    else .error .ub
  else .ok v
termination_by n - a

/-- String.cpp:576-587 `deleteCharRangeAt(index, -k)` -/
def deleteCharRangeNeg (s : Str) (index : Int) (k : Nat) : Res Str :=
  if index < 0 ∨ index > s.len then .error .thrown else do
    let v ← shiftNeg (s.len + k) k index.toNat s.buf
    return { buf := v, len := s.len + k, hash := 0 }

theorem shiftNeg_ok (n k b : Nat) (v0 : List Ch) (hk : 0 < k) (hb : k ≤ b) (hv : n ≤ v0.length) :
    ∀ (m a : Nat) (v : List Ch), n - a = m → b ≤ a → v.length = v0.length →
      (∀ j : Nat, v[j]? = if b ≤ j ∧ j < a then v0[b - k + (j - b) % k]? else v0[j]?) →
      ∃ w, shiftNeg n k a v = .ok w ∧ w.length = v0.length ∧
        ∀ j : Nat, w[j]? = if b ≤ j ∧ j < max a n then v0[b - k + (j - b) % k]? else v0[j]? := by
  intro m
  induction m with
  | zero =>
    intro a v hm _ hl h
    unfold shiftNeg
    rw [if_neg (by omega)]
    exact ⟨v, rfl, hl, by rw [show max a n = a by omega]; exact h⟩
  | succ m ih =>
    intro a v hm hba hl h
    unfold shiftNeg
    rw [if_pos (by omega), if_pos (by omega), rd_ok (b := v) (by omega)]
    simp only [bind, Except.bind]
    rw [wr_ok (by omega)]
    obtain ⟨w, e, wl, hw⟩ := ih (a + 1) (v.set a v[a - k]) (by omega) (by omega) (by simpa using hl) (by
      intro j
      by_cases hja : j = a
      · subst hja
        rw [List.getElem?_set_self (by omega), if_pos (by omega)]
        have h1 := h (j - k)
        rw [List.getElem?_eq_getElem (by omega)] at h1
        rw [h1]
        by_cases hc : b ≤ j - k ∧ j - k < j
        · rw [if_pos hc]
          have : (j - b) % k = (j - k - b) % k := by
            rw [show j - b = (j - k - b) + k by omega, Nat.add_mod_right]
          rw [this]
        · rw [if_neg hc, Nat.mod_eq_of_lt (by omega)]
          congr 1; omega
      · rw [List.getElem?_set_ne (by omega), h]
        by_cases hc : b ≤ j ∧ j < a
        · rw [if_pos hc, if_pos (by omega)]
        · rw [if_neg hc, if_neg (by omega)])
    refine ⟨w, e, wl, ?_⟩
    intro j
    rw [hw, show max (a + 1) n = max a n by omega]

/-- Violation: a negative length is not rejected.  With room in the block, from position `k` on, the `k` characters before the index are
repeated up to a new, later end: nothing is deleted and everything behind the index is overwritten … -/
theorem deleteRange_minus {s : Str} (hs : WF s) {i k : Nat} (hk : 0 < k) (hi : i ≤ s.len) (hki : k ≤ i) (hc : s.len + k ≤ s.buf.length) :
    ∃ r, deleteCharRangeNeg s i k = .ok r ∧ WF r ∧ (chars r).length = s.len + k ∧
      ∀ j : Nat, j < s.len + k → (chars r)[j]? = if j < i then (chars s)[j]? else (chars s)[i - k + (j - i) % k]? := by
  have hs' := hs
  unfold WF at hs'
  obtain ⟨w, e, wl, hw⟩ := shiftNeg_ok (s.len + k) k i s.buf hk hki hc _ i s.buf rfl (Nat.le_refl _) rfl (by
    intro j; rw [if_neg (by omega)])
  unfold deleteCharRangeNeg
  rw [if_neg (by omega)]
  simp only [Int.toNat_natCast, e, bind, Except.bind, pure, Except.pure]
  have hwf : WF { buf := w, len := s.len + k, hash := 0 } := by unfold WF; simp only; omega
  refine ⟨_, rfl, hwf, chars_length hwf, ?_⟩
  intro j hj
  rw [chars_get?, if_pos hj, hw]
  have hmod : (j - i) % k < k := Nat.mod_lt _ hk
  by_cases hji : j < i
  · rw [if_neg (by omega), if_pos hji, chars_get?, if_pos (by omega)]
  · rw [if_pos (by omega), if_neg hji, chars_get?, if_pos (by omega)]

/-- … without room, or with fewer than `k` characters before the index: undefined behaviour. -/
theorem deleteRange_minus_front {s : Str} {i k : Nat} (hi : i ≤ s.len) (hki : i < k) : deleteCharRangeNeg s i k = .error .ub := by
  unfold deleteCharRangeNeg
  rw [if_neg (by omega)]
  have : shiftNeg (s.len + k) k i s.buf = .error .ub := by
    unfold shiftNeg; rw [if_pos (by omega), if_neg (by omega)]
  simp only [Int.toNat_natCast, this, bind, Except.bind]

theorem shiftNeg_ub (n k : Nat) (hk : 0 < k) : ∀ (m a : Nat) (v : List Ch), v.length - a = m → k ≤ a → a ≤ v.length → v.length < n →
    shiftNeg n k a v = .error .ub := by
  intro m
  induction m with
  | zero =>
    intro a v hm hka ha hn
    unfold shiftNeg
    rw [if_pos (by omega), if_pos hka, rd_ok (b := v) (by omega)]
    simp only [bind, Except.bind]
    have : wr v a v[a - k] = .error .ub := by unfold wr; rw [if_neg (by omega)]
    rw [this]
  | succ m ih =>
    intro a v hm hka ha hn
    unfold shiftNeg
    rw [if_pos (by omega), if_pos hka, rd_ok (b := v) (by omega)]
    simp only [bind, Except.bind]
    rw [wr_ok (by omega)]
    exact ih (a + 1) _ (by simp; omega) (by omega) (by simp; omega) (by simpa using hn)

theorem deleteRange_minus_room {s : Str} (hs : WF s) {i k : Nat} (hk : 0 < k) (hi : i ≤ s.len) (hki : k ≤ i) (hc : s.buf.length < s.len + k) :
    deleteCharRangeNeg s i k = .error .ub := by
  unfold WF at hs
  unfold deleteCharRangeNeg
  rw [if_neg (by omega)]
  simp only [Int.toNat_natCast, shiftNeg_ub (s.len + k) k hk _ i s.buf rfl hki (by omega) hc, bind, Except.bind]

/-- "abc", delete -1 characters at 1: "aaaa" -/
example : (do let s ← ofChars [0x61, 0x62, 0x63]; let r ← deleteCharRangeNeg s 1 1; return chars r) = .ok [0x61, 0x61, 0x61, 0x61] := by
  decide +kernel

/-! ### a string inserted into itself -/

/-- the copying loop when the source is the block that is written -/
theorem copySelf_ok (n i : Nat) (hi : 0 < i) (v0 : List Ch) (hv : i + n ≤ v0.length) (h : BitVec 32) :
    ∀ (m a : Nat) (v : List Ch), n - a = m → a ≤ n → v.length = v0.length →
      (∀ j : Nat, v[j]? = if i ≤ j ∧ j < i + a then v0[j % i]? else v0[j]?) →
      ∃ w, copyIn (fun w a => charAt { buf := w, len := n, hash := h } a) i n a v = .ok w ∧ w.length = v0.length ∧
        ∀ j : Nat, w[j]? = if i ≤ j ∧ j < i + n then v0[j % i]? else v0[j]? := by
  intro m
  induction m with
  | zero =>
    intro a v hm ha hl hj
    unfold copyIn
    rw [if_neg (by omega)]
    obtain rfl : a = n := by omega
    exact ⟨v, rfl, hl, hj⟩
  | succ m ih =>
    intro a v hm ha hl hj
    unfold copyIn
    rw [if_pos (by omega)]
    have hc : charAt { buf := v, len := n, hash := h } a = .ok v[a] := by
      unfold charAt
      simp only
      rw [if_neg (by omega), Int.toNat_natCast, rd_ok (b := v) (by omega)]
    simp only [hc, bind, Except.bind]
    rw [wr_ok (by omega)]
    refine ih (a + 1) (v.set (i + a) v[a]) (by omega) (by omega) (by simpa using hl) ?_
    intro j
    by_cases hja : j = i + a
    · subst hja
      rw [List.getElem?_set_self (by omega), if_pos (by omega), Nat.add_mod_left]
      have h1 := hj a
      rw [List.getElem?_eq_getElem (by omega)] at h1
      rw [h1]
      by_cases hc2 : i ≤ a ∧ a < i + a
      · rw [if_pos hc2]
      · rw [if_neg hc2, Nat.mod_eq_of_lt (by omega)]
    · rw [List.getElem?_set_ne (by omega), hj]
      by_cases hc2 : i ≤ j ∧ j < i + a
      · rw [if_pos hc2, if_pos (by omega)]
      · rw [if_neg hc2, if_neg (by omega)]

/-- what the insertion of `l` into itself at `i` should give -/
def doubled (l : List Ch) (i : Nat) : List Ch := l.take i ++ l ++ l.drop i

/-- **C09 (insertion into itself).** At the front it is right; elsewhere, for every string and index: the first `i` characters repeated over
the whole new part, then the rest. -/
theorem insertSelf_exact {s : Str} (hs : WF s) {i : Nat} (hi : i ≤ s.len) :
    ∃ r, insertSelf s i = .ok r ∧ WF r ∧ (chars r).length = 2 * s.len ∧
      ∀ j : Nat, j < 2 * s.len → (chars r)[j]? = if s.len + i ≤ j then (chars s)[j - s.len]?
        else if i = 0 then (chars s)[j]? else (chars s)[j % i]? := by
  obtain ⟨r, e, hl, _, hc, hsame⟩ := checkCapacity_ok hs s.len
  obtain ⟨w, e2, wl, hw⟩ := shiftUp_ok i s.len r.len r.buf hc
  have hb : ∀ j : Nat, j < s.len → r.buf[j]? = (chars s)[j]? := by
    intro j hj
    rw [← hsame, chars_get?, if_pos (by omega)]
  have hcopy : ∃ x, copyIn (fun w a => charAt { buf := w, len := r.len, hash := r.hash } a) i s.len 0 w = .ok x ∧ x.length = w.length ∧
      ∀ j : Nat, x[j]? = if 0 < i ∧ i ≤ j ∧ j < i + s.len then w[j % i]? else w[j]? := by
    rw [hl]
    by_cases h0 : i = 0
    · subst h0
      -- every character is written onto itself
      have : ∀ (m a : Nat) (v : List Ch), s.len - a = m → s.len ≤ v.length →
          copyIn (fun w a => charAt { buf := w, len := s.len, hash := r.hash } a) 0 s.len a v = .ok v := by
        intro m
        induction m with
        | zero => intro a v hm hv; unfold copyIn; rw [if_neg (by omega)]
        | succ m ih =>
          intro a v hm hv
          unfold copyIn
          rw [if_pos (by omega)]
          have hc : charAt { buf := v, len := s.len, hash := r.hash } a = .ok v[a] := by
            unfold charAt
            simp only
            rw [if_neg (by omega), Int.toNat_natCast, rd_ok (b := v) (by omega)]
          simp only [hc, bind, Except.bind]
          rw [wr_ok (by omega), Nat.zero_add, List.set_getElem_self]
          exact ih (a + 1) v (by omega) hv
      exact ⟨w, this _ 0 w rfl (by omega), rfl, by intro j; rw [if_neg (by omega)]⟩
    · obtain ⟨x, e3, xl, hx⟩ := copySelf_ok s.len i (by omega) w (by omega) r.hash _ 0 w rfl (by omega) rfl (by
        intro j; rw [if_neg (by omega)])
      refine ⟨x, e3, xl, ?_⟩
      intro j
      rw [hx]
      by_cases hc2 : i ≤ j ∧ j < i + s.len
      · rw [if_pos hc2, if_pos (by omega)]
      · rw [if_neg hc2, if_neg (by omega)]
  obtain ⟨x, e3, xl, hx⟩ := hcopy
  have hrun : insertSelf s i = .ok { buf := x, len := r.len + s.len, hash := 0 } := by
    unfold insertSelf
    rw [if_neg (by omega)]
    simp only [e, bind, Except.bind, pure, Except.pure, Int.toNat_natCast, e2]
    simp only [e3]
  have hwf : WF { buf := x, len := r.len + s.len, hash := 0 } := by unfold WF; simp only; omega
  refine ⟨_, hrun, hwf, by rw [chars_length hwf]; simp only; omega, ?_⟩
  intro j hj
  rw [chars_get?, if_pos (by simp only; omega), hx]
  by_cases h1 : s.len + i ≤ j
  · rw [if_neg (by omega), if_pos h1, hw, if_pos (by omega), hb _ (by omega)]
  · rw [if_neg h1]
    by_cases h0 : i = 0
    · rw [if_pos h0, if_neg (by omega), hw, if_neg (by omega), hb _ (by omega)]
    · rw [if_neg h0]
      have hm : j % i < i := Nat.mod_lt _ (by omega)
      by_cases h2 : i ≤ j
      · rw [if_pos (by omega), hw, if_neg (by omega), hb _ (by omega)]
      · rw [if_neg (by omega), hw, if_neg (by omega), hb _ (by omega), Nat.mod_eq_of_lt (by omega)]

/-- **C09 (insertion into itself), exactly when it is right:** at the front, at the end, and for strings that repeat their first `i`
characters. -/
theorem insertSelf_right_iff {s : Str} (hs : WF s) {i : Nat} (hi : i ≤ s.len) (h0 : 0 < i) :
    (∃ r, insertSelf s i = .ok r ∧ chars r = doubled (chars s) i) ↔ ∀ a : Nat, a < s.len → (chars s)[a]? = (chars s)[a % i]? := by
  obtain ⟨r, e, w, hl, hr⟩ := insertSelf_exact hs hi
  have hcl := chars_length hs
  have hd : ∀ j : Nat, j < 2 * s.len → (doubled (chars s) i)[j]? = if j < i then (chars s)[j]? else if j < s.len + i then (chars s)[j - i]?
      else (chars s)[j - s.len]? := by
    intro j hj
    unfold doubled
    have ht : ((chars s).take i).length = i := by rw [List.length_take, hcl]; omega
    by_cases h1 : j < i
    · rw [if_pos h1, List.append_assoc, List.getElem?_append_left (by omega), List.getElem?_take, if_pos h1]
    · rw [if_neg h1]
      by_cases h2 : j < s.len + i
      · rw [if_pos h2, List.getElem?_append_left (by rw [List.length_append]; omega), List.getElem?_append_right (by omega), ht]
      · rw [if_neg h2, List.getElem?_append_right (by rw [List.length_append]; omega), List.length_append, ht, hcl, List.getElem?_drop]
        congr 1; omega
  constructor
  · rintro ⟨r', e', c'⟩ a ha
    rw [e] at e'
    cases e'
    have h1 := hr (i + a) (by omega)
    rw [c', hd _ (by omega), if_neg (by omega), if_pos (by omega), if_neg (by omega), if_neg (by omega), Nat.add_mod_left] at h1
    rwa [Nat.add_sub_cancel_left] at h1
  · intro h
    refine ⟨r, e, ?_⟩
    apply List.ext_getElem?
    intro j
    by_cases hj : j < 2 * s.len
    · rw [hr j hj, hd j hj]
      by_cases h1 : s.len + i ≤ j
      · rw [if_pos h1, if_neg (by omega), if_neg (by omega)]
      · rw [if_neg h1, if_neg (by omega)]
        by_cases h2 : j < i
        · rw [if_pos h2, Nat.mod_eq_of_lt h2]
        · rw [if_neg h2, if_pos (by omega), h (j - i) (by omega)]
          congr 1
          rw [← Nat.mod_eq_sub_mod (by omega)]
    · rw [List.getElem?_eq_none (by omega), List.getElem?_eq_none]
      unfold doubled
      simp only [List.length_append, List.length_take, List.length_drop, hcl]
      omega

/-- at the front -/
theorem insertSelf_front {s : Str} (hs : WF s) : ∃ r, insertSelf s 0 = .ok r ∧ WF r ∧ chars r = chars s ++ chars s := by
  obtain ⟨r, e, w, hl, hr⟩ := insertSelf_exact hs (i := 0) (by omega)
  refine ⟨r, e, w, ?_⟩
  have hcl := chars_length hs
  apply List.ext_getElem?
  intro j
  by_cases hj : j < 2 * s.len
  · rw [hr j hj]
    by_cases h1 : s.len + 0 ≤ j
    · rw [if_pos h1, List.getElem?_append_right (by omega), hcl]
    · rw [if_neg h1, if_pos rfl, List.getElem?_append_left (by omega)]
  · rw [List.getElem?_eq_none (by omega), List.getElem?_eq_none (by rw [List.length_append]; omega)]

/-- at the end -/
theorem insertSelf_end {s : Str} (hs : WF s) (h : 0 < s.len) : ∃ r, insertSelf s s.len = .ok r ∧ chars r = doubled (chars s) s.len := by
  refine (insertSelf_right_iff hs (Nat.le_refl _) h).2 ?_
  intro a ha
  rw [Nat.mod_eq_of_lt ha]

/-- "abab" may be inserted into itself at 2, "abc" at 1 may not (`insert_into_itself`) -/
example : ∀ a : Nat, a < 4 → ([0x61, 0x62, 0x61, 0x62] : List Ch)[a]? = ([0x61, 0x62, 0x61, 0x62] : List Ch)[a % 2]? := by decide

/-! ### reading single characters -/

/-- **C09 (reading).** For every index `charAt` gives the character there, or raises the documented exception when there is none: never a character
of the storage behind the text. -/
theorem charAt_spec {s : Str} (hs : WF s) (i : Int) :
    charAt s i = if 0 ≤ i then (match (chars s)[i.toNat]? with | some c => .ok c | none => .error .thrown) else .error .thrown := by
  by_cases h : 0 ≤ i
  · rw [if_pos h]
    obtain ⟨n, rfl⟩ : ∃ n : Nat, i = n := ⟨i.toNat, by omega⟩
    by_cases h2 : n < s.len
    · rw [charAt_ok hs h2, Int.toNat_natCast, List.getElem?_eq_getElem (by rw [chars_length hs]; exact h2)]
    · have e : (chars s)[(n : Int).toNat]? = none := by
        rw [Int.toNat_natCast, List.getElem?_eq_none_iff, chars_length hs]; omega
      rw [e]
      unfold charAt
      rw [if_pos (by omega)]
  · rw [if_neg h]
    unfold charAt
    rw [if_pos (by omega)]

/-- What was written is read back, and nothing else changes. -/
theorem setCharAt_charAt {s : Str} (hs : WF s) {i : Nat} (hi : i < s.len) (c : Ch) (j : Int) :
    ∃ r, setCharAt s i c = .ok r ∧ charAt r j = if j = i then .ok c else charAt s j := by
  obtain ⟨r, e, hr, hc, _, hl⟩ := setCharAt_ok hs hi c
  refine ⟨r, e, ?_⟩
  rw [charAt_spec hr, charAt_spec hs, hc]
  by_cases h : j = i
  · subst h
    rw [if_pos rfl, if_pos (by omega), Int.toNat_natCast, List.getElem?_set_self (by rw [chars_length hs]; exact hi)]
  · rw [if_neg h]
    by_cases h0 : 0 ≤ j
    · rw [if_pos h0, if_pos h0, List.getElem?_set_ne (by omega)]
    · rw [if_neg h0, if_neg h0]

example : ∃ s, ofChars [0x61#16, 0x62#16] = .ok s ∧ WF s ∧ charAt s 1 = .ok 0x62#16 ∧ charAt s 2 = .error .thrown ∧ charAt s (-1) = .error .thrown :=
  ⟨_, rfl, by decide, rfl, rfl, rfl⟩

end Verif.Str.EditMore
