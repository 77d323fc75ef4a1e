import Verif.Str.Model
set_option linter.unusedSimpArgs false
set_option linter.unusedVariables false
/-
Helper lemmas: what each modelled loop does to the character sequence.
-/
namespace Verif.Str
open Verif

/-- Representation invariant: the content fits into the block. -/
def WF (s : Str) : Prop := s.len ≤ s.buf.length
instance (s : Str) : Decidable (WF s) := inferInstanceAs (Decidable (_ ≤ _))

/-- The character sequence a string object stands for. -/
def chars (s : Str) : List Ch := s.buf.take s.len

theorem chars_length {s : Str} (h : WF s) : (chars s).length = s.len := by
  unfold WF at h; simp [chars]; omega

theorem rd_chars {s : Str} (h : WF s) {i : Nat} (hi : i < s.len) :
    rd s.buf i = .ok ((chars s)[i]'(by rw [chars_length h]; exact hi)) := by
  rw [rd_ok (by unfold WF at h; omega)]
  simp [chars]

theorem round16_ge (n : Nat) : n ≤ round16 n := by unfold round16; split <;> omega

theorem round16_mod (n : Nat) : round16 n % 16 = 0 := by unfold round16; split <;> omega

theorem newBuf_length (n : Nat) : (newBuf n).length = n := by simp [newBuf]

theorem memcpy_ok {dst : List Ch} {d : Nat} {src : List Ch} {s n : Nat}
    (h1 : d + n ≤ dst.length) (h2 : s + n ≤ src.length) :
    memcpy dst d src s n = .ok (dst.take d ++ (src.drop s).take n ++ dst.drop (d + n)) := by
  simp [memcpy, h1, h2]

theorem memcpy0 {n : Nat} {src : List Ch} {s k : Nat} (h1 : k ≤ n) (h2 : s + k ≤ src.length) :
    memcpy (newBuf n) 0 src s k = .ok ((src.drop s).take k ++ newBuf (n - k)) := by
  rw [memcpy_ok (by rw [newBuf_length]; omega) h2]
  simp [newBuf]

theorem empty_wf : WF empty := by simp [WF, empty, newBuf]
theorem empty_chars : chars empty = [] := rfl

theorem ofChars_ok (cs : List Ch) : ∃ s, ofChars cs = .ok s ∧ WF s ∧ chars s = cs ∧ s.hash = 0 ∧
    s.len = cs.length ∧ s.buf = cs ++ newBuf (round16 cs.length - cs.length) := by
  unfold ofChars
  rw [memcpy0 (round16_ge _) (by omega)]
  refine ⟨_, rfl, ?_, ?_, rfl, rfl, ?_⟩ <;> simp [WF, chars]

theorem copyCtor_ok {s : Str} (h : WF s) : ∃ r, copyCtor s = .ok r ∧ WF r ∧ chars r = chars s ∧
    r.hash = s.hash ∧ r.len = s.len ∧ r.buf.length = s.buf.length := by
  unfold copyCtor
  rw [memcpy0 h (by unfold WF at h; omega)]
  refine ⟨_, rfl, ?_, ?_, rfl, rfl, ?_⟩
  · simp [WF]; unfold WF at h; simp [newBuf]; omega
  · simp only [chars, List.drop_zero]
    unfold WF at h
    rw [List.take_append_of_le_length (by simp; omega), List.take_take, Nat.min_self]
  · unfold WF at h; simp [newBuf]; omega

theorem assign_ok (s : Str) {t : Str} (h : WF t) : ∃ r, assign s t = .ok r ∧ WF r ∧ chars r = chars t ∧
    r.hash = s.hash ∧ r.len = t.len := by
  unfold assign
  rw [memcpy0 h (by unfold WF at h; omega)]
  refine ⟨_, rfl, ?_, ?_, rfl, rfl⟩
  · simp [WF]; unfold WF at h; simp [newBuf]; omega
  · simp only [chars, List.drop_zero]
    unfold WF at h
    rw [List.take_append_of_le_length (by simp; omega), List.take_take, Nat.min_self]

theorem checkCapacity_ok {s : Str} (h : WF s) (more : Nat) :
    ∃ r, checkCapacity s more = .ok r ∧ r.len = s.len ∧ r.hash = s.hash ∧ r.len + more ≤ r.buf.length ∧
      chars r = chars s := by
  unfold checkCapacity
  split
  · exact ⟨s, rfl, rfl, rfl, by omega, rfl⟩
  · rw [memcpy0 (Nat.le_trans (Nat.le_add_right _ _) (round16_ge _)) (by unfold WF at h; omega)]
    have := round16_ge (s.len + more)
    unfold WF at h
    refine ⟨_, rfl, rfl, rfl, ?_, ?_⟩
    · simp [newBuf]; omega
    · simp only [chars, List.drop_zero]
      rw [List.take_append_of_le_length (by simp; omega), List.take_take, Nat.min_self]

theorem take_len_append {α} (l m r : List α) (n : Nat) (h : l.length + m.length = n) :
    (l ++ m ++ r).take n = l ++ m := by
  rw [List.take_append_of_le_length (by simp; omega), List.take_of_length_le (by simp; omega)]

theorem append_ok {s t : Str} (hs : WF s) (ht : WF t) :
    ∃ r, append s t = .ok r ∧ WF r ∧ chars r = chars s ++ chars t ∧ (r.hash = 0 ∨ r = s) := by
  unfold append
  split
  · refine ⟨s, rfl, hs, ?_, .inr rfl⟩
    have : chars t = [] := by simp [chars, *]
    simp [this]
  · obtain ⟨r, e, hl, _, hc, hh⟩ := checkCapacity_ok hs t.len
    simp only [e, bind, Except.bind, pure, Except.pure]
    unfold WF at ht hs
    rw [memcpy_ok hc (by omega)]
    refine ⟨_, rfl, ?_, ?_, .inl rfl⟩
    · simp [WF]; omega
    · simp only [chars, List.drop_zero]
      rw [take_len_append _ _ _ _ (by simp; omega)]
      have : r.buf.take r.len = s.buf.take s.len := hh
      rw [this]

theorem appendSelf_ok {s : Str} (hs : WF s) :
    ∃ r, appendSelf s = .ok r ∧ WF r ∧ chars r = chars s ++ chars s ∧ (r.hash = 0 ∨ r = s) := by
  unfold appendSelf
  split
  · refine ⟨s, rfl, hs, ?_, .inr rfl⟩
    have : chars s = [] := by simp [chars, *]
    simp [this]
  · obtain ⟨r, e, hl, _, hc, hh⟩ := checkCapacity_ok hs s.len
    simp only [e, bind, Except.bind, pure, Except.pure]
    unfold WF at hs
    rw [memcpy_ok (by omega) (by omega)]
    refine ⟨_, rfl, ?_, ?_, .inl rfl⟩
    · simp [WF]; omega
    · simp only [chars, List.drop_zero]
      rw [take_len_append _ _ _ _ (by simp; omega)]
      have : r.buf.take r.len = s.buf.take s.len := hh
      rw [this]

theorem appendChar_ok {s : Str} (hs : WF s) (c : Ch) :
    ∃ r, appendChar s c = .ok r ∧ WF r ∧ chars r = chars s ++ [c] ∧ r.hash = 0 ∧ r.len = s.len + 1 := by
  unfold appendChar
  obtain ⟨r, e, hl, _, hc, hh⟩ := checkCapacity_ok hs 1
  simp only [e, bind, Except.bind, pure, Except.pure]
  rw [wr_ok (by omega)]
  refine ⟨_, rfl, ?_, ?_, rfl, by simp [hl]⟩
  · simp [WF]; omega
  · rw [← hh]
    simp only [chars]
    apply List.ext_getElem?
    intro i
    simp only [List.getElem?_take, List.getElem?_set, List.getElem?_append, List.length_take]
    by_cases h1 : i < r.len
    · simp [h1, show i < r.len + 1 by omega, show r.len ≠ i by omega, show i < r.buf.length by omega,
        show min r.len r.buf.length = r.len by omega]
    · by_cases h2 : i = r.len
      · subst h2; simp [show r.len < r.buf.length by omega, show min r.len r.buf.length = r.len by omega]
      · simp [show ¬ i < r.len + 1 by omega, h1, show min r.len r.buf.length = r.len by omega,
          show i - r.len ≠ 0 by omega]

theorem setCharAt_ok {s : Str} (hs : WF s) {i : Nat} (hi : i < s.len) (c : Ch) :
    ∃ r, setCharAt s i c = .ok r ∧ WF r ∧ chars r = (chars s).set i c ∧ r.hash = 0 ∧ r.len = s.len := by
  unfold setCharAt
  rw [if_neg (by omega)]
  unfold WF at hs
  rw [Int.toNat_natCast, wr_ok (by omega)]
  refine ⟨_, rfl, ?_, ?_, rfl, rfl⟩
  · simp [WF]; omega
  · simp [chars, List.take_set]

theorem charAt_ok {s : Str} (hs : WF s) {i : Nat} (hi : i < s.len) :
    charAt s i = .ok ((chars s)[i]'(by rw [chars_length hs]; exact hi)) := by
  unfold charAt
  rw [if_neg (by omega), Int.toNat_natCast, rd_chars hs hi]

/-- effect of the upward shift -/
theorem shiftUp_ok (index k : Nat) : ∀ (a : Nat) (v : List Ch), a + k ≤ v.length →
    ∃ w, shiftUp index k a v = .ok w ∧ w.length = v.length ∧
      ∀ i, w[i]? = if index + k ≤ i ∧ i < a + k then v[i - k]? else v[i]? := by
  intro a
  induction a with
  | zero =>
    intro v hv
    refine ⟨v, rfl, rfl, ?_⟩
    intro i
    rw [if_neg (by omega)]
  | succ a ih =>
    intro v hv
    unfold shiftUp
    split
    · rw [rd_ok (by omega)]
      simp only [bind, Except.bind]
      rw [wr_ok (by omega)]
      simp only
      obtain ⟨w, e, hl, hw⟩ := ih (v.set (a + k) v[a]) (by simp; omega)
      refine ⟨w, e, by simp [hl], ?_⟩
      intro i
      rw [hw]
      by_cases h1 : index + k ≤ i ∧ i < a + k
      · rw [if_pos h1, if_pos (by omega)]
        rw [List.getElem?_set_ne (by omega)]
      · rw [if_neg h1]
        by_cases h2 : i = a + k
        · subst h2
          rw [if_pos (by omega)]
          simp [List.getElem?_set, show a + k < v.length by omega]
        · rw [if_neg (by omega)]
          rw [List.getElem?_set_ne (by omega)]
    · refine ⟨v, rfl, rfl, ?_⟩
      intro i
      rw [if_neg (by omega)]

/-- effect of copying `cs` character by character -/
theorem copyIn_ok (get : List Ch → Nat → Res Ch) (index : Nat) (cs : List Ch)
    (hg : ∀ v i (h : i < cs.length), get v i = .ok cs[i]) (a : Nat) (v : List Ch) (hv : index + cs.length ≤ v.length) :
    ∃ w, copyIn get index cs.length a v = .ok w ∧ w.length = v.length ∧
      ∀ i, w[i]? = if index + a ≤ i ∧ i < index + cs.length then cs[i - index]? else v[i]? := by
  fun_induction copyIn get index cs.length a v with
  | case1 a v ha ih =>
    rw [hg v a ha]
    simp only [bind, Except.bind]
    rw [wr_ok (by omega)]
    simp only
    obtain ⟨w, e, hl, hw⟩ := ih (v.set (index + a) cs[a]) (by simp; omega)
    refine ⟨w, e, by simp [hl], ?_⟩
    intro i
    rw [hw]
    by_cases h1 : index + (a + 1) ≤ i ∧ i < index + cs.length
    · rw [if_pos h1, if_pos (by omega)]
    · rw [if_neg h1]
      by_cases h2 : i = index + a
      · subst h2
        rw [if_pos (by omega)]
        simp [List.getElem?_set, show index + a < v.length by omega, ha]
      · rw [if_neg (by omega), List.getElem?_set_ne (by omega)]
  | case2 a v ha =>
    refine ⟨v, rfl, rfl, ?_⟩
    intro i
    rw [if_neg (by omega)]

/-- effect of the downward shift -/
theorem shiftDown_ok (n k a : Nat) (v : List Ch) (hv : n + k ≤ v.length ∨ n ≤ a) :
    ∃ w, shiftDown n k a v = .ok w ∧ w.length = v.length ∧
      ∀ i, w[i]? = if a ≤ i ∧ i < n then v[i + k]? else v[i]? := by
  fun_induction shiftDown n k a v with
  | case1 a v ha ih =>
    rw [rd_ok (by omega)]
    simp only [bind, Except.bind]
    rw [wr_ok (by omega)]
    simp only
    obtain ⟨w, e, hl, hw⟩ := ih (v.set a v[a + k]) (by simp; omega)
    refine ⟨w, e, by simp [hl], ?_⟩
    intro i
    rw [hw]
    by_cases h1 : a + 1 ≤ i ∧ i < n
    · rw [if_pos h1, if_pos (by omega), List.getElem?_set_ne (by omega)]
    · rw [if_neg h1]
      by_cases h2 : i = a
      · subst h2
        rw [if_pos (by omega)]
        simp [List.getElem?_set, show i < v.length by omega, show i + k < v.length by omega]
      · rw [if_neg (by omega), List.getElem?_set_ne (by omega)]
  | case2 a v ha =>
    refine ⟨v, rfl, rfl, ?_⟩
    intro i
    rw [if_neg (by omega)]

theorem chars_get? (s : Str) (i : Nat) : (chars s)[i]? = if i < s.len then s.buf[i]? else none := by
  simp [chars, List.getElem?_take]

theorem chars_eq {r : Str} {l : List Ch} (hl : l.length = r.len) (h : ∀ i, i < r.len → r.buf[i]? = l[i]?) :
    chars r = l := by
  apply List.ext_getElem?
  intro i
  rw [chars_get?]
  split
  · exact h i ‹_›
  · rw [List.getElem?_eq_none (by omega)]

theorem insertChar_ok {s : Str} (hs : WF s) {i : Nat} (hi : i ≤ s.len) (c : Ch) :
    ∃ r, insertChar s i c = .ok r ∧ WF r ∧ chars r = (chars s).take i ++ [c] ++ (chars s).drop i ∧
      r.hash = 0 ∧ r.len = s.len + 1 := by
  unfold insertChar
  rw [if_neg (by omega)]
  obtain ⟨r, e, hl, _, hc, hh⟩ := checkCapacity_ok hs 1
  simp only [e, bind, Except.bind, pure, Except.pure, Int.toNat_natCast]
  obtain ⟨w, e2, wl, hw⟩ := shiftUp_ok i 1 r.len r.buf hc
  rw [e2]
  simp only
  rw [wr_ok (by omega)]
  refine ⟨_, rfl, ?_, ?_, rfl, by simp [hl]⟩
  · simp [WF]; omega
  · have hlen : (chars s).length = s.len := chars_length hs
    have hb : ∀ j, j < s.len → r.buf[j]? = (chars s)[j]? := by
      intro j hj
      rw [← hh, chars_get?, if_pos (by omega)]
    apply chars_eq
    · simp [hlen, hl]; omega
    · simp only [hl]
      intro j hj
      rw [List.getElem?_set, hw]
      by_cases h1 : j < i
      · rw [if_neg (by omega), if_neg (by omega), hb j (by omega),
          List.append_assoc, List.getElem?_append_left (by simp [hlen]; omega), List.getElem?_take, if_pos h1]
      · by_cases h2 : j = i
        · subst h2
          rw [if_pos rfl, if_pos (by omega), List.append_assoc, List.getElem?_append_right (by simp [hlen]; omega),
            List.length_take, hlen, show j - min j s.len = 0 by omega]
          rfl
        · rw [if_neg (by omega), if_pos (by omega), hb _ (by omega),
            List.getElem?_append_right (by simp [hlen]; omega), List.getElem?_drop]
          congr 1
          simp [hlen]; omega

theorem insert_ok {s t : Str} (hs : WF s) (ht : WF t) {i : Nat} (hi : i ≤ s.len) :
    ∃ r, insert s i t = .ok r ∧ WF r ∧ chars r = (chars s).take i ++ chars t ++ (chars s).drop i ∧
      r.hash = 0 ∧ r.len = s.len + t.len := by
  unfold insert
  rw [if_neg (by omega)]
  obtain ⟨r, e, hl, _, hc, hh⟩ := checkCapacity_ok hs t.len
  simp only [e, bind, Except.bind, pure, Except.pure, Int.toNat_natCast]
  obtain ⟨w, e2, wl, hw⟩ := shiftUp_ok i t.len r.len r.buf hc
  rw [e2]
  simp only
  have htl := chars_length ht
  obtain ⟨x, e3, xl, hx⟩ := copyIn_ok (fun _ a => charAt t a) i (chars t)
    (by intro v j hj; exact charAt_ok ht (by omega)) 0 w (by omega)
  rw [htl] at e3
  rw [e3]
  refine ⟨_, rfl, ?_, ?_, rfl, by simp [hl]⟩
  · simp [WF]; omega
  · have hlen : (chars s).length = s.len := chars_length hs
    have hb : ∀ j, j < s.len → r.buf[j]? = (chars s)[j]? := by
      intro j hj
      rw [← hh, chars_get?, if_pos (by omega)]
    apply chars_eq
    · simp [hlen, htl, hl]; omega
    · simp only [hl]
      intro j hj
      rw [hx, hw]
      by_cases h1 : j < i
      · rw [if_neg (by omega), if_neg (by omega), hb j (by omega),
          List.append_assoc, List.getElem?_append_left (by simp [hlen]; omega), List.getElem?_take, if_pos h1]
      · by_cases h2 : j < i + t.len
        · rw [if_pos (by omega), List.append_assoc, List.getElem?_append_right (by simp [hlen]; omega),
            List.getElem?_append_left (by simp [hlen, htl]; omega)]
          congr 1
          simp [hlen]; omega
        · rw [if_neg (by omega), if_pos (by omega), hb _ (by omega),
            List.getElem?_append_right (by simp [hlen, htl]; omega), List.getElem?_drop]
          congr 1
          simp [hlen, htl]; omega

theorem deleteCharAt_ok {s : Str} (hs : WF s) {i : Nat} (hi : i < s.len) :
    ∃ r, deleteCharAt s i = .ok r ∧ WF r ∧ chars r = (chars s).take i ++ (chars s).drop (i + 1) ∧
      r.hash = 0 ∧ r.len = s.len - 1 := by
  unfold deleteCharAt
  rw [if_neg (by omega)]
  have hs' := hs
  unfold WF at hs'
  obtain ⟨w, e, wl, hw⟩ := shiftDown_ok (s.len - 1) 1 i s.buf (by omega)
  simp only [Int.toNat_natCast, e, bind, Except.bind, pure, Except.pure]
  have hlen : (chars s).length = s.len := chars_length hs
  refine ⟨_, rfl, ?_, ?_, rfl, rfl⟩
  · simp [WF]; omega
  · apply chars_eq
    · simp [hlen]; omega
    · simp only
      intro j hj
      rw [hw]
      by_cases h1 : j < i
      · rw [if_neg (by omega), List.getElem?_append_left (by simp [hlen]; omega), List.getElem?_take, if_pos h1,
          chars_get?, if_pos (by omega)]
      · rw [if_pos (by omega), List.getElem?_append_right (by simp [hlen]; omega), List.getElem?_drop, chars_get?,
          if_pos (by simp [hlen]; omega)]
        congr 1
        simp [hlen]; omega

theorem deleteCharRangeAt_ok {s : Str} (hs : WF s) {i n : Nat} (hi : i + n ≤ s.len) :
    ∃ r, deleteCharRangeAt s i n = .ok r ∧ WF r ∧ chars r = (chars s).take i ++ (chars s).drop (i + n) ∧
      r.hash = 0 ∧ r.len = s.len - n := by
  unfold deleteCharRangeAt deleteCharRangeAtRaw
  rw [if_neg (by omega)]
  have hs' := hs
  unfold WF at hs'
  obtain ⟨w, e, wl, hw⟩ := shiftDown_ok (s.len - n) n i s.buf (by omega)
  simp only [Int.toNat_natCast, e, bind, Except.bind, pure, Except.pure]
  have hlen : (chars s).length = s.len := chars_length hs
  refine ⟨_, rfl, ?_, ?_, rfl, by simp⟩
  · simp [WF]; omega
  · apply chars_eq
    · simp [hlen]; omega
    · simp only
      intro j hj
      rw [hw]
      by_cases h1 : j < i
      · rw [if_neg (by omega), List.getElem?_append_left (by simp [hlen]; omega), List.getElem?_take, if_pos h1,
          chars_get?, if_pos (by omega)]
      · rw [if_pos (by omega), List.getElem?_append_right (by simp [hlen]; omega), List.getElem?_drop, chars_get?,
          if_pos (by simp [hlen]; omega)]
        congr 1
        simp [hlen]; omega

theorem clear_ok (s : Str) : WF (clear s) ∧ chars (clear s) = [] ∧ (clear s).hash = 0 := by
  unfold clear zero
  simp only
  split <;> simp [WF, chars]

end Verif.Str
