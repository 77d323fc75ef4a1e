import Verif.Charset.Lemmas
namespace Verif.Charset
open Verif

theorem enc1_cases (c : Ch) :
    (c.toNat < 0x80 ∧ enc1 c = [c.setWidth 8]) ∨
    (¬ c.toNat < 0x80 ∧ c.toNat < 0x800 ∧ enc1 c = [((c >>> 6) &&& 0x1F).setWidth 8 ||| 0xC0, (c &&& 0x3F).setWidth 8 ||| 0x80]) ∨
    (¬ c.toNat < 0x80 ∧ ¬ c.toNat < 0x800 ∧ enc1 c = [((c >>> 12) &&& 0x0F).setWidth 8 ||| 0xE0, ((c >>> 6) &&& 0x3F).setWidth 8 ||| 0x80,
      (c &&& 0x3F).setWidth 8 ||| 0x80]) := by
  unfold enc1
  by_cases h1 : c.toNat < 0x80
  · simp [h1]
  · by_cases h2 : c.toNat < 0x800 <;> simp [h1, h2]

theorem ne_zero_of_and {b : Byte} (h : b &&& 0x80 ≠ 0) : b ≠ 0 := by
  intro e; subst e; simp at h

theorem getElem_at (pre : List Byte) (x : Byte) (l : List Byte) (h : pre.length < (pre ++ x :: l).length) :
    (pre ++ x :: l)[pre.length]'h = x := by simp

theorem utf8Count_step (pre rest : List Byte) (c : Ch) (hc : c ≠ 0) (n : Nat) :
    utf8Count (pre ++ (enc1 c ++ rest)) pre.length n = utf8Count (pre ++ (enc1 c ++ rest)) (pre.length + (enc1 c).length) (n + 1) := by
  rw [utf8Count]
  rcases enc1_cases c with ⟨h1, he⟩ | ⟨h1, h2, he⟩ | ⟨h1, h2, he⟩
  · rw [he]
    have hz : (c.setWidth 8 : Byte) ≠ 0 := by
      intro e; apply hc; rw [← keep1 c h1, e]; rfl
    simp only [List.cons_append, List.nil_append, List.length_append, List.length_cons, List.length_nil]
    rw [dif_pos (by omega), getElem_at, if_neg hz, leadLength, if_pos (lead1 c h1)]
  · rw [he]
    have ⟨ha, hb⟩ := lead2 (c >>> 6)
    simp only [List.cons_append, List.nil_append, List.length_append, List.length_cons, List.length_nil]
    rw [dif_pos (by omega)]
    rw [getElem_at, if_neg (ne_zero_of_and ha)]
    rw [leadLength, if_neg ha, if_pos hb]
  · rw [he]
    have ⟨ha, hb, hd⟩ := lead3 (c >>> 12)
    simp only [List.cons_append, List.nil_append, List.length_append, List.length_cons, List.length_nil]
    rw [dif_pos (by omega)]
    rw [getElem_at, if_neg (ne_zero_of_and ha)]
    rw [leadLength, if_neg ha, if_neg hb, if_pos hd]

theorem utf8Count_ok (l : List Ch) : ∀ (pre rest : List Byte) (n : Nat) (_ : (0 : Ch) ∉ l),
    utf8Count (pre ++ (l.flatMap enc1 ++ 0 :: rest)) pre.length n = .ok (n + l.length) := by
  induction l with
  | nil => intro pre rest n _; rw [utf8Count]; simp
  | cons c l ih =>
    intro pre rest n h
    simp at h
    simp only [List.flatMap_cons, List.append_assoc]
    rw [utf8Count_step pre _ c (by intro e; exact h.1 e.symm)]
    have := ih (pre ++ enc1 c) rest (n + 1) (by simpa using h.2)
    simp only [List.append_assoc, List.length_append] at this
    rw [this]
    simp; omega

theorem rd_at (pre : List Byte) (x : Byte) (l : List Byte) : rd (pre ++ x :: l) pre.length = .ok x := by
  rw [rd_ok (by simp)]; simp

theorem rd_at1 (pre : List Byte) (x y : Byte) (l : List Byte) : rd (pre ++ x :: y :: l) (pre.length + 1) = .ok y := by
  rw [rd_ok (by simp)]; simp

theorem rd_at2 (pre : List Byte) (x y z : Byte) (l : List Byte) : rd (pre ++ x :: y :: z :: l) (pre.length + 2) = .ok z := by
  rw [rd_ok (by simp)]; simp

theorem utf8Fill_step (pre rest : List Byte) (c : Ch) (N : Nat) (out : List Ch) (hN : out.length < N) :
    utf8Fill (pre ++ (enc1 c ++ rest)) N pre.length out =
      utf8Fill (pre ++ (enc1 c ++ rest)) N (pre.length + (enc1 c).length) (out ++ [c]) := by
  rw [utf8Fill, if_pos hN]
  rcases enc1_cases c with ⟨h1, he⟩ | ⟨h1, h2, he⟩ | ⟨h1, h2, he⟩
  · rw [he]
    simp only [List.cons_append, List.nil_append, List.length_append, List.length_cons, List.length_nil]
    rw [dif_pos (by omega), getElem_at, if_pos (lead1 c h1), keep1 c h1]
  · rw [he]
    have ⟨ha, hb⟩ := lead2 (c >>> 6)
    simp only [List.cons_append, List.nil_append, List.length_append, List.length_cons, List.length_nil]
    rw [dif_pos (by omega)]
    rw [getElem_at, if_neg ha, if_pos hb, rd_at1]
    simp only [bind, Except.bind]
    rw [join2 c h2]
  · rw [he]
    have ⟨ha, hb, hd⟩ := lead3 (c >>> 12)
    simp only [List.cons_append, List.nil_append, List.length_append, List.length_cons, List.length_nil]
    rw [dif_pos (by omega)]
    rw [getElem_at, if_neg ha, if_neg hb, if_pos hd, rd_at1]
    simp only [bind, Except.bind]
    rw [rd_at2]
    simp only
    rw [join3 c]

theorem utf8Fill_ok (l : List Ch) : ∀ (pre rest : List Byte) (out : List Ch),
    utf8Fill (pre ++ (l.flatMap enc1 ++ rest)) (out.length + l.length) pre.length out = .ok (out ++ l) := by
  induction l with
  | nil => intro pre rest out; rw [utf8Fill]; simp
  | cons c l ih =>
    intro pre rest out
    simp only [List.flatMap_cons, List.append_assoc]
    rw [utf8Fill_step pre _ c _ _ (by simp)]
    have := ih (pre ++ enc1 c) rest (out ++ [c])
    simp only [List.append_assoc, List.length_append, List.length_cons, List.length_nil] at this
    rw [List.length_cons, show out.length + (l.length + 1) = out.length + (0 + 1) + l.length by omega, this]
    simp

theorem rd_zero (x : Byte) (l : List Byte) : rd (x :: l) 0 = .ok x := rfl
theorem rd_one (x y : Byte) (l : List Byte) : rd (x :: y :: l) 1 = .ok y := rfl
theorem rd_two (x y z : Byte) (l : List Byte) : rd (x :: y :: z :: l) 2 = .ok z := rfl

theorem start_plain (x : Byte) (l : List Byte) (h1 : x ≠ 0xFE) (h2 : x ≠ 0xFF) (h3 : x ≠ 0xEF) :
    utf8Start (x :: l) = .ok 0 := by
  simp only [utf8Start, rd_zero, bind, Except.bind, if_neg h1, if_neg h2, if_neg h3, pure, Except.pure]

theorem utf8Start_ok (l : List Ch) (rest : List Byte) (h : l.head? ≠ some 0xFEFF) :
    utf8Start (l.flatMap enc1 ++ 0 :: rest) = .ok 0 := by
  cases l with
  | nil => exact start_plain _ _ (by decide) (by decide) (by decide)
  | cons c l =>
    simp only [List.flatMap_cons, List.append_assoc]
    rcases enc1_cases c with ⟨h1, he⟩ | ⟨h1, h2, he⟩ | ⟨h1, h2, he⟩
    · have := lead1 c h1
      rw [he]; apply start_plain <;> (intro e; rw [e] at this; revert this; decide)
    · have ⟨ha, hb⟩ := lead2 (c >>> 6)
      rw [he]; apply start_plain <;> (intro e; rw [e] at hb; revert hb; decide)
    · have ⟨ha, hb, hd⟩ := lead3 (c >>> 12)
      rw [he]
      have hj := join3 c
      simp only [List.cons_append, List.nil_append]
      simp only [utf8Start, rd_zero, rd_one, rd_two, bind, Except.bind, pure, Except.pure]
      rw [if_neg (by intro e; rw [e] at hd; revert hd; decide), if_neg (by intro e; rw [e] at hd; revert hd; decide)]
      split
      · next e1 =>
        split
        · next e2 =>
          split
          · next e3 =>
            exfalso; apply h
            rw [e1, e2, e3] at hj
            rw [List.head?_cons, ← hj]; rfl
          · rfl
        · rfl
      · rfl

theorem utf8Decode_ok (l : List Ch) (rest : List Byte) (h0 : (0 : Ch) ∉ l) (h : l.head? ≠ some 0xFEFF) :
    utf8Decode (l.flatMap enc1 ++ 0 :: rest) = .ok l := by
  have h1 := utf8Count_ok l [] rest 0 h0
  have h2 := utf8Fill_ok l [] (0 :: rest) []
  simp only [List.nil_append, List.length_nil, Nat.zero_add] at h1 h2
  simp only [utf8Decode, utf8Start_ok l rest h, bind, Except.bind, h1, h2]

theorem utf8Decode_bom_ok (l : List Ch) (rest : List Byte) (h0 : (0 : Ch) ∉ l) :
    utf8Decode ([0xEF, 0xBB, 0xBF] ++ (l.flatMap enc1 ++ 0 :: rest)) = .ok l := by
  have h1 := utf8Count_ok l [0xEF, 0xBB, 0xBF] rest 0 h0
  have h2 := utf8Fill_ok l [0xEF, 0xBB, 0xBF] (0 :: rest) []
  have hs : utf8Start ([0xEF, 0xBB, 0xBF] ++ (l.flatMap enc1 ++ 0 :: rest)) = .ok 3 := rfl
  simp only [Nat.zero_add, List.length_cons, List.length_nil, List.nil_append] at h1 h2
  simp only [utf8Decode, hs, bind, Except.bind, h1, h2]

/-! The standard's bytes -/

theorem and_1f (n : Nat) : n &&& 31 = n % 32 := by
  have := Nat.and_two_pow_sub_one_eq_mod n 5; simpa using this
theorem and_0f (n : Nat) : n &&& 15 = n % 16 := by
  have := Nat.and_two_pow_sub_one_eq_mod n 4; simpa using this
theorem and_3f (n : Nat) : n &&& 63 = n % 64 := by
  have := Nat.and_two_pow_sub_one_eq_mod n 6; simpa using this

theorem or_c0 (n : Nat) (h : n < 32) : n ||| 192 = n + 192 := by
  have := Nat.two_pow_add_eq_or_of_lt (i := 6) (b := n) (by omega) 3
  rw [Nat.or_comm, ← this]; omega
theorem or_e0 (n : Nat) (h : n < 16) : n ||| 224 = n + 224 := by
  have := Nat.two_pow_add_eq_or_of_lt (i := 5) (b := n) (by omega) 7
  rw [Nat.or_comm, ← this]; omega
theorem or_80 (n : Nat) (h : n < 64) : n ||| 128 = n + 128 := by
  have := Nat.two_pow_add_eq_or_of_lt (i := 7) (b := n) (by omega) 1
  rw [Nat.or_comm, ← this]; omega

end Verif.Charset
