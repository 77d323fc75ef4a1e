import Verif.Str.CmpProps
import Verif.Str.PartProps
set_option linter.unusedVariables false
set_option linter.unusedSimpArgs false
/-
Properties C11 (searching) and C12 (replace).
-/
namespace Verif.Str.SearchProps
open Verif Verif.Str Verif.Str.CmpProps

/-! ### Specification -/

/-- `r` is the least position from `start` on with `P`, or -1 when there is none. -/
def IsFirst (P : Nat → Prop) (start : Nat) (r : Int) : Prop :=
  (r = -1 ∧ ∀ a, start ≤ a → ¬ P a) ∨ ∃ a : Nat, r = a ∧ start ≤ a ∧ P a ∧ ∀ b, start ≤ b → b < a → ¬ P b

/-- `r` is the greatest position up to `last` (included) with `P`, or -1 when there is none. -/
def IsLast (P : Nat → Prop) (last : Int) (r : Int) : Prop :=
  (r = -1 ∧ ∀ a : Nat, (a : Int) ≤ last → ¬ P a) ∨
    ∃ a : Nat, r = a ∧ (a : Int) ≤ last ∧ P a ∧ ∀ b : Nat, (b : Int) ≤ last → a < b → ¬ P b

/-- the character at position `a` of `l` is `c` -/
def CharAt (l : List Ch) (c : Ch) (a : Nat) : Prop := l[a]? = some c

/-- the characters of `m` stand at position `a` of `l` -/
def OccursAt (l m : List Ch) (a : Nat) : Prop := a < l.length ∧ m <+: l.drop a

/-- Every non-overlapping occurrence of `old`, found from left to right, becomes `new`. -/
def replaceAll (old new : List Ch) : List Ch → List Ch
  | [] => []
  | c :: l => if old <+: c :: l then new ++ replaceAll old new (l.drop (old.length - 1)) else c :: replaceAll old new l
termination_by l => l.length
decreasing_by all_goals (simp; try omega)

/-! ### Lemmas -/

theorem findChar_ok {s : Str} (hs : WF s) (c : Ch) (a : Nat) :
    ∃ r, findChar s c a = .ok r ∧ IsFirst (CharAt (chars s) c) a (orMinus1 r) := by
  have hlen := chars_length hs
  fun_induction findChar s c a with
  | case1 a h ih =>
    rw [rd_chars hs h]
    simp only [bind, Except.bind, pure, Except.pure]
    have hg : (chars s)[a]? = some ((chars s)[a]'(by omega)) := by simp
    split
    · rename_i he
      exact ⟨_, rfl, .inr ⟨a, rfl, Nat.le_refl _, by rw [CharAt, hg, he], fun b h1 h2 => by omega⟩⟩
    · rename_i he
      have hna : ¬ CharAt (chars s) c a := by rw [CharAt, hg]; simpa using he
      obtain ⟨r, e, h⟩ := ih
      refine ⟨r, e, ?_⟩
      rcases h with ⟨h1, h2⟩ | ⟨x, h1, h2, h3, h4⟩
      · exact .inl ⟨h1, fun b hb => if hab : b = a then hab ▸ hna else h2 b (by omega)⟩
      · exact .inr ⟨x, h1, by omega, h3, fun b hb hx => if hab : b = a then hab ▸ hna else h4 b (by omega) hx⟩
  | case2 a h =>
    refine ⟨none, rfl, .inl ⟨rfl, ?_⟩⟩
    intro b hb
    rw [CharAt, List.getElem?_eq_none (by omega)]; simp

theorem findCharBack_ok {s : Str} (hs : WF s) (c : Ch) (n : Nat) (hn : n ≤ s.len) :
    ∃ r, findCharBack s c n = .ok r ∧ IsLast (CharAt (chars s) c) ((n : Int) - 1) (orMinus1 r) := by
  have hlen := chars_length hs
  induction n with
  | zero => exact ⟨none, rfl, .inl ⟨rfl, fun a h => by omega⟩⟩
  | succ a ih =>
    unfold findCharBack
    rw [rd_chars hs (by omega)]
    simp only [bind, Except.bind, pure, Except.pure]
    have hg : (chars s)[a]? = some ((chars s)[a]'(by omega)) := by simp
    split
    · rename_i he
      exact ⟨_, rfl, .inr ⟨a, rfl, by omega, by rw [CharAt, hg, he], fun b h1 h2 => by omega⟩⟩
    · rename_i he
      have hna : ¬ CharAt (chars s) c a := by rw [CharAt, hg]; simpa using he
      obtain ⟨r, e, h⟩ := ih (by omega)
      refine ⟨r, e, ?_⟩
      rcases h with ⟨h1, h2⟩ | ⟨x, h1, h2, h3, h4⟩
      · exact .inl ⟨h1, fun b hb => if hab : b = a then hab ▸ hna else h2 b (by omega)⟩
      · exact .inr ⟨x, h1, by omega, h3, fun b hb hx => if hab : b = a then hab ▸ hna else h4 b (by omega) hx⟩

theorem prefix_drop_iff {l m : List Ch} {a : Nat} (h : a + m.length ≤ l.length) :
    (m <+: l.drop a) ↔ (l.drop a).take m.length = m := by
  rw [List.prefix_iff_eq_take]; exact ⟨Eq.symm, Eq.symm⟩

/-- matching inside the content -/
theorem matchAt_inside {s t : Str} (hs : WF s) (ht : WF t) (a : Nat) (h : a + t.len ≤ s.len) :
    matchAt s t a = .ok (decide (chars t <+: (chars s).drop a)) := by
  have l1 := chars_length hs
  have l2 := chars_length ht
  unfold matchAt
  rw [sameRange_ok id a 0 hs ht t.len h (by omega)]
  congr 1
  rw [decide_eq_decide, List.map_id, List.map_id, prefix_drop_iff (by omega), List.drop_zero, l2,
    List.take_of_length_le (l := chars t) (by omega)]

/-- matching with a zero cell behind the content -/
theorem sameRange_term {s t : Str} (hs : WF s) (ht : WF t) (hz : s.buf[s.len]? = some 0) (h0 : (0 : Ch) ∉ chars t)
    (n : Nat) : ∀ i j, i ≤ s.len → j + n = t.len →
    sameRange id s.buf i t.buf j n = .ok (decide ((chars t).drop j <+: (chars s).drop i)) := by
  have l1 := chars_length hs
  have l2 := chars_length ht
  induction n with
  | zero =>
    intro i j hi hj
    rw [List.drop_eq_nil_of_le (by omega)]
    simp [sameRange]
  | succ n ih =>
    intro i j hi hj
    have hj' : j < (chars t).length := by omega
    have d2 := List.drop_eq_getElem_cons hj'
    unfold sameRange
    by_cases hlt : i < s.len
    · rw [rd_chars hs hlt, rd_chars ht (by omega)]
      have d1 := List.drop_eq_getElem_cons (i := i) (l := chars s) (by omega)
      simp only [bind, Except.bind, pure, Except.pure, id]
      rw [d1, d2]
      simp only [List.cons_prefix_cons]
      split
      · rename_i h; simp; intro e; exact absurd e.symm h
      · rename_i h
        simp only [ne_eq, Classical.not_not] at h
        rw [ih (i + 1) (j + 1) (by omega) (by omega)]
        simp [h]
    · have hi2 : i = s.len := by omega
      subst hi2
      have hr : rd s.buf s.len = .ok 0 := by simp [rd, hz]
      rw [hr, rd_chars ht (by omega)]
      have hne : (0 : Ch) ≠ (chars t)[j] := fun e => h0 (by rw [e]; exact List.getElem_mem _)
      simp only [bind, Except.bind, pure, Except.pure, id]
      rw [if_pos hne, List.drop_eq_nil_of_le (as := chars s) (by omega), d2]
      congr 1

theorem findStr_ok {s t : Str} (hs : WF s) (ht : WF t) (hz : s.buf[s.len]? = some 0) (h0 : (0 : Ch) ∉ chars t) (a : Nat) :
    ∃ r, findStr s t a = .ok r ∧ IsFirst (OccursAt (chars s) (chars t)) a (orMinus1 r) := by
  have hlen := chars_length hs
  fun_induction findStr s t a with
  | case1 a h ih =>
    have hm : matchAt s t a = .ok (decide (chars t <+: (chars s).drop a)) := by
      have := sameRange_term hs ht hz h0 t.len a 0 (by omega) (by omega)
      rw [List.drop_zero] at this
      exact this
    rw [hm]
    simp only [bind, Except.bind, pure, Except.pure, decide_eq_true_eq]
    split
    · rename_i he
      exact ⟨_, rfl, .inr ⟨a, rfl, Nat.le_refl _, ⟨by omega, he⟩, fun b h1 h2 => by omega⟩⟩
    · rename_i he
      have hna : ¬ OccursAt (chars s) (chars t) a := fun x => he x.2
      obtain ⟨r, e, h⟩ := ih
      refine ⟨r, e, ?_⟩
      rcases h with ⟨h1, h2⟩ | ⟨x, h1, h2, h3, h4⟩
      · exact .inl ⟨h1, fun b hb => if hab : b = a then hab ▸ hna else h2 b (by omega)⟩
      · exact .inr ⟨x, h1, by omega, h3, fun b hb hx => if hab : b = a then hab ▸ hna else h4 b (by omega) hx⟩
  | case2 a h => exact ⟨none, rfl, .inl ⟨rfl, fun b hb hx => by have := hx.1; omega⟩⟩

theorem findStrBack_ok {s t : Str} (hs : WF s) (ht : WF t) (n : Nat) (hn : n = 0 ∨ n + t.len ≤ s.len + 1) :
    ∃ r, findStrBack s t n = .ok r ∧ IsLast (fun a => chars t <+: (chars s).drop a) ((n : Int) - 1) (orMinus1 r) := by
  induction n with
  | zero => exact ⟨none, rfl, .inl ⟨rfl, fun a h => by omega⟩⟩
  | succ a ih =>
    unfold findStrBack
    rw [matchAt_inside hs ht a (by omega)]
    simp only [bind, Except.bind, pure, Except.pure, decide_eq_true_eq]
    split
    · rename_i he
      exact ⟨_, rfl, .inr ⟨a, rfl, by omega, he, fun b h1 h2 => by omega⟩⟩
    · rename_i hna
      obtain ⟨r, e, h⟩ := ih (by omega)
      refine ⟨r, e, ?_⟩
      rcases h with ⟨h1, h2⟩ | ⟨x, h1, h2, h3, h4⟩
      · exact .inl ⟨h1, fun b hb => if hab : b = a then hab ▸ hna else h2 b (by omega)⟩
      · exact .inr ⟨x, h1, by omega, h3, fun b hb hx => if hab : b = a then hab ▸ hna else h4 b (by omega) hx⟩

/-! ### C11 -/

/-- **C11 (`indexOf(Char, from)`).** -/
theorem indexOfChar_spec {s : Str} (hs : WF s) (c : Ch) (start : Int) :
    ∃ r, indexOfChar s c start = .ok r ∧ IsFirst (CharAt (chars s) c) start.toNat r := by
  obtain ⟨r, e, h⟩ := findChar_ok hs c start.toNat
  exact ⟨_, by simp only [indexOfChar, e, bind, Except.bind, pure, Except.pure], h⟩

/-- **C11 (`lastIndexOf(Char)`).** -/
theorem lastIndexOfChar_spec {s : Str} (hs : WF s) (c : Ch) :
    ∃ r, lastIndexOfChar s c = .ok r ∧ IsLast (CharAt (chars s) c) ((s.len : Int) - 1) r := by
  unfold lastIndexOfChar lastIndexOfCharFrom
  rw [if_neg (by omega)]
  dsimp only
  generalize hf : (if (s.len : Int) - 1 < 0 then (0 : Int) else (s.len : Int) - 1) = f
  have : (if f > (s.len : Int) - 1 then (s.len : Int) - 1 else f) = (s.len : Int) - 1 := by
    split at hf <;> split <;> omega
  rw [this]
  obtain ⟨r, e, h⟩ := findCharBack_ok hs c s.len (Nat.le_refl _)
  rw [show ((s.len : Int) - 1 + 1).toNat = s.len by omega]
  exact ⟨orMinus1 r, by simp only [e, bind, Except.bind, pure, Except.pure], h⟩

/-- **C11 (`lastIndexOf(Char, from)`).** A start behind the last character throws; a negative
start counts as 0. -/
theorem lastIndexOfCharFrom_spec {s : Str} (hs : WF s) (c : Ch) (start : Int) :
    if start ≥ s.len then lastIndexOfCharFrom s c start = .error .thrown
    else ∃ r, lastIndexOfCharFrom s c start = .ok r ∧ IsLast (CharAt (chars s) c) (max start 0) r := by
  have hlen := chars_length hs
  unfold lastIndexOfCharFrom
  split
  · rfl
  · rename_i hlt
    dsimp only
    generalize hf : (if start < 0 then (0 : Int) else start) = f
    have hf' : f = max start 0 := by split at hf <;> omega
    generalize hg : (if f > (s.len : Int) - 1 then (s.len : Int) - 1 else f) = g
    obtain ⟨r, e, h⟩ := findCharBack_ok hs c (g + 1).toNat (by split at hg <;> omega)
    refine ⟨orMinus1 r, by simp only [e, bind, Except.bind, pure, Except.pure], ?_⟩
    by_cases hpos : 0 < s.len
    · rw [if_neg (by omega)] at hg
      rw [← hf', hg]
      rw [show (((g + 1).toNat : Int) - 1) = g by omega] at h
      exact h
    · rcases h with ⟨h1, h2⟩ | ⟨x, h1, h2, h3, h4⟩
      · refine .inl ⟨h1, fun a ha => ?_⟩
        rw [CharAt, List.getElem?_eq_none (by omega)]; simp
      · rw [CharAt, List.getElem?_eq_none (by omega)] at h3; cases h3

/-- **C11 (`lastIndexOf(String, from)`).** Greatest position up to `from` at which the argument
occurs completely. -/
theorem lastIndexOfStrFrom_spec {s t : Str} (hs : WF s) (ht : WF t) (start : Int) :
    ∃ r, lastIndexOfStrFrom s t start = .ok r ∧
      IsLast (fun a => a + (chars t).length ≤ (chars s).length ∧ chars t <+: (chars s).drop a) start r := by
  have l1 := chars_length hs
  have l2 := chars_length ht
  unfold lastIndexOfStrFrom
  dsimp only
  generalize hg : (if start > (s.len : Int) - t.len then (s.len : Int) - t.len else start) = g
  obtain ⟨r, e, h⟩ := findStrBack_ok hs ht (g + 1).toNat (by split at hg <;> omega)
  refine ⟨orMinus1 r, by simp only [e, bind, Except.bind, pure, Except.pure], ?_⟩
  rcases h with ⟨h1, h2⟩ | ⟨x, h1, h2, h3, h4⟩
  · refine .inl ⟨h1, fun a ha hp => h2 a ?_ hp.2⟩
    have := hp.1
    split at hg <;> omega
  · refine .inr ⟨x, h1, ?_, ⟨?_, h3⟩, fun b hb hx hp => h4 b ?_ hx hp.2⟩
    · split at hg <;> omega
    · split at hg <;> omega
    · have := hp.1
      split at hg <;> omega

/-- **C11 (`lastIndexOf(String)`).** The last occurrence of a text with characters; the empty text is reported at the last
character. -/
theorem lastIndexOfStr_spec {s t : Str} (hs : WF s) (ht : WF t) :
    ∃ r, lastIndexOfStr s t = .ok r ∧
      (chars t ≠ [] → (r = -1 ∧ ∀ a, ¬ OccursAt (chars s) (chars t) a) ∨
        ∃ a : Nat, r = a ∧ OccursAt (chars s) (chars t) a ∧ ∀ b, OccursAt (chars s) (chars t) b → b ≤ a) ∧
      (chars t = [] → r = (chars s).length - 1) := by
  have l1 := chars_length hs
  obtain ⟨r, e, h⟩ := lastIndexOfStrFrom_spec hs ht ((s.len : Int) - 1)
  refine ⟨r, e, ?_, ?_⟩
  · intro hne
    have hpos : 0 < (chars t).length := List.length_pos_iff.2 hne
    have fits : ∀ a, OccursAt (chars s) (chars t) a → a + (chars t).length ≤ (chars s).length := by
      intro a ha
      have h1 := List.IsPrefix.length_le ha.2
      rw [List.length_drop] at h1
      omega
    rcases h with ⟨h1, h2⟩ | ⟨x, h1, h2, h3, h4⟩
    · refine .inl ⟨h1, fun a ha => h2 a ?_ ⟨fits a ha, ha.2⟩⟩
      have := fits a ha
      omega
    · refine .inr ⟨x, h1, ⟨by omega, h3.2⟩, fun b hb => ?_⟩
      by_contra hc
      have := fits b hb
      exact h4 b (by omega) (by omega) ⟨fits b hb, hb.2⟩
  · intro hnil
    rw [hnil] at h
    rcases h with ⟨h1, h2⟩ | ⟨x, h1, h2, h3, h4⟩
    · rcases Nat.eq_zero_or_pos s.len with h0 | h0
      · rw [h1, l1, h0]; rfl
      · exact absurd ⟨by simp only [List.length_nil]; omega, List.nil_prefix⟩ (h2 (s.len - 1) (by omega))
    · rw [h1, l1]
      have := h3.1
      by_contra hc
      exact h4 (x + 1) (by omega) (by omega) ⟨by simp only [List.length_nil]; omega, List.nil_prefix⟩

/-- **C11 (`indexOf(String, from)`, partial).** Exact when the cell behind the content is inside
the block and zero and the pattern contains no zero character — as in a string made from
characters whose number is no multiple of 16.  In general the code compares beyond the content:
`indexOf_stale_match`, `indexOf_reads_outside`. -/
theorem indexOfStr_partial {s t : Str} (hs : WF s) (ht : WF t) (hz : s.buf[s.len]? = some 0) (h0 : (0 : Ch) ∉ chars t)
    (start : Int) : ∃ r, indexOfStr s t start = .ok r ∧ IsFirst (OccursAt (chars s) (chars t)) start.toNat r := by
  obtain ⟨r, e, h⟩ := findStr_ok hs ht hz h0 start.toNat
  exact ⟨_, by simp only [indexOfStr, e, bind, Except.bind, pure, Except.pure], h⟩

/-- The hypothesis of the partial theorem holds for constructed strings. -/
theorem constructed_terminated {cs : List Ch} (h : cs.length % 16 ≠ 0) {s : Str} (e : ofChars cs = .ok s) :
    s.buf[s.len]? = some 0 := by
  obtain ⟨s', e', _, _, _, hl, hb⟩ := ofChars_ok cs
  rw [e] at e'; cases e'
  rw [hb, hl, List.getElem?_append_right (by omega), Nat.sub_self, newBuf, List.getElem?_replicate, if_pos]
  unfold round16; rw [if_pos h]; omega

/-- Violation: `s = "abc"; s.deleteCharAt(2); s.indexOf("bc")` is 1 although `s` is "ab". -/
theorem indexOf_stale_match :
    (do let s ← ofChars [0x61, 0x62, 0x63]; let t ← ofChars [0x62, 0x63]
        let s ← deleteCharAt s 2
        let r ← indexOfStr s t 0
        return (chars s, r)) = .ok ([0x61, 0x62], 1) := by decide +kernel

/-- Violation: searching "ab" in a string of sixteen "a" reads outside the block. -/
theorem indexOf_reads_outside :
    (do let s ← ofChars (List.replicate 16 0x61); let t ← ofChars [0x61, 0x62]
        indexOfStr s t 0) = .error .ub := by decide +kernel

/-- **C11 (`startsWith`).** -/
theorem startsWith_spec {s t : Str} (hs : WF s) (ht : WF t) :
    startsWith s t = .ok (decide (chars t <+: chars s)) := by
  have l1 := chars_length hs
  have l2 := chars_length ht
  unfold startsWith
  split
  · rename_i h
    have : ¬ chars t <+: chars s := fun hp => by have := hp.length_le; omega
    simp [this]
  · have := matchAt_inside hs ht 0 (by omega)
    rw [List.drop_zero] at this
    exact this

/-- **C11 (`atIs`)** for a position inside the string. -/
theorem atIs_spec {s t : Str} (hs : WF s) (ht : WF t) (p : Nat) :
    atIs s p t = .ok (decide (p + (chars t).length ≤ (chars s).length ∧ chars t <+: (chars s).drop p)) := by
  have l1 := chars_length hs
  have l2 := chars_length ht
  unfold atIs
  split
  · rename_i h
    have : ¬ (p + (chars t).length ≤ (chars s).length) := by omega
    simp [this]
  · rw [if_neg (by omega), Int.toNat_natCast]
    have := matchAt_inside hs ht p (by omega)
    unfold matchAt at this
    rw [this]
    have h2 : p + (chars t).length ≤ (chars s).length := by omega
    simp [h2]

theorem sameBack_ok {s t : Str} (hs : WF s) (ht : WF t) (hle : t.len ≤ s.len) (a : Nat) (ha : 1 ≤ a) (ha2 : a ≤ t.len + 1) :
    sameBack s t a = .ok (decide ((chars t).take (t.len + 1 - a) <:+ (chars s).take (s.len + 1 - a))) := by
  have l1 := chars_length hs
  have l2 := chars_length ht
  fun_induction sameBack s t a with
  | case1 a h ih =>
    rw [rd_chars hs (by omega), rd_chars ht (by omega)]
    simp only [bind, Except.bind, pure, Except.pure]
    have d1 : (chars s).take (s.len + 1 - a) = (chars s).take (s.len - a) ++ [(chars s)[s.len - a]'(by omega)] := by
      rw [show s.len + 1 - a = (s.len - a) + 1 by omega, List.take_add_one, List.getElem?_eq_getElem (by omega)]; rfl
    have d2 : (chars t).take (t.len + 1 - a) = (chars t).take (t.len - a) ++ [(chars t)[t.len - a]'(by omega)] := by
      rw [show t.len + 1 - a = (t.len - a) + 1 by omega, List.take_add_one, List.getElem?_eq_getElem (by omega)]; rfl
    rw [d1, d2]
    have ih := ih (by omega) (by omega)
    rw [show s.len + 1 - (a + 1) = s.len - a by omega, show t.len + 1 - (a + 1) = t.len - a by omega] at ih
    split
    · rename_i hne
      congr 1
      symm
      rw [decide_eq_false_iff_not]
      intro hsuf
      obtain ⟨p, hp⟩ := hsuf
      rw [← List.append_assoc] at hp
      have := (List.append_inj' hp rfl).2
      simp at this; exact hne this.symm
    · rename_i heq
      simp only [ne_eq, Classical.not_not] at heq
      rw [ih]
      congr 1
      rw [decide_eq_decide, heq]
      constructor
      · rintro ⟨p, hp⟩; exact ⟨p, by rw [← List.append_assoc, hp]⟩
      · rintro ⟨p, hp⟩
        rw [← List.append_assoc] at hp
        exact ⟨p, (List.append_inj' hp rfl).1⟩
  | case2 a h =>
    rw [show t.len + 1 - a = 0 by omega]
    simp

/-- **C11 (`endsWith`).** -/
theorem endsWith_spec {s t : Str} (hs : WF s) (ht : WF t) :
    endsWith s t = .ok (decide (chars t <:+ chars s)) := by
  have l1 := chars_length hs
  have l2 := chars_length ht
  unfold endsWith
  split
  · rename_i h
    have : ¬ chars t <:+ chars s := fun hp => by have := hp.length_le; omega
    simp [this]
  · rw [sameBack_ok hs ht (by omega) 1 (by omega) (by omega), Nat.add_sub_cancel, Nat.add_sub_cancel,
      List.take_of_length_le (by omega), List.take_of_length_le (by omega)]

/-! ### C12 -/

theorem replaceAll_none (old new : List Ch) (l : List Ch) (h : ∀ a, ¬ OccursAt l old a) : replaceAll old new l = l := by
  induction l with
  | nil => simp [replaceAll]
  | cons c l ih =>
    rw [replaceAll, if_neg (fun hp => h 0 ⟨by simp, by simpa using hp⟩)]
    congr 1
    apply ih
    intro a ha
    exact h (a + 1) ⟨by simp [ha.1], by simpa using ha.2⟩

theorem replaceAll_first (old new : List Ch) (hne : old ≠ []) (l : List Ch) (a : Nat) (h : OccursAt l old a)
    (hb : ∀ b < a, ¬ OccursAt l old b) :
    replaceAll old new l = l.take a ++ new ++ replaceAll old new (l.drop (a + old.length)) := by
  induction a generalizing l with
  | zero =>
    cases l with
    | nil => exact absurd h.1 (by simp)
    | cons c l =>
      rw [replaceAll, if_pos (by simpa using h.2)]
      have : 0 < old.length := List.length_pos_iff.2 hne
      have e : (c :: l).drop (0 + old.length) = l.drop (old.length - 1) := by
        rw [show 0 + old.length = (old.length - 1) + 1 by omega, List.drop_succ_cons]
      rw [e]; simp
  | succ a ih =>
    cases l with
    | nil => exact absurd h.1 (by simp)
    | cons c l =>
      rw [replaceAll, if_neg (fun hp => hb 0 (by omega) ⟨by simp, by simpa using hp⟩)]
      rw [ih l ⟨by simpa using h.1, by simpa using h.2⟩
        (fun b hb' ho => hb (b + 1) (by omega) ⟨by simp [ho.1], by simpa using ho.2⟩)]
      rw [show a + 1 + old.length = (a + old.length) + 1 by omega]
      simp

theorem isFirst_drop {l m : List Ch} {p : Nat} :
    ∀ a, OccursAt (l.drop p) m a ↔ OccursAt l m (p + a) := by
  intro a
  unfold OccursAt
  rw [List.length_drop, List.drop_drop]
  constructor
  · rintro ⟨h1, h2⟩; exact ⟨by omega, h2⟩
  · rintro ⟨h1, h2⟩; exact ⟨by omega, h2⟩

theorem replaceLoop_ok {s old new : Str} (hs : WF s) (ho : WF old) (hn : WF new) (hz : s.buf[s.len]? = some 0)
    (h0 : (0 : Ch) ∉ chars old) (hne : chars old ≠ []) (fuel : Nat) :
    ∀ (output : Str) (p q : Nat), WF output → p ≤ q → s.len < fuel + p → OccursAt (chars s) (chars old) q →
      (∀ b, p ≤ b → b < q → ¬ OccursAt (chars s) (chars old) b) →
    ∃ r pos, replaceLoop s old new fuel output p q = some (.ok (r, pos)) ∧ WF r ∧
      chars r ++ (chars s).drop pos.toNat = chars output ++ replaceAll (chars old) (chars new) ((chars s).drop p) := by
  have l1 := chars_length hs
  have l2 := chars_length ho
  have hol : 0 < old.len := by rw [← l2]; exact List.length_pos_iff.2 hne
  induction fuel with
  | zero => intro output p q _ h1 h2 h3 _; have := h3.1; omega
  | succ fuel ih =>
    intro output p q hw hpq hf hocc hfirst
    obtain ⟨part, e1, w1, c1, _⟩ := PartProps.substring_ok hs p q
    obtain ⟨o1, e2, w2, c2, _⟩ := append_ok hw w1
    obtain ⟨o2, e3, w3, c3, _⟩ := append_ok w2 hn
    obtain ⟨r, e4, h4⟩ := indexOfStr_partial hs ho hz h0 ((q : Int) + old.len)
    have hco : chars o2 = chars output ++ ((chars s).take q).drop p ++ chars new := by
      rw [c3, c2, c1, PartProps.sub]; simp
    have hrep : replaceAll (chars old) (chars new) ((chars s).drop p) = ((chars s).take q).drop p ++ chars new ++
        replaceAll (chars old) (chars new) ((chars s).drop (q + old.len)) := by
      rw [replaceAll_first _ _ hne ((chars s).drop p) (q - p)
        ((isFirst_drop _).2 (by rw [show p + (q - p) = q by omega]; exact hocc))
        (fun b hb h => hfirst (p + b) (by omega) (by omega) ((isFirst_drop _).1 h))]
      rw [List.drop_drop, List.drop_take, l2, show p + (q - p + old.len) = q + old.len by omega]
    unfold replaceLoop
    simp only [e1, e2, e3, e4, bind, Except.bind, pure, Except.pure]
    rw [show ((q : Int) + old.len).toNat = q + old.len by omega] at h4
    rcases h4 with ⟨rfl, hno⟩ | ⟨a, rfl, ha1, ha2, ha3⟩
    · rw [if_neg (by omega)]
      refine ⟨o2, _, rfl, w3, ?_⟩
      rw [show ((q : Int) + old.len).toNat = q + old.len by omega, hrep, hco]
      rw [replaceAll_none _ _ ((chars s).drop (q + old.len))
        (fun b hb => hno _ (by omega) ((isFirst_drop _).1 hb))]
      simp [List.append_assoc]
    · rw [if_pos (by omega)]
      have := ih o2 (q + old.len) a w3 ha1 (by omega) ha2 ha3
      rw [show ((q + old.len : Nat) : Int) = (q : Int) + old.len by omega] at this
      obtain ⟨r, pos, x, y, z⟩ := this
      refine ⟨r, pos, x, y, ?_⟩
      rw [z, hrep, hco]
      simp [List.append_assoc]

/-- **C12 (partial).** For a non-empty pattern without zero characters, in a string whose block has
a zero cell behind the content, `replace` terminates — within as many rounds as there are
characters — and replaces every occurrence found from left to right.
Missing: the empty pattern (`replace_empty_diverges`) and the strings for which `indexOf` is
wrong (C11). -/
theorem replaceStr_partial {s old new : Str} (hs : WF s) (ho : WF old) (hn : WF new) (hz : s.buf[s.len]? = some 0)
    (h0 : (0 : Ch) ∉ chars old) (hne : chars old ≠ []) (fuel : Nat) (hf : s.len < fuel) :
    ∃ r, replaceStr fuel s old new = some (.ok r) ∧ WF r ∧ chars r = replaceAll (chars old) (chars new) (chars s) := by
  unfold replaceStr
  obtain ⟨r, e, h⟩ := indexOfStr_partial hs ho hz h0 0
  rw [e]
  simp only
  rcases h with ⟨rfl, hno⟩ | ⟨a, rfl, ha1, ha2, ha3⟩
  · rw [if_pos (by omega)]
    obtain ⟨c, e, w, hc, _⟩ := copyCtor_ok hs
    exact ⟨c, by rw [e], w, by rw [hc, replaceAll_none _ _ _ (fun b hb => hno b (by simp) hb)]⟩
  · rw [if_neg (by omega)]
    obtain ⟨r, pos, x, y, z⟩ := replaceLoop_ok hs ho hn hz h0 hne fuel empty 0 a empty_wf (by omega) (by omega) ha2
      (fun b hb => ha3 b (by simp))
    have x' : replaceLoop s old new fuel empty 0 (a : Int) = some (.ok (r, pos)) := x
    rw [x']
    obtain ⟨rest, e5, w5, c5⟩ := PartProps.substringFrom_spec hs pos
    obtain ⟨o, e6, w6, c6, _⟩ := append_ok y w5
    refine ⟨o, by simp only [e5, e6, bind, Except.bind], w6, ?_⟩
    rw [c6, c5, z]; simp [empty_chars]

/-- Violation: with an empty pattern and a non-empty string `replace` never terminates. -/
theorem replace_empty_diverges {s old new : Str} (hs : WF s) (hn : WF new) (hlen : 0 < s.len) (ho : old.len = 0)
    (fuel : Nat) : replaceStr fuel s old new = none := by
  have hidx : ∀ p : Nat, p < s.len → indexOfStr s old p = .ok p := by
    intro p hp
    unfold indexOfStr findStr
    rw [Int.toNat_natCast, if_pos hp]
    simp [matchAt, ho, sameRange, bind, Except.bind, pure, Except.pure, orMinus1]
  have key : ∀ fuel output, WF output → replaceLoop s old new fuel output 0 0 = none := by
    intro fuel
    induction fuel with
    | zero => intro _ _; rfl
    | succ fuel ih =>
      intro output hw
      obtain ⟨part, e1, w1, c1, _⟩ := PartProps.substring_ok hs 0 0
      obtain ⟨o1, e2, w2, c2, _⟩ := append_ok hw w1
      obtain ⟨o2, e3, w3, c3, _⟩ := append_ok w2 hn
      have h0 := hidx 0 hlen
      unfold replaceLoop
      have hz : (0 : Int) + old.len = 0 := by omega
      simp only [e1, e2, e3, hz, bind, Except.bind, pure, Except.pure]
      have h0' : indexOfStr s old 0 = .ok 0 := h0
      rw [h0']
      simp only
      rw [if_pos (by omega)]
      exact ih o2 w3
  unfold replaceStr
  have h0' : indexOfStr s old 0 = .ok 0 := hidx 0 hlen
  rw [h0']
  simp only
  rw [if_neg (by omega), key fuel empty empty_wf]

/-- Non-vacuity: "abab".replace("ab", "b") = "bb". -/
example : ∃ s old new, ofChars [0x61, 0x62, 0x61, 0x62] = .ok s ∧ ofChars [0x61, 0x62] = .ok old ∧ ofChars [0x62] = .ok new ∧
    WF s ∧ WF old ∧ WF new ∧ s.buf[s.len]? = some 0 ∧ (0 : Ch) ∉ chars old ∧ chars old ≠ [] ∧
    replaceAll (chars old) (chars new) (chars s) = [0x62, 0x62] :=
  ⟨_, _, _, rfl, rfl, rfl, by decide, by decide, by decide, by decide, by decide, by decide, by decide +kernel⟩

end Verif.Str.SearchProps
