import Verif.Str.SearchProps
set_option linter.unusedVariables false
/-
Properties C11, C12: searching and replacing, under a condition on the contents alone: no proper beginning of the
pattern stands at the end of the text. (Otherwise `indexOf` compares cells behind the content, SearchProps.)
-/
namespace Verif.Str.SafeProps
open Verif Verif.Str Verif.Str.CmpProps Verif.Str.SearchProps

/-- no non-empty proper beginning of `m` stands at the end of `l` -/
def NoOverhang (l m : List Ch) : Prop := ∀ k, 0 < k → k < m.length → ¬ m.take k <:+ l

/-- every comparison of the pattern with the text stays inside the content or fails before its end -/
def Safe (s t : Str) : Prop := ∀ a, a < s.len → matchAt s t a = .ok (decide (chars t <+: (chars s).drop a))

theorem sameRange_no {s t : Str} (hs : WF s) (ht : WF t) (n : Nat) : ∀ i j, i ≤ s.len → j + n = t.len →
    (¬ ∃ k, k < n ∧ (chars s).drop i = ((chars t).drop j).take k) →
    sameRange id s.buf i t.buf j n = .ok (decide ((chars t).drop j <+: (chars s).drop i)) := by
  have l1 := chars_length hs
  have l2 := chars_length ht
  induction n with
  | zero =>
    intro i j hi hj _
    rw [List.drop_eq_nil_of_le (by omega)]; simp [sameRange]
  | succ n ih =>
    intro i j hi hj hno
    have hi' : i < s.len := by
      apply Classical.byContradiction; intro h
      exact hno ⟨0, by omega, by rw [List.drop_eq_nil_of_le (by omega)]; rfl⟩
    unfold sameRange
    rw [rd_chars hs hi', rd_chars ht (by omega)]
    simp only [bind, Except.bind, pure, Except.pure, id]
    rw [List.drop_eq_getElem_cons (show i < (chars s).length by omega), List.drop_eq_getElem_cons (show j < (chars t).length by omega)]
    by_cases he : (chars s)[i]'(by omega) = (chars t)[j]'(by omega)
    · rw [if_neg (fun h => h he), ih (i + 1) (j + 1) (by omega) (by omega)]
      · congr 1
        apply decide_eq_decide.2
        rw [List.cons_prefix_cons]
        exact ⟨fun x => ⟨he.symm, x⟩, fun x => x.2⟩
      · rintro ⟨k, hk, e⟩
        apply hno
        refine ⟨k + 1, by omega, ?_⟩
        rw [List.drop_eq_getElem_cons (show i < (chars s).length by omega),
          List.drop_eq_getElem_cons (show j < (chars t).length by omega), List.take_succ_cons, e, he]
    · rw [if_pos he]
      congr 1
      symm
      apply decide_eq_false
      intro h
      rw [List.cons_prefix_cons] at h
      exact he h.1.symm

theorem safe_of_noOverhang {s t : Str} (hs : WF s) (ht : WF t) (h : NoOverhang (chars s) (chars t)) : Safe s t := by
  intro a ha
  have l1 := chars_length hs
  have l2 := chars_length ht
  have := sameRange_no hs ht t.len a 0 (by omega) (by omega) ?_
  · simpa [matchAt] using this
  · rintro ⟨k, hk, e⟩
    rw [List.drop_zero] at e
    have hlen := congrArg List.length e
    rw [List.length_drop, List.length_take] at hlen
    exact h k (by omega) (by omega) (by rw [← e]; exact List.drop_suffix _ _)

theorem safe_of_zero {s t : Str} (hs : WF s) (ht : WF t) (hz : s.buf[s.len]? = some 0) (h0 : (0 : Ch) ∉ chars t) : Safe s t := by
  intro a ha
  have := sameRange_term hs ht hz h0 t.len a 0 (by omega) (by omega)
  simpa [matchAt] using this

theorem findStr_safe {s t : Str} (hs : WF s) (h : Safe s t) (a : Nat) :
    ∃ r, findStr s t a = .ok r ∧ IsFirst (OccursAt (chars s) (chars t)) a (orMinus1 r) := by
  have hlen := chars_length hs
  fun_induction findStr s t a with
  | case1 a ha ih =>
    rw [h a ha]
    simp only [bind, Except.bind, pure, Except.pure]
    by_cases hm : chars t <+: (chars s).drop a
    · rw [if_pos (by simpa using hm)]
      exact ⟨some a, rfl, .inr ⟨a, rfl, Nat.le_refl _, ⟨by omega, hm⟩, fun b h1 h2 => by omega⟩⟩
    · rw [if_neg (by simpa using hm)]
      obtain ⟨r, e, hr⟩ := ih
      refine ⟨r, e, ?_⟩
      rcases hr with ⟨h1, h2⟩ | ⟨x, h1, h2, h3, h4⟩
      · refine .inl ⟨h1, fun b hb hP => ?_⟩
        by_cases hba : b = a
        · subst hba; exact hm hP.2
        · exact h2 b (by omega) hP
      · refine .inr ⟨x, h1, by omega, h3, fun b hb hx hP => ?_⟩
        by_cases hba : b = a
        · subst hba; exact hm hP.2
        · exact h4 b (by omega) hx hP
  | case2 a ha =>
    exact ⟨none, rfl, .inl ⟨rfl, fun b hb hP => by have := hP.1; omega⟩⟩

/-- **C11 (`indexOf(String)`), content condition.** If no proper beginning of the pattern stands at the end of the text,
`indexOf` finds the first occurrence from `start` on, whatever the memory behind the content holds. -/
theorem indexOfStr_noOverhang_partial {s t : Str} (hs : WF s) (ht : WF t) (h : NoOverhang (chars s) (chars t)) (start : Int) :
    ∃ r, indexOfStr s t start = .ok r ∧ IsFirst (OccursAt (chars s) (chars t)) start.toNat r := by
  obtain ⟨r, e, h⟩ := findStr_safe hs (safe_of_noOverhang hs ht h) start.toNat
  exact ⟨_, by simp only [indexOfStr, e, bind, Except.bind, pure, Except.pure], h⟩

theorem indexOfStr_safe {s t : Str} (hs : WF s) (h : Safe s t) (start : Int) :
    ∃ r, indexOfStr s t start = .ok r ∧ IsFirst (OccursAt (chars s) (chars t)) start.toNat r := by
  obtain ⟨r, e, h⟩ := findStr_safe hs h start.toNat
  exact ⟨_, by simp only [indexOfStr, e, bind, Except.bind, pure, Except.pure], h⟩

theorem replaceLoop_safe {s old new : Str} (hs : WF s) (ho : WF old) (hn : WF new) (hsafe : Safe s old)
    (hne : chars old ≠ []) (fuel : Nat) :
    ∀ (output : Str) (p q : Nat), WF output → p ≤ q → s.len < fuel + p → OccursAt (chars s) (chars old) q →
      (∀ b, p ≤ b → b < q → ¬ OccursAt (chars s) (chars old) b) →
    ∃ r pos, replaceLoop s old new fuel output p q = some (.ok (r, pos)) ∧ WF r ∧
      chars r ++ (chars s).drop pos.toNat = chars output ++ replaceAll (chars old) (chars new) ((chars s).drop p) := by
  have l1 := chars_length hs
  have l2 := chars_length ho
  have hol : 0 < old.len := by rw [← l2]; exact List.length_pos_iff.2 hne
  induction fuel with
  | zero => intro output p q _ h1 h2 h3 _; have := h3.1; omega
  | succ fuel ih =>
    intro output p q hw hpq hf hocc hfirst
    obtain ⟨part, e1, w1, c1, _⟩ := PartProps.substring_ok hs p q
    obtain ⟨o1, e2, w2, c2, _⟩ := append_ok hw w1
    obtain ⟨o2, e3, w3, c3, _⟩ := append_ok w2 hn
    obtain ⟨r, e4, h4⟩ := indexOfStr_safe hs hsafe ((q : Int) + old.len)
    have hco : chars o2 = chars output ++ ((chars s).take q).drop p ++ chars new := by
      rw [c3, c2, c1, PartProps.sub]; simp
    have hrep : replaceAll (chars old) (chars new) ((chars s).drop p) = ((chars s).take q).drop p ++ chars new ++
        replaceAll (chars old) (chars new) ((chars s).drop (q + old.len)) := by
      rw [replaceAll_first _ _ hne ((chars s).drop p) (q - p)
        ((isFirst_drop _).2 (by rw [show p + (q - p) = q by omega]; exact hocc))
        (fun b hb h => hfirst (p + b) (by omega) (by omega) ((isFirst_drop _).1 h))]
      rw [List.drop_drop, List.drop_take, l2, show p + (q - p + old.len) = q + old.len by omega]
    unfold replaceLoop
    simp only [e1, e2, e3, e4, bind, Except.bind, pure, Except.pure]
    rw [show ((q : Int) + old.len).toNat = q + old.len by omega] at h4
    rcases h4 with ⟨rfl, hno⟩ | ⟨a, rfl, ha1, ha2, ha3⟩
    · rw [if_neg (by omega)]
      refine ⟨o2, _, rfl, w3, ?_⟩
      rw [show ((q : Int) + old.len).toNat = q + old.len by omega, hrep, hco]
      rw [replaceAll_none _ _ ((chars s).drop (q + old.len))
        (fun b hb => hno _ (by omega) ((isFirst_drop _).1 hb))]
      simp [List.append_assoc]
    · rw [if_pos (by omega)]
      have := ih o2 (q + old.len) a w3 ha1 (by omega) ha2 ha3
      rw [show ((q + old.len : Nat) : Int) = (q : Int) + old.len by omega] at this
      obtain ⟨r, pos, x, y, z⟩ := this
      refine ⟨r, pos, x, y, ?_⟩
      rw [z, hrep, hco]
      simp [List.append_assoc]

theorem replaceStr_safe {s old new : Str} (hs : WF s) (ho : WF old) (hn : WF new) (hsafe : Safe s old)
    (hne : chars old ≠ []) (fuel : Nat) (hf : s.len < fuel) :
    ∃ r, replaceStr fuel s old new = some (.ok r) ∧ WF r ∧ chars r = replaceAll (chars old) (chars new) (chars s) := by
  unfold replaceStr
  obtain ⟨r, e, h⟩ := indexOfStr_safe hs hsafe 0
  rw [e]
  simp only
  rcases h with ⟨rfl, hno⟩ | ⟨a, rfl, ha1, ha2, ha3⟩
  · rw [if_pos (by omega)]
    obtain ⟨c, e, w, hc, _⟩ := copyCtor_ok hs
    exact ⟨c, by rw [e], w, by rw [hc, replaceAll_none _ _ _ (fun b hb => hno b (by simp) hb)]⟩
  · rw [if_neg (by omega)]
    obtain ⟨r, pos, x, y, z⟩ := replaceLoop_safe hs ho hn hsafe hne fuel empty 0 a empty_wf (by omega) (by omega) ha2
      (fun b hb => ha3 b (by simp))
    have x' : replaceLoop s old new fuel empty 0 (a : Int) = some (.ok (r, pos)) := x
    rw [x']
    obtain ⟨rest, e5, w5, c5⟩ := PartProps.substringFrom_spec hs pos
    obtain ⟨o, e6, w6, c6, _⟩ := append_ok y w5
    refine ⟨o, by simp only [e5, e6, bind, Except.bind], w6, ?_⟩
    rw [c6, c5, z]; simp [empty_chars]

/-- **C12, content condition.** For a non-empty pattern of which no proper beginning stands at the end of the text,
`replace` terminates and replaces every occurrence found from left to right. -/
theorem replaceStr_noOverhang_partial {s old new : Str} (hs : WF s) (ho : WF old) (hn : WF new)
    (h : NoOverhang (chars s) (chars old)) (hne : chars old ≠ []) (fuel : Nat) (hf : s.len < fuel) :
    ∃ r, replaceStr fuel s old new = some (.ok r) ∧ WF r ∧ chars r = replaceAll (chars old) (chars new) (chars s) :=
  replaceStr_safe hs ho hn (safe_of_noOverhang hs ho h) hne fuel hf

/-- The condition always holds for patterns of one character … -/
theorem noOverhang_single (l : List Ch) (c : Ch) : NoOverhang l [c] := by
  intro k h1 h2; simp at h2; omega

/-- … and for patterns of two characters when the text does not end with the first of them. -/
theorem noOverhang_pair {l : List Ch} {c d : Ch} (h : l.getLast? ≠ some c) : NoOverhang l [c, d] := by
  intro k h1 h2 hs
  have : k = 1 := by simp at h2; omega
  subst this
  obtain ⟨p, rfl⟩ := hs
  exact h (by simp)

/-- sixteen "a" followed by "b" (a full block is not needed), pattern "bc" would overhang, pattern "ab" does not -/
example : NoOverhang (List.replicate 16 0x61 ++ [0x62]) [0x61, 0x62] ∧ ¬ NoOverhang (List.replicate 16 0x61 ++ [0x62]) [0x62, 0x63] :=
  ⟨noOverhang_pair (by decide), fun h => h 1 (by decide) (by decide) ⟨List.replicate 16 0x61, by decide⟩⟩

end Verif.Str.SafeProps
