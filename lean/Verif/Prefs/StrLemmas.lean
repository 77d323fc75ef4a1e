import Verif.Prefs.Model
import Verif.Prefs.Spec
import Verif.Str.SafeProps
import Verif.Str.EditProps
set_option linter.unusedVariables false
set_option linter.unusedSimpArgs false
/-
Preferences: what happens to one value.
-/
namespace Verif.Prefs.Lemmas
open Verif Verif.Str Verif.Prefs Verif.Prefs.Spec Verif.Str.SearchProps Verif.Str.SafeProps

theorem replaceAll_single (x : Ch) (new l : List Ch) :
    replaceAll [x] new l = l.flatMap (fun c => if c = x then new else [c]) := by
  induction l with
  | nil => rw [replaceAll]; rfl
  | cons c l ih =>
    rw [replaceAll, List.flatMap_cons]
    by_cases h : c = x
    · rw [if_pos (by rw [h]; simp), if_pos h]
      simp [ih]
    · rw [if_neg (by rw [List.cons_prefix_cons]; exact fun y => h y.1.symm), if_neg h, ih]; rfl

/-- the two replacements of single characters -/
def singles (l : List Ch) : List Ch :=
  replaceAll [cLF] [cBackslash, cN] (replaceAll [cCR] [cBackslash, cN] l)

theorem singles_cons (c : Ch) (l : List Ch) :
    singles (c :: l) = (if c = cCR ∨ c = cLF then [cBackslash, cN] else [c]) ++ singles l := by
  unfold singles
  rw [replaceAll_single, replaceAll_single, replaceAll_single, replaceAll_single, List.flatMap_cons, List.flatMap_append]
  congr 1
  by_cases h1 : c = cCR
  · rw [if_pos h1, if_pos (.inl h1)]; decide
  · rw [if_neg h1]
    by_cases h2 : c = cLF
    · rw [if_pos (.inr h2), h2]; decide
    · rw [if_neg (by simp [h1, h2])]; simp [h2]

theorem singles_nil : singles [] = [] := by
  unfold singles; rw [replaceAll_single, replaceAll_single]; rfl

theorem breaks_oneLine (l : List Ch) : singles (replaceAll [cCR, cLF] [cBackslash, cN] l) = oneLine l := by
  fun_induction oneLine l with
  | case1 => rw [replaceAll]; exact singles_nil
  | case2 c h =>
    rw [replaceAll, if_neg (by simp), replaceAll, singles_cons, singles_nil, List.append_nil]
    rw [if_pos (c := c = cCR ∨ c = cLF) h]; rfl
  | case3 c h =>
    rw [replaceAll, if_neg (by simp), replaceAll, singles_cons, singles_nil, List.append_nil]
    rw [if_neg (c := c = cCR ∨ c = cLF) h]
  | case4 c d l h ih =>
    obtain ⟨rfl, rfl⟩ := h
    rw [replaceAll, if_pos (by simp [cCR, cLF])]
    show singles (cBackslash :: cN :: replaceAll [cCR, cLF] [cBackslash, cN] l) = _
    rw [singles_cons, singles_cons, ih]
    rfl
  | case5 c d l h1 h2 ih =>
    rw [replaceAll, if_neg (by
      rw [List.cons_prefix_cons, List.cons_prefix_cons]
      exact fun x => h1 ⟨x.1.symm, x.2.1.symm⟩), singles_cons, ih, if_pos (c := c = cCR ∨ c = cLF) h2]; rfl
  | case6 c d l h1 h2 ih =>
    rw [replaceAll, if_neg (by
      rw [List.cons_prefix_cons, List.cons_prefix_cons]
      exact fun x => h1 ⟨x.1.symm, x.2.1.symm⟩), singles_cons, ih, if_neg (c := c = cCR ∨ c = cLF) h2]; rfl

theorem assign_ok {s t : Str} (ht : WF t) : ∃ r, assign s t = .ok r ∧ WF r ∧ chars r = chars t ∧ r.len = t.len := by
  obtain ⟨r, e, w, c, _, l, b⟩ := copyCtor_ok ht
  unfold copyCtor at e
  unfold assign
  cases hm : memcpy (newBuf t.buf.length) 0 t.buf 0 t.len with
  | error f => rw [hm] at e; simp [bind, Except.bind] at e
  | ok v =>
    rw [hm] at e
    simp only [bind, Except.bind, pure, Except.pure, Except.ok.injEq] at e
    subst e
    exact ⟨_, rfl, w, c, rfl⟩

theorem replaceBreak_ok {s : Str} (hs : WF s) {old : List Ch} (h : NoOverhang (chars s) old) (hne : old ≠ []) :
    ∃ r, replaceBreak s old = .ok r ∧ WF r ∧ chars r = replaceAll old [cBackslash, cN] (chars s) := by
  obtain ⟨o, e1, w1, c1⟩ := EditProps.constructed old
  obtain ⟨n, e2, w2, c2⟩ := EditProps.constructed [cBackslash, cN]
  obtain ⟨r, e3, w3, c3⟩ := replaceStr_noOverhang_partial hs w1 w2 (by rw [c1]; exact h) (by rw [c1]; exact hne) (s.len + 1) (by omega)
  obtain ⟨t, e4, w4, c4, _⟩ := assign_ok (s := s) w3
  refine ⟨t, ?_, w4, by rw [c4, c3, c1, c2]⟩
  simp only [replaceBreak, e1, e2, bind, Except.bind, replace, e3, e4]

/-- `setValue` replaces the line breaks -/
theorem flatten_ok {v : Str} (hv : WF v) (h : (chars v).getLast? ≠ some cCR) :
    ∃ r, flatten v = .ok r ∧ WF r ∧ chars r = oneLine (chars v) := by
  obtain ⟨a, e1, w1, c1, _⟩ := copyCtor_ok hv
  obtain ⟨b, e2, w2, c2⟩ := replaceBreak_ok w1 (old := [cCR, cLF]) (by rw [c1]; exact noOverhang_pair h) (by simp)
  obtain ⟨c, e3, w3, c3⟩ := replaceBreak_ok w2 (old := [cCR]) (noOverhang_single _ _) (by simp)
  obtain ⟨d, e4, w4, c4⟩ := replaceBreak_ok w3 (old := [cLF]) (noOverhang_single _ _) (by simp)
  refine ⟨d, ?_, w4, ?_⟩
  · simp only [flatten, e1, e2, e3, e4, bind, Except.bind]
  · rw [c4, c3, c2, c1, ← breaks_oneLine]; rfl

theorem oneLine_id {l : List Ch} (h1 : cCR ∉ l) (h2 : cLF ∉ l) : oneLine l = l := by
  fun_induction oneLine l with
  | case1 => rfl
  | case2 c h =>
    exfalso
    rcases h with rfl | rfl
    · exact h1 (by simp [cCR])
    · exact h2 (by simp [cLF])
  | case3 c h => rfl
  | case4 c d l h ih => exact absurd (by rw [h.1]; simp [cCR]) h1
  | case5 c d l _ h ih =>
    exfalso
    rcases h with rfl | rfl
    · exact h1 (by simp [cCR])
    · exact h2 (by simp [cLF])
  | case6 c d l _ _ ih =>
    rw [ih (fun x => h1 (List.mem_cons_of_mem _ x)) (fun x => h2 (List.mem_cons_of_mem _ x))]

theorem oneLine_noBreak (l : List Ch) : cCR ∉ oneLine l ∧ cLF ∉ oneLine l := by
  fun_induction oneLine l with
  | case1 => simp
  | case2 c h => decide
  | case3 c h => 
    simp only [List.mem_singleton]
    exact ⟨fun x => h (.inl x.symm), fun x => h (.inr x.symm)⟩
  | case4 c d l h ih => 
    simp only [List.mem_cons, not_or]
    exact ⟨⟨by decide, by decide, ih.1⟩, ⟨by decide, by decide, ih.2⟩⟩
  | case5 c d l _ h ih =>
    rw [List.mem_cons, List.mem_cons, List.mem_cons, List.mem_cons, not_or, not_or, not_or, not_or]
    exact ⟨⟨by decide, by decide, ih.1⟩, ⟨by decide, by decide, ih.2⟩⟩
  | case6 c d l h0 h ih =>
    rw [List.mem_cons, List.mem_cons, not_or, not_or]
    exact ⟨⟨fun x => h (.inl x.symm), ih.1⟩, ⟨fun x => h (.inr x.symm), ih.2⟩⟩

/-! ### escaping -/

theorem at_split {s : Str} (hs : WF s) {done rest : List Ch} {c : Ch} (h : chars s = done ++ c :: rest) :
    done.length < s.len ∧ charAt s (done.length : Nat) = .ok c := by
  have hl := chars_length hs
  have hlt : done.length < s.len := by rw [← hl, h]; simp
  refine ⟨hlt, ?_⟩
  rw [charAt_ok hs hlt]
  congr 1
  simp [h]

theorem escapeLoop_ok (rest : List Ch) : ∀ (fuel : Nat) (done : List Ch) (s : Str), WF s → chars s = done ++ rest →
    rest.length < fuel → ∃ r, escapeLoop fuel done.length s = .ok r ∧ WF r ∧ chars r = done ++ escape rest := by
  induction rest with
  | nil =>
    intro fuel done s hs h hf
    obtain ⟨fuel, rfl⟩ : ∃ n, fuel = n + 1 := ⟨fuel - 1, by simp at hf; omega⟩
    have hl := chars_length hs
    rw [h, List.append_nil] at hl
    unfold escapeLoop
    rw [if_neg (by omega)]
    exact ⟨s, rfl, hs, by rw [h]; rfl⟩
  | cons c rest ih =>
    intro fuel done s hs h hf
    obtain ⟨fuel, rfl⟩ : ∃ n, fuel = n + 1 := ⟨fuel - 1, by simp at hf; omega⟩
    obtain ⟨hlt, hc⟩ := at_split hs h
    simp only [List.length_cons] at hf
    unfold escapeLoop
    rw [if_pos hlt, hc]
    simp only [bind, Except.bind, escape]
    by_cases h1 : c = cBackslash
    · rw [if_pos h1, if_pos (c := c = 0x5C) h1]
      obtain ⟨r, e, w, cr, _⟩ := insertChar_ok hs (i := done.length + 1) (by omega) cBackslash
      have e' : insertChar s ((done.length : Int) + 1) cBackslash = .ok r := e
      rw [e']
      have hr : chars r = (done ++ [cBackslash, cBackslash]) ++ rest := by
        rw [cr, h, h1]; simp [List.take_append, List.drop_append, List.take_of_length_le, List.drop_eq_nil_of_le]
      obtain ⟨r2, e2, w2, c2⟩ := ih fuel _ r w hr (by omega)
      have hlen : (done ++ [cBackslash, cBackslash]).length = done.length + 2 := by simp
      rw [hlen] at e2
      exact ⟨r2, e2, w2, by rw [c2]; simp [cBackslash]⟩
    · rw [if_neg h1, if_neg (c := c = 0x5C) h1]
      by_cases h2 : c = cTab
      · rw [if_pos h2, if_pos (c := c = 9) h2]
        obtain ⟨r0, e0, w0, c0, _, l0⟩ := setCharAt_ok hs (i := done.length) hlt cBackslash
        rw [e0]
        obtain ⟨r, e, w, cr, _⟩ := insertChar_ok w0 (i := done.length + 1) (by omega) cT
        have e' : insertChar r0 ((done.length : Int) + 1) cT = .ok r := e
        simp only [e']
        have hr : chars r = (done ++ [cBackslash, cT]) ++ rest := by
          rw [cr, c0, h, List.set_append_right _ _ (Nat.le_refl _), Nat.sub_self]
          simp [List.take_append, List.drop_append, List.take_of_length_le, List.drop_eq_nil_of_le]
        obtain ⟨r2, e2, w2, c2⟩ := ih fuel _ r w hr (by omega)
        have hlen : (done ++ [cBackslash, cT]).length = done.length + 2 := by simp
        rw [hlen] at e2
        exact ⟨r2, e2, w2, by rw [c2]; simp [cBackslash, cT]⟩
      · rw [if_neg h2, if_neg (c := c = 9) h2]
        obtain ⟨r2, e2, w2, c2⟩ := ih fuel (done ++ [c]) s hs (by rw [h]; simp) (by omega)
        have hlen : (done ++ [c]).length = done.length + 1 := by simp
        rw [hlen] at e2
        exact ⟨r2, e2, w2, by rw [c2]; simp⟩

/-- the unescaping of `load` on sequences -/
def unesc : List Ch → List Ch
  | [] => []
  | [c] => [c]
  | c :: d :: l =>
    if c = cBackslash ∧ d = cT then cTab :: unesc l
    else if c = cBackslash ∧ d = cBackslash then cBackslash :: unesc l
    else c :: unesc (d :: l)

theorem unesc_cons {c : Ch} (h : c ≠ cBackslash) (l : List Ch) : unesc (c :: l) = c :: unesc l := by
  cases l with
  | nil => rfl
  | cons d l => simp [unesc, h]

theorem unesc_escape (l : List Ch) : unesc (escape l) = l := by
  induction l with
  | nil => rfl
  | cons c l ih =>
    simp only [escape]
    by_cases h1 : c = 0x5C
    · rw [if_pos h1]
      rw [unesc, if_neg (by simp [cT]), if_pos ⟨rfl, rfl⟩, ih, h1]; rfl
    · rw [if_neg h1]
      by_cases h2 : c = 9
      · rw [if_pos h2, unesc, if_pos ⟨rfl, rfl⟩, ih, h2]; rfl
      · rw [if_neg h2, unesc_cons h1, ih]

theorem unescapeLoop_ok (n : Nat) : ∀ (rest : List Ch) (fuel : Nat) (done : List Ch) (s : Str), rest.length = n → WF s →
    chars s = done ++ rest →
    rest.length < fuel → ∃ r, unescapeLoop fuel done.length s = .ok r ∧ WF r ∧ chars r = done ++ unesc rest := by
  induction n using Nat.strongRecOn with
  | ind n ih =>
  intro rest fuel done s hn hs h hf
  obtain ⟨fuel, rfl⟩ : ∃ n, fuel = n + 1 := ⟨fuel - 1, by omega⟩
  have hl := chars_length hs
  have hll := congrArg List.length h
  rw [List.length_append] at hll
  unfold unescapeLoop
  match rest, hn, h, hf, hll with
  | [], hn, h, hf, hll =>
    rw [if_neg (by simp at hll; omega)]
    exact ⟨s, rfl, hs, by rw [h]; rfl⟩
  | [c], hn, h, hf, hll =>
    obtain ⟨hlt, hc⟩ := at_split hs h
    simp only [List.length_cons, List.length_nil] at hf hll
    rw [if_pos hlt, hc]
    simp only [bind, Except.bind]
    rw [if_neg (by omega)]
    obtain ⟨r2, e2, w2, c2⟩ := ih 0 (by simp at hn; omega) [] fuel (done ++ [c]) s rfl hs (by rw [h]; simp) (by simp; omega)
    have hlen : (done ++ [c]).length = done.length + 1 := by simp
    rw [hlen] at e2
    exact ⟨r2, e2, w2, by rw [c2]; simp [unesc]⟩
  | c :: d :: l, hn, h, hf, hll =>
    obtain ⟨hlt, hc⟩ := at_split hs h
    simp only [List.length_cons] at hf hll hn
    rw [if_pos hlt, hc]
    simp only [bind, Except.bind]
    by_cases h1 : c = cBackslash
    · rw [if_pos ⟨h1, by omega⟩]
      have hd : charAt s ((done.length : Int) + 1) = .ok d := by
        have := (at_split hs (done := done ++ [c]) (c := d) (rest := l) (by rw [h]; simp)).2
        rw [← this]; congr 1; simp
      rw [hd]
      by_cases h2 : d = cT
      · have hu : unesc (c :: d :: l) = cTab :: unesc l := by simp [unesc, h1, h2]
        unfold unescapeTab unescapeBackslash
        obtain ⟨r0, e0, w0, c0, _, l0⟩ := setCharAt_ok hs (i := done.length) hlt cTab
        obtain ⟨r, e, w, cr, _⟩ := deleteCharAt_ok w0 (i := done.length + 1) (by omega)
        have e' : deleteCharAt r0 ((done.length : Int) + 1) = .ok r := e
        simp only [if_pos h2, e0, bind, Except.bind, e']
        rw [if_neg (by rw [h2]; decide)]
        simp only
        have hr : chars r = (done ++ [cTab]) ++ l := by
          rw [cr, c0, h, List.set_append_right _ _ (Nat.le_refl _), Nat.sub_self]
          simp [List.take_append, List.drop_append, List.take_of_length_le, List.drop_eq_nil_of_le]
          rw [List.drop_eq_nil_of_le (by omega), show done.length + 1 + 1 - done.length = 2 from by omega]; simp
        obtain ⟨r2, e2, w2, c2⟩ := ih l.length (by omega) l fuel _ r rfl w hr (by omega)
        have hlen : (done ++ [cTab]).length = done.length + 1 := by simp
        rw [hlen] at e2
        exact ⟨r2, e2, w2, by rw [c2, hu]; simp⟩
      · unfold unescapeTab unescapeBackslash
        simp only [if_neg h2]
        by_cases h3 : d = cBackslash
        · have hu : unesc (c :: d :: l) = cBackslash :: unesc l := by simp [unesc, h1, h3, cT, cBackslash]
          obtain ⟨r, e, w, cr, _⟩ := deleteCharAt_ok hs (i := done.length + 1) (by omega)
          have e' : deleteCharAt s ((done.length : Int) + 1) = .ok r := e
          simp only [if_pos h3, e']
          have hr : chars r = (done ++ [cBackslash]) ++ l := by
            rw [cr, h, h1]
            simp [List.take_append, List.drop_append, List.take_of_length_le, List.drop_eq_nil_of_le]
            rw [List.drop_eq_nil_of_le (by omega), show done.length + 1 + 1 - done.length = 2 from by omega]; simp
          obtain ⟨r2, e2, w2, c2⟩ := ih l.length (by omega) l fuel _ r rfl w hr (by omega)
          have hlen : (done ++ [cBackslash]).length = done.length + 1 := by simp
          rw [hlen] at e2
          exact ⟨r2, e2, w2, by rw [c2, hu]; simp⟩
        · have hu : unesc (c :: d :: l) = c :: unesc (d :: l) := by simp [unesc, h2, h3]
          simp only [if_neg h3]
          obtain ⟨r2, e2, w2, c2⟩ := ih (l.length + 1) (by omega) (d :: l) fuel (done ++ [c]) s rfl hs (by rw [h]; simp) (by simp; omega)
          have hlen : (done ++ [c]).length = done.length + 1 := by simp
          rw [hlen] at e2
          exact ⟨r2, e2, w2, by rw [c2, hu]; simp⟩
    · have hu : unesc (c :: d :: l) = c :: unesc (d :: l) := unesc_cons h1 _
      rw [if_neg (fun x => h1 x.1)]
      obtain ⟨r2, e2, w2, c2⟩ := ih (l.length + 1) (by omega) (d :: l) fuel (done ++ [c]) s rfl hs (by rw [h]; simp) (by simp; omega)
      have hlen : (done ++ [c]).length = done.length + 1 := by simp
      rw [hlen] at e2
      exact ⟨r2, e2, w2, by rw [c2, hu]; simp⟩

end Verif.Prefs.Lemmas
