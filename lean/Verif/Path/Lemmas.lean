import Verif.Path.Model
import Verif.Path.Spec
import Verif.Str.SearchProps
import Verif.Str.PartProps
import Verif.Str.CmpProps
/-
Proofs for the path functions.
-/
namespace Verif.Path.Lemmas
open Verif Verif.Str Verif.Path Verif.Path.Spec

theorem sep_slash : sep = slash := rfl

/-- drop separators behind a separator; the flag says that the previous character was one -/
def dd : Bool → List Ch → List Ch
  | _, [] => []
  | b, c :: l => if c = slash then (if b then dd true l else slash :: dd true l) else c :: dd false l

theorem normLoop_ok (n : Nat) : ∀ (s : Str) (a : Nat) (prev : Ch), WF s → a ≤ s.len → s.len - a = n →
    ∃ r, normLoop s a s.len prev = .ok (r, ((chars s).drop a).getLast?.getD prev) ∧ WF r ∧
      chars r = (chars s).take a ++ dd (decide (prev = slash)) ((chars s).drop a) := by
  induction n with
  | zero =>
    intro s a prev hs ha hn
    have hd : (chars s).drop a = [] := List.drop_eq_nil_of_le (by rw [chars_length hs]; omega)
    refine ⟨s, ?_, hs, ?_⟩
    · rw [normLoop, dif_neg (by omega), hd]; rfl
    · rw [hd, List.take_of_length_le (by rw [chars_length hs]; omega)]; simp [dd]
  | succ n ih =>
    intro s a prev hs ha hn
    have hlt : a < s.len := by omega
    have hlt' : a < (chars s).length := by rw [chars_length hs]; exact hlt
    have hc := charAt_ok hs hlt
    obtain ⟨c, hcc⟩ : ∃ c, c = (chars s)[a] := ⟨_, rfl⟩
    have hdrop : (chars s).drop a = c :: (chars s).drop (a + 1) := by rw [hcc]; exact List.drop_eq_getElem_cons hlt'
    rw [normLoop, dif_pos hlt]
    rw [← hcc] at hc
    simp only [hc, bind, Except.bind]
    by_cases h : prev = sep ∧ c = sep
    · rw [if_pos h]
      obtain ⟨s1, e1, w1, c1, _⟩ := deleteCharAt_ok hs hlt
      rw [e1]
      have hl1 : s1.len = s.len - 1 := by
        have := chars_length w1
        rw [c1] at this
        simp only [List.length_append, List.length_take, List.length_drop, chars_length hs] at this
        omega
      have hd1 : (chars s1).drop a = (chars s).drop (a + 1) := by
        rw [c1, List.drop_append, List.length_take, chars_length hs]
        have : a - min a s.len = 0 := by omega
        rw [this, List.drop_zero, List.drop_eq_nil_of_le (by simp; omega), List.nil_append]
      have ht1 : (chars s1).take a = (chars s).take a := by
        rw [c1, List.take_append_of_le_length (by rw [List.length_take, chars_length hs]; omega), List.take_take, Nat.min_self]
      obtain ⟨r, e, w, hr⟩ := ih s1 a c w1 (by omega) (by omega)
      dsimp only
      rw [← hl1, e]
      refine ⟨r, ?_, w, ?_⟩
      · rw [hd1, hdrop, List.getLast?_cons]; rfl
      · rw [hr, hd1, ht1, hdrop]
        obtain ⟨rfl, h2⟩ := h
        rw [h2, sep_slash]
        simp [dd]
    · rw [if_neg h]
      obtain ⟨r, e, w, hr⟩ := ih s (a + 1) c hs (by omega) (by omega)
      rw [e]
      refine ⟨r, ?_, w, ?_⟩
      · rw [hdrop, List.getLast?_cons]; rfl
      · have htake : (chars s).take (a + 1) = (chars s).take a ++ [c] := by
          rw [List.take_succ, List.getElem?_eq_getElem hlt', ← hcc]; rfl
        rw [hr, hdrop, htake, List.append_assoc]
        congr 1
        simp only [dd, List.cons_append, List.nil_append]
        by_cases hcs : c = slash
        · rw [if_pos hcs]
          have : prev ≠ slash := fun hp => h ⟨hp, hcs⟩
          rw [if_neg (by simp [this]), hcs]
          simp
        · rw [if_neg hcs]; simp [hcs]

/-- the trailing separator removed -/
def strip (l : List Ch) : List Ch := if l.getLast? = some slash then l.dropLast else l

theorem dd_true_head (l : List Ch) : (dd true l).head? ≠ some slash := by
  induction l with
  | nil => simp [dd]
  | cons c l ih =>
    simp only [dd]
    split
    · exact ih
    · rename_i h
      simp [h]

theorem dd_true_nil (l : List Ch) : dd true l = [] ↔ comps l = [] := by
  induction l with
  | nil => simp [dd, comps, split]
  | cons c l ih =>
    simp only [dd, comps, split]
    by_cases h : c = slash
    · rw [if_pos h, if_pos h, if_pos trivial, ih]
      simp [comps]
    · rw [if_neg h, if_neg h]
      cases hs : split l <;> simp

theorem strip_cons {c : Ch} {x : List Ch} (h : c ≠ slash ∨ x ≠ []) : strip (c :: x) = c :: strip x := by
  unfold strip
  cases x with
  | nil =>
    rcases h with h | h
    · simp [h]
    · exact absurd rfl h
  | cons y x =>
    rw [List.getLast?_cons_cons]
    split
    · rw [List.dropLast_cons_cons]
    · rfl

theorem split_ne (l : List Ch) : split l ≠ [] := by
  cases l with
  | nil => simp [split]
  | cons c l =>
    simp only [split]
    split
    · simp
    · split <;> simp

theorem strip_dd (l : List Ch) : strip (dd true l) = join (comps l) ∧
    ∀ s ss, split l = s :: ss → strip (dd false l) = join (s :: ss.filter (fun x => !x.isEmpty)) := by
  induction l with
  | nil =>
    refine ⟨rfl, ?_⟩
    intro s ss h
    simp [split] at h
    obtain ⟨rfl, rfl⟩ := h
    rfl
  | cons c l ih =>
    obtain ⟨i1, i2⟩ := ih
    by_cases h : c = slash
    · subst h
      refine ⟨?_, ?_⟩
      · simp only [dd, if_true, i1, comps, split, List.filter_cons, List.isEmpty_nil, Bool.not_true, Bool.false_eq_true, if_false]
      · intro s ss hs
        simp only [split, if_true, List.cons.injEq] at hs
        obtain ⟨rfl, rfl⟩ := hs
        simp only [dd, if_true, Bool.false_eq_true, if_false]
        by_cases hy : dd true l = []
        · have hc := (dd_true_nil l).1 hy
          unfold comps at hc
          rw [hy, hc]; rfl
        · have hc : comps l ≠ [] := fun e => hy ((dd_true_nil l).2 e)
          rw [strip_cons (Or.inr hy), i1]
          unfold comps at hc ⊢
          cases hf : (split l).filter (fun x => !x.isEmpty) with
          | nil => exact absurd hf hc
          | cons x xs => simp [join]
    · obtain ⟨s0, ss0, hs0⟩ : ∃ s ss, split l = s :: ss := by
        cases hs : split l with
        | nil => exact absurd hs (split_ne l)
        | cons s ss => exact ⟨s, ss, rfl⟩
      have hsp : split (c :: l) = (c :: s0) :: ss0 := by simp [split, h, hs0]
      have hj : ∀ r : List (List Ch), join ((c :: s0) :: r) = c :: join (s0 :: r) := by
        intro r; cases r <;> simp [join]
      have hd : ∀ b, dd b (c :: l) = c :: dd false l := by intro b; simp [dd, h]
      refine ⟨?_, ?_⟩
      · rw [hd, strip_cons (Or.inl h), i2 s0 ss0 hs0, comps, hsp, List.filter_cons_of_pos (by simp), hj]
      · intro s ss hs
        rw [hsp] at hs
        cases hs
        rw [hd, strip_cons (Or.inl h), i2 s0 ss0 hs0, hj]

/-- what `cutLast` does to the sequence -/
theorem canonical_dd (l : List Ch) : (if (dd false l).getLast? = some slash ∧ (dd false l).length > 1 then (dd false l).dropLast else dd false l) =
    canonical l := by
  cases l with
  | nil => rfl
  | cons c l =>
    by_cases h : c = slash
    · subst h
      have hcomp : comps (slash :: l) = comps l := by simp [comps, split]
      have habs : Absolute (slash :: l) := rfl
      unfold canonical
      rw [if_pos habs, hcomp, ← (strip_dd l).1]
      simp only [dd, if_true, Bool.false_eq_true, if_false, List.cons_append, List.nil_append]
      by_cases hy : dd true l = []
      · rw [hy]; simp [strip]
      · have := strip_cons (c := slash) (x := dd true l) (Or.inr hy)
        rw [← this]
        unfold strip
        have hlen : (slash :: dd true l).length > 1 := by
          cases hd : dd true l with
          | nil => exact absurd hd hy
          | cons => simp
        by_cases hlast : (slash :: dd true l).getLast? = some slash
        · rw [if_pos ⟨hlast, hlen⟩, if_pos hlast]
        · rw [if_neg (fun x => hlast x.1), if_neg hlast]
    · have habs : ¬ Absolute (c :: l) := by simp [Absolute, h]
      have hd : dd false (c :: l) = dd true (c :: l) := by simp [dd, h]
      unfold canonical
      rw [if_neg habs, List.nil_append, ← (strip_dd (c :: l)).1, ← hd]
      unfold strip
      by_cases hlast : (dd false (c :: l)).getLast? = some slash
      · have hlen : (dd false (c :: l)).length > 1 := by
          have hcons : dd false (c :: l) = c :: dd false l := by simp [dd, h]
          rw [hcons] at hlast ⊢
          cases hx : dd false l with
          | nil => rw [hx] at hlast; simp at hlast; exact absurd hlast h
          | cons => simp
        rw [if_pos ⟨hlast, hlen⟩, if_pos hlast]
      · rw [if_neg (fun x => hlast x.1), if_neg hlast]

theorem dd_last (l : List Ch) : ∀ b, l ≠ [] → (b = false ∨ dd b l ≠ []) →
    ((dd b l).getLast? = some slash ↔ l.getLast? = some slash) := by
  induction l with
  | nil => intro b h; exact absurd rfl h
  | cons c l ih =>
    intro b _ hb
    by_cases h : c = slash
    · subst h
      cases b with
      | true =>
        simp only [dd, if_true] at hb ⊢
        have hb' : dd true l ≠ [] := by simpa using hb
        have hl : l ≠ [] := by rintro rfl; exact hb' rfl
        rw [ih true hl (Or.inr hb')]
        cases l with
        | nil => exact absurd rfl hl
        | cons => rw [List.getLast?_cons_cons]
      | false =>
        simp only [dd, if_true, Bool.false_eq_true, if_false]
        cases l with
        | nil => simp [dd]
        | cons d l =>
          rw [List.getLast?_cons_cons]
          by_cases he : dd true (d :: l) = []
          · rw [he]
            simp only [List.getLast?_singleton, true_iff]
            have hc := (dd_true_nil (d :: l)).1 he
            exact all_slash _ hc (by simp)
          · rw [← ih true (by simp) (Or.inr he)]
            cases hd : dd true (d :: l) with
            | nil => exact absurd hd he
            | cons => rw [List.getLast?_cons_cons]
    · have hcons : dd b (c :: l) = c :: dd false l := by simp [dd, h]
      rw [hcons]
      cases l with
      | nil => simp [dd]
      | cons d l =>
        rw [List.getLast?_cons_cons, ← ih false (by simp) (Or.inl rfl)]
        cases hd : dd false (d :: l) with
        | nil => simp only [dd] at hd; split at hd <;> simp at hd
        | cons => rw [List.getLast?_cons_cons]
where
  all_slash (l : List Ch) (h : comps l = []) (hne : l ≠ []) : l.getLast? = some slash := by
    induction l with
    | nil => exact absurd rfl hne
    | cons c l ih =>
      by_cases hc : c = slash
      · have hl : comps l = [] := by
          rw [← h]; simp [comps, split, hc]
        cases l with
        | nil => simp [hc]
        | cons d l => rw [List.getLast?_cons_cons]; exact ih hl (by simp)
      · exfalso
        simp only [comps, split, if_neg hc] at h
        cases hs : split l <;> rw [hs] at h <;> simp at h

theorem normalize_ok {s : Str} (hs : WF s) : ∃ r, normalize s = .ok r ∧ WF r ∧ chars r = canonical (chars s) := by
  obtain ⟨s1, e1, w1, c1, _, l1, _⟩ := copyCtor_ok hs
  obtain ⟨s2, e2, w2, c2⟩ := normLoop_ok s1.len s1 0 0 w1 (by omega) (by omega)
  rw [List.drop_zero, List.take_zero, List.nil_append, c1] at c2
  rw [List.drop_zero, c1] at e2
  have h0 : decide ((0 : Ch) = slash) = false := by decide
  rw [h0] at c2
  unfold normalize
  simp only [e1, bind, Except.bind]
  rw [show (normLoop s1 0 s1.len 0) = _ from e2]
  dsimp only
  rw [← canonical_dd]
  have hlen : s2.len = (dd false (chars s)).length := by rw [← chars_length w2, c2]
  have hprev : ((chars s).getLast?.getD 0 = sep) ↔ (dd false (chars s)).getLast? = some slash := by
    by_cases hne : chars s = []
    · rw [hne]; simp [dd, sep]
    · rw [dd_last _ _ hne (Or.inl rfl)]
      cases hl : (chars s).getLast? with
      | none => exact absurd (List.getLast?_eq_none_iff.1 hl) hne
      | some x => simp [sep, slash]
  unfold cutLast
  by_cases h : (dd false (chars s)).getLast? = some slash ∧ (dd false (chars s)).length > 1
  · rw [if_pos h, if_pos ⟨hprev.2 h.1, by omega⟩]
    obtain ⟨s3, e3, w3, c3, _⟩ := deleteCharAt_ok w2 (i := s2.len - 1) (by omega)
    refine ⟨s3, ?_, w3, ?_⟩
    · rw [← e3]; congr 1; omega
    · rw [c3, c2, List.drop_eq_nil_of_le (by omega), List.append_nil, List.dropLast_eq_take, hlen]
  · rw [if_neg h, if_neg (fun x => h ⟨hprev.1 x.1, by omega⟩)]
    exact ⟨s2, rfl, w2, c2⟩

end Verif.Path.Lemmas
