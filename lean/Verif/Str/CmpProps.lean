import Verif.Str.Spec
import Mathlib.Data.List.Lex
/-
Property C08: comparison and equality of strings.
-/
namespace Verif.Str.CmpProps
open Verif Verif.Str

/-- Specification: dictionary order by character code, prefixes first. -/
def LexLt (l m : List Ch) : Prop := List.Lex (fun a b : Ch => a.toNat < b.toNat) l m

theorem sameRange_ok {s t : Str} (f : Ch → Ch) (i j : Nat) (hs : WF s) (ht : WF t) (n : Nat)
    (h1 : i + n ≤ s.len) (h2 : j + n ≤ t.len) :
    sameRange f s.buf i t.buf j n =
      .ok (decide ((((chars s).drop i).take n).map f = (((chars t).drop j).take n).map f)) := by
  induction n generalizing i j with
  | zero => simp [sameRange]
  | succ n ih =>
    unfold sameRange
    rw [rd_chars hs (by omega), rd_chars ht (by omega)]
    simp only [bind, Except.bind, pure, Except.pure]
    have d1 := List.drop_eq_getElem_cons (i := i) (l := chars s) (by rw [chars_length hs]; omega)
    have d2 := List.drop_eq_getElem_cons (i := j) (l := chars t) (by rw [chars_length ht]; omega)
    rw [d1, d2, List.take_succ_cons, List.take_succ_cons, List.map_cons, List.map_cons, ih _ _ (by omega) (by omega)]
    split
    · rename_i h; simp [h]
    · rename_i h; simp only [ne_eq, not_not] at h; simp [h]

/-- **C08 (equality).** `equals` (and `==`) holds exactly for equal character sequences. -/
theorem equals_iff {s t : Str} (hs : WF s) (ht : WF t) : equals s t = .ok (decide (chars s = chars t)) := by
  have l1 := chars_length hs
  have l2 := chars_length ht
  unfold equals
  split
  · rename_i h
    have : chars s ≠ chars t := by intro e; rw [e] at l1; omega
    simp [this]
  · rename_i h
    simp only [ne_eq, not_not] at h
    rw [sameRange_ok id 0 0 hs ht s.len (by omega) (by omega)]
    congr 2
    simp only [List.map_id, List.drop_zero]
    rw [List.take_of_length_le (by omega), List.take_of_length_le (by omega)]

/-- `equalsIgnoreCase` holds exactly when the sequences agree after lower-casing each character. -/
theorem equalsIgnoreCase_iff {s t : Str} (hs : WF s) (ht : WF t) :
    equalsIgnoreCase s t = .ok (decide ((chars s).map toLowerCh = (chars t).map toLowerCh)) := by
  have l1 := chars_length hs
  have l2 := chars_length ht
  unfold equalsIgnoreCase
  split
  · rename_i h
    have : (chars s).map toLowerCh ≠ (chars t).map toLowerCh := by
      intro e; have := congrArg List.length e; simp only [List.length_map] at this; omega
    simp [this]
  · rename_i h
    simp only [ne_eq, not_not] at h
    rw [sameRange_ok toLowerCh 0 0 hs ht s.len (by omega) (by omega)]
    congr 2
    simp only [List.drop_zero]
    rw [List.take_of_length_le (by omega), List.take_of_length_le (by omega)]

/-- Recursive form of the comparison, used only as a stepping stone. -/
def cmp : List Ch → List Ch → Int
  | [], [] => 0
  | [], _ :: _ => -1
  | _ :: _, [] => 1
  | a :: l, b :: m => if a.toNat < b.toNat then -1 else if b.toNat < a.toNat then 1 else cmp l m

theorem cmpLoop_ok {s t : Str} (hs : WF s) (ht : WF t) (i : Nat) (hi : i ≤ min s.len t.len) :
    (do let r ← cmpLoop s.buf t.buf (min s.len t.len) i
        match r with
        | some x => return x
        | none => if s.len < t.len then return -1 else if s.len > t.len then return 1 else return 0 : Res Int) =
      .ok (cmp ((chars s).drop i) ((chars t).drop i)) := by
  have l1 := chars_length hs
  have l2 := chars_length ht
  fun_induction cmpLoop s.buf t.buf (min s.len t.len) i with
  | case1 i h ih =>
    rw [rd_chars hs (by omega), rd_chars ht (by omega)]
    have d1 := List.drop_eq_getElem_cons (i := i) (l := chars s) (by rw [l1]; omega)
    have d2 := List.drop_eq_getElem_cons (i := i) (l := chars t) (by rw [l2]; omega)
    rw [d1, d2]
    have ih := ih (by omega)
    simp only [bind, Except.bind, pure, Except.pure, cmp, BitVec.lt_def, GT.gt] at ih ⊢
    by_cases h1 : (chars s)[i].toNat < (chars t)[i].toNat
    · simp [h1]
    · by_cases h2 : (chars t)[i].toNat < (chars s)[i].toNat
      · simp [h1, h2]
      · simp only [h1, h2, if_false]; exact ih
  | case2 i h =>
    simp only [bind, Except.bind, pure, Except.pure]
    rcases Nat.lt_trichotomy s.len t.len with hlt | heq | hgt
    · rw [if_pos hlt, List.drop_eq_nil_of_le (by omega)]
      rw [List.drop_eq_getElem_cons (i := i) (l := chars t) (by omega)]; rfl
    · rw [if_neg (by omega), if_neg (by omega), List.drop_eq_nil_of_le (by omega), List.drop_eq_nil_of_le (by omega)]; rfl
    · rw [if_neg (by omega), if_pos hgt, List.drop_eq_nil_of_le (as := chars t) (by omega)]
      rw [List.drop_eq_getElem_cons (i := i) (l := chars s) (by omega)]; rfl

theorem compareTo_cmp {s t : Str} (hs : WF s) (ht : WF t) : compareTo s t = .ok (cmp (chars s) (chars t)) := by
  have := cmpLoop_ok hs ht 0 (by omega)
  rw [List.drop_zero, List.drop_zero] at this
  exact this

theorem cmp_spec (l m : List Ch) :
    (cmp l m = -1 ∧ LexLt l m) ∨ (cmp l m = 0 ∧ l = m) ∨ (cmp l m = 1 ∧ LexLt m l) := by
  induction l generalizing m with
  | nil => cases m with
    | nil => exact .inr (.inl ⟨rfl, rfl⟩)
    | cons b m => exact .inl ⟨rfl, .nil⟩
  | cons a l ih => cases m with
    | nil => exact .inr (.inr ⟨rfl, .nil⟩)
    | cons b m =>
      unfold cmp
      by_cases h1 : a.toNat < b.toNat
      · rw [if_pos h1]; exact .inl ⟨rfl, .rel h1⟩
      · by_cases h2 : b.toNat < a.toNat
        · rw [if_neg h1, if_pos h2]; exact .inr (.inr ⟨rfl, .rel h2⟩)
        · rw [if_neg h1, if_neg h2]
          have e : a = b := BitVec.eq_of_toNat_eq (by omega)
          subst e
          rcases ih m with ⟨x, y⟩ | ⟨x, y⟩ | ⟨x, y⟩
          · exact .inl ⟨x, .cons y⟩
          · exact .inr (.inl ⟨x, by rw [y]⟩)
          · exact .inr (.inr ⟨x, .cons y⟩)

theorem lex_irrefl (l : List Ch) : ¬ LexLt l l := by
  induction l with
  | nil => intro h; cases h
  | cons a l ih => intro h; cases h with
    | cons h => exact ih h
    | rel h => exact absurd h (Nat.lt_irrefl _)

theorem lex_trans {l m n : List Ch} (h1 : LexLt l m) (h2 : LexLt m n) : LexLt l n := by
  unfold LexLt at *
  induction h1 generalizing n with
  | nil => cases h2 <;> exact .nil
  | cons h ih => cases h2 with
    | cons h' => exact .cons (ih h')
    | rel h' => exact .rel h'
  | rel h => cases h2 with
    | cons h' => exact .rel h
    | rel h' => exact .rel (Nat.lt_trans h h')

theorem lex_asymm {l m : List Ch} (h1 : LexLt l m) (h2 : LexLt m l) : False := lex_irrefl _ (lex_trans h1 h2)

/-- **C08 (order).** `compareTo` never leaves the blocks and answers -1, 0 or 1 exactly as the
first sequence is before, equal to or after the second in dictionary order. -/
theorem compareTo_spec {s t : Str} (hs : WF s) (ht : WF t) :
    ∃ r, compareTo s t = .ok r ∧ (r = -1 ∨ r = 0 ∨ r = 1) ∧ (r = -1 ↔ LexLt (chars s) (chars t)) ∧
      (r = 0 ↔ chars s = chars t) ∧ (r = 1 ↔ LexLt (chars t) (chars s)) := by
  refine ⟨_, compareTo_cmp hs ht, ?_⟩
  rcases cmp_spec (chars s) (chars t) with ⟨h, l⟩ | ⟨h, l⟩ | ⟨h, l⟩ <;> rw [h]
  · refine ⟨.inl rfl, ⟨fun _ => l, fun _ => rfl⟩, ⟨fun h => by omega, fun e => ?_⟩, ⟨fun h => by omega, fun e => ?_⟩⟩
    · rw [e] at l; exact absurd l (lex_irrefl _)
    · exact (lex_asymm l e).elim
  · rw [l]
    refine ⟨.inr (.inl rfl), ⟨fun h => by omega, fun e => absurd e (lex_irrefl _)⟩, by simp, ⟨fun h => by omega, fun e => absurd e (lex_irrefl _)⟩⟩
  · refine ⟨.inr (.inr rfl), ⟨fun h => by omega, fun e => (lex_asymm l e).elim⟩, ⟨fun h => by omega, fun e => ?_⟩, ⟨fun _ => l, fun _ => rfl⟩⟩
    rw [e] at l; exact absurd l (lex_irrefl _)

/-- **C08 (total order).** `compareTo` is antisymmetric and transitive. -/
theorem compareTo_total_order {s t u : Str} (hs : WF s) (ht : WF t) (hu : WF u) :
    ∃ st ts tu su, compareTo s t = .ok st ∧ compareTo t s = .ok ts ∧ compareTo t u = .ok tu ∧ compareTo s u = .ok su ∧
      ts = -st ∧ (st ≤ 0 → tu ≤ 0 → su ≤ 0) ∧ (st < 0 → tu ≤ 0 → su < 0) ∧ (st ≤ 0 → tu < 0 → su < 0) := by
  obtain ⟨st, e1, a1, b1, c1, d1⟩ := compareTo_spec hs ht
  obtain ⟨ts, e2, a2, b2, c2, d2⟩ := compareTo_spec ht hs
  obtain ⟨tu, e3, a3, b3, c3, d3⟩ := compareTo_spec ht hu
  obtain ⟨su, e4, a4, b4, c4, d4⟩ := compareTo_spec hs hu
  refine ⟨st, ts, tu, su, e1, e2, e3, e4, ?_, ?_⟩
  · rcases a1 with rfl | rfl | rfl
    · exact d2.2 (b1.1 rfl)
    · exact c2.2 (c1.1 rfl).symm
    · exact b2.2 (d1.1 rfl)
  · have key : st ≤ 0 → tu ≤ 0 → su ≤ 0 ∧ (st < 0 ∨ tu < 0 → su < 0) := by
      intro h1 h2
      rcases a1 with h | h | h
      · have x := b1.1 h
        rcases a3 with g | g | g
        · have := b4.2 (lex_trans x (b3.1 g)); omega
        · have y := c3.1 g; rw [y] at x; have := b4.2 x; omega
        · omega
      · have x := c1.1 h
        rcases a3 with g | g | g
        · have y := b3.1 g; rw [← x] at y; have := b4.2 y; omega
        · have := c4.2 (x.trans (c3.1 g)); omega
        · omega
      · omega
    exact ⟨fun a b => (key a b).1, fun a b => (key (by omega) b).2 (.inl a), fun a b => (key a (by omega)).2 (.inr b)⟩

/-- **C08 (`operator<`).** -/
theorem less_iff {s t : Str} (hs : WF s) (ht : WF t) :
    ∃ b, less s t = .ok b ∧ (b = true ↔ LexLt (chars s) (chars t)) := by
  obtain ⟨r, e, wr, cr, _⟩ := copyCtor_ok hs
  obtain ⟨x, e2, a, b, c, d⟩ := compareTo_spec wr ht
  simp only [less, e, e2, bind, Except.bind, pure, Except.pure]
  refine ⟨_, rfl, ?_⟩
  rw [← cr, ← b]
  simp only [decide_eq_true_eq]
  omega

/-- Non-vacuity: two strings with a common prefix, the longer one greater. -/
example : (do let s ← ofChars [0x61, 0x62]; let t ← ofChars [0x61, 0x62, 0x21]; compareTo s t) = .ok (-1) := by
  decide +kernel

end Verif.Str.CmpProps
