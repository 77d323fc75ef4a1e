import Verif.Print.Model
import Verif.Str.ConcatProps
import Verif.Mat.Props
/-
Properties C136 and C137.
-/
namespace Verif.Print
open Verif

/-! ### Specification -/

/-- the words of a text that are separated by blanks -/
def words (cur : List Byte) : List Byte → List (List Byte)
  | [] => if cur = [] then [] else [cur]
  | c :: cs => if c = 32 then (if cur = [] then words [] cs else cur :: words [] cs) else words (cur ++ [c]) cs

/-- the lines of a text that are ended by a line feed -/
def lines (cur : List Byte) : List Byte → List (List Byte)
  | [] => if cur = [] then [] else [cur]
  | c :: cs => if c = 10 then cur :: lines [] cs else lines (cur ++ [c]) cs

/-- number texts: not empty, no blank, no line feed -/
def Plain (w : List Byte) : Prop := w ≠ [] ∧ 32 ∉ w ∧ 10 ∉ w

/-! ### Lemmas -/

theorem words_word (cs : List Byte) : ∀ (w cur : List Byte), 32 ∉ w → cur ++ w ≠ [] → words cur (w ++ 32 :: cs) = (cur ++ w) :: words [] cs := by
  intro w
  induction w with
  | nil =>
    intro cur _ hc
    rw [List.append_nil] at hc
    simp [words, hc]
  | cons a w ih =>
    intro cur hw hc
    simp only [List.mem_cons, not_or] at hw
    rw [List.cons_append, words, if_neg (fun h => hw.1 h.symm), ih (cur ++ [a]) hw.2 (by simp)]
    simp

theorem words_end : ∀ (w cur : List Byte), 32 ∉ w → cur ++ w ≠ [] → words cur w = [cur ++ w] := by
  intro w
  induction w with
  | nil =>
    intro cur _ hc
    rw [List.append_nil] at hc
    simp [words, hc]
  | cons a w ih =>
    intro cur hw hc
    simp only [List.mem_cons, not_or] at hw
    rw [words, if_neg (fun h => hw.1 h.symm), ih (cur ++ [a]) hw.2 (by simp)]
    simp

theorem lines_line (cs : List Byte) : ∀ (w cur : List Byte), 10 ∉ w → lines cur (w ++ 10 :: cs) = (cur ++ w) :: lines [] cs := by
  intro w
  induction w with
  | nil => intro cur _; simp [lines]
  | cons a w ih =>
    intro cur hw
    simp only [List.mem_cons, not_or] at hw
    rw [List.cons_append, lines, if_neg (fun h => hw.1 h.symm), ih (cur ++ [a]) hw.2]
    simp

theorem elements_ok {K : Type} (fmt : K → List Byte) (data : List K) (l : List Nat) (xs : List K)
    (h : List.Forall₂ (fun a x => data[a]? = some x) l xs) :
    elements fmt data l = .ok ((xs.map fun x => fmt x ++ [32]).flatten) := by
  induction h with
  | nil => rfl
  | cons hx _ ih =>
    simp only [elements, rd, hx, ih, bind, Except.bind, pure, Except.pure, List.map_cons, List.flatten_cons]
    congr 1
    simp [asc]

theorem words_elements {K : Type} (fmt : K → List Byte) (hf : ∀ x, Plain (fmt x)) (tail : List Byte) (xs : List K) :
    words [] ((xs.map fun x => fmt x ++ [32]).flatten ++ tail) = xs.map fmt ++ words [] tail := by
  induction xs with
  | nil => rfl
  | cons x xs ih =>
    obtain ⟨h1, h2, _⟩ := hf x
    rw [List.map_cons, List.flatten_cons, List.append_assoc, List.append_assoc, List.singleton_append,
      words_word _ (fmt x) [] h2 (by simpa using h1), ih]
    rfl

/-- the words of a printed row -/
theorem words_row {K : Type} (fmt : K → List Byte) (hf : ∀ x, Plain (fmt x)) (xs : List K) :
    words [] (asc "[ " ++ ((xs.map fun x => fmt x ++ [32]).flatten ++ asc " ]")) = asc "[" :: (xs.map fmt ++ [asc "]"]) := by
  have e : asc "[ " = [91, 32] := by decide
  have e2 : asc " ]" = [32, 93] := by decide
  rw [e, e2, show ([91, 32] : List Byte) ++ ((xs.map fun x => fmt x ++ [32]).flatten ++ [32, 93]) =
    [91] ++ 32 :: ((xs.map fun x => fmt x ++ [32]).flatten ++ [32, 93]) from rfl,
    words_word _ [91] [] (by decide) (by decide), words_elements fmt hf]
  rfl

/-! ### C136 -/

/-- The text of a vector, read back by splitting at the blanks, is a bracket, the texts of all elements in order, and a bracket. -/
theorem vector_words {K : Type} (fmt : K → List Byte) (hf : ∀ x, Plain (fmt x)) (v : Verif.Mx.Vec K) (hv : v.data.length = v.m) :
    ∃ t, vector fmt v = .ok t ∧ words [] t = asc "[" :: (v.data.map fmt ++ [asc "]"]) := by
  have h : List.Forall₂ (fun a x => v.data[a]? = some x) (List.range v.m) v.data := by
    rw [← hv, List.forall₂_iff_get]
    refine ⟨by simp, fun i h1 h2 => ?_⟩
    simp at h1
    simp [h1]
  refine ⟨_, by unfold vector; rw [elements_ok fmt _ _ _ h]; rfl, words_row fmt hf v.data⟩

/-- so the text determines the number of elements and their texts -/
theorem vector_determined {K : Type} (fmt : K → List Byte) (hf : ∀ x, Plain (fmt x)) (v w : Verif.Mx.Vec K) (hv : v.data.length = v.m)
    (hw : w.data.length = w.m) (h : vector fmt v = vector fmt w) : v.m = w.m ∧ v.data.map fmt = w.data.map fmt := by
  obtain ⟨t, e, r⟩ := vector_words fmt hf v hv
  obtain ⟨t', e', r'⟩ := vector_words fmt hf w hw
  have ht : t = t' := by rw [e, e'] at h; exact Except.ok.inj h
  rw [ht, r'] at r
  have hd : v.data.map fmt = w.data.map fmt := by
    have := (List.cons.inj r).2
    exact (List.append_cancel_right this).symm
  refine ⟨?_, hd⟩
  have := congrArg List.length hd
  simp at this
  omega

theorem elements_no_lf {K : Type} (fmt : K → List Byte) (hf : ∀ x, Plain (fmt x)) (xs : List K) :
    (10 : Byte) ∉ (xs.map fun x => fmt x ++ [32]).flatten := by
  intro h
  obtain ⟨l, hl, hm⟩ := List.mem_flatten.1 h
  obtain ⟨x, _, rfl⟩ := List.mem_map.1 hl
  rcases List.mem_append.1 hm with h | h
  · exact (hf x).2.2 h
  · simp at h

/-- what is printed for the rows `l` of a matrix whose element in row r and column c is `cell r c` -/
theorem rows_ok {K : Type} (fmt : K → List Byte) (hf : ∀ x, Plain (fmt x)) (A : Verif.Mx.Mat K) (cell : Nat → Nat → K) (l : List Nat)
    (h : ∀ r ∈ l, ∀ c < A.n, A.data[r + c * A.m]? = some (cell r c)) :
    ∃ t, rows fmt A l = .ok t ∧ (lines [] t).map (words []) = l.map fun r => asc "[" :: ((List.range A.n).map (fun c => fmt (cell r c)) ++ [asc "]"]) := by
  induction l with
  | nil => exact ⟨[], rfl, rfl⟩
  | cons r l ih =>
    obtain ⟨t, e, ht⟩ := ih fun r hr => h r (List.mem_cons_of_mem _ hr)
    have hrow : List.Forall₂ (fun a x => A.data[a]? = some x) ((List.range A.n).map fun c => r + c * A.m) ((List.range A.n).map (cell r)) := by
      rw [List.forall₂_iff_get]
      refine ⟨by simp, fun i h1 h2 => ?_⟩
      simp at h1
      simpa using h r List.mem_cons_self i h1
    set xs := (List.range A.n).map (cell r) with hxs
    refine ⟨asc "[ " ++ ((xs.map fun x => fmt x ++ [32]).flatten ++ (asc " ]\n" ++ t)), ?_, ?_⟩
    · simp only [rows, elements_ok fmt _ _ _ hrow, e, bind, Except.bind, pure, Except.pure]
    · have e3 : asc " ]\n" = asc " ]" ++ [10] := by decide
      rw [e3]
      have : asc "[ " ++ ((xs.map fun x => fmt x ++ [32]).flatten ++ (asc " ]" ++ [10] ++ t)) =
          (asc "[ " ++ ((xs.map fun x => fmt x ++ [32]).flatten ++ asc " ]")) ++ 10 :: t := by simp
      rw [this, lines_line]
      · rw [List.map_cons, List.map_cons, ht, List.nil_append, words_row fmt hf]
        congr 2
        rw [hxs, List.map_map]; rfl
      · intro hm
        rcases List.mem_append.1 hm with hm | hm
        · exact absurd hm (by decide)
        rcases List.mem_append.1 hm with hm | hm
        · exact elements_no_lf fmt hf xs hm
        · exact absurd hm (by decide)

/-- A printed matrix has one line for every row; the line of row r consists of a bracket, the texts of the elements `A(r, 0)`, `A(r, 1)`, …
as `value` returns them, and a bracket. -/
theorem matrix_lines {K : Type} (fmt : K → List Byte) (hf : ∀ x, Plain (fmt x)) (A : Verif.Mx.Mat K) (hA : A.data.length = A.m * A.n) :
    ∃ t, matrix fmt A = .ok t ∧ (lines [] t).length = A.m ∧
      ∀ r < A.m, ∃ xs : List K, xs.length = A.n ∧ (∀ (c : Nat) (x : K), xs[c]? = some x → A.get r c = .ok x) ∧
        ((lines [] t).map (words []))[r]? = some (asc "[" :: (xs.map fmt ++ [asc "]"])) := by
  have hin : ∀ r < A.m, ∀ c < A.n, r + c * A.m < A.data.length := by
    intro r hr c hc
    rw [hA]
    calc r + c * A.m < A.m + c * A.m := by omega
      _ = (c + 1) * A.m := by rw [Nat.add_mul]; omega
      _ ≤ A.n * A.m := Nat.mul_le_mul_right _ hc
      _ = A.m * A.n := Nat.mul_comm _ _
  by_cases h0 : A.m = 0
  · refine ⟨[], ?_, ?_, ?_⟩
    · unfold matrix; rw [h0]; rfl
    · rw [h0]; rfl
    · intro r hr; omega
  by_cases hn : A.n = 0
  · -- no columns: the cells do not matter
    obtain ⟨t, e, ht⟩ : ∃ t, rows fmt A (List.range A.m) = .ok t ∧ (lines [] t).map (words []) = (List.range A.m).map fun _ => [asc "[", asc "]"] := by
      have : ∀ l : List Nat, ∃ t, rows fmt A l = .ok t ∧ (lines [] t).map (words []) = l.map fun _ => [asc "[", asc "]"] := by
        intro l
        induction l with
        | nil => exact ⟨[], rfl, rfl⟩
        | cons r l ih =>
          obtain ⟨t, e, ht⟩ := ih
          refine ⟨asc "[ " ++ ([] ++ (asc " ]\n" ++ t)), ?_, ?_⟩
          · simp only [rows, hn, List.range_zero, List.map_nil, elements, e, bind, Except.bind, pure, Except.pure]
          · have : asc "[ " ++ ([] ++ (asc " ]\n" ++ t)) = asc "[  ]" ++ 10 :: t := by
              have a : asc " ]\n" = asc " ]" ++ [10] := by decide
              have b : asc "[  ]" = asc "[ " ++ asc " ]" := by decide
              rw [a, b]; simp
            rw [this, lines_line _ _ _ (by decide), List.map_cons, List.map_cons, ht]
            congr 1
      exact this _
    refine ⟨t, e, ?_, ?_⟩
    · have := congrArg List.length ht; simpa using this
    · intro r hr
      refine ⟨[], hn.symm, fun c x hx => by simp at hx, ?_⟩
      rw [ht]; simp [hr]
  · have hpos : 0 < A.data.length := by rw [hA]; exact Nat.mul_pos (by omega) (by omega)
    let cell : Nat → Nat → K := fun r c => if h : r + c * A.m < A.data.length then A.data[r + c * A.m] else A.data[0]
    have hcell : ∀ r < A.m, ∀ c < A.n, A.data[r + c * A.m]? = some (cell r c) := by
      intro r hr c hc
      have h := hin r hr c hc
      simp only [cell, dif_pos h]
      exact List.getElem?_eq_getElem h
    obtain ⟨t, e, ht⟩ := rows_ok fmt hf A cell (List.range A.m) fun r hr => hcell r (by simpa using hr)
    refine ⟨t, e, ?_, ?_⟩
    · have := congrArg List.length ht; simpa using this
    · intro r hr
      refine ⟨(List.range A.n).map (cell r), by simp, ?_, ?_⟩
      · intro c x hx
        have hc : c < A.n := by
          by_contra hc
          rw [List.getElem?_eq_none (by simp; omega)] at hx
          exact absurd hx (by simp)
        have hx' : x = cell r c := by simpa [hc] using hx.symm
        subst hx'
        have hi := hcell r hr c hc
        unfold Verif.Mx.Mat.get Verif.Mx.rdI
        rw [if_neg (by
          have : (0 : Int) ≤ (c : Int) * (A.m : Int) := by positivity
          omega)]
        have : ((r : Int) + (c : Int) * (A.m : Int)).toNat = r + c * A.m := by
          have e1 : (r : Int) + (c : Int) * (A.m : Int) = ((r + c * A.m : Nat) : Int) := by push_cast; rfl
          rw [e1]; exact Int.toNat_natCast _
        rw [this]
        unfold rd
        rw [hi]
      · rw [ht]
        simp [hr, List.map_map, Function.comp_def]

/-- a concrete matrix with two rows and three columns; the elements are given by columns -/
example : (matrix (fun x : Nat => asc (toString x)) ⟨2, 3, [1, 2, 3, 4, 5, 6]⟩).toOption = some (asc "[ 1 3 5  ]\n[ 2 4 6  ]\n") ∧
    (vector (fun x : Nat => asc (toString x)) ⟨3, [7, 8, 9]⟩).toOption = some (asc "[ 7 8 9  ]") := by
  decide +kernel

end Verif.Print
