import Verif.Inflate.Tree
/-
C45: the nodes of one level of the code tree are sorted, whatever their order was, so that equal codes are found.
-/
namespace Verif.Inflate
open Verif

/-- codes in ascending order -/
def Ascending (l : List HT) : Prop := (l.map HT.code).Pairwise (· ≤ ·)

theorem bubblePass_max : ∀ (p q : List HT), p ≠ [] →
    ∃ p' m, bubblePass p.length (p ++ q) = p' ++ m :: q ∧ (p' ++ [m]).Perm p ∧ ∀ x ∈ p', x.code ≤ m.code := by
  intro p
  generalize hn : p.length = n
  induction n generalizing p with
  | zero => intro q h; exact absurd (List.length_eq_zero_iff.1 hn) h
  | succ n ih =>
    intro q _
    match p, hn with
    | [a], hn =>
      have : n = 0 := by simpa using hn.symm
      subst this
      exact ⟨[], a, by simp [bubblePass], by simp, by simp⟩
    | a :: b :: t, hn =>
      obtain ⟨k, rfl⟩ : ∃ k, n = k + 1 := ⟨t.length, by simpa using hn.symm⟩
      simp only [List.cons_append, bubblePass]
      by_cases hgt : a.code > b.code
      · rw [if_pos hgt]
        obtain ⟨p', m, e, hp, hm⟩ := ih (a :: t) (by simpa using hn) q (by simp)
        refine ⟨b :: p', m, by rw [List.cons_append] at e; rw [e]; rfl, ?_, ?_⟩
        · exact (hp.cons b).trans (List.Perm.swap a b t)
        · intro x hx
          rcases List.mem_cons.1 hx with rfl | hx
          · have ha : a ∈ p' ++ [m] := hp.mem_iff.2 (by simp)
            rcases List.mem_append.1 ha with h | h
            · have := hm a h; omega
            · rw [List.mem_singleton] at h; subst h; omega
          · exact hm x hx
      · rw [if_neg hgt]
        obtain ⟨p', m, e, hp, hm⟩ := ih (b :: t) (by simpa using hn) q (by simp)
        refine ⟨a :: p', m, by rw [List.cons_append] at e; rw [e]; rfl, hp.cons a, ?_⟩
        intro x hx
        rcases List.mem_cons.1 hx with rfl | hx
        · have hb : b ∈ p' ++ [m] := hp.mem_iff.2 (by simp)
          rcases List.mem_append.1 hb with h | h
          · have := hm b h; omega
          · rw [List.mem_singleton] at h; subst h; omega
        · exact hm x hx

theorem bubble_front : ∀ (n : Nat) (p q : List HT), p.length = n → ∃ s, bubble n (p ++ q) = s ++ q ∧ s.Perm p ∧ Ascending s := by
  intro n
  induction n with
  | zero =>
    intro p q h
    rw [List.length_eq_zero_iff.1 h]
    exact ⟨[], rfl, .refl _, by simp [Ascending]⟩
  | succ n ih =>
    intro p q h
    match n, ih, h with
    | 0, _, h =>
      obtain ⟨a, rfl⟩ := List.length_eq_one_iff.1 h
      exact ⟨[a], rfl, .refl _, by simp [Ascending]⟩
    | n + 1, ih, h =>
      obtain ⟨p', m, e, hp, hm⟩ := bubblePass_max p q (by intro h0; rw [h0] at h; simp at h)
      have hl : p'.length = n + 1 := by
        have := hp.length_eq
        simp at this; omega
      obtain ⟨s, e2, hs, ha⟩ := ih p' (m :: q) hl
      rw [h] at e
      refine ⟨s ++ [m], ?_, (hs.append_right [m]).trans hp, ?_⟩
      · simp only [bubble]
        rw [e, e2]; simp
      · unfold Ascending at ha ⊢
        rw [List.map_append, List.pairwise_append]
        refine ⟨ha, by simp, ?_⟩
        intro x hx y hy
        obtain ⟨z, hz, rfl⟩ := List.mem_map.1 hx
        obtain ⟨z', hz', rfl⟩ := List.mem_map.1 hy
        rw [List.mem_singleton] at hz'
        subst hz'
        exact hm z (hs.mem_iff.1 hz)

/-- The sort of the nodes of a level: the same nodes with ascending codes. -/
theorem bubble_sorts (l : List HT) : (bubble l.length l).Perm l ∧ Ascending (bubble l.length l) := by
  obtain ⟨s, e, hs, ha⟩ := bubble_front l.length l [] rfl
  rw [List.append_nil, List.append_nil] at e
  rw [e]; exact ⟨hs, ha⟩

theorem hasDup_iff (l : List HT) (h : Ascending l) : hasDup l = true ↔ ¬ (l.map HT.code).Nodup := by
  induction l with
  | nil => simp [hasDup]
  | cons a t ih =>
    match t, ih, h with
    | [], _, _ => simp [hasDup]
    | b :: t, ih, h =>
      unfold Ascending at h ih
      rw [List.map_cons, List.pairwise_cons] at h
      have ih := ih h.2
      rw [List.map_cons, List.nodup_cons, hasDup, Bool.or_eq_true, ih, beq_iff_eq, Classical.not_and_iff_not_or_not, Classical.not_not]
      refine or_congr ⟨fun e => by rw [e]; simp, fun hm => ?_⟩ Iff.rfl
      rw [List.map_cons, List.mem_cons] at hm
      rcases hm with hm | hm
      · exact hm
      · have h1 := h.1 b.code (by simp)
        have h2 := h.2
        rw [List.map_cons, List.pairwise_cons] at h2
        have := h2.1 a.code hm
        omega

/-- Two nodes of a level with the same code are found, wherever they stand, and nothing else is refused. -/
theorem equal_codes_found (l : List HT) : hasDup (bubble l.length l) = true ↔ ¬ (l.map HT.code).Nodup := by
  obtain ⟨hp, ha⟩ := bubble_sorts l
  rw [hasDup_iff _ ha, (hp.map HT.code).nodup_iff]

-- the codes 3 1 2 3, of which two are equal but not neighbours
example : hasDup (bubble 4 [.node .nil .nil 0 2 3, .node .nil .nil 1 2 1, .node .nil .nil 2 2 2, .node .nil .nil 3 2 3]) = true ∧
    hasDup [.node .nil .nil 0 2 3, .node .nil .nil 1 2 1, .node .nil .nil 2 2 2, .node .nil .nil 3 2 3] = false := by decide +kernel

end Verif.Inflate
