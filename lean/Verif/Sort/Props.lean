import Verif.Sort.Model
/-
C15: sorting a container sorts it.
-/
namespace Verif.Sort.Props
open Verif Verif.Sort
variable {α : Type}

/-- What the sorted containers rely on: "not greater" is total and transitive. -/
structure Preorder (gt : α → α → Bool) : Prop where
  total : ∀ a b, gt a b = false ∨ gt b a = false
  trans : ∀ a b c, gt a b = false → gt b c = false → gt a c = false

/-- `v[a] ≤ v[b]` where both exist -/
def Le (gt : α → α → Bool) (v : List α) (a b : Nat) : Prop :=
  ∀ x y, v[a]? = some x → v[b]? = some y → gt x y = false

/-- everything from position `n` on is in its final place (up to `size`) -/
def Good (gt : α → α → Bool) (size n : Nat) (v : List α) : Prop := ∀ a b, a < b → n ≤ b → b < size → Le gt v a b

theorem pass_ok (gt : α → α → Bool) (hp : Preorder gt) (size n : Nat) (hn : n ≤ size) (k : Nat) : ∀ (i newn : Nat) (v : List α),
    n - i = k → i < n → size ≤ v.length → Good gt size n v → 1 ≤ newn → newn ≤ max i 1 →
    (∀ a b, a < b → newn ≤ b → b ≤ i → Le gt v a b) → (∀ a, a < i → Le gt v a i) →
    ∃ m w, pass gt n i newn v = .ok (m, w) ∧ w.Perm v ∧ Good gt size m w ∧ 1 ≤ m ∧ (∀ j, size ≤ j → w[j]? = v[j]?) := by
  induction k with
  | zero => intro i newn v hk hi; omega
  | succ k ih =>
    intro i newn v hk hi hsz hg h1 hni hs hm
    rw [pass]
    by_cases h : i + 1 < n
    · rw [if_pos h, rd_ok (by omega), rd_ok (by omega)]
      simp only [bind, Except.bind]
      by_cases hgt : gt v[i] v[i + 1]
      · rw [if_pos hgt, wr_ok (by omega)]
        simp only
        rw [wr_ok (by simp; omega)]
        simp only
        have hle : gt v[i + 1] v[i] = false := by
          rcases hp.total v[i] v[i + 1] with e | e
          · rw [e] at hgt; cases hgt
          · exact e
        have hget : ∀ j, ((v.set i v[i + 1]).set (i + 1) v[i])[j]? =
            if j = i then some v[i + 1] else if j = i + 1 then some v[i] else v[j]? := by
          intro j
          rw [List.getElem?_set, List.getElem?_set]
          by_cases e1 : j = i
          · subst e1
            simp; omega
          · by_cases e2 : j = i + 1
            · subst e2; simp; omega
            · rw [if_neg (by omega), if_neg (by omega), if_neg e1, if_neg e2]
        have gi : v[i]? = some v[i] := List.getElem?_eq_getElem (by omega)
        have gi1 : v[i + 1]? = some v[i + 1] := List.getElem?_eq_getElem (by omega)
        obtain ⟨m, w, e1, e2, e3, e4, e5⟩ := ih (i + 1) (i + 1) ((v.set i v[i + 1]).set (i + 1) v[i]) (by omega) h (by simpa using hsz) (by
          intro a b hab hnb hbs x y hx hy
          rw [hget] at hx hy
          rw [if_neg (by omega), if_neg (by omega)] at hy
          split at hx
          · injection hx with hx; subst hx
            exact hg (i + 1) b (by omega) hnb hbs _ _ gi1 hy
          · split at hx
            · injection hx with hx; subst hx
              exact hg i b (by omega) hnb hbs _ _ gi hy
            · exact hg a b hab hnb hbs _ _ hx hy) (by omega) (by omega) (by
          intro a b hab hb1 hb2 x y hx hy
          have : b = i + 1 := by omega
          subst this
          rw [hget] at hx hy
          rw [if_neg (by omega), if_pos rfl] at hy
          injection hy with hy; subst hy
          split at hx
          · injection hx with hx; subst hx; exact hle
          · rw [if_neg (by omega)] at hx
            exact hm a (by omega) _ _ hx gi) (by
          intro a ha x y hx hy
          rw [hget] at hx hy
          rw [if_neg (by omega), if_pos rfl] at hy
          injection hy with hy; subst hy
          split at hx
          · injection hx with hx; subst hx; exact hle
          · rw [if_neg (by omega)] at hx
            exact hm a (by omega) _ _ hx gi)
        refine ⟨m, w, e1, e2.trans ?_, e3, e4, ?_⟩
        · exact List.set_set_perm (by omega) (by omega)
        · intro j hj
          rw [e5 j hj, hget, if_neg (by omega), if_neg (by omega)]
      · rw [if_neg hgt]
        have hle : gt v[i] v[i + 1] = false := by simpa using hgt
        have gi : v[i]? = some v[i] := List.getElem?_eq_getElem (by omega)
        have gi1 : v[i + 1]? = some v[i + 1] := List.getElem?_eq_getElem (by omega)
        have hlt : ∀ a, a < i + 1 → Le gt v a (i + 1) := by
          intro a ha x y hx hy
          rw [gi1] at hy; injection hy with hy; subst hy
          by_cases e : a = i
          · subst e; rw [gi] at hx; injection hx with hx; subst hx; exact hle
          · exact hp.trans _ _ _ (hm a (by omega) _ _ hx gi) hle
        exact ih (i + 1) newn v (by omega) h hsz hg h1 (by omega) (by
          intro a b hab hb1 hb2
          by_cases e : b = i + 1
          · subst e; exact hlt a hab
          · exact hs a b hab hb1 (by omega)) hlt
    · rw [if_neg h]
      refine ⟨newn, v, rfl, List.Perm.refl _, ?_, h1, fun _ _ => rfl⟩
      intro a b hab hb hbs
      by_cases e : n ≤ b
      · exact hg a b hab e hbs
      · exact hs a b hab hb (by omega)

theorem sortLoop_ok (gt : α → α → Bool) (hp : Preorder gt) (size n : Nat) (hn : n ≤ size) (h1 : 1 ≤ n) (v : List α)
    (hsz : size ≤ v.length) (hg : Good gt size n v) :
    ∃ w, sortLoop gt n v = .ok w ∧ w.Perm v ∧ Good gt size 1 w ∧ (∀ j, size ≤ j → w[j]? = v[j]?) := by
  induction n using Nat.strongRecOn generalizing v with
  | ind n ih =>
    obtain ⟨m, w, e1, e2, e3, e4, e5⟩ := pass_ok gt hp size n hn (n - 0) 0 1 v rfl (by omega) hsz hg (by omega) (by omega)
      (by intro a b hab hb hb2; omega) (by intro a ha; omega)
    rw [sortLoop]
    split
    · next e h => rw [e1] at h; cases h
    · next m' w' h =>
      rw [e1] at h
      cases h
      split
      · next hm =>
        have hmn : m < n := by rcases pass_newn gt n 0 1 v m w e1 with h | h <;> omega
        obtain ⟨u, f1, f2, f3, f4⟩ := ih m hmn (by omega) e4 w (by rw [e2.length_eq]; exact hsz) e3
        exact ⟨u, f1, f2.trans e2, f3, fun j hj => by rw [f4 j hj, e5 j hj]⟩
      · next hm =>
        exact ⟨w, rfl, e2, by rw [show m = 1 by omega] at e3; exact e3, e5⟩

/-- **C15** For every total preorder, `sort` terminates without touching memory outside the elements,
leaves an ascending permutation of the first `size` elements and keeps whatever lies behind them. -/
theorem sort_sorts (gt : α → α → Bool) (hp : Preorder gt) (size : Nat) (v : List α) (h : size ≤ v.length) :
    ∃ w, sort gt size v = .ok w ∧ (w.take size).Perm (v.take size) ∧ (w.take size).Pairwise (fun a b => gt a b = false) ∧
      w.drop size = v.drop size := by
  by_cases h0 : size < 1
  · have : size = 0 := by omega
    subst this
    exact ⟨v, by rw [sort, if_pos h0], by simp, by simp, rfl⟩
  · obtain ⟨w, e1, e2, e3, e4⟩ := sortLoop_ok gt hp size size (by omega) (by omega) v h (by intro a b hab hb hbs; omega)
    have hdrop : w.drop size = v.drop size := by
      apply List.ext_getElem?
      intro j
      rw [List.getElem?_drop, List.getElem?_drop, e4 _ (by omega)]
    refine ⟨w, by rw [sort, if_neg h0, e1], ?_, ?_, hdrop⟩
    · have : (w.take size ++ w.drop size).Perm (v.take size ++ v.drop size) := by simpa using e2
      rw [hdrop] at this
      exact (List.perm_append_right_iff _).mp this
    · rw [List.pairwise_iff_getElem]
      intro a b ha hb hab
      simp at ha hb
      apply e3 a b hab (by omega) (by omega)
      · simp
      · simp

theorem byteGt_preorder : Preorder (fun a b : Byte => decide (a.toNat > b.toNat)) where
  total a b := by simp; omega
  trans a b c := by simp; omega

/-- **C15** `ByteArray::sort`: ascending permutation of the bytes; the final NUL stays in place. -/
theorem byteArray_sort (bytes : List Byte) :
    ∃ w, sort (fun a b : Byte => decide (a.toNat > b.toNat)) bytes.length (bytes ++ [0]) = .ok (w ++ [0]) ∧ w.Perm bytes ∧
      w.Pairwise (fun a b => a.toNat ≤ b.toNat) := by
  obtain ⟨w, h1, h2, h3, h4⟩ := sort_sorts _ byteGt_preorder bytes.length (bytes ++ [0]) (by simp)
  refine ⟨w.take bytes.length, ?_, by simpa using h2, ?_⟩
  · rw [h1]
    congr 1
    rw [List.drop_left] at h4
    rw [← h4, List.take_append_drop]
  · exact h3.imp (by simp)

example : sort (fun a b : Byte => decide (a.toNat > b.toNat)) 4 ([3, 1, 200, 2] ++ [0]) = .ok [1, 2, 3, 200, 0] := by decide +kernel

/-- **C15** Sorting is deterministic up to equivalents: the result is the only ascending
permutation when equivalent elements are equal. -/
theorem sorted_unique (gt : α → α → Bool) (hanti : ∀ a b, gt a b = false → gt b a = false → a = b) (v w : List α) (hvw : v.Perm w)
    (hv : v.Pairwise (fun a b => gt a b = false)) (hw : w.Pairwise (fun a b => gt a b = false)) : v = w :=
  hvw.eq_of_pairwise (fun a b _ _ h1 h2 => hanti a b h1 h2) hv hw

/-- Termination alone needs no assumption on the comparison (FloatArray with NaN): the result is always
a permutation. -/
theorem sort_permutes (gt : α → α → Bool) (size : Nat) (v : List α) (h : size ≤ v.length) :
    ∃ w, sort gt size v = .ok w ∧ w.Perm v := by
  have hpass : ∀ (k n i newn : Nat) (v : List α), n - i = k → n ≤ v.length → ∃ m w, pass gt n i newn v = .ok (m, w) ∧ w.Perm v := by
    intro k
    induction k with
    | zero => intro n i newn v hk hn; rw [pass, if_neg (by omega)]; exact ⟨_, _, rfl, List.Perm.refl _⟩
    | succ k ih =>
      intro n i newn v hk hn
      rw [pass]
      split
      · rw [rd_ok (by omega), rd_ok (by omega)]
        simp only [bind, Except.bind]
        split
        · rw [wr_ok (by omega)]
          simp only
          rw [wr_ok (by simp; omega)]
          simp only
          obtain ⟨m, w, e1, e2⟩ := ih n (i + 1) (i + 1) ((v.set i v[i + 1]).set (i + 1) v[i]) (by omega) (by simpa using hn)
          exact ⟨m, w, e1, e2.trans (List.set_set_perm (by omega) (by omega))⟩
        · exact ih n (i + 1) newn v (by omega) hn
      · exact ⟨_, _, rfl, List.Perm.refl _⟩
  have hloop : ∀ (n : Nat) (v : List α), n ≤ v.length → ∃ w, sortLoop gt n v = .ok w ∧ w.Perm v := by
    intro n
    induction n using Nat.strongRecOn with
    | ind n ih =>
      intro v hn
      obtain ⟨m, w, e1, e2⟩ := hpass (n - 0) n 0 1 v rfl hn
      rw [sortLoop]
      split
      · next e h => rw [e1] at h; cases h
      · next m' w' h =>
        rw [e1] at h
        cases h
        split
        · have hmn : m < n := by rcases pass_newn gt n 0 1 v m w e1 with h | h <;> omega
          obtain ⟨u, f1, f2⟩ := ih m hmn w (by rw [e2.length_eq]; omega)
          exact ⟨u, f1, f2.trans e2⟩
        · exact ⟨w, rfl, e2⟩
  unfold sort
  split
  · exact ⟨v, rfl, List.Perm.refl _⟩
  · exact hloop size v h

/-- FloatArray with a NaN (here `none`, neither greater nor smaller than anything) is not sorted:
violation of C15 for FloatArray. -/
theorem nan_blocks_sorting :
    sort (fun a b : Option Nat => match a, b with | some x, some y => decide (x > y) | _, _ => false) 3 [some 2, none, some 1]
      = .ok [some 2, none, some 1] := by decide +kernel

end Verif.Sort.Props
