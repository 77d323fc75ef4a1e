import Verif.Inflate.Bits
/-
`huffmanCodes` yields the canonical code.
-/
namespace Verif.Inflate
open Verif

/-- an array as a function -/
def rep (n : Nat) (f : Nat → Nat) : List Nat := (List.range n).map f

theorem rep_length (n : Nat) (f : Nat → Nat) : (rep n f).length = n := by simp [rep]

theorem rep_get (n : Nat) (f : Nat → Nat) (i : Nat) (h : i < n) : (rep n f)[i]? = some (f i) := by
  simp [rep, List.getElem?_range h]

theorem rd_rep {n i : Nat} (f : Nat → Nat) (h : i < n) : rd (rep n f) i = .ok (f i) := by
  unfold rd; rw [rep_get n f i h]

theorem rep_congr {n : Nat} {f g : Nat → Nat} (h : ∀ j < n, f j = g j) : rep n f = rep n g := by
  unfold rep
  apply List.map_congr_left
  intro j hj
  exact h j (List.mem_range.1 hj)

theorem wr_rep {n i : Nat} (f : Nat → Nat) (x : Nat) (h : i < n) : wr (rep n f) i x = .ok (rep n (fun j => if j = i then x else f j)) := by
  rw [wr_ok (by rw [rep_length]; exact h)]
  congr 1
  apply List.ext_getElem?
  intro j
  by_cases hj : j < n
  · rw [rep_get _ _ _ hj]
    by_cases hji : j = i
    · subst hji; rw [List.getElem?_set_self (by rw [rep_length]; exact h), if_pos rfl]
    · rw [List.getElem?_set_ne (Ne.symm hji), rep_get _ _ _ hj, if_neg hji]
  · rw [List.getElem?_eq_none (by simp [rep_length]; omega), List.getElem?_eq_none (by simp [rep_length]; omega)]

theorem replicate_rep (n : Nat) : List.replicate n 0 = rep n (fun _ => 0) := by
  apply List.ext_getElem?
  intro j
  by_cases hj : j < n
  · rw [rep_get _ _ _ hj]; simp [hj]
  · rw [List.getElem?_eq_none (by simp; omega), List.getElem?_eq_none (by simp [rep_length]; omega)]

theorem countLengths_ok (ls : List Nat) (n : Nat) (f : Nat → Nat) (hn : ∀ l ∈ ls, l < n) (hb : ∀ j, f j + ls.length < 65536) :
    countLengths ls (rep n f) = .ok (rep n (fun j => f j + ls.count j)) := by
  induction ls generalizing f with
  | nil => rfl
  | cons l ls ih =>
    have hl := hn l (by simp)
    simp only [countLengths]
    rw [rd_rep f hl]
    simp only [bind, Except.bind]
    rw [wr_rep f _ hl]
    simp only
    rw [ih _ (fun x hx => hn x (by simp [hx])) ?_]
    · congr 1
      apply rep_congr
      intro j _
      simp only [List.count_cons]
      by_cases h : j = l
      · subst h
        have := hb j
        simp only [List.length_cons] at this
        rw [if_pos rfl, u16_small (by omega)]; simp; omega
      · have : (l == j) = false := by simp; exact fun e => h e.symm
        rw [if_neg h, this]; simp
    · intro j
      have hbj := hb j
      have hbl := hb l
      simp only [List.length_cons] at hbj hbl
      split
      · rw [u16_small (by omega)]; omega
      · omega

/-- the first code of length `k` -/
def start (lens : List Nat) (k : Nat) : Nat := (lens.map fun l => if l ≠ 0 ∧ l < k then 2 ^ (k - l) else 0).sum

theorem start_zero (lens : List Nat) : start lens 0 = 0 := by
  induction lens with
  | nil => rfl
  | cons l ls ih =>
    have h : start (l :: ls) 0 = (if l ≠ 0 ∧ l < 0 then 2 ^ (0 - l) else 0) + start ls 0 := rfl
    rw [h, ih, if_neg (by omega)]

/-- number of codes of length `k` -/
def cnt (lens : List Nat) (k : Nat) : Nat := if k = 0 then 0 else lens.count k

theorem cnt_cons (l : Nat) (ls : List Nat) (k : Nat) : cnt (l :: ls) k = cnt ls k + (if l = k ∧ k ≠ 0 then 1 else 0) := by
  unfold cnt
  by_cases hk : k = 0
  · simp [hk]
  · by_cases h : l = k
    · subst h; simp [hk]
    · simp [hk, h, List.count_cons]

theorem start_succ (lens : List Nat) (k : Nat) : start lens (k + 1) = 2 * (start lens k + cnt lens k) := by
  induction lens with
  | nil => simp [start, cnt]
  | cons l ls ih =>
    have h : ∀ k, start (l :: ls) k = (if l ≠ 0 ∧ l < k then 2 ^ (k - l) else 0) + start ls k := fun _ => rfl
    rw [h, h, ih, cnt_cons]
    by_cases h0 : l = 0
    · subst h0
      by_cases hk : k = 0
      · subst hk; simp
      · have : ¬ (0 = k ∧ k ≠ 0) := by omega
        simp [this]
    · by_cases h1 : l < k
      · rw [if_pos (show l ≠ 0 ∧ l < k + 1 by omega), if_pos ⟨h0, h1⟩, if_neg (by omega)]
        rw [show k + 1 - l = (k - l) + 1 by omega, Nat.pow_succ]; omega
      · by_cases h2 : l = k
        · subst h2
          rw [if_pos (show l ≠ 0 ∧ l < l + 1 by omega), if_neg (by omega), if_pos ⟨rfl, h0⟩]
          rw [show l + 1 - l = 1 by omega]; omega
        · rw [if_neg (by omega), if_neg (by omega), if_neg (by omega)]; omega

/-- codes up to length `k` use at most 2^k words -/
theorem start_kraft (lens : List Nat) (k : Nat) (hk : k ≤ 15) (hl : ∀ l ∈ lens, l ≤ 15) :
    (start lens k + cnt lens k) * 2 ^ (15 - k) ≤ kraft lens := by
  induction lens with
  | nil => simp [start, cnt, kraft]
  | cons l ls ih =>
    have ih := ih (fun x hx => hl x (by simp [hx]))
    have h : start (l :: ls) k = (if l ≠ 0 ∧ l < k then 2 ^ (k - l) else 0) + start ls k := rfl
    have h2 : kraft (l :: ls) = (if l = 0 then 0 else 2 ^ (15 - l)) + kraft ls := rfl
    rw [h, h2, cnt_cons]
    have hl' := hl l (by simp)
    have key : ((if l ≠ 0 ∧ l < k then 2 ^ (k - l) else 0) + (if l = k ∧ k ≠ 0 then 1 else 0)) * 2 ^ (15 - k) ≤ (if l = 0 then 0 else 2 ^ (15 - l)) := by
      by_cases h0 : l = 0
      · subst h0
        have : ¬ (0 = k ∧ k ≠ 0) := by omega
        simp [this]
      · rw [if_neg h0]
        by_cases h1 : l < k
        · rw [if_pos ⟨h0, h1⟩, if_neg (by omega), Nat.add_zero, ← Nat.pow_add]
          exact Nat.pow_le_pow_right (by decide) (by omega)
        · rw [if_neg (by omega)]
          by_cases h3 : l = k
          · subst h3; rw [if_pos ⟨rfl, h0⟩]; simp
          · rw [if_neg (by omega)]; simp
    have e : ((if l ≠ 0 ∧ l < k then 2 ^ (k - l) else 0) + start ls k + (cnt ls k + (if l = k ∧ k ≠ 0 then 1 else 0))) * 2 ^ (15 - k)
        = ((if l ≠ 0 ∧ l < k then 2 ^ (k - l) else 0) + (if l = k ∧ k ≠ 0 then 1 else 0)) * 2 ^ (15 - k) + (start ls k + cnt ls k) * 2 ^ (15 - k) := by
      rw [← Nat.add_mul]; congr 1; omega
    rw [e]
    omega

theorem start_le (lens : List Nat) (k : Nat) (hk : k ≤ 15) (hl : ∀ l ∈ lens, l ≤ 15) (hkr : kraft lens ≤ 2 ^ 15) :
    start lens k + cnt lens k ≤ 2 ^ k := by
  have h := start_kraft lens k hk hl
  have h2 : (start lens k + cnt lens k) * 2 ^ (15 - k) ≤ 2 ^ k * 2 ^ (15 - k) := by
    rw [← Nat.pow_add, show k + (15 - k) = 15 by omega]; omega
  exact Nat.le_of_mul_le_mul_right h2 (Nat.two_pow_pos _)

theorem firstCodes_ok (lens : List Nat) (r bits n : Nat) (g : Nat → Nat) (hb : 1 ≤ bits) (hn : bits + r ≤ n) (h15 : bits + r ≤ 16)
    (hle : ∀ k ≤ 15, start lens k + cnt lens k ≤ 2 ^ k) :
    firstCodes r bits (start lens (bits - 1)) (rep n (cnt lens)) (rep n g) =
      .ok (rep n (fun j => if bits ≤ j ∧ j < bits + r then start lens j else g j)) := by
  induction r generalizing bits g with
  | zero =>
    simp only [firstCodes]
    congr 1
    apply rep_congr
    intro j _
    rw [if_neg (by omega)]
  | succ r ih =>
    simp only [firstCodes]
    rw [rd_rep _ (show bits - 1 < n by omega)]
    simp only [bind, Except.bind]
    have hs := start_succ lens (bits - 1)
    rw [show bits - 1 + 1 = bits by omega] at hs
    have hb2 := hle (bits - 1) (by omega)
    have hp : 2 ^ (bits - 1) ≤ 2 ^ 14 := Nat.pow_le_pow_right (by decide) (by omega)
    have hc : u16 ((start lens (bits - 1) + cnt lens (bits - 1)) <<< 1) = start lens bits := by
      rw [Nat.shiftLeft_eq, u16_small (by omega), hs]; omega
    rw [hc, wr_rep _ _ (show bits < n by omega)]
    simp only
    have := ih (bits + 1) (fun j => if j = bits then start lens bits else g j) (by omega) (by omega) (by omega)
    rw [show bits + 1 - 1 = bits by omega] at this
    rw [this]
    congr 1
    apply rep_congr
    intro j _
    by_cases h1 : j = bits
    · subst h1; simp
    · by_cases h2 : bits ≤ j ∧ j < bits + (r + 1)
      · rw [if_pos (by omega), if_pos h2]
      · rw [if_neg (by omega), if_neg h1, if_neg h2]

/-- what `assignCodes` yields -/
def codesFrom : List Nat → (Nat → Nat) → List Nat
  | [], _ => []
  | l :: ls, g => if l ≠ 0 then g l :: codesFrom ls (fun j => if j = l then g l + 1 else g j) else 0 :: codesFrom ls g

theorem assignCodes_ok (ls : List Nat) (n : Nat) (g : Nat → Nat) (hn : ∀ l ∈ ls, l < n) (hg : ∀ l, l ≠ 0 → l ∈ ls → g l + ls.count l < 65536) :
    assignCodes ls (rep n g) = .ok (codesFrom ls g) := by
  induction ls generalizing g with
  | nil => rfl
  | cons l ls ih =>
    have hl := hn l (by simp)
    simp only [assignCodes, codesFrom]
    by_cases h0 : l ≠ 0
    · rw [if_pos h0, if_pos h0, rd_rep _ hl]
      simp only [bind, Except.bind]
      rw [wr_rep _ _ hl]
      simp only
      have hgl := hg l h0 (by simp)
      rw [List.count_cons_self] at hgl
      rw [u16_small (by omega)]
      rw [ih _ (fun x hx => hn x (by simp [hx])) ?_]
      · rfl
      · intro x hx hm
        have := hg x hx (by simp [hm])
        rw [List.count_cons] at this
        by_cases h : x = l
        · subst h; simp at this ⊢; omega
        · rw [if_neg h]; omega
    · rw [if_neg h0, if_neg h0]
      simp only [bind, Except.bind]
      rw [ih g (fun x hx => hn x (by simp [hx])) ?_]
      · rfl
      · intro x hx hm
        have := hg x hx (by simp [hm])
        rw [List.count_cons] at this
        omega

theorem codesFrom_length (ls : List Nat) (g : Nat → Nat) : (codesFrom ls g).length = ls.length := by
  induction ls generalizing g with
  | nil => rfl
  | cons l ls ih => unfold codesFrom; split <;> simp [ih]

theorem codesFrom_get (ls : List Nat) (g : Nat → Nat) (i : Nat) (hi : i < ls.length) :
    (codesFrom ls g)[i]? = some (if ls[i] ≠ 0 then g ls[i] + (ls.take i).count ls[i] else 0) := by
  induction ls generalizing g i with
  | nil => simp at hi
  | cons l ls ih =>
    cases i with
    | zero =>
      unfold codesFrom
      by_cases h : l ≠ 0
      · rw [if_pos h]; simp [h]
      · rw [if_neg h]; simp at h; simp [h]
    | succ i =>
      have hi' : i < ls.length := by simpa using hi
      unfold codesFrom
      simp only [List.getElem_cons_succ, List.take_succ_cons]
      by_cases h : l ≠ 0
      · rw [if_pos h, List.getElem?_cons_succ, ih _ i hi']
        congr 1
        by_cases hl : ls[i] ≠ 0
        · rw [if_pos hl, if_pos hl, List.count_cons]
          by_cases he : ls[i] = l
          · rw [if_pos he, he]; simp; omega
          · have : (l == ls[i]) = false := by simp; exact fun e => he e.symm
            rw [if_neg he, this]; simp
        · rw [if_neg hl, if_neg hl]
      · rw [if_neg h, List.getElem?_cons_succ, ih _ i hi']
        congr 1
        by_cases hl : ls[i] ≠ 0
        · rw [if_pos hl, if_pos hl, List.count_cons]
          have : (l == ls[i]) = false := by
            simp only [ne_eq, Decidable.not_not] at h
            simp [h]; exact fun e => hl e.symm
          rw [this]; simp
        · rw [if_neg hl, if_neg hl]

theorem maxLength_ge (ls : List Nat) : ∀ l ∈ ls, l ≤ maxLength ls := by
  induction ls with
  | nil => simp
  | cons a ls ih =>
    intro l hl
    simp only [maxLength]
    rcases List.mem_cons.1 hl with h | h
    · subst h; omega
    · have := ih l h; omega

theorem maxLength_le (ls : List Nat) (n : Nat) (h : ∀ l ∈ ls, l ≤ n) : maxLength ls ≤ n := by
  induction ls with
  | nil => simp [maxLength]
  | cons a ls ih =>
    have h1 := h a (by simp)
    have h2 := ih (fun l hl => h l (by simp [hl]))
    simp only [maxLength]; omega

theorem maxLength_mem (ls : List Nat) (h : maxLength ls ≠ 0) : maxLength ls ∈ ls := by
  induction ls with
  | nil => simp [maxLength] at h
  | cons a ls ih =>
    simp only [maxLength] at h ⊢
    by_cases hm : a ≤ maxLength ls
    · rw [Nat.max_eq_right hm] at h ⊢; exact List.mem_cons_of_mem _ (ih h)
    · rw [Nat.max_eq_left (by omega)]; simp

theorem huffmanCodes_ok (lens : List Nat) (hl : ∀ l ∈ lens, l ≤ 15) (hkr : kraft lens ≤ 2 ^ 15) (hlen : lens.length < 65536 - 32768) :
    huffmanCodes lens = .ok (codesFrom lens (start lens), maxLength lens) := by
  have hmb := maxLength_le lens 15 hl
  have hmax := maxLength_ge lens
  obtain ⟨mb, hm⟩ : ∃ mb, mb = maxLength lens := ⟨_, rfl⟩
  unfold huffmanCodes
  rw [← hm] at hmb hmax ⊢
  simp only
  rw [replicate_rep, countLengths_ok lens (mb + 1) (fun _ => 0) (fun l hl' => by have := hmax l hl'; omega) (fun j => by omega)]
  simp only [bind, Except.bind]
  rw [wr_rep _ _ (Nat.succ_pos mb)]
  simp only
  have hb : rep (mb + 1) (fun j => if j = 0 then 0 else 0 + lens.count j) = rep (mb + 1) (cnt lens) := by
    apply rep_congr; intro j _; unfold cnt; simp
  rw [hb]
  have hle := fun k hk => start_le lens k hk hl hkr
  have := firstCodes_ok lens mb 1 (mb + 1) (fun _ => 0) (by omega) (by omega) (by omega) hle
  rw [show 1 - 1 = 0 from rfl, start_zero] at this
  rw [this]
  simp only
  have hg : rep (mb + 1) (fun j => if 1 ≤ j ∧ j < 1 + mb then start lens j else 0) = rep (mb + 1) (start lens) := by
    apply rep_congr
    intro j hj
    by_cases h : 1 ≤ j
    · rw [if_pos ⟨h, by omega⟩]
    · have : j = 0 := by omega
      subst this; rw [if_neg (by omega), start_zero]
  rw [hg, assignCodes_ok lens (mb + 1) (start lens) (fun l hl' => by have := hmax l hl'; omega) ?_]
  · rfl
  · intro l h0 hm'
    have h1 := hle l (hl l hm')
    have h2 : 2 ^ l ≤ 2 ^ 15 := Nat.pow_le_pow_right (by decide) (hl l hm')
    have h3 : cnt lens l = lens.count l := by unfold cnt; rw [if_neg h0]
    omega

/-! ### the closed form -/

theorem sum_range_map (f : Nat → Nat) (n : Nat) : ((List.range (n + 1)).map f).sum = f 0 + ((List.range n).map fun j => f (j + 1)).sum := by
  rw [List.range_succ_eq_map]
  simp [List.map_map, Function.comp_def]

theorem canon_sum (lens : List Nat) (L i k : Nat) (hL : L ≠ 0) :
    ((List.range lens.length).map fun j => if precedes L i (lens.getD j 0) (k + j) then 2 ^ (L - lens.getD j 0) else 0).sum =
      start lens L + (lens.take (i - k)).count L := by
  induction lens generalizing k with
  | nil => simp [start]
  | cons l ls ih =>
    rw [List.length_cons, sum_range_map]
    have ih' := ih (k + 1)
    have e : ((List.range ls.length).map fun j => if precedes L i ((l :: ls).getD (j + 1) 0) (k + (j + 1)) then 2 ^ (L - (l :: ls).getD (j + 1) 0) else 0) =
        ((List.range ls.length).map fun j => if precedes L i (ls.getD j 0) (k + 1 + j) then 2 ^ (L - ls.getD j 0) else 0) := by
      apply List.map_congr_left
      intro j _
      rw [show k + (j + 1) = k + 1 + j by omega]
      simp
    rw [e, ih']
    have hs : start (l :: ls) L = (if l ≠ 0 ∧ l < L then 2 ^ (L - l) else 0) + start ls L := rfl
    rw [hs]
    have h0 : (l :: ls).getD 0 0 = l := rfl
    rw [h0]
    rw [show k + 0 = k from rfl]
    have hp : precedes L i l k ↔ (l ≠ 0 ∧ (l < L ∨ l = L ∧ k < i)) := Iff.rfl
    by_cases hik : i ≤ k
    · rw [show i - k = 0 by omega, show i - (k + 1) = 0 by omega]
      simp only [List.take_zero, List.count_nil, Nat.add_zero]
      by_cases h1 : l ≠ 0 ∧ l < L
      · rw [if_pos (hp.2 ⟨h1.1, Or.inl h1.2⟩), if_pos h1]
      · rw [if_neg h1, if_neg (by rw [hp]; omega)]
    · rw [show i - k = (i - (k + 1)) + 1 by omega, List.take_succ_cons, List.count_cons]
      by_cases hl : l = L
      · subst hl
        rw [if_pos (hp.2 ⟨hL, Or.inr ⟨rfl, by omega⟩⟩), if_neg (by omega)]
        simp; omega
      · have hb : (l == L) = false := by simp [hl]
        rw [hb]
        by_cases h1 : l ≠ 0 ∧ l < L
        · rw [if_pos (hp.2 ⟨h1.1, Or.inl h1.2⟩), if_pos h1]; simp; omega
        · rw [if_neg h1, if_neg (by rw [hp]; omega)]; simp

theorem canon_eq (lens : List Nat) (i : Nat) (h0 : lens.getD i 0 ≠ 0) :
    canon lens i = start lens (lens.getD i 0) + (lens.take i).count (lens.getD i 0) := by
  unfold canon
  have := canon_sum lens (lens.getD i 0) i 0 h0
  simp only [Nat.zero_add, Nat.sub_zero] at this
  exact this

theorem count_take_lt (lens : List Nat) (i : Nat) (hi : i < lens.length) : (lens.take i).count lens[i] < lens.count lens[i] := by
  have h : lens = lens.take i ++ lens[i] :: lens.drop (i + 1) := by
    rw [List.getElem_cons_drop, List.take_append_drop]
  obtain ⟨x, hx⟩ : ∃ x, x = lens[i] := ⟨_, rfl⟩
  have h2 : lens.count x = (lens.take i).count x + (x :: lens.drop (i + 1)).count x := by
    rw [← List.count_append, hx, ← h]
  rw [← hx, h2, List.count_cons_self]
  omega

/-- a code word fits into its length -/
theorem canon_lt (lens : List Nat) (hl : ∀ l ∈ lens, l ≤ 15) (hkr : kraft lens ≤ 2 ^ 15) (i : Nat) (hi : lens.getD i 0 ≠ 0) :
    canon lens i < 2 ^ lens.getD i 0 := by
  have hlt : i < lens.length := by
    refine Nat.lt_of_not_le fun h => hi ?_
    rw [List.getD_eq_getElem?_getD, List.getElem?_eq_none h]; rfl
  have e : lens.getD i 0 = lens[i] := by simp [List.getD_eq_getElem?_getD, hlt]
  rw [canon_eq lens i hi, e]
  have h1 := count_take_lt lens i hlt
  have h2 := start_le lens lens[i] (hl _ (List.getElem_mem hlt)) hl hkr
  have h3 : cnt lens lens[i] = lens.count lens[i] := by unfold cnt; rw [if_neg (by rw [← e]; exact hi)]
  omega

end Verif.Inflate
