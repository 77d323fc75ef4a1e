import Verif.Inflate.Codes
/-
The tree of a Huffman code, and decoding a symbol with it.
-/
namespace Verif.Inflate
open Verif

/-- the leaves of a tree: symbol, length, code -/
def HT.leavesOf : HT → List (Nat × Nat × Nat)
  | .nil => []
  | .node n0 n1 s l c => if n0.isNil ∧ n1.isNil then [(s, l, c)] else n0.leavesOf ++ n1.leavesOf

/-- a tree at depth `l` below the path `c` -/
def HT.WF : HT → Nat → Nat → Prop
  | .nil, _, _ => True
  | .node n0 n1 _ l c, l', c' => l = l' ∧ c = c' ∧ n0.WF (l + 1) (2 * c) ∧ n1.WF (l + 1) (2 * c + 1)

theorem isNil_eq {t : HT} (h : t.isNil) : t = .nil := by cases t with | nil => rfl | node _ _ _ _ _ => simp [HT.isNil] at h

theorem shr_succ_half (v n : Nat) : v >>> (n + 1) = (v >>> n) / 2 := by
  rw [Nat.shiftRight_eq_div_pow, Nat.shiftRight_eq_div_pow, Nat.pow_succ, Nat.div_div_eq_div_mul]

theorem mem_leaves {t : HT} {l c : Nat} (hw : t.WF l c) {s b v : Nat} (hm : (s, b, v) ∈ t.leavesOf) : l ≤ b ∧ v >>> (b - l) = c := by
  induction t generalizing l c with
  | nil => simp [HT.leavesOf] at hm
  | node n0 n1 s' l' c' ih0 ih1 =>
    obtain ⟨rfl, rfl, h0, h1⟩ := hw
    unfold HT.leavesOf at hm
    split at hm
    · simp only [List.mem_singleton, Prod.mk.injEq] at hm
      obtain ⟨_, rfl, rfl⟩ := hm
      simp
    · rcases List.mem_append.1 hm with h | h
      · obtain ⟨a1, a2⟩ := ih0 h0 h
        refine ⟨by omega, ?_⟩
        rw [show b - l' = b - (l' + 1) + 1 by omega, shr_succ_half, a2]; omega
      · obtain ⟨a1, a2⟩ := ih1 h1 h
        refine ⟨by omega, ?_⟩
        rw [show b - l' = b - (l' + 1) + 1 by omega, shr_succ_half, a2]; omega

/-- which child the code takes -/
theorem child_bit (v n : Nat) (hn : n < 16) : (u16 (1 <<< n) &&& v = 0) ↔ (v >>> n) % 2 = 0 := by
  have h1 : u16 (1 <<< n) = 1 <<< n := u16_small (by rw [Nat.one_shiftLeft]; exact Nat.pow_lt_pow_right (by decide) hn)
  rw [h1]
  have h2 := mask_bit v n
  have h3 : (v >>> n) % 2 = (v.testBit n).toNat := by
    rw [Nat.testBit_eq_decide_div_mod_eq, Nat.shiftRight_eq_div_pow]
    have := Nat.mod_two_eq_zero_or_one (v / 2 ^ n)
    rcases this with h | h <;> simp [h]
  rw [h3]
  constructor
  · intro h
    rw [h] at h2
    rw [← h2]; simp
  · intro h
    have ht : v.testBit n = false := by cases hh : v.testBit n with | true => simp [hh] at h | false => rfl
    apply Nat.eq_of_testBit_eq
    intro j
    rw [Nat.testBit_and, Nat.one_shiftLeft, Nat.testBit_two_pow, Nat.zero_testBit]
    by_cases hj : n = j
    · subst hj; simp [ht]
    · simp [hj]

theorem find_mem {t : HT} {l c : Nat} (hw : t.WF l c) {s b v : Nat} (hb : b ≤ 16) (hm : (s, b, v) ∈ t.leavesOf) : t.find v b = some s := by
  induction t generalizing l c with
  | nil => simp [HT.leavesOf] at hm
  | node n0 n1 s' l' c' ih0 ih1 =>
    obtain ⟨rfl, rfl, h0, h1⟩ := hw
    unfold HT.leavesOf at hm
    unfold HT.find
    split at hm
    · rename_i hn
      simp only [List.mem_singleton, Prod.mk.injEq] at hm
      obtain ⟨rfl, rfl, rfl⟩ := hm
      rw [if_pos ⟨rfl, rfl, hn⟩]
    · rename_i hn
      rw [if_neg (fun h => hn h.2.2)]
      rcases List.mem_append.1 hm with h | h
      · obtain ⟨a1, a2⟩ := mem_leaves h0 h
        rw [if_pos (by omega), if_pos, ih0 h0 h]
        rw [child_bit _ _ (by omega), show b - l' - 1 = b - (l' + 1) by omega, a2]; omega
      · obtain ⟨a1, a2⟩ := mem_leaves h1 h
        rw [if_pos (by omega), if_neg, ih1 h1 h]
        rw [child_bit _ _ (by omega), show b - l' - 1 = b - (l' + 1) by omega, a2]; omega

/-- no proper prefix of a code word is found -/
theorem find_prefix {t : HT} {l c : Nat} (hw : t.WF l c) {s b v b' : Nat} (hb : b ≤ 16) (hm : (s, b, v) ∈ t.leavesOf) (hlt : b' < b) :
    t.find (v >>> (b - b')) b' = none := by
  induction t generalizing l c with
  | nil => rfl
  | node n0 n1 s' l' c' ih0 ih1 =>
    obtain ⟨rfl, rfl, h0, h1⟩ := hw
    unfold HT.leavesOf at hm
    unfold HT.find
    split at hm
    · simp only [List.mem_singleton, Prod.mk.injEq] at hm
      obtain ⟨_, rfl, _⟩ := hm
      rw [if_neg (by omega), if_neg (by omega)]
    · rename_i hn
      rw [if_neg (fun h => hn h.2.2)]
      by_cases hbl : b' > l'
      · rw [if_pos hbl]
        have e : v >>> (b - b') >>> (b' - l' - 1) = v >>> (b - (l' + 1)) := by
          rw [← Nat.shiftRight_add]; congr 1; omega
        rcases List.mem_append.1 hm with h | h
        · obtain ⟨a1, a2⟩ := mem_leaves h0 h
          rw [if_pos, ih0 h0 h]
          rw [child_bit _ _ (by omega), e, a2]; omega
        · obtain ⟨a1, a2⟩ := mem_leaves h1 h
          rw [if_neg, ih1 h1 h]
          rw [child_bit _ _ (by omega), e, a2]; omega
      · rw [if_neg hbl]

theorem valM_shift (w : List Bool) (n c j : Nat) (hw : w = codeBits n c) (hc : c < 2 ^ n) (hj : j ≤ n) : valM 0 (w.take j) = c >>> (n - j) := by
  subst hw
  induction n generalizing c with
  | zero =>
    have : j = 0 := by omega
    subst this
    have : c = 0 := by simpa using hc
    subst this; rfl
  | succ n ih =>
    by_cases hjn : j = n + 1
    · subst hjn
      rw [List.take_of_length_le (by rw [codeBits_length]; omega), valM_codeBits _ _ hc]; simp
    · rw [codeBits_snoc, List.take_append_of_le_length (by rw [codeBits_length]; omega), ih (c / 2) (by rw [Nat.pow_succ] at hc; omega) (by omega)]
      rw [show n + 1 - j = 1 + (n - j) by omega, Nat.shiftRight_add]; simp only [Nat.shiftRight_eq_div_pow, Nat.pow_one]

theorem decodeLoop_ok (t : HT) (hw : t.WF 0 0) {sym b v : Nat} (hb : b ≤ 15) (hb0 : 1 ≤ b) (hv : v < 2 ^ b) (hm : (sym, b, v) ∈ t.leavesOf)
    (s : St) (r : List Bool) (hbit : s.bit < 8) (n j : Nat) (hj : j < b) (hn : b ≤ j + n)
    (h : s.bits = (codeBits b v).drop j ++ r) :
    decodeLoop t n j (v >>> (b - j)) s = .ok (sym, s.adv (b - j)) := by
  induction n generalizing j s with
  | zero => omega
  | succ n ih =>
    have hlt : j < (codeBits b v).length := by rw [codeBits_length]; exact hj
    rw [List.drop_eq_getElem_cons hlt, List.cons_append] at h
    unfold decodeLoop
    rw [nextBit_ok s hbit h]
    simp only [bind, Except.bind, pure, Except.pure]
    have e1 : v >>> (b - j) = valM 0 ((codeBits b v).take j) := (valM_shift _ b v j rfl hv (by omega)).symm
    have e2 : valM 0 ((codeBits b v).take (j + 1)) = v >>> (b - (j + 1)) := valM_shift _ b v (j + 1) rfl hv (by omega)
    rw [List.take_succ_eq_append_getElem hlt, valM_append, ← e1] at e2
    have hsmall : v >>> (b - j) < 2 ^ 14 := by
      rw [e1]
      have := valM_bound 0 ((codeBits b v).take j) 0 (by decide)
      rw [List.length_take, codeBits_length, Nat.zero_add] at this
      exact Nat.lt_of_lt_of_le this (Nat.pow_le_pow_right (by decide) (by omega))
    have e3 : u16 ((v >>> (b - j)) <<< 1) ||| (codeBits b v)[j].toNat = v >>> (b - (j + 1)) := by
      rw [u16_small (by rw [Nat.shiftLeft_eq]; omega), shl_or]; exact e2
    rw [e3]
    by_cases hend : j + 1 = b
    · subst hend
      have := find_mem hw (by omega) hm
      simp only [Nat.sub_self, Nat.shiftRight_zero]
      rw [this]
      simp only []
      congr 3; omega
    · rw [find_prefix hw (by omega) hm (by omega : j + 1 < b)]
      simp only []
      rw [ih (s.adv 1) (adv_bit _ _) (j + 1) (by omega) (by omega) (by rw [bits_adv, h]; rfl), adv_adv]
      congr 3; omega

/-! ### building the tree -/

theorem takeLength_eq (k : Nat) (l : List HT) :
    takeLength k l = (l.filter (fun t => t.length == k), l.filter (fun t => t.length != k)) := by
  induction l with
  | nil => rfl
  | cons t ts ih =>
    simp only [takeLength, ih]
    by_cases h : t.length = k
    · have : (t.length : Int) = k := by omega
      rw [if_pos this]; simp [h]
    · have : ¬ (t.length : Int) = k := by omega
      rw [if_neg this]; simp [h]

/-- codes in strictly ascending order -/
def Asc (l : List HT) : Prop := (l.map HT.code).Pairwise (· < ·)

theorem bubblePass_asc (n : Nat) (l : List HT) (h : Asc l) : bubblePass n l = l := by
  fun_induction bubblePass n l with
  | case1 n a b l hgt ih =>
    simp only [Asc, List.map_cons, List.pairwise_cons, List.mem_cons] at h
    have := h.1 b.code (Or.inl rfl)
    omega
  | case2 n a b l hgt ih =>
    rw [ih]
    unfold Asc at h ⊢
    rw [List.map_cons, List.pairwise_cons] at h
    exact h.2
  | case3 n l => rfl

theorem bubble_asc (n : Nat) (l : List HT) (h : Asc l) : bubble n l = l := by
  fun_induction bubble n l with
  | case1 l n ih => rw [bubblePass_asc _ _ h] at ih; rw [bubblePass_asc _ _ h]; exact ih h
  | case2 => rfl

theorem hasDup_asc (l : List HT) (h : Asc l) : hasDup l = false := by
  fun_induction hasDup l with
  | case1 a b l ih =>
    unfold Asc at h
    simp only [List.map_cons, List.pairwise_cons, List.mem_cons] at h
    have h1 := h.1 b.code (Or.inl rfl)
    rw [ih (by unfold Asc; simp only [List.map_cons, List.pairwise_cons]; exact h.2)]
    simp; omega
  | case2 => rfl

theorem range'_asc (l : List HT) (a n : Nat) (h : l.map HT.code = List.range' a n) : Asc l := by
  unfold Asc; rw [h]; exact List.pairwise_lt_range' ..

/-- the nodes of one level: trees below the paths given by their codes -/
def Level (k : Nat) (l : List HT) : Prop := ∀ t ∈ l, t.isNil = false ∧ t.length = k ∧ t.WF k t.code

theorem parents_ok (k : Nat) (hk : k < 65535) (m a : Nat) (l : List HT) (hl : Level (k + 1) l) (hc : l.map HT.code = List.range' (2 * a) (2 * m)) :
    Level k (parents l) ∧ (parents l).map HT.code = List.range' a m ∧ (parents l).flatMap HT.leavesOf = l.flatMap HT.leavesOf := by
  induction m generalizing a l with
  | zero =>
    have : l = [] := by cases l with | nil => rfl | cons _ _ => simp at hc
    subst this
    refine ⟨?_, rfl, rfl⟩
    intro t ht; simp [parents] at ht
  | succ m ih =>
    cases l with
    | nil => simp [Nat.mul_add, List.range'_succ] at hc
    | cons n1 l =>
      cases l with
      | nil => rw [show 2 * (m + 1) = 2 * m + 1 + 1 by omega] at hc; simp [List.range'_succ] at hc
      | cons n2 l =>
        rw [show 2 * (m + 1) = 2 * m + 1 + 1 by omega, List.range'_succ, List.range'_succ] at hc
        simp only [List.map_cons, List.cons.injEq] at hc
        obtain ⟨c1, c2, c3⟩ := hc
        obtain ⟨g1, g2, g3⟩ := hl n1 (by simp)
        obtain ⟨g4, g5, g6⟩ := hl n2 (by simp)
        have e1 : n1.code >>> 1 = a := by rw [c1, Nat.shiftRight_eq_div_pow]; omega
        have e2 : n2.code >>> 1 = a := by rw [c2, Nat.shiftRight_eq_div_pow]; omega
        have ihh := ih (a + 1) l (fun t ht => hl t (by simp [ht])) (by rw [c3]; congr 1)
        have hp : parents (n1 :: n2 :: l) = .node n1 n2 0 k a :: parents l := by
          have hu : u16 (k + 1 + 65535) = k := by unfold u16; omega
          rw [parents, if_pos (by rw [e1, e2]), e1, g2, hu]
        rw [hp]
        refine ⟨?_, ?_, ?_⟩
        · intro t ht
          rcases List.mem_cons.1 ht with h | h
          · subst h
            refine ⟨rfl, rfl, rfl, rfl, ?_, ?_⟩
            · rw [show 2 * a = n1.code by omega]; exact g3
            · show HT.WF n2 (k + 1) (2 * a + 1)
              rw [show 2 * a + 1 = n2.code by omega]; exact g6
          · exact ihh.1 t h
        · rw [List.map_cons, ihh.2.1, List.range'_succ]; rfl
        · have hn : HT.leavesOf (.node n1 n2 0 k a) = n1.leavesOf ++ n2.leavesOf := by
            rw [HT.leavesOf, if_neg]; rw [g1]; simp
          rw [List.flatMap_cons, List.flatMap_cons, List.flatMap_cons, ihh.2.2, hn, List.append_assoc]

/-- the leaves as the code builds them -/
def leafList : Nat → List Nat → (Nat → Nat) → List HT
  | _, [], _ => []
  | a, l :: ls, g =>
    if l ≠ 0 then .node .nil .nil a l (g l) :: leafList (a + 1) ls (fun j => if j = l then g l + 1 else g j) else leafList (a + 1) ls g

theorem leaves_ok (a : Nat) (ls : List Nat) (g : Nat → Nat) (ha : a + ls.length ≤ 65536) : leaves a ls (codesFrom ls g) = .ok (leafList a ls g) := by
  induction ls generalizing a g with
  | nil => rfl
  | cons l ls ih =>
    simp only [List.length_cons] at ha
    unfold codesFrom leafList
    by_cases hl : l = 0
    · subst hl
      rw [if_neg (by simp), if_neg (by simp)]
      simp only [leaves]
      rw [if_neg (by simp), List.tail_cons, ih (a + 1) g (by omega)]
    · rw [if_pos hl, if_pos hl]
      simp only [leaves]
      rw [if_pos hl, ih (a + 1) _ (by omega)]
      simp only [bind, Except.bind, pure, Except.pure]
      rw [u16_small (by omega)]

theorem leafList_shape (a : Nat) (ls : List Nat) (g : Nat → Nat) : ∀ t ∈ leafList a ls g, ∃ s l c, t = .node .nil .nil s l c ∧ 1 ≤ l ∧ l ∈ ls := by
  induction ls generalizing a g with
  | nil => intro t ht; simp [leafList] at ht
  | cons l ls ih =>
    intro t ht
    unfold leafList at ht
    split at ht
    · rename_i hl
      rcases List.mem_cons.1 ht with h | h
      · exact ⟨_, _, _, h, by omega, by simp⟩
      · obtain ⟨s, l', c, h1, h2, h3⟩ := ih _ _ t h
        exact ⟨s, l', c, h1, h2, List.mem_cons_of_mem _ h3⟩
    · obtain ⟨s, l', c, h1, h2, h3⟩ := ih _ _ t ht
      exact ⟨s, l', c, h1, h2, List.mem_cons_of_mem _ h3⟩

theorem node_length (a b : HT) (s l c : Nat) : (HT.node a b s l c).length = l := rfl
theorem node_code (a b : HT) (s l c : Nat) : (HT.node a b s l c).code = c := rfl

theorem leafList_codes (a : Nat) (ls : List Nat) (g : Nat → Nat) (k : Nat) (hk : k ≠ 0) :
    ((leafList a ls g).filter (fun t => t.length == k)).map HT.code = List.range' (g k) (ls.count k) := by
  induction ls generalizing a g with
  | nil => rfl
  | cons l ls ih =>
    unfold leafList
    split
    · rw [List.filter_cons, List.count_cons]
      by_cases h : l = k
      · subst h
        simp only [node_length, beq_self_eq_true, if_true, List.map_cons, node_code]
        rw [ih, if_pos rfl, List.range'_succ]
      · have hb : (l == k) = false := by simp [h]
        simp only [node_length, hb]
        rw [if_neg (by simp), ih, if_neg (fun e => h e.symm)]
        simp
    · rename_i hl
      have hl0 : l = 0 := by omega
      subst hl0
      rw [ih, List.count_cons_of_ne (by omega)]

theorem leafList_get (a : Nat) (ls : List Nat) (g : Nat → Nat) (i : Nat) (hi : i < ls.length) (h0 : ls[i] ≠ 0) :
    HT.node .nil .nil (a + i) ls[i] (g ls[i] + (ls.take i).count ls[i]) ∈ leafList a ls g := by
  induction ls generalizing a g i with
  | nil => simp at hi
  | cons l ls ih =>
    unfold leafList
    cases i with
    | zero =>
      simp only [List.getElem_cons_zero] at h0 ⊢
      rw [if_pos h0]; simp
    | succ i =>
      simp only [List.length_cons] at hi
      simp only [List.getElem_cons_succ] at h0 ⊢
      rw [List.take_succ_cons, List.count_cons]
      split
      · have := ih (a + 1) (fun j => if j = l then g l + 1 else g j) i (by omega) h0
        refine List.mem_cons_of_mem _ ?_
        rw [show a + (i + 1) = a + 1 + i by omega]
        by_cases hl : ls[i] = l
        · rw [hl] at this ⊢
          simp only [if_true, beq_self_eq_true] at this ⊢
          rw [show g l + ((ls.take i).count l + 1) = g l + 1 + (ls.take i).count l by omega]
          exact this
        · have hb : (l == ls[i]) = false := by simp; exact fun e => hl e.symm
          rw [hb]
          simp only [if_neg hl] at this
          simpa using this
      · rename_i hl
        have hl0 : l = 0 := by omega
        subst hl0
        have hb : (0 == ls[i]) = false := by simp; exact fun e => h0 e.symm
        rw [hb, show a + (i + 1) = a + 1 + i by omega]
        simpa using ih (a + 1) g i (by omega) h0

theorem leafList_many (a : Nat) (ls : List Nat) (g : Nat → Nat) (k : Nat) (hk : k ≠ 0) :
    start ls k + cnt ls k ≤ ((leafList a ls g).filter (fun t => t.length ≤ k)).length * 2 ^ (k - 1) := by
  induction ls generalizing a g with
  | nil => simp [start, cnt]
  | cons l ls ih =>
    have hs : start (l :: ls) k = (if l ≠ 0 ∧ l < k then 2 ^ (k - l) else 0) + start ls k := rfl
    rw [hs, cnt_cons]
    unfold leafList
    by_cases hl : l = 0
    · rw [if_neg (by omega), if_neg (by omega), if_neg (by omega)]
      have := ih (a + 1) g
      omega
    · rw [if_pos hl, List.filter_cons]
      have := ih (a + 1) (fun j => if j = l then g l + 1 else g j)
      have h1 : 1 ≤ 2 ^ (k - 1) := Nat.one_le_two_pow
      by_cases hlk : l ≤ k
      · have hd : decide (l ≤ k) = true := by simp [hlk]
        rw [if_pos (show decide ((HT.node .nil .nil a l (g l)).length ≤ k) = true from hd), List.length_cons, Nat.add_mul, Nat.one_mul]
        by_cases he : l = k
        · rw [if_neg (by omega), if_pos ⟨he, hk⟩]; omega
        · rw [if_pos (by omega), if_neg (by omega)]
          have : 2 ^ (k - l) ≤ 2 ^ (k - 1) := Nat.pow_le_pow_right (by decide) (by omega)
          omega
      · have hd : decide (l ≤ k) = false := by simp; omega
        rw [if_neg (show ¬ decide ((HT.node .nil .nil a l (g l)).length ≤ k) = true by rw [node_length, hd]; simp)]
        rw [if_neg (by omega), if_neg (by omega)]
        omega

theorem start_one (ls : List Nat) : start ls 1 = 0 := by
  rw [start_succ, start_zero]; simp [cnt]

theorem start_eq (ls : List Nat) (k : Nat) (hk : k ≤ 15) (hl : ∀ l ∈ ls, l ≤ k) (hk0 : k ≠ 0) : (start ls k + cnt ls k) * 2 ^ (15 - k) = kraft ls := by
  induction ls with
  | nil => simp [start, cnt, kraft]
  | cons l ls ih =>
    have ih := ih (fun l' h => hl l' (List.mem_cons_of_mem _ h))
    have hlk := hl l (by simp)
    have hs : start (l :: ls) k = (if l ≠ 0 ∧ l < k then 2 ^ (k - l) else 0) + start ls k := rfl
    have hkr : kraft (l :: ls) = (if l = 0 then 0 else 2 ^ (15 - l)) + kraft ls := rfl
    rw [hs, cnt_cons, hkr, ← ih]
    by_cases h0 : l = 0
    · rw [if_neg (by omega), if_neg (by omega), if_pos h0]; simp
    · rw [if_neg h0]
      by_cases he : l = k
      · rw [if_neg (by omega), if_pos ⟨he, hk0⟩, he]
        simp only [Nat.add_mul]; omega
      · rw [if_pos (by omega), if_neg (by omega)]
        simp only [Nat.add_mul]
        rw [← Nat.pow_add, show k - l + (15 - k) = 15 - l by omega]; omega

/-- the loop over the levels -/
theorem treeLoop_ok (ls : List Nat) (hl : ∀ l ∈ ls, l ≤ 15) (hkr : kraft ls = 2 ^ 15) (lv : List HT)
    (hlv : lv = leafList 0 ls (start ls)) (fuel k : Nat) (hk : 1 ≤ k) (hk15 : k ≤ 15) (hf : k < fuel) (inn : List HT)
    (hi : Level k inn) (hc : inn.map HT.code = List.range' (start ls k + cnt ls k) (2 ^ k - (start ls k + cnt ls k))) :
    ∃ t, treeLoop fuel k (lv.filter (fun t => t.length ≤ k) ++ inn) = .ok t ∧ t.WF 0 0 ∧
      ∀ x, x ∈ lv.filter (fun t => t.length ≤ k) ++ inn → ∀ y ∈ x.leavesOf, y ∈ t.leavesOf := by
  induction fuel generalizing k inn with
  | zero => omega
  | succ fuel ih =>
    have hle := start_le ls k hk15 hl (by omega)
    have hcnt : cnt ls k = ls.count k := by unfold cnt; rw [if_neg (by omega)]
    have hshape := leafList_shape 0 ls (start ls)
    rw [← hlv] at hshape
    -- the split
    have hinl : ∀ t ∈ inn, t.length = k := fun t ht => (hi t ht).2.1
    have f1 : (lv.filter (fun t => t.length ≤ k) ++ inn).filter (fun t => t.length == k) = lv.filter (fun t => t.length == k) ++ inn := by
      rw [List.filter_append, List.filter_filter]
      congr 1
      · apply List.filter_congr; intro t _; simp; omega
      · rw [List.filter_eq_self]; intro t ht; simp [hinl t ht]
    have f2 : (lv.filter (fun t => t.length ≤ k) ++ inn).filter (fun t => t.length != k) = lv.filter (fun t => t.length ≤ k - 1) := by
      rw [List.filter_append, List.filter_filter]
      have : inn.filter (fun t => t.length != k) = [] := by
        rw [List.filter_eq_nil_iff]; intro t ht; simp [hinl t ht]
      rw [this, List.append_nil]
      apply List.filter_congr; intro t _
      by_cases e1 : t.length = k
      · rw [e1]; simp; omega
      · rw [Bool.eq_iff_iff, Bool.and_eq_true, decide_eq_true_iff, decide_eq_true_iff, bne_iff_ne]; omega
    obtain ⟨lev, hlev⟩ : ∃ lev, lev = lv.filter (fun t => t.length == k) ++ inn := ⟨_, rfl⟩
    have hcodes : lev.map HT.code = List.range' (start ls k) (2 ^ k - start ls k) := by
      rw [hlev, List.map_append, hc, hlv, leafList_codes _ _ _ _ (by omega), hcnt, List.range'_append_1]
      congr 1; omega
    have hasc := range'_asc _ _ _ hcodes
    have hL : Level k lev := by
      intro t ht
      rw [hlev] at ht
      rcases List.mem_append.1 ht with h | h
      · obtain ⟨h1, h2⟩ := List.mem_filter.1 h
        obtain ⟨s, l, c, rfl, h3, h4⟩ := hshape t h1
        have : l = k := by simpa [HT.length] using h2
        subst this
        exact ⟨rfl, rfl, rfl, rfl, trivial, trivial⟩
      · exact hi t h
    obtain ⟨k', rfl⟩ : ∃ k', k = k' + 1 := ⟨k - 1, by omega⟩
    have hst := start_succ ls k'
    have hle' := start_le ls k' (by omega) hl (by omega)
    have hpar := parents_ok k' (by omega) (2 ^ k' - (start ls k' + cnt ls k')) (start ls k' + cnt ls k') lev hL (by
      rw [hcodes, hst, Nat.pow_succ]; congr 1; omega)
    obtain ⟨p1, p2, p3⟩ := hpar
    have hsub : ∀ x, x ∈ lv.filter (fun t => t.length ≤ k' + 1) ++ inn → ∀ y ∈ x.leavesOf,
        y ∈ (lv.filter (fun t => t.length ≤ k') ++ parents lev).flatMap HT.leavesOf := by
      intro x hx y hy
      rw [List.flatMap_append, p3, List.mem_append, List.mem_flatMap, List.mem_flatMap]
      by_cases hxl : x.length = k' + 1
      · right
        refine ⟨x, ?_, hy⟩
        rw [hlev, ← f1, List.mem_filter]; exact ⟨hx, by simp [hxl]⟩
      · left
        refine ⟨x, ?_, hy⟩
        have := f2
        simp only [Nat.add_sub_cancel] at this
        rw [← this, List.mem_filter]; exact ⟨hx, by simp [hxl]⟩
    have hstep : treeLoop (fuel + 1) ((k' + 1 : Nat) : Int) (lv.filter (fun t => t.length ≤ k' + 1) ++ inn) =
        if (lv.filter (fun t => t.length ≤ k') ++ parents lev).length > 1 then treeLoop fuel (k' : Int) (lv.filter (fun t => t.length ≤ k') ++ parents lev)
        else rd (lv.filter (fun t => t.length ≤ k') ++ parents lev) 0 := by
      rw [treeLoop, if_neg (by omega), takeLength_eq]
      simp only
      rw [f1, f2, ← hlev, bubble_asc _ _ hasc, hasDup_asc _ hasc]
      simp only [Nat.add_sub_cancel]
      rw [show ((k' + 1 : Nat) : Int) - 1 = (k' : Int) by omega]
      rfl
    rw [hstep]
    have hplen : (parents lev).length = 2 ^ k' - (start ls k' + cnt ls k') := by
      rw [← List.length_map (f := HT.code), p2, List.length_range']
    by_cases hk0 : k' = 0
    · subst hk0
      have hs0 : start ls 0 + cnt ls 0 = 0 := by rw [start_zero]; rfl
      have hnil : lv.filter (fun t => t.length ≤ 0) = [] := by
        rw [List.filter_eq_nil_iff]
        intro t ht
        obtain ⟨s, l, c, rfl, h3, _⟩ := hshape t ht
        simp [HT.length]; omega
      rw [hs0] at hplen p2
      rw [hnil] at hsub ⊢
      rw [List.nil_append] at hsub ⊢
      obtain ⟨t, ht⟩ : ∃ t, parents lev = [t] := by
        cases hp : parents lev with
        | nil => rw [hp] at hplen; simp at hplen
        | cons t r => cases r with
          | nil => exact ⟨t, rfl⟩
          | cons _ _ => rw [hp] at hplen; simp at hplen
      rw [ht] at p1 p2 hsub ⊢
      obtain ⟨q1, q2, q3⟩ := p1 t (by simp)
      have hcode : t.code = 0 := by simpa using p2
      rw [hcode] at q3
      refine ⟨t, rfl, q3, ?_⟩
      intro x hx y hy
      have := hsub x hx y hy
      simpa using this
    · have hmany := leafList_many 0 ls (start ls) k' hk0
      rw [← hlv] at hmany
      have hlen : (lv.filter (fun t => t.length ≤ k') ++ parents lev).length > 1 := by
        rw [List.length_append, hplen]
        obtain ⟨A, hA⟩ : ∃ A, A = (lv.filter (fun t => t.length ≤ k')).length := ⟨_, rfl⟩
        rw [← hA] at hmany ⊢
        obtain ⟨j, rfl⟩ : ∃ j, k' = j + 1 := ⟨k' - 1, by omega⟩
        have h1 : 1 ≤ 2 ^ j := Nat.one_le_two_pow
        rw [Nat.pow_succ] at hle' ⊢
        simp only [Nat.add_sub_cancel] at hmany
        rcases A with _ | _ | A
        · omega
        · omega
        · omega
      rw [if_pos hlen]
      obtain ⟨t, h1, h2, h3⟩ := ih k' (by omega) (by omega) (by omega) (parents lev) p1 p2
      refine ⟨t, h1, h2, ?_⟩
      intro x hx y hy
      obtain ⟨z, hz, hyz⟩ := List.mem_flatMap.1 (hsub x hx y hy)
      exact h3 z hz y hyz

/-- the tree of a complete code contains every code word -/
theorem createTree_ok (ls : List Nat) (hcp : Complete ls) (hlen : ls.length ≤ 32767) :
    ∃ t, createTree ls (codesFrom ls (start ls)) = .ok t ∧ t.WF 0 0 ∧
      ∀ i, ls.getD i 0 ≠ 0 → (i, ls.getD i 0, canon ls i) ∈ t.leavesOf := by
  obtain ⟨hkr, hl⟩ := hcp
  have hm15 := maxLength_le ls 15 hl
  have hmge := maxLength_ge ls
  have hm1 : 1 ≤ maxLength ls := by
    rcases Nat.eq_zero_or_pos (maxLength ls) with h | h
    · exfalso
      have : kraft ls = 0 := by
        clear hkr hm15
        induction ls with
        | nil => rfl
        | cons l ls ih =>
          have h0 : l = 0 := by have := hmge l (by simp); omega
          have h1 : maxLength ls = 0 := by simp only [maxLength] at h; omega
          have hkr : kraft (l :: ls) = (if l = 0 then 0 else 2 ^ (15 - l)) + kraft ls := rfl
          rw [hkr, if_pos h0, ih (by simp only [List.length_cons] at hlen; omega) (fun l' hl' => hl l' (List.mem_cons_of_mem _ hl'))
            (maxLength_ge ls) h1]
      omega
    · exact h
  have he := start_eq ls (maxLength ls) hm15 hmge (by omega)
  have hfull : start ls (maxLength ls) + cnt ls (maxLength ls) = 2 ^ maxLength ls := by
    have h2 : (2 : Nat) ^ 15 = 2 ^ maxLength ls * 2 ^ (15 - maxLength ls) := by rw [← Nat.pow_add]; congr 1; omega
    rw [hkr, h2] at he
    exact Nat.eq_of_mul_eq_mul_right (Nat.two_pow_pos _) he
  have hloop := treeLoop_ok ls hl hkr _ rfl (maxLength ls + 2) (maxLength ls) hm1 hm15 (by omega) [] (by intro t ht; simp at ht)
    (by rw [hfull]; simp)
  obtain ⟨t, h1, h2, h3⟩ := hloop
  have hfil : (leafList 0 ls (start ls)).filter (fun t => t.length ≤ maxLength ls) = leafList 0 ls (start ls) := by
    rw [List.filter_eq_self]
    intro t ht
    obtain ⟨s, l, c, rfl, _, h5⟩ := leafList_shape 0 ls (start ls) t ht
    exact decide_eq_true (hmge l h5)
  rw [hfil, List.append_nil] at h1 h3
  refine ⟨t, ?_, h2, ?_⟩
  · unfold createTree
    rw [leaves_ok 0 ls _ (by omega)]
    exact h1
  · intro i hi
    have hlt : i < ls.length := by
      refine Nat.lt_of_not_le fun h => hi ?_
      rw [List.getD_eq_getElem?_getD, List.getElem?_eq_none h]; rfl
    have e : ls.getD i 0 = ls[i] := by simp [List.getD_eq_getElem?_getD, hlt]
    rw [canon_eq ls i hi, e]
    have := leafList_get 0 ls (start ls) i hlt (by rw [← e]; exact hi)
    rw [Nat.zero_add] at this
    exact h3 _ this _ (by simp [HT.leavesOf, HT.isNil])

end Verif.Inflate
