import Verif.Inflate.Decode
/-
The three kinds of blocks.
-/
namespace Verif.Inflate
open Verif

theorem drop_left {α : Type} (a b : List α) (n : Nat) (h : a.length = n) : (a ++ b).drop n = b := by
  subst h; simp

/-! ### a block with fixed codes -/

theorem row_len_sym (n : Nat) (h3 : 3 ≤ n) (h258 : n ≤ 258) : 257 ≤ (row lengthTable n).1 ∧ (row lengthTable n).1 ≤ 285 := by
  obtain ⟨hm, _, _⟩ := row_mem lengthTable n (length_covers n h3 h258)
  exact ⟨(length_rows _ hm).1, (length_rows _ hm).2.1⟩

theorem row_dist_sym (n : Nat) (h3 : 1 ≤ n) (h : n ≤ 32768) : (row distTable n).1 < 30 := by
  obtain ⟨hm, _, _⟩ := row_mem distTable n (dist_covers n h3 h)
  exact (dist_rows _ hm).1

/-- the distance that the code for fixed blocks really goes back: the position is reduced modulo 32 KiB (Inflater.cpp:310) -/
def wrapped (o d : Nat) : Nat := o - (o - d) % 32768

theorem wrapped_near (o d : Nat) (h : d ≤ o) (h2 : o - d < 32768) : wrapped o d = d := by unfold wrapped; omega

theorem fixed_src (o d : Nat) (h : d ≤ o) : ((o : Int) - d) % 32768 = ((o - wrapped o d : Nat) : Int) := by unfold wrapped; omega

theorem wrapped_ok (o d : Nat) (h1 : 1 ≤ d) (h : d ≤ o) : 1 ≤ wrapped o d ∧ wrapped o d ≤ o := by unfold wrapped; omega

/-- what a token of a fixed block adds to the output in this implementation -/
def wrapExpand1 (out : List Byte) : Tok → List Byte
  | .lit b => out ++ [b]
  | .copy n d => copyFrom n (wrapped out.length d) out

def wrapExpand (out : List Byte) (ts : List Tok) : List Byte := ts.foldl wrapExpand1 out

theorem toksOk_congr (a b : List Byte) (h : a.length = b.length) (ts : List Tok) (ht : toksOk a ts) : toksOk b ts := by
  induction ts generalizing a b with
  | nil => trivial
  | cons t ts ih =>
    obtain ⟨h1, h2⟩ := ht
    cases t with
    | lit x => exact ⟨trivial, ih _ _ (by simp [expand1, h]) h2⟩
    | copy n d =>
      refine ⟨?_, ih _ _ (by simp [expand1, copyFrom_length, h]) h2⟩
      simp only [tokOk] at h1 ⊢; omega

theorem fixedMatch_ok (n d : Nat) (s : St) (hf : Fit s) (hp : 8 ≤ s.pos) (ht : tokOk s.out (.copy n d)) (r : List Bool)
    (h : s.bits = numBits (row lengthTable n).2.1 (n - (row lengthTable n).2.2.1) ++
      (codeWord fixedDist (row distTable d).1 ++ numBits (row distTable d).2.1 (d - (row distTable d).2.2.1)) ++ r) :
    ∃ s', fixedMatch (row lengthTable n).1 s = .ok s' ∧ Step s ((row lengthTable n).2.1 + (5 + (row distTable d).2.1)) (copyFrom n (wrapped s.out.length d) s.out) s' := by
  obtain ⟨h3, h258, h1, h32, ho⟩ := ht
  have hsym := row_dist_sym d h1 h32
  rw [fixedDist_word _ hsym, List.append_assoc, List.append_assoc] at h
  unfold fixedMatch
  rw [readLength_ok n h3 h258 s hf.bit _ h]
  simp only [bind, Except.bind]
  have b1 : (s.adv (row lengthTable n).2.1).bits = codeBits 5 (row distTable d).1 ++ (numBits (row distTable d).2.1 (d - (row distTable d).2.2.1) ++ r) := by
    rw [bits_adv, h, drop_left _ _ _ (numBits_length _ _)]
  rw [nextUIntX_ok 5 _ _ _ (adv_bit _ _) b1 (by omega) (by omega)]
  simp only
  have b2 : ((s.adv (row lengthTable n).2.1).adv 5).bits = numBits (row distTable d).2.1 (d - (row distTable d).2.2.1) ++ r := by
    rw [bits_adv, b1, drop_left _ _ _ (codeBits_length _ _)]
  rw [readDistance_ok d h1 h32 _ (adv_bit _ _) _ b2]
  simp only [adv_adv]
  obtain ⟨m, hm⟩ : ∃ m, m = (row lengthTable n).2.1 + 5 + (row distTable d).2.1 := ⟨_, rfl⟩
  rw [← hm, show (row lengthTable n).2.1 + (5 + (row distTable d).2.1) = m by omega]
  have eo : (s.adv m).out = s.out := (adv_fields s m).2.1
  have hw := wrapped_ok s.out.length d h1 ho
  rw [eo, fixed_src _ _ ho, if_neg (by omega), Int.toNat_natCast]
  obtain ⟨s', e1, e2⟩ := copyBack_ok n (wrapped s.out.length d) (s.adv m) (hf.adv m) (by rw [pos_adv]; omega) hw.1 (by rw [eo]; exact hw.2)
  rw [eo] at e1 e2
  refine ⟨s', e1, ?_⟩
  have := (Step.adv s hf m).trans e2
  simpa using this

/-- every match of the tokens begins less than 32 KiB after the beginning of the output -/
def toksNear (out : List Byte) : List Tok → Prop
  | [] => True
  | .lit b :: ts => toksNear (expand1 out (.lit b)) ts
  | .copy n d :: ts => out.length - d < 32768 ∧ toksNear (expand1 out (.copy n d)) ts

theorem wrapExpand_near (out : List Byte) (ts : List Tok) (hok : toksOk out ts) (h : toksNear out ts) : wrapExpand out ts = expand out ts := by
  induction ts generalizing out with
  | nil => rfl
  | cons t ts ih =>
    obtain ⟨h1, h2⟩ := hok
    cases t with
    | lit b => exact ih _ h2 h
    | copy n d =>
      have e : wrapExpand1 out (.copy n d) = expand1 out (.copy n d) := by
        simp only [wrapExpand1, expand1]; rw [wrapped_near _ _ h1.2.2.2.2 h.1]
      show wrapExpand (wrapExpand1 out (.copy n d)) ts = expand (expand1 out (.copy n d)) ts
      rw [e, ih _ h2 h.2]

theorem fixedWord_pos (v : Nat) (h : v < 288) : 7 ≤ (codeWord fixedLit v).length := by
  unfold codeWord
  rw [codeBits_length, fixedLit_len v h]
  split
  · omega
  · split
    · omega
    · split <;> omega

theorem fixedBlock_ok (toks : List Tok) (fuel : Nat) (s : St) (hf : Fit s) (hp : 1 ≤ s.pos) (hok : toksOk s.out toks)
    (hfuel : toks.length < fuel) (r : List Bool) (bs : List Bool)
    (hbs : bs = toks.flatMap (tokBits (codeWord fixedLit) (codeWord fixedDist)) ++ codeWord fixedLit 256) (h : s.bits = bs ++ r) :
    ∃ s', fixedBlock fuel s = .ok s' ∧ Step s bs.length (wrapExpand s.out toks) s' := by
  induction toks generalizing s fuel bs with
  | nil =>
    obtain ⟨fuel, rfl⟩ : ∃ f, fuel = f + 1 := ⟨fuel - 1, by omega⟩
    rw [List.flatMap_nil, List.nil_append] at hbs
    subst hbs
    refine ⟨s.adv (codeWord fixedLit 256).length, ?_, Step.adv s hf _⟩
    unfold fixedBlock
    rw [nextFixedCode_ok 256 (by decide) s hf.bit _ h]
    rfl
  | cons t ts ih =>
    obtain ⟨fuel, rfl⟩ : ∃ f, fuel = f + 1 := ⟨fuel - 1, by omega⟩
    simp only [List.length_cons] at hfuel
    obtain ⟨htok, hoks⟩ := hok
    obtain ⟨rest, hrest⟩ : ∃ rest, rest = ts.flatMap (tokBits (codeWord fixedLit) (codeWord fixedDist)) ++ codeWord fixedLit 256 := ⟨_, rfl⟩
    rw [List.flatMap_cons, List.append_assoc, ← hrest] at hbs
    cases t with
    | lit b =>
      have hb : b.toNat < 288 := by have := b.isLt; omega
      have hw7 := fixedWord_pos b.toNat hb
      rw [show tokBits (codeWord fixedLit) (codeWord fixedDist) (.lit b) = codeWord fixedLit b.toNat from rfl] at hbs
      have h' : s.bits = codeWord fixedLit b.toNat ++ (rest ++ r) := by rw [h, hbs, List.append_assoc]
      unfold fixedBlock
      rw [nextFixedCode_ok b.toNat hb s hf.bit _ h']
      simp only [bind, Except.bind]
      rw [if_pos (by have := b.isLt; omega)]
      obtain ⟨s1, e1, e2⟩ := write_ok (s.adv (codeWord fixedLit b.toNat).length) (hf.adv _) (by rw [pos_adv]; omega) (BitVec.ofNat 8 b.toNat)
      rw [e1]
      simp only
      have eo : (s.adv (codeWord fixedLit b.toNat).length).out = s.out := (adv_fields s _).2.1
      rw [eo, BitVec.ofNat_toNat, BitVec.setWidth_eq] at e2
      have st := (Step.adv s hf (codeWord fixedLit b.toNat).length).trans e2
      have ho := st.out
      obtain ⟨s2, f1, f2⟩ := ih fuel s1 (st.fit hf) (by rw [st.pos]; omega) (toksOk_congr _ _ (by rw [ho]; simp [expand1, copyFrom_length]) _ hoks) (by omega) rest hrest
        (by rw [st.bits, h', Nat.add_zero, drop_left _ _ _ rfl])
      refine ⟨s2, f1, ?_⟩
      have := st.trans f2
      rw [ho] at this
      rw [hbs, List.length_append]
      exact this
    | copy n d =>
      have htok' := htok
      obtain ⟨h3, h258, h1, h32, hod⟩ := htok
      have hsym := row_len_sym n h3 h258
      obtain ⟨lw, hlw⟩ : ∃ w, w = codeWord fixedLit (row lengthTable n).1 := ⟨_, rfl⟩
      have hw7 := fixedWord_pos (row lengthTable n).1 (by omega)
      rw [← hlw] at hw7
      obtain ⟨mb, hmb⟩ : ∃ w, w = numBits (row lengthTable n).2.1 (n - (row lengthTable n).2.2.1) ++
          (codeWord fixedDist (row distTable d).1 ++ numBits (row distTable d).2.1 (d - (row distTable d).2.2.1)) := ⟨_, rfl⟩
      have htb : tokBits (codeWord fixedLit) (codeWord fixedDist) (.copy n d) = lw ++ mb := by
        rw [hlw, hmb, ← List.append_assoc]; rfl
      have hml : mb.length = (row lengthTable n).2.1 + (5 + (row distTable d).2.1) := by
        rw [hmb, List.length_append, List.length_append, numBits_length, numBits_length, fixedDist_word _ (row_dist_sym d h1 h32), codeBits_length]
      rw [htb] at hbs
      have h' : s.bits = lw ++ (mb ++ (rest ++ r)) := by rw [h, hbs]; simp only [List.append_assoc]
      unfold fixedBlock
      rw [hlw] at h'
      rw [nextFixedCode_ok _ (by omega) s hf.bit _ h']
      rw [← hlw] at h' ⊢
      simp only [bind, Except.bind]
      rw [if_neg (by omega), if_neg (by omega), if_pos (by omega)]
      have eo : (s.adv lw.length).out = s.out := (adv_fields s _).2.1
      obtain ⟨s1, e1, e2⟩ := fixedMatch_ok n d (s.adv lw.length) (hf.adv _) (by rw [pos_adv]; omega) (by rw [eo]; exact htok') (rest ++ r)
        (by rw [bits_adv, h', drop_left _ _ _ rfl, hmb])
      rw [e1]
      simp only
      rw [← hml, eo] at e2
      have st := (Step.adv s hf lw.length).trans e2
      have ho := st.out
      obtain ⟨s2, f1, f2⟩ := ih fuel s1 (st.fit hf) (by rw [st.pos]; omega) (toksOk_congr _ _ (by rw [ho]; simp [expand1, copyFrom_length]) _ hoks) (by omega) rest hrest
        (by rw [st.bits, h', ← List.append_assoc lw, drop_left _ _ _ (by rw [List.length_append])])
      refine ⟨s2, f1, ?_⟩
      have := st.trans f2
      rw [ho] at this
      rw [hbs, List.length_append, List.length_append]
      exact this

/-! ### decoding with a tree -/

/-- the tree of a code -/
structure TreeFor (lens : List Nat) (t : HT) : Prop where
  wf : t.WF 0 0
  mem : ∀ i, lens.getD i 0 ≠ 0 → (i, lens.getD i 0, canon lens i) ∈ t.leavesOf
  le : ∀ l ∈ lens, l ≤ 15
  kraft : kraft lens ≤ 2 ^ 15

theorem getD_le (lens : List Nat) (m : Nat) (h : ∀ l ∈ lens, l ≤ m) (i : Nat) : lens.getD i 0 ≤ m := by
  by_cases hi : i < lens.length
  · rw [List.getD_eq_getElem?_getD, List.getElem?_eq_getElem hi]; exact h _ (List.getElem_mem hi)
  · rw [List.getD_eq_getElem?_getD, List.getElem?_eq_none (by omega)]; exact Nat.zero_le _

theorem kraft_append (a b : List Nat) : kraft (a ++ b) = kraft a + kraft b := by unfold kraft; simp

theorem kraft_zeros (n : Nat) : kraft (List.replicate n 0) = 0 := by
  induction n with
  | zero => rfl
  | succ n ih => rw [List.replicate_succ]; show (if (0 : Nat) = 0 then 0 else _) + kraft _ = 0; rw [ih]; simp

theorem oneCode_kraft {lens : List Nat} (h : OneCode lens) : kraft lens = 2 ^ 14 := by
  obtain ⟨a, b, rfl⟩ := h
  rw [kraft_append, kraft_zeros]
  show 0 + ((if (1 : Nat) = 0 then 0 else 2 ^ 14) + kraft (List.replicate b 0)) = _
  rw [kraft_zeros]; simp

theorem leafList_zeros (a n : Nat) (g : Nat → Nat) (ls : List Nat) : leafList a (List.replicate n 0 ++ ls) g = leafList (a + n) ls g := by
  induction n generalizing a with
  | zero => rfl
  | succ n ih =>
    rw [List.replicate_succ, List.cons_append, leafList, if_neg (by simp), ih]
    congr 1; omega

theorem maxLength_append (a b : List Nat) : maxLength (a ++ b) = max (maxLength a) (maxLength b) := by
  induction a with
  | nil => simp [maxLength]
  | cons x a ih => simp only [List.cons_append, maxLength, ih]; omega

theorem maxLength_zeros (n : Nat) : maxLength (List.replicate n 0) = 0 := by
  induction n with
  | zero => rfl
  | succ n ih => rw [List.replicate_succ, maxLength, ih]; rfl

theorem treeLoop_one (a : Nat) : treeLoop 3 ((1 : Nat) : Int) [HT.node .nil .nil a 1 0] = .ok (.node (.node .nil .nil a 1 0) .nil 0 0 0) := by
  have hu : u16 (1 + 65535) = 0 := by unfold u16; omega
  have hs : single (HT.node .nil .nil a 1 0) = .node (.node .nil .nil a 1 0) .nil 0 0 0 := by
    unfold single
    rw [node_length, node_code, hu]
    rfl
  rw [treeLoop, if_neg (by omega), takeLength_eq]
  simp only [List.filter_cons, node_length, List.filter_nil, beq_self_eq_true, bne_self_eq_false, if_true]
  simp only [List.length_cons, List.length_nil, bubble, hasDup, parents, hs]
  rfl

theorem tree_one (lens : List Nat) (h : OneCode lens) (hlen : lens.length ≤ 32767) :
    ∃ t, createTree lens (codesFrom lens (start lens)) = .ok t ∧ TreeFor lens t := by
  have hk := oneCode_kraft h
  obtain ⟨a, b, hab⟩ := h
  have hl : ∀ l ∈ lens, l ≤ 1 := by
    intro l hl
    rw [hab] at hl
    rcases List.mem_append.1 hl with h | h
    · rw [List.eq_of_mem_replicate h]; omega
    · rcases List.mem_cons.1 h with h | h
      · omega
      · rw [List.eq_of_mem_replicate h]; omega
  have hmx : maxLength lens = 1 := by
    rw [hab, maxLength_append, maxLength_zeros, maxLength, maxLength_zeros]; rfl
  have hleaf : leafList 0 lens (start lens) = [.node .nil .nil a 1 0] := by
    conv => lhs; rw [hab]
    rw [leafList_zeros, ← hab, leafList, if_pos (by simp)]
    have := leafList_zeros (0 + a + 1) b (fun j => if j = 1 then start lens 1 + 1 else start lens j) []
    rw [List.append_nil] at this
    rw [this, start_one]
    simp [leafList]
  have hget : ∀ i, lens.getD i 0 ≠ 0 → i = a ∧ lens.getD i 0 = 1 := by
    intro i hi
    rw [hab, List.getD_eq_getElem?_getD] at hi ⊢
    rcases Nat.lt_trichotomy i a with hlt | rfl | hgt
    · rw [List.getElem?_append_left (by simpa using hlt), List.getElem?_replicate_of_lt hlt] at hi
      simp at hi
    · rw [List.getElem?_append_right (by simp)]; simp
    · rw [List.getElem?_append_right (by simp; omega), List.length_replicate] at hi
      obtain ⟨j, hj⟩ : ∃ j, i - a = j + 1 := ⟨i - a - 1, by omega⟩
      rw [hj, List.getElem?_cons_succ, List.getElem?_replicate] at hi
      split at hi <;> simp at hi
  refine ⟨.node (.node .nil .nil a 1 0) .nil 0 0 0, ?_, ?_⟩
  · unfold createTree
    rw [leaves_ok 0 lens _ (by omega), hleaf, hmx]
    exact treeLoop_one a
  · refine ⟨⟨rfl, rfl, ⟨rfl, rfl, trivial, trivial⟩, trivial⟩, ?_, fun l h => by have := hl l h; omega, by rw [hk]; decide⟩
    intro i hi
    obtain ⟨rfl, h1⟩ := hget i hi
    rw [canon_eq lens i hi, h1, start_one]
    have hc : (lens.take i).count 1 = 0 := by
      rw [List.count_eq_zero]
      intro hm
      rw [hab, List.take_append_of_le_length (by simp), List.take_of_length_le (by simp)] at hm
      have := List.eq_of_mem_replicate hm
      omega
    rw [hc]
    simp [HT.leavesOf, HT.isNil]

/-- every code that a block may use yields its tree -/
theorem tree_ok (lens : List Nat) (h : Complete lens ∨ OneCode lens) (hlen : lens.length ≤ 32767) :
    ∃ codes t, huffmanCodes lens = .ok (codes, maxLength lens) ∧ createTree lens codes = .ok t ∧ TreeFor lens t := by
  rcases h with h | h
  · obtain ⟨t, h1, h2, h3⟩ := createTree_ok lens h hlen
    exact ⟨_, t, huffmanCodes_ok lens h.2 (by rw [h.1]; exact Nat.le_refl _) (by omega), h1, h2, h3, h.2, by rw [h.1]; exact Nat.le_refl _⟩
  · obtain ⟨t, h1, h2⟩ := tree_one lens h hlen
    exact ⟨_, t, huffmanCodes_ok lens h2.le h2.kraft (by omega), h1, h2⟩

theorem codeWord_length (lens : List Nat) (i : Nat) : (codeWord lens i).length = lens.getD i 0 := codeBits_length _ _

theorem decodeSymbol_ok {lens : List Nat} {t : HT} (ht : TreeFor lens t) (i : Nat) (hi : lens.getD i 0 ≠ 0) (s : St) (hb : s.bit < 8) (r : List Bool)
    (h : s.bits = codeWord lens i ++ r) (hm : lens.getD i 0 ≤ s.maxBits + 1) : decodeSymbol t s = .ok (i, s.adv (lens.getD i 0)) := by
  have hlt := canon_lt lens ht.le ht.kraft i hi
  have h15 := getD_le lens 15 ht.le i
  have := decodeLoop_ok t ht.wf h15 (by omega) hlt (ht.mem i hi) s r hb (s.maxBits + 1) 0 (by omega) (by omega) h
  have h0 : canon lens i >>> (lens.getD i 0 - 0) = 0 := by
    rw [Nat.shiftRight_eq_div_pow, Nat.sub_zero]; exact Nat.div_eq_of_lt hlt
  rw [h0] at this
  exact this

theorem dynMatch_ok {dl : List Nat} {ht : HT} (htf : TreeFor dl ht) (n d : Nat) (s : St) (hf : Fit s) (hp : 8 ≤ s.pos) (hmb : 15 ≤ s.maxBits) (htok : tokOk s.out (.copy n d))
    (hcd : dl.getD (row distTable d).1 0 ≠ 0) (r : List Bool)
    (h : s.bits = numBits (row lengthTable n).2.1 (n - (row lengthTable n).2.2.1) ++
      (codeWord dl (row distTable d).1 ++ numBits (row distTable d).2.1 (d - (row distTable d).2.2.1)) ++ r) :
    ∃ s', dynMatch ht (row lengthTable n).1 s = .ok s' ∧
      Step s ((row lengthTable n).2.1 + (dl.getD (row distTable d).1 0 + (row distTable d).2.1)) (copyFrom n d s.out) s' := by
  obtain ⟨h3, h258, h1, h32, ho⟩ := htok
  rw [List.append_assoc, List.append_assoc] at h
  unfold dynMatch
  rw [readLength_ok n h3 h258 s hf.bit _ h]
  simp only [bind, Except.bind]
  have b1 : (s.adv (row lengthTable n).2.1).bits = codeWord dl (row distTable d).1 ++ (numBits (row distTable d).2.1 (d - (row distTable d).2.2.1) ++ r) := by
    rw [bits_adv, h, drop_left _ _ _ (numBits_length _ _)]
  have h15 := getD_le dl 15 htf.le (row distTable d).1
  rw [decodeSymbol_ok htf _ hcd _ (adv_bit _ _) _ b1 (by show _ ≤ s.maxBits + 1; omega)]
  simp only
  have b2 : ((s.adv (row lengthTable n).2.1).adv (dl.getD (row distTable d).1 0)).bits = numBits (row distTable d).2.1 (d - (row distTable d).2.2.1) ++ r := by
    rw [bits_adv, b1, drop_left _ _ _ (codeWord_length _ _)]
  rw [readDistance_ok d h1 h32 _ (adv_bit _ _) _ b2]
  simp only [adv_adv]
  obtain ⟨m, hm⟩ : ∃ m, m = (row lengthTable n).2.1 + dl.getD (row distTable d).1 0 + (row distTable d).2.1 := ⟨_, rfl⟩
  rw [← hm, show (row lengthTable n).2.1 + (dl.getD (row distTable d).1 0 + (row distTable d).2.1) = m by omega]
  have eo : (s.adv m).out = s.out := (adv_fields s m).2.1
  rw [eo, show (s.out.length : Int) - (d : Int) = ((s.out.length - d : Nat) : Int) by omega, if_neg (by omega), Int.toNat_natCast]
  obtain ⟨s', e1, e2⟩ := copyBack_ok n d (s.adv m) (hf.adv m) (by rw [pos_adv]; omega) h1 (by rw [eo]; exact ho)
  rw [eo] at e1 e2
  refine ⟨s', e1, ?_⟩
  have := (Step.adv s hf m).trans e2
  simpa using this

theorem dynLoop_ok {ll dl : List Nat} {hl ht : HT} (hlf : TreeFor ll hl) (htf : TreeFor dl ht) (hend : ll.getD 256 0 ≠ 0)
    (toks : List Tok) (fuel : Nat) (s : St) (hf : Fit s) (hp : 8 ≤ s.pos) (hmb : 15 ≤ s.maxBits) (hok : toksOk s.out toks) (hcoded : ∀ t ∈ toks, tokCoded ll dl t)
    (hfuel : toks.length < fuel) (r : List Bool) (bs : List Bool)
    (hbs : bs = toks.flatMap (tokBits (codeWord ll) (codeWord dl)) ++ codeWord ll 256) (h : s.bits = bs ++ r) :
    ∃ s', dynLoop hl ht fuel s = .ok s' ∧ Step s bs.length (expand s.out toks) s' := by
  have h15 := getD_le ll 15 hlf.le
  induction toks generalizing s fuel bs with
  | nil =>
    obtain ⟨fuel, rfl⟩ : ∃ f, fuel = f + 1 := ⟨fuel - 1, by omega⟩
    rw [List.flatMap_nil, List.nil_append] at hbs
    subst hbs
    rw [codeWord_length]
    refine ⟨s.adv (ll.getD 256 0), ?_, Step.adv s hf _⟩
    unfold dynLoop
    rw [decodeSymbol_ok hlf 256 hend s hf.bit _ h (by have := h15 256; omega)]
    rfl
  | cons t ts ih =>
    obtain ⟨fuel, rfl⟩ : ∃ f, fuel = f + 1 := ⟨fuel - 1, by omega⟩
    simp only [List.length_cons] at hfuel
    obtain ⟨htok, hoks⟩ := hok
    have hct := hcoded t (by simp)
    have hcs : ∀ t ∈ ts, tokCoded ll dl t := fun t h => hcoded t (List.mem_cons_of_mem _ h)
    obtain ⟨rest, hrest⟩ : ∃ rest, rest = ts.flatMap (tokBits (codeWord ll) (codeWord dl)) ++ codeWord ll 256 := ⟨_, rfl⟩
    rw [List.flatMap_cons, List.append_assoc, ← hrest] at hbs
    cases t with
    | lit b =>
      rw [show tokBits (codeWord ll) (codeWord dl) (.lit b) = codeWord ll b.toNat from rfl] at hbs
      have h' : s.bits = codeWord ll b.toNat ++ (rest ++ r) := by rw [h, hbs, List.append_assoc]
      unfold dynLoop
      rw [decodeSymbol_ok hlf b.toNat hct s hf.bit _ h' (by have := h15 b.toNat; omega), ← codeWord_length ll]
      simp only [bind, Except.bind]
      rw [if_pos (by have := b.isLt; omega)]
      obtain ⟨s1, e1, e2⟩ := write_ok (s.adv (codeWord ll b.toNat).length) (hf.adv _) (by rw [pos_adv]; omega) (BitVec.ofNat 8 b.toNat)
      rw [e1]
      simp only
      have eo : (s.adv (codeWord ll b.toNat).length).out = s.out := (adv_fields s _).2.1
      rw [eo, BitVec.ofNat_toNat, BitVec.setWidth_eq] at e2
      have st := (Step.adv s hf (codeWord ll b.toNat).length).trans e2
      have ho := st.out
      obtain ⟨s2, f1, f2⟩ := ih fuel s1 (st.fit hf) (by rw [st.pos]; omega) (by rw [st.same.2.1]; exact hmb) (by rw [ho]; exact hoks) hcs (by omega) rest hrest
        (by rw [st.bits, h', Nat.add_zero, drop_left _ _ _ rfl])
      refine ⟨s2, f1, ?_⟩
      have := st.trans f2
      rw [ho] at this
      rw [hbs, List.length_append]
      exact this
    | copy n d =>
      have htok' := htok
      obtain ⟨h3, h258, h1, h32, hod⟩ := htok
      obtain ⟨hcl, hcd⟩ := hct
      have hsym := row_len_sym n h3 h258
      obtain ⟨lw, hlw⟩ : ∃ w, w = codeWord ll (row lengthTable n).1 := ⟨_, rfl⟩
      obtain ⟨mb, hmb'⟩ : ∃ w, w = numBits (row lengthTable n).2.1 (n - (row lengthTable n).2.2.1) ++
          (codeWord dl (row distTable d).1 ++ numBits (row distTable d).2.1 (d - (row distTable d).2.2.1)) := ⟨_, rfl⟩
      have htb : tokBits (codeWord ll) (codeWord dl) (.copy n d) = lw ++ mb := by
        rw [hlw, hmb', ← List.append_assoc]; rfl
      have hml : mb.length = (row lengthTable n).2.1 + (dl.getD (row distTable d).1 0 + (row distTable d).2.1) := by
        rw [hmb', List.length_append, List.length_append, numBits_length, numBits_length, codeWord_length]
      rw [htb] at hbs
      have h' : s.bits = lw ++ (mb ++ (rest ++ r)) := by rw [h, hbs]; simp only [List.append_assoc]
      unfold dynLoop
      rw [hlw] at h'
      rw [decodeSymbol_ok hlf _ hcl s hf.bit _ h' (by have := h15 (row lengthTable n).1; omega), ← codeWord_length ll]
      rw [← hlw] at h' ⊢
      simp only [bind, Except.bind]
      rw [if_neg (by omega), if_neg (by omega), if_pos (by omega)]
      have eo : (s.adv lw.length).out = s.out := (adv_fields s _).2.1
      obtain ⟨s1, e1, e2⟩ := dynMatch_ok htf n d (s.adv lw.length) (hf.adv _) (by rw [pos_adv]; omega) hmb (by rw [eo]; exact htok') hcd (rest ++ r)
        (by rw [bits_adv, h', drop_left _ _ _ rfl, hmb'])
      rw [e1]
      simp only
      rw [← hml, eo] at e2
      have st := (Step.adv s hf lw.length).trans e2
      have ho := st.out
      obtain ⟨s2, f1, f2⟩ := ih fuel s1 (st.fit hf) (by rw [st.pos]; omega) (by rw [st.same.2.1]; exact hmb) (by rw [ho]; exact hoks) hcs (by omega) rest hrest
        (by rw [st.bits, h', ← List.append_assoc lw, drop_left _ _ _ (by rw [List.length_append])])
      refine ⟨s2, f1, ?_⟩
      have := st.trans f2
      rw [ho] at this
      rw [hbs, List.length_append, List.length_append]
      exact this

end Verif.Inflate
