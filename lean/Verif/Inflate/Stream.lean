import Verif.Inflate.Blocks
/-
Stored blocks, the head of a dynamic block, and the whole stream.
-/
namespace Verif.Inflate
open Verif

/-! ### stored blocks -/

theorem skip_ok (s : St) (hb : s.bit < 8) (n : Nat) (hn : n < 8) (h : (s.pos + n) % 8 = 0) : skipByteBits s = s.adv n := by
  unfold skipByteBits St.adv
  have e : s.pos = 8 * s.idx + s.bit := rfl
  split
  · rename_i h0
    have : n = 0 := by omega
    subst this
    have e1 : (s.pos + 0) / 8 = s.idx := by omega
    have e2 : (s.pos + 0) % 8 = s.bit := by omega
    rw [e1, e2]; simp
  · have e1 : (s.pos + n) / 8 = s.idx + 1 := by omega
    rw [e1, h]; simp

theorem aligned_byte (s : St) (h0 : s.bit = 0) (b : Byte) (r : List Bool) (h : s.bits = byteBits b ++ r) :
    ∃ hi : s.idx < s.comp.length, s.comp[s.idx] = b := by
  unfold St.bits at h
  have e : s.pos = 8 * s.idx := by show 8 * s.idx + s.bit = _; omega
  rw [e] at h
  have hl : (bitsOf s.comp).length - 8 * s.idx = 8 + r.length := by
    rw [← List.length_drop, h, List.length_append, byteBits_length]
  rw [bitsOf_length] at hl
  have hi : s.idx < s.comp.length := by omega
  refine ⟨hi, ?_⟩
  apply BitVec.eq_of_getLsbD_eq
  intro j hj
  have h1 := bitsOf_get s.comp s.idx j hi hj
  rw [← List.getElem?_drop, h, List.getElem?_append_left (by rw [byteBits_length]; omega)] at h1
  have h2 : (byteBits b)[j]? = some (b.getLsbD j) := by
    unfold byteBits
    rw [List.getElem?_map, List.getElem?_range hj]; rfl
  rw [h2] at h1
  exact (Option.some.inj h1).symm

theorem nextAligned8_ok (s : St) (h0 : s.bit = 0) (b : Byte) (r : List Bool) (h : s.bits = byteBits b ++ r) :
    nextAligned8 s = .ok (b, s.adv 8) := by
  obtain ⟨hi, hb⟩ := aligned_byte s h0 b r h
  unfold nextAligned8
  rw [if_neg (by omega), rd_ok hi, hb]
  simp only [bind, Except.bind, pure, Except.pure]
  unfold St.adv
  have e : s.pos = 8 * s.idx := by show 8 * s.idx + s.bit = _; omega
  rw [show (s.pos + 8) / 8 = s.idx + 1 by omega, show (s.pos + 8) % 8 = s.bit by omega]
  congr 3
  omega

theorem numBits_getElem (n c j : Nat) (h : j < n) : (numBits n c)[j]? = some (c.testBit j) := by
  induction n generalizing c j with
  | zero => omega
  | succ n ih =>
    unfold numBits
    cases j with
    | zero => rfl
    | succ j => rw [List.getElem?_cons_succ, ih _ _ (by omega), testBit_div]

theorem byteBits_eq (b : Byte) : byteBits b = numBits 8 b.toNat := by
  apply List.ext_getElem?
  intro j
  by_cases hj : j < 8
  · rw [numBits_getElem 8 _ j hj]
    unfold byteBits
    rw [List.getElem?_map, List.getElem?_range hj]; rfl
  · rw [List.getElem?_eq_none (by rw [byteBits_length]; omega), List.getElem?_eq_none (by rw [numBits_length]; omega)]

theorem numBits_mod (n c m : Nat) (h : n ≤ m) : numBits n (c % 2 ^ m) = numBits n c := by
  apply List.ext_getElem?
  intro j
  by_cases hj : j < n
  · rw [numBits_getElem _ _ _ hj, numBits_getElem _ _ _ hj, Nat.testBit_mod_two_pow]
    simp; omega
  · rw [List.getElem?_eq_none (by rw [numBits_length]; omega), List.getElem?_eq_none (by rw [numBits_length]; omega)]

theorem numBits_split (n m c : Nat) : numBits (n + m) c = numBits n c ++ numBits m (c / 2 ^ n) := by
  induction n generalizing c with
  | zero => simp [numBits]
  | succ n ih =>
    rw [show n + 1 + m = n + m + 1 by omega, numBits, numBits, ih, List.cons_append]
    rw [Nat.pow_succ, Nat.mul_comm, Nat.div_div_eq_div_mul]

theorem nextAligned16_ok (s : St) (h0 : s.bit = 0) (n : Nat) (hn : n < 65536) (r : List Bool) (h : s.bits = numBits 16 n ++ r) :
    nextAligned16 s = .ok (n, s.adv 16) := by
  have e : numBits 16 n = byteBits (BitVec.ofNat 8 n) ++ byteBits (BitVec.ofNat 8 (n / 256)) := by
    rw [byteBits_eq, byteBits_eq, BitVec.toNat_ofNat, BitVec.toNat_ofNat, numBits_mod 8 _ 8 (by omega), numBits_mod 8 _ 8 (by omega), show (16 : Nat) = 8 + 8 from rfl, numBits_split]
  rw [e, List.append_assoc] at h
  unfold nextAligned16
  rw [nextAligned8_ok s h0 _ _ h]
  simp only [bind, Except.bind, pure, Except.pure]
  have hb0 : (s.adv 8).bit = 0 := by
    show (s.pos + 8) % 8 = 0
    have e : s.pos = 8 * s.idx + s.bit := rfl
    omega
  rw [nextAligned8_ok (s.adv 8) hb0 _ r (by rw [bits_adv, h, drop_left _ _ _ (byteBits_length _)])]
  simp only [BitVec.toNat_ofNat]
  rw [adv_adv]
  have : n % 2 ^ 8 + 256 * (n / 256 % 2 ^ 8) = n := by omega
  rw [this]

theorem copyStored_ok (bytes : List Byte) (s : St) (hf : Fit s) (h0 : s.bit = 0) (r : List Bool) (h : s.bits = bitsOf bytes ++ r) :
    ∃ s', copyStored bytes.length s = .ok s' ∧ Step s (8 * bytes.length) (s.out ++ bytes) s' := by
  induction bytes generalizing s with
  | nil => refine ⟨s, rfl, ?_⟩; rw [List.append_nil]; exact Step.refl s hf
  | cons b bs ih =>
    have e : bitsOf (b :: bs) = byteBits b ++ bitsOf bs := rfl
    rw [e, List.append_assoc] at h
    rw [List.length_cons, copyStored, nextAligned8_ok s h0 _ _ h]
    simp only [bind, Except.bind]
    obtain ⟨s1, e1, e2⟩ := write_ok (s.adv 8) (hf.adv 8) (by rw [pos_adv]; omega) b
    rw [e1]
    simp only
    rw [(adv_fields s 8).2.1] at e2
    have st := (Step.adv s hf 8).trans e2
    have ho := st.out
    have hb0 : s1.bit = 0 := by
      have h1 := st.pos
      have h2 := (st.fit hf).bit
      have e3 : s1.pos = 8 * s1.idx + s1.bit := rfl
      have e4 : s.pos = 8 * s.idx + s.bit := rfl
      omega
    obtain ⟨s2, f1, f2⟩ := ih s1 (st.fit hf) hb0 (by rw [st.bits, h, Nat.add_zero, drop_left _ _ _ (byteBits_length _)])
    refine ⟨s2, f1, ?_⟩
    have := st.trans f2
    rw [ho, List.append_assoc] at this
    rw [show 8 * (bs.length + 1) = 8 + 0 + 8 * bs.length by omega]
    exact this

theorem complement_and (n : Nat) (h : n < 65536) : (65535 - n) &&& n = 0 := by
  apply Nat.eq_of_testBit_eq
  intro j
  rw [Nat.testBit_and, Nat.zero_testBit, show 65535 - n = 2 ^ 16 - (n + 1) by omega, Nat.testBit_two_pow_sub_succ (by omega)]
  cases n.testBit j <;> simp

theorem stored_ok (pad : List Bool) (bytes : List Byte) (s : St) (hf : Fit s) (hpad : pad.length < 8) (hal : (s.pos + pad.length) % 8 = 0) (hlen : bytes.length ≤ 65535)
    (r : List Bool) (bs : List Bool) (hbs : bs = pad ++ numBits 16 bytes.length ++ numBits 16 (65535 - bytes.length) ++ bitsOf bytes) (h : s.bits = bs ++ r) :
    ∃ s', stored s = .ok s' ∧ Step s bs.length (s.out ++ bytes) s' := by
  have h' : s.bits = pad ++ (numBits 16 bytes.length ++ (numBits 16 (65535 - bytes.length) ++ (bitsOf bytes ++ r))) := by
    rw [h, hbs]; simp only [List.append_assoc]
  unfold stored
  rw [skip_ok s hf.bit _ hpad hal]
  have b0 : (s.adv pad.length).bits = numBits 16 bytes.length ++ (numBits 16 (65535 - bytes.length) ++ (bitsOf bytes ++ r)) := by
    rw [bits_adv, h', drop_left _ _ _ rfl]
  have z0 : (s.adv pad.length).bit = 0 := hal
  rw [nextAligned16_ok _ z0 _ (by omega) _ b0]
  simp only [bind, Except.bind]
  have b1 : ((s.adv pad.length).adv 16).bits = numBits 16 (65535 - bytes.length) ++ (bitsOf bytes ++ r) := by
    rw [bits_adv, b0, drop_left _ _ _ (numBits_length _ _)]
  have z1 : ((s.adv pad.length).adv 16).bit = 0 := by
    rw [adv_adv]; show (s.pos + (pad.length + 16)) % 8 = 0; omega
  rw [nextAligned16_ok _ z1 _ (by omega) _ b1]
  simp only
  rw [complement_and _ (by omega)]
  simp only [adv_adv]
  have b2 : (s.adv (pad.length + 16 + 16)).bits = bitsOf bytes ++ r := by
    have := b1
    rw [adv_adv] at this
    rw [← adv_adv, bits_adv, this, drop_left _ _ _ (numBits_length _ _)]
  have z2 : (s.adv (pad.length + 16 + 16)).bit = 0 := by show (s.pos + (pad.length + 16 + 16)) % 8 = 0; omega
  obtain ⟨s', e1, e2⟩ := copyStored_ok bytes _ (hf.adv _) z2 r b2
  refine ⟨s', by simpa using e1, ?_⟩
  rw [(adv_fields s _).2.1] at e2
  have := (Step.adv s hf _).trans e2
  rw [hbs, List.length_append, List.length_append, List.length_append, numBits_length, numBits_length, bitsOf_length]
  exact this

/-! ### the head of a dynamic block -/

theorem aset_rep (n i : Nat) (f : Nat → Nat) (x : Nat) (h : i < n) : aset (rep n f) (i : Int) x = .ok (rep n (fun j => if j = i then x else f j)) := by
  unfold aset
  rw [if_pos ⟨by omega, by rw [rep_length]; omega⟩, Int.toNat_natCast]
  have := wr_rep f x h
  unfold wr at this
  split at this
  · exact this
  · rename_i hn; exact absurd (by rw [rep_length]; exact h) hn

theorem clOrder_nodup : clOrder.Nodup := by decide
theorem clOrder_lt : ∀ s ∈ clOrder, s < 19 := by decide
theorem clOrder_all : ∀ s : Fin 19, s.val ∈ clOrder := by decide

theorem readCodeLengths_ok (f : Nat → Nat) (hf8 : ∀ s, f s ≤ 7) (n a : Nat) (ha : a + n ≤ 19) (s : St) (hb : s.bit < 8) (r : List Bool)
    (h : s.bits = ((clOrder.drop a).take n).flatMap (fun k => numBits 3 (f k)) ++ r) :
    readCodeLengths n a (rep 19 (fun k => if k ∈ clOrder.take a then f k else 0)) s =
      .ok (rep 19 (fun k => if k ∈ clOrder.take (a + n) then f k else 0), s.adv (3 * n)) := by
  induction n generalizing a s with
  | zero => unfold readCodeLengths; rw [Nat.mul_zero, adv_zero s hb]; rfl
  | succ n ih =>
    have hlt : a < clOrder.length := by show a < 19; omega
    have e : (clOrder.drop a).take (n + 1) = clOrder[a] :: (clOrder.drop (a + 1)).take n := by
      rw [List.drop_eq_getElem_cons hlt, List.take_succ_cons]
    rw [e, List.flatMap_cons, List.append_assoc] at h
    unfold readCodeLengths
    rw [nextUIntXR_ok 3 _ s _ hb h (by have := hf8 clOrder[a]; omega) (by omega)]
    simp only [bind, Except.bind]
    rw [show CODELENGTH_ALPHABET = clOrder from rfl, rd_ok hlt]
    simp only
    rw [aset_rep 19 _ _ _ (clOrder_lt _ (List.getElem_mem hlt))]
    simp only
    have e2 : rep 19 (fun j => if j = clOrder[a] then f clOrder[a] else if j ∈ clOrder.take a then f j else 0) =
        rep 19 (fun k => if k ∈ clOrder.take (a + 1) then f k else 0) := by
      apply rep_congr
      intro j _
      rw [List.take_succ_eq_append_getElem hlt]
      simp only [List.mem_append, List.mem_singleton]
      by_cases h1 : j = clOrder[a]
      · rw [if_pos h1, if_pos (Or.inr h1), h1]
      · rw [if_neg h1]
        by_cases h2 : j ∈ clOrder.take a
        · rw [if_pos h2, if_pos (Or.inl h2)]
        · rw [if_neg h2, if_neg (by simp [h1, h2])]
    rw [e2, ih (a + 1) (by omega) (s.adv 3) (adv_bit _ _) (by rw [bits_adv, h, drop_left _ _ _ (numBits_length _ _)]), adv_adv]
    rw [show a + 1 + n = a + (n + 1) by omega, show 3 + 3 * n = 3 * (n + 1) by omega]

/-- the code lengths of the code length alphabet, as read -/
theorem clLens_rep (h : Dyn) (ok : h.Ok) : rep 19 (fun k => if k ∈ clOrder.take (0 + h.hclen) then h.clLens.getD k 0 else 0) = h.clLens := by
  have e : rep 19 (fun k => if k ∈ clOrder.take (0 + h.hclen) then h.clLens.getD k 0 else 0) = rep 19 (fun k => h.clLens.getD k 0) := by
    apply rep_congr
    intro j hj
    rw [Nat.zero_add]
    by_cases h1 : j ∈ clOrder.take h.hclen
    · rw [if_pos h1]
    · rw [if_neg h1]
      have := clOrder_all ⟨j, hj⟩
      simp only at this
      rw [← List.take_append_drop h.hclen clOrder, List.mem_append] at this
      exact (ok.clRest j (this.resolve_left h1)).symm
  rw [e]
  apply List.ext_getElem?
  intro i
  by_cases hi : i < 19
  · rw [rep_get _ _ _ hi, List.getD_eq_getElem?_getD, List.getElem?_eq_getElem (by rw [ok.clLen]; exact hi)]; rfl
  · rw [List.getElem?_eq_none (by rw [rep_length]; omega), List.getElem?_eq_none (by rw [ok.clLen]; omega)]

/-- the array being filled: what has been read, then zeros -/
def part (count : Nat) (done : List Nat) : List Nat := done ++ List.replicate (count - done.length) 0

theorem part_length (count : Nat) (done : List Nat) (h : done.length ≤ count) : (part count done).length = count := by
  unfold part; rw [List.length_append, List.length_replicate]; omega

theorem aset_part (count : Nat) (done : List Nat) (x : Nat) (h : done.length < count) :
    aset (part count done) (done.length : Nat) x = .ok (part count (done ++ [x])) := by
  unfold aset
  rw [if_pos ⟨by omega, by rw [part_length _ _ (by omega)]; omega⟩, Int.toNat_natCast]
  congr 1
  unfold part
  obtain ⟨k, hk⟩ : ∃ k, count - done.length = k + 1 := ⟨count - done.length - 1, by omega⟩
  rw [hk, List.replicate_succ, List.set_append_right _ _ (by omega), Nat.sub_self, List.set_cons_zero, List.length_append, List.length_singleton,
    show count - (done.length + 1) = k by omega, List.append_assoc]
  rfl

theorem repeatZero_ok (count n : Nat) (done : List Nat) (h : done.length + n ≤ count) :
    repeatZero n (part count done) (done.length : Nat) = .ok (part count (done ++ List.replicate n 0)) := by
  induction n generalizing done with
  | zero => unfold repeatZero; simp
  | succ n ih =>
    unfold repeatZero
    rw [aset_part _ _ _ (by omega)]
    simp only [bind, Except.bind]
    have := ih (done ++ [0]) (by rw [List.length_append, List.length_singleton]; omega)
    rw [List.length_append, List.length_singleton, List.append_assoc] at this
    rw [show ((done.length : Nat) : Int) + 1 = ((done.length + 1 : Nat) : Int) by omega, this]
    rfl

theorem repeatPrev_ok (count n : Nat) (done : List Nat) (hne : done ≠ []) (h : done.length + n ≤ count) :
    repeatPrev n (part count done) (done.length : Nat) = .ok (part count (done ++ List.replicate n (done.getLastD 0))) := by
  induction n generalizing done with
  | zero => unfold repeatPrev; simp
  | succ n ih =>
    have hpos : 0 < done.length := List.length_pos_iff.2 hne
    have hlast : done[done.length - 1] = done.getLastD 0 := by
      rw [List.getLastD_eq_getLast?, List.getLast?_eq_getElem?, List.getElem?_eq_getElem (by omega)]; rfl
    unfold repeatPrev aget
    rw [if_pos ⟨by omega, by rw [part_length _ _ (by omega)]; omega⟩,
      show ((done.length : Int) - 1).toNat = done.length - 1 by omega,
      rd_ok (by rw [part_length _ _ (by omega)]; omega)]
    simp only [bind, Except.bind]
    have hx : (part count done)[done.length - 1]'(by rw [part_length _ _ (by omega)]; omega) = done.getLastD 0 := by
      rw [← hlast]
      unfold part
      rw [List.getElem_append_left]
    rw [hx, aset_part _ _ _ (by omega)]
    simp only
    have := ih (done ++ [done.getLastD 0]) (by simp) (by rw [List.length_append, List.length_singleton]; omega)
    have e : (done ++ [done.getLastD 0]).getLastD 0 = done.getLastD 0 := by simp
    rw [e, List.length_append, List.length_singleton, List.append_assoc] at this
    rw [show ((done.length : Nat) : Int) + 1 = ((done.length + 1 : Nat) : Int) by omega, this]
    rfl

theorem clExpand1_len (done : List Nat) (c : CL) (hok : c.ok) : done.length < (clExpand1 done c).length := by
  cases c with
  | len l => simp [clExpand1]
  | prev n => obtain ⟨h, _⟩ := hok; simp [clExpand1]; omega
  | zeros n => obtain ⟨h, _⟩ := hok; simp [clExpand1]; omega

theorem clExpand_len (done : List Nat) (l : List CL) : done.length ≤ (clExpand done l).length := by
  induction l generalizing done with
  | nil => exact Nat.le_refl _
  | cons c l ih =>
    have h : clExpand done (c :: l) = clExpand (clExpand1 done c) l := rfl
    rw [h]
    refine Nat.le_trans ?_ (ih _)
    cases c <;> simp [clExpand1]

theorem lengthStep_ok (count : Nat) (done : List Nat) (c : CL) (hok : c.ok) (hprev : ∀ n, c = .prev n → done ≠ [])
    (hlen : (clExpand1 done c).length ≤ count) (s : St) (hb : s.bit < 8) (r : List Bool) (h : s.bits = c.extra ++ r) :
    lengthStep (part count done) c.sym done.length s = .ok (part count (clExpand1 done c), (clExpand1 done c).length, s.adv c.extra.length) := by
  cases c with
  | len l =>
    have hl : l ≤ 15 := hok
    simp only [clExpand1, List.length_append, List.length_singleton] at hlen
    simp only [CL.sym, CL.extra, List.length_nil, clExpand1]
    rw [adv_zero s hb]
    unfold lengthStep
    rw [if_neg (by omega), if_neg (by omega), if_neg (by omega), aset_part _ _ _ (by omega)]
    simp only [bind, Except.bind, pure, Except.pure, List.length_append, List.length_singleton]
  | prev n =>
    obtain ⟨h3, h6⟩ := hok
    have hne := hprev n rfl
    simp only [clExpand1, List.length_append, List.length_replicate] at hlen
    simp only [CL.sym, CL.extra, clExpand1, numBits_length] at h ⊢
    unfold lengthStep
    rw [if_pos rfl, nextUIntXR_ok 2 (n - 3) s r hb h (by omega) (by omega)]
    simp only [bind, Except.bind, pure, Except.pure]
    rw [show n - 3 + 3 = n by omega, repeatPrev_ok _ _ _ hne hlen]
    simp only [List.length_append, List.length_replicate]
  | zeros n =>
    obtain ⟨h3, h138⟩ := hok
    simp only [clExpand1, List.length_append, List.length_replicate] at hlen
    by_cases h10 : n ≤ 10
    · simp only [CL.sym, CL.extra, clExpand1, h10, if_true, numBits_length] at h ⊢
      unfold lengthStep
      rw [if_neg (by omega), if_pos rfl, nextUIntXR_ok 3 (n - 3) s r hb h (by omega) (by omega)]
      simp only [bind, Except.bind, pure, Except.pure]
      rw [show n - 3 + 3 = n by omega, repeatZero_ok _ _ _ hlen]
      simp only [List.length_append, List.length_replicate]
    · simp only [CL.sym, CL.extra, clExpand1, h10, if_false, numBits_length] at h ⊢
      unfold lengthStep
      rw [if_neg (by omega), if_neg (by omega), if_pos rfl, nextUIntXR_ok 7 (n - 11) s r hb h (by omega) (by omega)]
      simp only [bind, Except.bind, pure, Except.pure]
      rw [show n - 11 + 11 = n by omega, repeatZero_ok _ _ _ hlen]
      simp only [List.length_append, List.length_replicate]

theorem readLengths_ok {cl : List Nat} {t : HT} (ht : TreeFor cl t) (items : List CL) (count fuel : Nat) (done : List Nat) (s : St) (hb : s.bit < 8)
    (hmb : ∀ l ∈ cl, l ≤ s.maxBits + 1) (hcoded : ∀ c ∈ items, cl.getD c.sym 0 ≠ 0) (hok : ∀ c ∈ items, c.ok)
    (hfirst : done = [] → ∀ n, items.head? ≠ some (.prev n)) (hcount : (clExpand done items).length = count) (hfuel : count ≤ fuel + done.length)
    (r : List Bool) (bs : List Bool) (hbs : bs = items.flatMap (clBits (codeWord cl))) (h : s.bits = bs ++ r) :
    readLengths t count fuel (part count done) done.length s = .ok (clExpand done items, s.adv bs.length) := by
  induction items generalizing fuel done s bs with
  | nil =>
    have hd : done.length = count := hcount
    subst hbs
    unfold readLengths
    rw [if_neg (by omega)]
    have : part count done = clExpand done [] := by unfold part; rw [hd]; simp [clExpand]
    rw [this]
    simp only [List.flatMap_nil, List.length_nil]
    rw [adv_zero s hb]
  | cons c items ih =>
    have hce : clExpand done (c :: items) = clExpand (clExpand1 done c) items := rfl
    have hokc := hok c (by simp)
    have h1 := clExpand1_len done c hokc
    have h2 := clExpand_len (clExpand1 done c) items
    rw [hce] at hcount
    obtain ⟨fuel, rfl⟩ : ∃ f, fuel = f + 1 := ⟨fuel - 1, by omega⟩
    obtain ⟨rest, hrest⟩ : ∃ rest, rest = items.flatMap (clBits (codeWord cl)) := ⟨_, rfl⟩
    rw [List.flatMap_cons, ← hrest] at hbs
    have hcw : clBits (codeWord cl) c = codeWord cl c.sym ++ c.extra := rfl
    have h' : s.bits = codeWord cl c.sym ++ (c.extra ++ (rest ++ r)) := by rw [h, hbs, hcw]; simp only [List.append_assoc]
    rw [readLengths, if_pos (by omega)]
    rw [decodeSymbol_ok ht c.sym (hcoded c (by simp)) s hb _ h' (getD_le cl _ hmb _), ← codeWord_length cl]
    simp only [bind, Except.bind]
    rw [lengthStep_ok count done c hokc (fun n hn hd => hfirst hd n (by rw [hn]; rfl)) (by omega) _ (adv_bit _ _) (rest ++ r)
      (by rw [bits_adv, h', drop_left _ _ _ rfl])]
    simp only [adv_adv]
    rw [ih fuel (clExpand1 done c) (s.adv _) (adv_bit _ _) hmb (fun c h => hcoded c (List.mem_cons_of_mem _ h)) (fun c h => hok c (List.mem_cons_of_mem _ h))
      (fun hd => by rw [hd] at h1; simp at h1) hcount (by omega) rest hrest
      (by rw [bits_adv, h', ← List.append_assoc, drop_left _ _ _ (by rw [List.length_append])]), adv_adv, hce]
    rw [hbs, hcw, List.length_append, List.length_append]

theorem dynTrees_ok (hd : Dyn) (ok : hd.Ok) (s : St) (hb : s.bit < 8) (r : List Bool) (h : s.bits = hd.bits ++ r) :
    ∃ tl td, dynTrees s = .ok (tl, td, { s.adv hd.bits.length with maxBits := 15 }) ∧ TreeFor hd.litLens tl ∧ TreeFor hd.distLens td := by
  obtain ⟨hc4, hc19⟩ := ok.hclen
  obtain ⟨hl257, hl286⟩ := ok.litLen
  obtain ⟨hd1, hd30⟩ := ok.distLen
  obtain ⟨ccodes, ct, hh1, hh2, hct⟩ := tree_ok hd.clLens (Or.inl ok.clComplete) (by rw [ok.clLen]; omega)
  obtain ⟨lcodes, lt, hl1, hl2, hlt⟩ := tree_ok hd.litLens (Or.inl ok.litComplete) (by omega)
  obtain ⟨dcodes, dt, hd1', hd2', hdt⟩ := tree_ok hd.distLens ok.distComplete (by omega)
  refine ⟨lt, dt, ?_, hlt, hdt⟩
  obtain ⟨B, hB⟩ : ∃ B, B = (clOrder.take hd.hclen).flatMap (fun k => numBits 3 (hd.clLens.getD k 0)) := ⟨_, rfl⟩
  obtain ⟨C, hC⟩ : ∃ C, C = hd.lits.flatMap (clBits (codeWord hd.clLens)) := ⟨_, rfl⟩
  obtain ⟨D, hD⟩ : ∃ D, D = hd.dists.flatMap (clBits (codeWord hd.clLens)) := ⟨_, rfl⟩
  have hBl : B.length = 3 * hd.hclen := by
    have : ∀ l : List Nat, (l.flatMap (fun k => numBits 3 (hd.clLens.getD k 0))).length = 3 * l.length := by
      intro l
      induction l with
      | nil => rfl
      | cons a l ih => rw [List.flatMap_cons, List.length_append, ih, numBits_length, List.length_cons]; omega
    rw [hB, this, List.length_take, show clOrder.length = 19 from rfl]; omega
  have hbits : hd.bits = numBits 5 (hd.litLens.length - 257) ++ (numBits 5 (hd.distLens.length - 1) ++ (numBits 4 (hd.hclen - 4) ++ (B ++ (C ++ D)))) := by
    unfold Dyn.bits; rw [← hB, List.flatMap_append, ← hC, ← hD]; simp only [List.append_assoc]
  have hbl : hd.bits.length = 5 + 5 + 4 + 3 * hd.hclen + C.length + D.length := by
    rw [hbits]; simp only [List.length_append, numBits_length]; omega
  rw [hbits] at h
  simp only [List.append_assoc] at h
  unfold dynTrees
  rw [nextUIntXR_ok 5 _ s _ hb h (by omega) (by omega)]
  simp only [bind, Except.bind]
  have b1 : (s.adv 5).bits = numBits 5 (hd.distLens.length - 1) ++ (numBits 4 (hd.hclen - 4) ++ (B ++ (C ++ (D ++ r)))) := by
    rw [bits_adv, h, drop_left _ _ _ (numBits_length _ _)]
  rw [nextUIntXR_ok 5 _ _ _ (adv_bit _ _) b1 (by omega) (by omega)]
  simp only
  have b2 : ((s.adv 5).adv 5).bits = numBits 4 (hd.hclen - 4) ++ (B ++ (C ++ (D ++ r))) := by
    rw [bits_adv, b1, drop_left _ _ _ (numBits_length _ _)]
  rw [nextUIntXR_ok 4 _ _ _ (adv_bit _ _) b2 (by omega) (by omega)]
  simp only
  have b3 : (((s.adv 5).adv 5).adv 4).bits = B ++ (C ++ (D ++ r)) := by
    rw [bits_adv, b2, drop_left _ _ _ (numBits_length _ _)]
  have hrc := readCodeLengths_ok (fun k => hd.clLens.getD k 0) (fun k => getD_le _ 7 ok.clMax k) hd.hclen 0 (by omega) _ (adv_bit _ 4) (C ++ (D ++ r))
    (by rw [b3, hB]; rfl)
  rw [clLens_rep hd ok] at hrc
  have h0 : rep 19 (fun k => if k ∈ clOrder.take 0 then hd.clLens.getD k 0 else 0) = List.replicate 19 0 := by
    rw [replicate_rep]; apply rep_congr; intro j _; simp
  rw [h0] at hrc
  rw [show hd.hclen - 4 + 4 = hd.hclen by omega, hrc]
  simp only
  rw [hh1]
  simp only
  rw [hh2]
  simp only [adv_adv]
  rw [show hd.litLens.length - 257 + 257 = hd.litLens.length by omega, show hd.distLens.length - 1 + 1 = hd.distLens.length by omega]
  have b4 : (s.adv (5 + 5 + 4 + 3 * hd.hclen)).bits = C ++ (D ++ r) := by
    rw [← adv_adv, bits_adv, ← adv_adv, ← adv_adv, b3, drop_left _ _ _ hBl]
  obtain ⟨s4, hs4⟩ : ∃ s4, s4 = { s.adv (5 + 5 + 4 + 3 * hd.hclen) with maxBits := maxLength hd.clLens } := ⟨_, rfl⟩
  have m4 : ∀ l ∈ hd.clLens, l ≤ s4.maxBits + 1 := by
    intro l hl
    have := maxLength_ge _ l hl
    rw [hs4]; simp only; omega
  have hb4 : s4.bits = C ++ (D ++ r) := by rw [hs4]; exact b4
  have hbit4 : s4.bit < 8 := by rw [hs4]; exact adv_bit _ _
  rw [← hs4]
  have hr1 := readLengths_ok hct hd.lits hd.litLens.length hd.litLens.length [] s4 hbit4 m4
    (fun c h => ok.clCoded c (List.mem_append_left _ h)) (fun c h => ok.clOk c (List.mem_append_left _ h)) (fun _ n => ok.litFirst n) rfl (by simp) (D ++ r) C hC hb4
  rw [show part hd.litLens.length [] = List.replicate hd.litLens.length 0 by simp [part]] at hr1
  simp only [List.length_nil] at hr1
  rw [hr1]
  simp only
  have hr2 := readLengths_ok hct hd.dists hd.distLens.length hd.distLens.length [] (s4.adv C.length) (adv_bit _ _) m4
    (fun c h => ok.clCoded c (List.mem_append_right _ h)) (fun c h => ok.clOk c (List.mem_append_right _ h)) (fun _ n => ok.distFirst n) rfl (by simp) r D hD
    (by rw [bits_adv, hb4, drop_left _ _ _ rfl])
  rw [show part hd.distLens.length [] = List.replicate hd.distLens.length 0 by simp [part]] at hr2
  simp only [List.length_nil] at hr2
  rw [hr2]
  simp only
  rw [show clExpand [] hd.lits = hd.litLens from rfl, show clExpand [] hd.dists = hd.distLens from rfl, hl1]
  simp only
  rw [hd1']
  simp only
  rw [hl2]
  simp only
  rw [hd2']
  simp only [pure, Except.pure]
  have e : (s4.adv C.length).adv D.length = s4.adv (C.length + D.length) := adv_adv _ _ _
  have e2 : s.adv hd.bits.length = (s.adv (5 + 5 + 4 + 3 * hd.hclen)).adv (C.length + D.length) := by
    rw [adv_adv, hbl]; congr 1; omega
  rw [e, e2, hs4]
  rfl

end Verif.Inflate
