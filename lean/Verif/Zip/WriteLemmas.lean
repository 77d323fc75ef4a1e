import Verif.Zip.ReadLemmas
/-
Lemmas about the writing side of Verif.Zip.Model.
-/
namespace Verif.Zip
open Verif

/-! ### the fields of a header -/

def Field.bytes : Field → List Byte
  | .f16 _ v => Serializer.Spec.leBytes 2 v
  | .f32 _ v => Serializer.Spec.leBytes 4 v

def consec : Nat → List Field → Bool
  | _, [] => true
  | o, .f16 p _ :: l => p == o && consec (o + 2) l
  | o, .f32 p _ :: l => p == o && consec (o + 4) l

theorem leBytes_length {w : Nat} (n : Nat) (v : BitVec w) : (Serializer.Spec.leBytes n v).length = n := by simp [Serializer.Spec.leBytes]

theorem fields_ok : ∀ (l : List Field) (p w q : List Byte), consec p.length l = true → w.length = (l.flatMap Field.bytes).length →
    (p ++ w ++ q).length ≤ 2 ^ 32 → fields l (p ++ w ++ q) = .ok (p ++ l.flatMap Field.bytes ++ q) := by
  intro l
  induction l with
  | nil =>
    intro p w q _ hw _
    have : w = [] := by simpa using hw
    simp [fields, this]
  | cons f l ih =>
    intro p w q hc hw hl
    cases f with
    | f16 o v =>
      simp only [consec, Bool.and_eq_true, beq_iff_eq] at hc
      obtain ⟨rfl, hc⟩ := hc
      simp only [List.flatMap_cons, List.length_append, Field.bytes, leBytes_length] at hw hl
      have hs : Serializer.serializeLEInt16 (p ++ w ++ q) p.length v = .ok (p ++ Serializer.Spec.leBytes 2 v ++ (w.drop 2 ++ q), 2) := by
        rw [Serializer.serializeLEInt16_spec _ _ _ (by simp only [List.length_append]; omega) (by simp only [List.length_append]; omega)]
        have hsp : p ++ w ++ q = p ++ w.take 2 ++ (w.drop 2 ++ q) := by
          conv => lhs; rw [← List.take_append_drop 2 w]
          simp only [List.append_assoc]
        rw [hsp, Serializer.splice_app _ _ _ _ (by simp only [leBytes_length, List.length_take]; omega)]
      rw [fields, hs, bind_ok]
      have := ih (p ++ Serializer.Spec.leBytes 2 v) (w.drop 2) q (by rw [List.length_append, leBytes_length]; exact hc)
        (by simp only [List.length_drop]; omega) (by simp only [List.length_append, leBytes_length, List.length_drop]; omega)
      simp only [List.append_assoc] at this ⊢
      rw [this]
      simp [Field.bytes]
    | f32 o v =>
      simp only [consec, Bool.and_eq_true, beq_iff_eq] at hc
      obtain ⟨rfl, hc⟩ := hc
      simp only [List.flatMap_cons, List.length_append, Field.bytes, leBytes_length] at hw hl
      have hs : Serializer.serializeLEInt32 (p ++ w ++ q) p.length v = .ok (p ++ Serializer.Spec.leBytes 4 v ++ (w.drop 4 ++ q), 4) := by
        rw [Serializer.serializeLEInt32_spec _ _ _ (by simp only [List.length_append]; omega) (by simp only [List.length_append]; omega)]
        have hsp : p ++ w ++ q = p ++ w.take 4 ++ (w.drop 4 ++ q) := by
          conv => lhs; rw [← List.take_append_drop 4 w]
          simp only [List.append_assoc]
        rw [hsp, Serializer.splice_app _ _ _ _ (by simp only [leBytes_length, List.length_take]; omega)]
      rw [fields, hs, bind_ok]
      have := ih (p ++ Serializer.Spec.leBytes 4 v) (w.drop 4) q (by rw [List.length_append, leBytes_length]; exact hc)
        (by simp only [List.length_drop]; omega) (by simp only [List.length_append, leBytes_length, List.length_drop]; omega)
      simp only [List.append_assoc] at this ⊢
      rw [this]
      simp [Field.bytes]

theorem fields_all (l : List Field) (w : List Byte) (hc : consec 0 l = true) (hw : w.length = (l.flatMap Field.bytes).length) (hl : w.length ≤ 2 ^ 32) :
    fields l w = .ok (l.flatMap Field.bytes) := by
  have := fields_ok l [] w [] hc hw (by simpa using hl)
  simpa using this

theorem le_toNat (v : BitVec 32) : le 4 v.toNat = Serializer.Spec.leBytes 4 v := by
  unfold le
  congr 1
  exact BitVec.ofNat_toNat ..

theorem le_eq32 (n : Nat) : Serializer.Spec.leBytes 4 (BitVec.ofNat 32 n) = le 4 n := rfl
theorem le_eq16 (n : Nat) : Serializer.Spec.leBytes 2 (BitVec.ofNat 16 n) = le 2 n := rfl

theorem z2 : Serializer.Spec.leBytes 2 (0 : BitVec 16) = List.replicate 2 0 := by decide
theorem z4 : Serializer.Spec.leBytes 4 (0 : BitVec 32) = List.replicate 4 0 := by decide

theorem lfh_ok (junk : Byte) (n e : List Byte) :
    lfh junk n e = .ok (le 4 0x04034b50 ++ List.replicate 22 0 ++ le 2 n.length ++ le 2 e.length) := by
  unfold lfh
  rw [fields_all _ _ (by rfl) (by simp [Field.bytes, leBytes_length]) (by simp)]
  simp only [List.flatMap_cons, List.flatMap_nil, Field.bytes, z2, z4, le_eq16]
  rfl

theorem fragment_ok (junk : Byte) (e : Entry) :
    fragment junk e = .ok (le 4 e.crc.toNat ++ le 4 e.compressedSize.toNat ++ le 4 e.uncompressedSize.toNat) := by
  unfold fragment
  rw [fields_all _ _ (by rfl) (by simp [Field.bytes, leBytes_length]) (by simp)]
  simp [Field.bytes, le_toNat]

theorem cdfh_ok (junk : Byte) (e : Entry) (n x c : List Byte) :
    cdfh junk e n x c = .ok (le 4 0x02014b50 ++ List.replicate 12 0 ++ le 4 e.crc.toNat ++ le 4 e.compressedSize.toNat ++ le 4 e.uncompressedSize.toNat ++
      le 2 n.length ++ le 2 x.length ++ le 2 c.length ++ List.replicate 8 0 ++ le 4 e.headerOffset.toNat) := by
  unfold cdfh
  rw [fields_all _ _ (by rfl) (by simp [Field.bytes, leBytes_length]) (by simp)]
  simp only [List.flatMap_cons, List.flatMap_nil, Field.bytes, z2, z4, le_eq16, le_toNat]
  simp [List.replicate, le]

theorem eocd_ok (junk : Byte) (count start stop : Nat) (h : start ≤ stop) (hs : stop < 2 ^ 32) :
    eocd junk count start stop = .ok (endRecord (List.replicate 4 0 ++ le 2 count) count (stop - start) start []) := by
  unfold eocd
  rw [fields_all _ _ (by rfl) (by simp [Field.bytes, leBytes_length]) (by simp)]
  have e : BitVec.ofNat 32 stop - BitVec.ofNat 32 start = BitVec.ofNat 32 (stop - start) := by
    apply BitVec.eq_of_toNat_eq
    simp only [BitVec.toNat_sub, BitVec.toNat_ofNat]
    omega
  rw [e]
  simp only [List.flatMap_cons, List.flatMap_nil, Field.bytes, z2, z4, le_eq16, le_eq32, endRecord]
  have : le 2 ([] : List Byte).length = List.replicate 2 0 := by decide
  rw [this]
  simp [List.replicate, le]

/-! ### the file -/

/-- the file holds `new`, then what is left of the bytes it had before, and the position is behind `new` -/
def On (old : List Byte) (f : FS) (new : List Byte) : Prop := f.bytes = new ++ old.drop new.length ∧ f.pos = new.length

theorem on_write {old : List Byte} {f : FS} {new : List Byte} (h : On old f new) (d : List Byte) : On old (f.write d) (new ++ d) := by
  obtain ⟨h1, h2⟩ := h
  unfold FS.write
  by_cases hd : d = []
  · subst hd; simp [On, h1, h2]
  · rw [if_neg hd]
    have e : f.pos - f.bytes.length = 0 := by rw [h1, h2, List.length_append]; omega
    simp only [e, List.replicate_zero, List.append_nil, On]
    rw [h1, h2]
    refine ⟨?_, by simp⟩
    rw [List.take_left, List.drop_append, List.drop_eq_nil_of_le (by omega), List.nil_append]
    rw [List.drop_drop, List.length_append]
    congr 2
    omega

theorem write_middle (p w q d : List Byte) (hd : d ≠ []) (h : w.length = d.length) :
    (FS.write ⟨p ++ w ++ q, p.length⟩ d) = ⟨p ++ d ++ q, p.length + d.length⟩ := by
  unfold FS.write
  rw [if_neg hd]
  have e : p.length - (p ++ w ++ q).length = 0 := by simp
  simp only [e, List.replicate_zero, List.append_nil]
  have h1 : (p ++ w ++ q).take p.length = p := by rw [List.append_assoc, List.take_left]
  have h2 : (p ++ w ++ q).drop (p.length + d.length) = q := List.drop_left' (by simp [h])
  rw [h1, h2]

/-! ### CRC -/

theorem crcBits_ok : ∀ (n : Nat) (ch : Byte) (r : BitVec 32), n ≤ 8 →
    crcBits n ch r = ((List.range n).map fun i => ch.getLsbD i).foldl crcStep r := by
  intro n
  induction n with
  | zero => intros; rfl
  | succ n ih =>
    intro ch r hn
    have hstep : crcBit ch r = (ch.sshiftRight 1, crcStep r (ch.getLsbD 0)) := by
      unfold crcBit crcStep
      have hb : ((ch.signExtend 32 ^^^ r) &&& 1 ≠ 0) ↔ (r.getLsbD 0 ≠ ch.getLsbD 0) := by
        have hx : ((ch.signExtend 32 ^^^ r) &&& 1).getLsbD 0 = (ch.getLsbD 0 ^^ r.getLsbD 0) := by
          rw [BitVec.getLsbD_and, BitVec.getLsbD_xor, BitVec.getLsbD_signExtend]
          rw [show (1 : BitVec 32).getLsbD 0 = true from rfl]
          simp only [Nat.zero_lt_succ, decide_true, if_true, Bool.true_and, Bool.and_true]
        apply not_congr
        constructor
        · intro h
          rw [h] at hx
          revert hx
          cases r.getLsbD 0 <;> cases ch.getLsbD 0 <;> simp
        · intro h
          apply BitVec.eq_of_getLsbD_eq
          intro i hi
          rcases Nat.eq_zero_or_pos i with rfl | hp
          · rw [hx, h]; simp
          · have : (1 : BitVec 32).getLsbD i = false := by
              rw [show (1 : BitVec 32) = BitVec.twoPow 32 0 from rfl, BitVec.getLsbD_twoPow]
              simp [show ¬ 0 = i by omega]
            rw [BitVec.getLsbD_and, this]
            simp
      by_cases h : r.getLsbD 0 ≠ ch.getLsbD 0
      · simp only [if_pos h, if_pos (hb.2 h)]
      · simp only [if_neg h, if_neg (fun hh => h (hb.1 hh))]
    rw [crcBits]
    simp only [hstep]
    rw [ih _ _ (by omega), List.range_succ_eq_map, List.map_cons, List.foldl_cons, List.map_map]
    congr 1
    apply List.map_congr_left
    intro i hi
    have hi' : i < n := by simpa using hi
    simp only [Function.comp_apply]
    rw [BitVec.getLsbD_sshiftRight]
    have h1 : i + 1 < 8 := by omega
    have h2 : ¬ 8 ≤ i := by omega
    simp [h1, h2, Nat.add_comm]

theorem crc32_ok (s : List Byte) : crc32 s = stdCrc s := by
  unfold crc32 stdCrc
  congr 1
  generalize (0xFFFFFFFF : BitVec 32) = r
  induction s generalizing r with
  | nil => rfl
  | cons ch l ih =>
    rw [crcLoop, crcBits_ok 8 ch r (Nat.le_refl 8), ih]
    simp [Inflate.bitsOf, Inflate.byteBits]

end Verif.Zip
