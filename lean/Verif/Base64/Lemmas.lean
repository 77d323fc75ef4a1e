import Verif.Base64.Model
import Verif.Base64.Spec
set_option linter.unusedSimpArgs false
namespace Verif.Base64
open Verif

theorem rd_some {α} {b : List α} {i : Nat} {x : α} (h : b[i]? = some x) : rd b i = .ok x := by
  rw [rd, h]

theorem cvt_get : ∀ n : Fin 64, cvt[n.val]? = some (Spec.letter n.val) := by decide +kernel

theorem rd_cvt {n : Nat} (h : n < 64) : rd cvt n = .ok (Spec.letter n) :=
  rd_some (cvt_get ⟨n, h⟩)

theorem rcvt_letter : ∀ n : Fin 64, rcvt[(Spec.letter n.val).toNat]? = some (BitVec.ofNat 8 n.val) := by
  decide +kernel

theorem rcvt_pad : rcvt[Spec.pad.toNat]? = some 65#8 := by decide +kernel

theorem rcvt_len : rcvt.length = 256 := by decide +kernel

theorem c1_val : ∀ b : BitVec 8, ((b >>> 2) &&& 0x3f#8).toNat = b.toNat / 4 := by decide +kernel
theorem c2a_val : ∀ b : BitVec 8, ((b <<< 4) &&& 0x3f#8).toNat = 2 ^ 4 * (b.toNat % 4) := by decide +kernel
theorem c2b_val : ∀ b : BitVec 8, ((b >>> 4) &&& 0x0f#8).toNat = b.toNat / 16 := by decide +kernel
theorem c3a_val : ∀ b : BitVec 8, ((b <<< 2) &&& 0x3f#8).toNat = 2 ^ 2 * (b.toNat % 16) := by decide +kernel
theorem c3b_val : ∀ b : BitVec 8, ((b >>> 6) &&& 0x03#8).toNat = b.toNat / 64 := by decide +kernel
theorem c4_val : ∀ b : BitVec 8, (b &&& 0x3f#8).toNat = b.toNat % 64 := by decide +kernel

theorem c2_val (a b : BitVec 8) :
    (((a <<< 4) &&& 0x3f#8) ||| ((b >>> 4) &&& 0x0f#8)).toNat = 16 * (a.toNat % 4) + b.toNat / 16 := by
  rw [BitVec.toNat_or, c2a_val, c2b_val, ← Nat.two_pow_add_eq_or_of_lt]
  have := b.isLt; omega

theorem c3_val (a b : BitVec 8) :
    (((a <<< 2) &&& 0x3f#8) ||| ((b >>> 6) &&& 0x03#8)).toNat = 4 * (a.toNat % 16) + b.toNat / 64 := by
  rw [BitVec.toNat_or, c3a_val, c3b_val, ← Nat.two_pow_add_eq_or_of_lt]
  have := b.isLt; omega

theorem drop_get {α} {l t : List α} {i : Nat} {a : α} (h : l.drop i = a :: t) :
    l[i]? = some a ∧ i < l.length ∧ l.drop (i+1) = t := by
  have h1 : (l.drop i)[0]? = some a := by rw [h]; rfl
  have h2 : i < l.length := by
    have := congrArg List.length h
    simp at this; omega
  refine ⟨by simpa using h1, h2, ?_⟩
  have : (l.drop i).drop 1 = t := by rw [h]; rfl
  simpa using this

theorem length_of_drop {α} {l t : List α} {i : Nat} (h : l.drop i = t) : l.length - i = t.length := by
  rw [← h]; simp

theorem encodeLoop_eq (data : Buf) (cap : Nat) : ∀ (i : Nat) (out : Buf),
    out.length + 4 * ((data.length - i + 2) / 3) ≤ cap →
    encodeLoop data cap i out = .ok (out ++ Spec.encode (data.drop i)) := by
  intro i out
  fun_induction encodeLoop data cap i out with
  | case2 i out h =>
    intro _
    have : data.drop i = [] := by simp; omega
    simp [this, Spec.encode]
  | case1 i out h ih =>
    intro hc
    match hd : data.drop i with
    | [] => simp at hd; omega
    | [a] =>
      obtain ⟨ha, _, h1⟩ := drop_get hd
      have hl := length_of_drop hd
      simp at hl
      have e1 : ¬ (i + 1 < data.length) := by omega
      have e2 : ¬ (i + 2 < data.length) := by omega
      have al := a.isLt
      simp only [rd_some ha, e1, e2, if_false, bind, Except.bind, pure, Except.pure]
      rw [c1_val, c2a_val, rd_cvt (by omega), rd_cvt (by omega)]
      simp only []
      rw [emit_ok (by (try simp); omega)]
      simp only []
      rw [emit_ok (by (try simp); omega)]
      simp only []
      rw [emit_ok (by (try simp); omega)]
      simp only []
      rw [emit_ok (by (try simp); omega)]
      simp only []
      rw [ih _ (by simp; omega)]
      have h3 : data.drop (i+3) = [] := by simp; omega
      simp [h3, Spec.encode, Spec.group, Spec.sextet, Spec.pad, fillchar]
      constructor <;> congr 1 <;> omega
    | [a, b] =>
      obtain ⟨ha, _, h1⟩ := drop_get hd
      obtain ⟨hb, _, h2⟩ := drop_get h1
      have hl := length_of_drop hd
      simp at hl
      have e1 : (i + 1 < data.length) := by omega
      have e2 : ¬ (i + 2 < data.length) := by omega
      have al := a.isLt
      have bl := b.isLt
      simp only [rd_some ha, rd_some hb, e1, e2, if_false, if_true, bind, Except.bind, pure, Except.pure]
      rw [c1_val, c2_val, c3a_val, rd_cvt (by omega), rd_cvt (by omega), rd_cvt (by omega)]
      simp only []
      rw [emit_ok (by (try simp); omega)]
      simp only []
      rw [emit_ok (by (try simp); omega)]
      simp only []
      rw [emit_ok (by (try simp); omega)]
      simp only []
      rw [emit_ok (by (try simp); omega)]
      simp only []
      rw [ih _ (by simp; omega)]
      have h3 : data.drop (i+3) = [] := by simp; omega
      simp [h3, Spec.encode, Spec.group, Spec.sextet, Spec.pad, fillchar]
      refine ⟨?_, ?_, ?_⟩ <;> congr 1 <;> omega
    | a :: b :: c :: t =>
      obtain ⟨ha, _, h1⟩ := drop_get hd
      obtain ⟨hb, _, h2⟩ := drop_get h1
      obtain ⟨hcc, _, h3⟩ := drop_get h2
      have hl := length_of_drop hd
      simp at hl
      have e1 : (i + 1 < data.length) := by omega
      have e2 : (i + 2 < data.length) := by omega
      have al := a.isLt
      have bl := b.isLt
      have cl := c.isLt
      simp only [rd_some ha, rd_some hb, rd_some hcc, e1, e2, if_false, if_true, bind, Except.bind, pure, Except.pure]
      rw [c1_val, c2_val, c3_val, c4_val, rd_cvt (by omega), rd_cvt (by omega), rd_cvt (by omega), rd_cvt (by omega)]
      simp only []
      rw [emit_ok (by (try simp); omega)]
      simp only []
      rw [emit_ok (by (try simp); omega)]
      simp only []
      rw [emit_ok (by (try simp); omega)]
      simp only []
      rw [emit_ok (by (try simp); omega)]
      simp only []
      rw [ih _ (by simp; omega)]
      simp [h3, Spec.encode, Spec.group, Spec.sextet, Spec.pad, fillchar]
      refine ⟨?_, ?_, ?_, ?_⟩ <;> congr 1 <;> omega

end Verif.Base64

namespace Verif.Base64
open Verif

theorem d1a : ∀ n : Fin 64, ((BitVec.ofNat 8 n.val) <<< 2).toNat = 2 ^ 2 * n.val := by decide +kernel
theorem d1b : ∀ n : Fin 64, (((BitVec.ofNat 8 n.val) >>> 4) &&& 0x3#8).toNat = n.val / 16 := by decide +kernel
theorem d2a : ∀ n : Fin 64, (((BitVec.ofNat 8 n.val) <<< 4) &&& 0xf0#8).toNat = 2 ^ 4 * (n.val % 16) := by decide +kernel
theorem d2b : ∀ n : Fin 64, (((BitVec.ofNat 8 n.val) >>> 2) &&& 0xf#8).toNat = n.val / 4 := by decide +kernel
theorem d3a : ∀ n : Fin 64, (((BitVec.ofNat 8 n.val) <<< 6) &&& 0xc0#8).toNat = 2 ^ 6 * (n.val % 4) := by decide +kernel
theorem d3b : ∀ n : Fin 64, (BitVec.ofNat 8 n.val).toNat = n.val := by decide +kernel

theorem dec1 (p q : Nat) (hp : p < 64) (hq : q < 64) :
    ((BitVec.ofNat 8 p) <<< 2 ||| (((BitVec.ofNat 8 q) >>> 4) &&& 0x3#8)) = BitVec.ofNat 8 (4 * p + q / 16) := by
  apply BitVec.eq_of_toNat_eq
  rw [BitVec.toNat_or, d1a ⟨p, hp⟩, d1b ⟨q, hq⟩, ← Nat.two_pow_add_eq_or_of_lt (by simp; omega)]
  simp; omega
theorem dec2 (p q : Nat) (hp : p < 64) (hq : q < 64) :
    ((((BitVec.ofNat 8 p) <<< 4) &&& 0xf0#8) ||| (((BitVec.ofNat 8 q) >>> 2) &&& 0xf#8)) = BitVec.ofNat 8 (16 * (p % 16) + q / 4) := by
  apply BitVec.eq_of_toNat_eq
  rw [BitVec.toNat_or, d2a ⟨p, hp⟩, d2b ⟨q, hq⟩, ← Nat.two_pow_add_eq_or_of_lt (by simp; omega)]
  simp; omega
theorem dec3 (p q : Nat) (hp : p < 64) (hq : q < 64) :
    ((((BitVec.ofNat 8 p) <<< 6) &&& 0xc0#8) ||| (BitVec.ofNat 8 q)) = BitVec.ofNat 8 (64 * (p % 4) + q) := by
  apply BitVec.eq_of_toNat_eq
  rw [BitVec.toNat_or, d3a ⟨p, hp⟩, d3b ⟨q, hq⟩, ← Nat.two_pow_add_eq_or_of_lt (by simp; omega)]
  simp; omega

theorem rd_letter {n : Nat} (h : n < 64) : rd rcvt (Spec.letter n).toNat = .ok (BitVec.ofNat 8 n) :=
  rd_some (rcvt_letter ⟨n, h⟩)
theorem rd_pad : rd rcvt Spec.pad.toNat = .ok 65#8 := rd_some rcvt_pad

theorem lt65 {n : Nat} (h : n < 64) : ¬ (BitVec.ofNat 8 n).toNat ≥ 65 := by
  have := d3b ⟨n, h⟩
  simp only at this
  rw [this]; omega

theorem ofNat_of {a : Byte} {n : Nat} (h : a.toNat = n) : BitVec.ofNat 8 n = a := by
  rw [← h]; simp

theorem specEncode_length : ∀ d : List Byte, (Spec.encode d).length = 4 * ((d.length + 2) / 3)
  | [] => by simp [Spec.encode]
  | [_] => by simp [Spec.encode]
  | [_, _] => by simp [Spec.encode]
  | _ :: _ :: _ :: t => by
    simp [Spec.encode, specEncode_length t]; omega

/-- What the decoder really leaves behind the data: one zero byte if there was padding. -/
def surplus (d : List Byte) : List Byte := if d.length % 3 = 0 then [] else [0#8]

theorem sextet_lt (n k : Nat) : Spec.sextet n k < 64 := Nat.mod_lt _ (by omega)

theorem decodeLoop_eq (data : Buf) (cap : Nat) : ∀ (d : List Byte) (i : Nat) (out : Buf),
    data.drop i = Spec.encode d →
    out.length + 3 * ((d.length + 2) / 3) ≤ cap →
    decodeLoop data cap i out = .ok (out ++ d ++ surplus d)
  | [], i, out, hd, hc => by
    have : ¬ i < data.length := by simp [Spec.encode] at hd; omega
    unfold decodeLoop
    simp [this, surplus]
  | [a], i, out, hd, hc => by
    simp only [Spec.encode] at hd
    obtain ⟨h1, l1, hd⟩ := drop_get hd
    obtain ⟨h2, l2, hd⟩ := drop_get hd
    obtain ⟨h3, l3, hd⟩ := drop_get hd
    obtain ⟨h4, l4, hd⟩ := drop_get hd
    unfold decodeLoop
    simp at hc
    simp only [l1, if_true, rd_some h1, rd_some h2, rd_some h3, rd_some h4, bind, Except.bind, pure, Except.pure,
      rd_letter (sextet_lt _ _), rd_pad, lt65 (sextet_lt _ _), if_false, decide_false]
    rw [emit_ok (by omega), dec1 _ _ (sextet_lt _ _) (sextet_lt _ _)]
    simp
    rw [emit_ok (by simp; omega)]
    have al := a.isLt
    simp [surplus]
    constructor
    · apply ofNat_of; simp [Spec.sextet, Spec.group]; omega
    · have := dec2 (Spec.sextet (Spec.group a 0#8 0#8) 1) 0 (sextet_lt _ _) (by omega)
      simp at this
      rw [this]
      apply BitVec.eq_of_toNat_eq
      simp [Spec.sextet, Spec.group]; omega
  | [a, b], i, out, hd, hc => by
    simp only [Spec.encode] at hd
    obtain ⟨h1, l1, hd⟩ := drop_get hd
    obtain ⟨h2, l2, hd⟩ := drop_get hd
    obtain ⟨h3, l3, hd⟩ := drop_get hd
    obtain ⟨h4, l4, hd⟩ := drop_get hd
    unfold decodeLoop
    simp at hc
    simp only [l1, if_true, rd_some h1, rd_some h2, rd_some h3, rd_some h4, bind, Except.bind, pure, Except.pure,
      rd_letter (sextet_lt _ _), rd_pad, lt65 (sextet_lt _ _), if_false, decide_false]
    rw [emit_ok (by omega), dec1 _ _ (sextet_lt _ _) (sextet_lt _ _)]
    simp only [Bool.false_eq_true, if_false]
    rw [emit_ok (by simp; omega), dec2 _ _ (sextet_lt _ _) (sextet_lt _ _)]
    simp
    rw [emit_ok (by simp; omega)]
    have al := a.isLt
    have bl := b.isLt
    simp [surplus]
    refine ⟨?_, ?_, ?_⟩
    · apply ofNat_of; simp [Spec.sextet, Spec.group]; omega
    · apply ofNat_of; simp [Spec.sextet, Spec.group]; omega
    · have := dec3 (Spec.sextet (Spec.group a b 0#8) 2) 0 (sextet_lt _ _) (by omega)
      simp at this
      rw [this]
      apply BitVec.eq_of_toNat_eq
      simp [Spec.sextet, Spec.group]; omega
  | a :: b :: c :: t, i, out, hd, hc => by
    simp only [Spec.encode] at hd
    obtain ⟨h1, l1, hd⟩ := drop_get hd
    obtain ⟨h2, l2, hd⟩ := drop_get hd
    obtain ⟨h3, l3, hd⟩ := drop_get hd
    obtain ⟨h4, l4, hd⟩ := drop_get hd
    unfold decodeLoop
    simp at hc
    simp only [l1, if_true, rd_some h1, rd_some h2, rd_some h3, rd_some h4, bind, Except.bind, pure, Except.pure,
      rd_letter (sextet_lt _ _), rd_pad, lt65 (sextet_lt _ _), if_false, decide_false]
    rw [emit_ok (by omega), dec1 _ _ (sextet_lt _ _) (sextet_lt _ _)]
    simp only [Bool.false_eq_true, if_false]
    rw [emit_ok (by simp; omega), dec2 _ _ (sextet_lt _ _) (sextet_lt _ _)]
    simp only [Bool.false_eq_true, if_false]
    rw [emit_ok (by simp; omega), dec3 _ _ (sextet_lt _ _) (sextet_lt _ _)]
    simp only [Bool.false_eq_true, if_false]
    rw [decodeLoop_eq data cap t (i+4) _ hd (by simp; omega)]
    have al := a.isLt
    have bl := b.isLt
    have cl := c.isLt
    have hs : surplus (a :: b :: c :: t) = surplus t := by
      show (if (t.length + 3) % 3 = 0 then [] else [0#8]) = (if t.length % 3 = 0 then [] else [0#8])
      rw [Nat.add_mod_right]
    rw [hs]
    simp
    refine ⟨?_, ?_, ?_⟩
    · apply ofNat_of; simp [Spec.sextet, Spec.group]; omega
    · apply ofNat_of; simp [Spec.sextet, Spec.group]; omega
    · apply ofNat_of; simp [Spec.sextet, Spec.group]; omega

theorem rcvt_total (x : Byte) : ∃ y, rd rcvt x.toNat = .ok y := by
  have : x.toNat < rcvt.length := by rw [rcvt_len]; exact x.isLt
  exact ⟨_, rd_ok this⟩

/-- On texts whose length is a multiple of four the loop never leaves its buffers and
produces at most three bytes per quartet. -/
theorem decodeLoop_total (data : Buf) (cap : Nat) (h4 : data.length % 4 = 0) :
    ∀ (i : Nat) (out : Buf), i % 4 = 0 → i ≤ data.length → out.length + (data.length - i) * 3 / 4 ≤ cap →
    ∃ r, decodeLoop data cap i out = .ok r ∧ r.length ≤ out.length + (data.length - i) * 3 / 4 := by
  intro i out
  fun_induction decodeLoop data cap i out with
  | case2 i out h => intros; exact ⟨_, rfl, by omega⟩
  | case1 i out h ih =>
    intro hi hl hc
    have r1 := rd_ok (b := data) (i := i) (by omega)
    have r2 := rd_ok (b := data) (i := i+1) (by omega)
    have r3 := rd_ok (b := data) (i := i+2) (by omega)
    have r4 := rd_ok (b := data) (i := i+3) (by omega)
    obtain ⟨y1, t1⟩ := rcvt_total data[i]
    obtain ⟨y2, t2⟩ := rcvt_total data[i+1]
    obtain ⟨y3, t3⟩ := rcvt_total data[i+2]
    obtain ⟨y4, t4⟩ := rcvt_total data[i+3]
    simp only [r1, r2, r3, r4, bind, Except.bind, t1, t2, t3, t4, pure, Except.pure]
    rw [emit_ok (by omega)]
    simp only []
    split
    · exact ⟨_, rfl, by simp; omega⟩
    rw [emit_ok (by (try simp); omega)]
    simp only []
    split
    · exact ⟨_, rfl, by (try simp); omega⟩
    rw [emit_ok (by (try simp); omega)]
    simp only []
    split
    · exact ⟨_, rfl, by (try simp); omega⟩
    have key : ∀ o : Buf, o.length = out.length + 3 → ∃ r, decodeLoop data cap (i + 4) o = .ok r ∧
        r.length ≤ out.length + (data.length - i) * 3 / 4 := by
      intro o ho
      obtain ⟨r, hr, hr2⟩ := ih o (by omega) (by omega) (by omega)
      exact ⟨r, hr, by omega⟩
    exact key _ (by simp)

end Verif.Base64
