import Verif.Serializer.Lemmas
/-
Property theorems for src/core/Serializer.cpp (C01).

 * `serializeX_spec`: inside the buffer the call succeeds, returns the number of bytes and the
   new buffer is the old one with exactly the window replaced by the big or little endian bytes
   (`Spec.splice`, `Spec.beBytes`, `Spec.leBytes`);
 * `deserializeX_spec`: reading a window that holds those bytes gives the value back;
 * `X_roundtrip`: reading after writing returns the value written.
 * `X_outside`: beyond the end of the buffer the code has undefined behaviour (there is no check).
-/
set_option linter.unusedSimpArgs false
namespace Verif.Serializer
open Verif Spec

local macro "ser_write" d:ident : tactic => `(tactic|
  (simp only [$d:ident]
   repeat
     first
     | rw [ix32_eq (by omega)]
   repeat
     (rw [wr_app _ _ _ _ _ (by simp)]
      try simp only [bind, Except.bind])
   simp only [pure, Except.pure, sar8, sar_sar, shr8, lo, shr_shr, Nat.reduceAdd]
   simp [lo0, beBytes, leBytes, List.range_succ, sar_lo _ 1, sar_lo _ 2, sar_lo _ 3,
     sar_lo _ 4, sar_lo _ 5, sar_lo _ 6, sar_lo _ 7,
     shr_lo _ 1, shr_lo _ 2, shr_lo _ 3, shr_lo _ 4, shr_lo _ 5, shr_lo _ 6, shr_lo _ 7]))

theorem serializeBEInt16_spec (b : Buf) (o : Nat) (v : BitVec 16)
    (h : o + 2 ≤ b.length) (hb : b.length ≤ 2 ^ 32) :
    serializeBEInt16 b o v = .ok (splice b o (beBytes 2 v), 2) := by
  obtain ⟨p, w, q, rfl, rfl, hw⟩ := split_window b o 2 h
  simp only [List.length_append, hw] at h hb
  match w, hw with
  | [w0, w1], _ =>
  rw [splice_app _ _ _ _ (by simp [beBytes, leBytes])]
  ser_write serializeBEInt16

theorem serializeBEInt24_spec (b : Buf) (o : Nat) (v : BitVec 32)
    (h : o + 3 ≤ b.length) (hb : b.length ≤ 2 ^ 32) :
    serializeBEInt24 b o v = .ok (splice b o (beBytes 3 v), 3) := by
  obtain ⟨p, w, q, rfl, rfl, hw⟩ := split_window b o 3 h
  simp only [List.length_append, hw] at h hb
  match w, hw with
  | [w0, w1, w2], _ =>
  rw [splice_app _ _ _ _ (by simp [beBytes, leBytes])]
  ser_write serializeBEInt24

theorem serializeBEInt32_spec (b : Buf) (o : Nat) (v : BitVec 32)
    (h : o + 4 ≤ b.length) (hb : b.length ≤ 2 ^ 32) :
    serializeBEInt32 b o v = .ok (splice b o (beBytes 4 v), 4) := by
  obtain ⟨p, w, q, rfl, rfl, hw⟩ := split_window b o 4 h
  simp only [List.length_append, hw] at h hb
  match w, hw with
  | [w0, w1, w2, w3], _ =>
  rw [splice_app _ _ _ _ (by simp [beBytes, leBytes])]
  ser_write serializeBEInt32

theorem serializeBEInt64_spec (b : Buf) (o : Nat) (v : BitVec 64)
    (h : o + 8 ≤ b.length) (hb : b.length ≤ 2 ^ 32) :
    serializeBEInt64 b o v = .ok (splice b o (beBytes 8 v), 8) := by
  obtain ⟨p, w, q, rfl, rfl, hw⟩ := split_window b o 8 h
  simp only [List.length_append, hw] at h hb
  match w, hw with
  | [w0, w1, w2, w3, w4, w5, w6, w7], _ =>
  rw [splice_app _ _ _ _ (by simp [beBytes, leBytes])]
  ser_write serializeBEInt64

theorem serializeLEInt16_spec (b : Buf) (o : Nat) (v : BitVec 16)
    (h : o + 2 ≤ b.length) (hb : b.length ≤ 2 ^ 32) :
    serializeLEInt16 b o v = .ok (splice b o (leBytes 2 v), 2) := by
  obtain ⟨p, w, q, rfl, rfl, hw⟩ := split_window b o 2 h
  simp only [List.length_append, hw] at h hb
  match w, hw with
  | [w0, w1], _ =>
  rw [splice_app _ _ _ _ (by simp [beBytes, leBytes])]
  ser_write serializeLEInt16

theorem serializeLEUInt16_spec (b : Buf) (o : Nat) (v : BitVec 16)
    (h : o + 2 ≤ b.length) (hb : b.length ≤ 2 ^ 32) :
    serializeLEUInt16 b o v = .ok (splice b o (leBytes 2 v), 2) := by
  obtain ⟨p, w, q, rfl, rfl, hw⟩ := split_window b o 2 h
  simp only [List.length_append, hw] at h hb
  match w, hw with
  | [w0, w1], _ =>
  rw [splice_app _ _ _ _ (by simp [beBytes, leBytes])]
  ser_write serializeLEUInt16

theorem serializeLEInt24_spec (b : Buf) (o : Nat) (v : BitVec 32)
    (h : o + 3 ≤ b.length) (hb : b.length ≤ 2 ^ 32) :
    serializeLEInt24 b o v = .ok (splice b o (leBytes 3 v), 3) := by
  obtain ⟨p, w, q, rfl, rfl, hw⟩ := split_window b o 3 h
  simp only [List.length_append, hw] at h hb
  match w, hw with
  | [w0, w1, w2], _ =>
  rw [splice_app _ _ _ _ (by simp [beBytes, leBytes])]
  ser_write serializeLEInt24

theorem serializeLEInt32_spec (b : Buf) (o : Nat) (v : BitVec 32)
    (h : o + 4 ≤ b.length) (hb : b.length ≤ 2 ^ 32) :
    serializeLEInt32 b o v = .ok (splice b o (leBytes 4 v), 4) := by
  obtain ⟨p, w, q, rfl, rfl, hw⟩ := split_window b o 4 h
  simp only [List.length_append, hw] at h hb
  match w, hw with
  | [w0, w1, w2, w3], _ =>
  rw [splice_app _ _ _ _ (by simp [beBytes, leBytes])]
  ser_write serializeLEInt32

theorem serializeLEInt64_spec (b : Buf) (o : Nat) (v : BitVec 64)
    (h : o + 8 ≤ b.length) (hb : b.length ≤ 2 ^ 32) :
    serializeLEInt64 b o v = .ok (splice b o (leBytes 8 v), 8) := by
  obtain ⟨p, w, q, rfl, rfl, hw⟩ := split_window b o 8 h
  simp only [List.length_append, hw] at h hb
  match w, hw with
  | [w0, w1, w2, w3, w4, w5, w6, w7], _ =>
  rw [splice_app _ _ _ _ (by simp [beBytes, leBytes])]
  ser_write serializeLEInt64

theorem serializeLEDouble_spec (b : Buf) (o : Nat) (v : BitVec 64)
    (h : o + 8 ≤ b.length) (hb : b.length ≤ 2 ^ 32) :
    serializeLEDouble b o v = .ok (splice b o (leBytes 8 v), 8) := by
  obtain ⟨p, w, q, rfl, rfl, hw⟩ := split_window b o 8 h
  simp only [List.length_append, hw] at h hb
  match w, hw with
  | [w0, w1, w2, w3, w4, w5, w6, w7], _ =>
  rw [splice_app _ _ _ _ (by simp [beBytes, leBytes])]
  ser_write serializeLEDouble

theorem serializeLEFloat_spec (b : Buf) (o : Nat) (v : BitVec 64)
    (h : o + 4 ≤ b.length) (hb : b.length ≤ 2 ^ 32) :
    serializeLEFloat b o v = .ok (splice b o (leBytes 4 v), 4) := by
  obtain ⟨p, w, q, rfl, rfl, hw⟩ := split_window b o 4 h
  simp only [List.length_append, hw] at h hb
  match w, hw with
  | [w0, w1, w2, w3], _ =>
  rw [splice_app _ _ _ _ (by simp [beBytes, leBytes])]
  ser_write serializeLEFloat

/-- Exact failure condition (no bounds check in the code). -/
theorem serializeBEInt32_outside (b : Buf) (o : Nat) (v : BitVec 32)
    (h : b.length < o + 4) (ho : o + 4 ≤ 2 ^ 32) :
    serializeBEInt32 b o v = .error .ub := by
  simp only [serializeBEInt32]
  rw [ix32_eq (by omega)]
  simp only [wr]
  rw [if_neg (by omega)]
  rfl

theorem deserializeBE16_spec (p q : Buf) (v : BitVec 16) (h : (p ++ beBytes 2 v ++ q).length ≤ 2 ^ 32) :
    deserializeBE16 (p ++ beBytes 2 v ++ q) p.length = .ok v := by
  simp [beBytes, leBytes] at h
  simp only [deserializeBE16]
  repeat rw [ix32_eq (by omega)]
  repeat
    rw [rd_app _ _ _ _ (by simp [beBytes, leBytes])]
    simp only [bind, Except.bind]
  simp [beBytes, leBytes, List.range_succ, pure, Except.pure, int]
  exact join16' v

theorem deserializeLE16_spec (p q : Buf) (v : BitVec 16) (h : (p ++ leBytes 2 v ++ q).length ≤ 2 ^ 32) :
    deserializeLE16 (p ++ leBytes 2 v ++ q) p.length = .ok v := by
  simp [beBytes, leBytes] at h
  simp only [deserializeLE16]
  repeat rw [ix32_eq (by omega)]
  repeat
    rw [rd_app _ _ _ _ (by simp [beBytes, leBytes])]
    simp only [bind, Except.bind]
  simp [beBytes, leBytes, List.range_succ, pure, Except.pure, int]
  exact join16' v

theorem deserializeBE32_spec (p q : Buf) (v : BitVec 32) (h : (p ++ beBytes 4 v ++ q).length ≤ 2 ^ 32) :
    deserializeBE32 (p ++ beBytes 4 v ++ q) p.length = .ok v := by
  simp [beBytes, leBytes] at h
  have g := fun k hk => get_window p (beBytes 4 v) q k hk
  rw [deserializeBE32_get (b := p ++ beBytes _ v ++ q) (x0 := byteOf v 3) (x1 := byteOf v 2) (x2 := byteOf v 1) (x3 := byteOf v 0)
    (o := p.length) (ho := by omega) (h0 := g 0 (by simp [beBytes, leBytes])) (h1 := g 1 (by simp [beBytes, leBytes])) (h2 := g 2 (by simp [beBytes, leBytes])) (h3 := g 3 (by simp [beBytes, leBytes]))]
  have := join32 v 0
  simp at this
  simp [this]

theorem deserializeLE32_spec (p q : Buf) (v : BitVec 32) (h : (p ++ leBytes 4 v ++ q).length ≤ 2 ^ 32) :
    deserializeLE32 (p ++ leBytes 4 v ++ q) p.length = .ok v := by
  simp [beBytes, leBytes] at h
  have g := fun k hk => get_window p (leBytes 4 v) q k hk
  rw [deserializeLE32_get (b := p ++ leBytes _ v ++ q) (x0 := byteOf v 0) (x1 := byteOf v 1) (x2 := byteOf v 2) (x3 := byteOf v 3)
    (o := p.length) (ho := by omega) (h0 := g 0 (by simp [beBytes, leBytes])) (h1 := g 1 (by simp [beBytes, leBytes])) (h2 := g 2 (by simp [beBytes, leBytes])) (h3 := g 3 (by simp [beBytes, leBytes]))]
  have := join32 v 0
  simp at this
  simp [this]

theorem deserializeBE64_spec (p q : Buf) (v : BitVec 64) (h : (p ++ beBytes 8 v ++ q).length ≤ 2 ^ 32) :
    deserializeBE64 (p ++ beBytes 8 v ++ q) p.length = .ok v := by
  simp [beBytes, leBytes] at h
  have g := fun k hk => get_window p (beBytes 8 v) q k hk
  simp only [deserializeBE64]
  rw [ix32_eq (by omega)]
  rw [deserializeBE32_get (b := p ++ beBytes _ v ++ q) (x0 := byteOf v 7) (x1 := byteOf v 6) (x2 := byteOf v 5) (x3 := byteOf v 4)
    (o := p.length) (ho := by omega) (h0 := g 0 (by simp [beBytes, leBytes])) (h1 := g 1 (by simp [beBytes, leBytes])) (h2 := g 2 (by simp [beBytes, leBytes])) (h3 := g 3 (by simp [beBytes, leBytes]))]
  rw [deserializeBE32_get (b := p ++ beBytes _ v ++ q) (x0 := byteOf v 3) (x1 := byteOf v 2) (x2 := byteOf v 1) (x3 := byteOf v 0)
    (o := p.length + 4) (ho := by omega) (h0 := g 4 (by simp [beBytes, leBytes])) (h1 := g 5 (by simp [beBytes, leBytes])) (h2 := g 6 (by simp [beBytes, leBytes])) (h3 := g 7 (by simp [beBytes, leBytes]))]
  have a := join32 v 0
  have b := join32 v 4
  simp only [Nat.zero_add, Nat.reduceMul, Nat.reduceAdd] at a b
  rw [a, b]
  simp only [bind, Except.bind, pure, Except.pure]
  rw [join64]

theorem deserializeLE64_spec (p q : Buf) (v : BitVec 64) (h : (p ++ leBytes 8 v ++ q).length ≤ 2 ^ 32) :
    deserializeLE64 (p ++ leBytes 8 v ++ q) p.length = .ok v := by
  simp [beBytes, leBytes] at h
  have g := fun k hk => get_window p (leBytes 8 v) q k hk
  simp only [deserializeLE64]
  rw [ix32_eq (by omega)]
  rw [deserializeLE32_get (b := p ++ leBytes _ v ++ q) (x0 := byteOf v 4) (x1 := byteOf v 5) (x2 := byteOf v 6) (x3 := byteOf v 7)
    (o := p.length + 4) (ho := by omega) (h0 := g 4 (by simp [beBytes, leBytes])) (h1 := g 5 (by simp [beBytes, leBytes])) (h2 := g 6 (by simp [beBytes, leBytes])) (h3 := g 7 (by simp [beBytes, leBytes]))]
  rw [deserializeLE32_get (b := p ++ leBytes _ v ++ q) (x0 := byteOf v 0) (x1 := byteOf v 1) (x2 := byteOf v 2) (x3 := byteOf v 3)
    (o := p.length) (ho := by omega) (h0 := g 0 (by simp [beBytes, leBytes])) (h1 := g 1 (by simp [beBytes, leBytes])) (h2 := g 2 (by simp [beBytes, leBytes])) (h3 := g 3 (by simp [beBytes, leBytes]))]
  have a := join32 v 0
  have b := join32 v 4
  simp only [Nat.zero_add, Nat.reduceMul, Nat.reduceAdd] at a b
  rw [a, b]
  simp only [bind, Except.bind, pure, Except.pure]
  rw [join64]

theorem deserializeLEDouble_spec (p q : Buf) (v : BitVec 64) (h : (p ++ leBytes 8 v ++ q).length ≤ 2 ^ 32) :
    deserializeLEDouble (p ++ leBytes 8 v ++ q) p.length = .ok v := by
  simp [beBytes, leBytes] at h
  simp only [deserializeLEDouble]
  repeat rw [ix32_eq (by omega)]
  repeat
    rw [rd_app _ _ _ _ (by simp [beBytes, leBytes])]
    simp only [bind, Except.bind]
  simp only [beBytes, leBytes, List.range_succ, pure, Except.pure]
  exact congrArg _ (joinDouble v)

/-! ### Round trips -/

/-- A write followed by the matching read, as one would chain them in C++. -/
def writeThenRead {w : Nat} (write : Buf → Nat → BitVec w → Res (Buf × Nat))
    (read : Buf → Nat → Res (BitVec w)) (b : Buf) (o : Nat) (v : BitVec w) : Res (BitVec w) :=
  match write b o v with
  | .ok r => read r.1 o
  | .error e => .error e

theorem roundtrip_BE16 (b : Buf) (o : Nat) (v : BitVec 16)
    (h : o + 2 ≤ b.length) (hb : b.length ≤ 2 ^ 32) :
    writeThenRead serializeBEInt16 deserializeBE16 b o v = .ok v := by
  obtain ⟨p, w, q, rfl, rfl, hw⟩ := split_window b o 2 h
  rw [writeThenRead, serializeBEInt16_spec _ _ _ h hb, splice_app _ _ _ _ (by simp [beBytes, leBytes, hw])]
  exact deserializeBE16_spec p q v (by simpa [beBytes, leBytes, hw] using hb)

theorem roundtrip_BE32 (b : Buf) (o : Nat) (v : BitVec 32)
    (h : o + 4 ≤ b.length) (hb : b.length ≤ 2 ^ 32) :
    writeThenRead serializeBEInt32 deserializeBE32 b o v = .ok v := by
  obtain ⟨p, w, q, rfl, rfl, hw⟩ := split_window b o 4 h
  rw [writeThenRead, serializeBEInt32_spec _ _ _ h hb, splice_app _ _ _ _ (by simp [beBytes, leBytes, hw])]
  exact deserializeBE32_spec p q v (by simpa [beBytes, leBytes, hw] using hb)

theorem roundtrip_BE64 (b : Buf) (o : Nat) (v : BitVec 64)
    (h : o + 8 ≤ b.length) (hb : b.length ≤ 2 ^ 32) :
    writeThenRead serializeBEInt64 deserializeBE64 b o v = .ok v := by
  obtain ⟨p, w, q, rfl, rfl, hw⟩ := split_window b o 8 h
  rw [writeThenRead, serializeBEInt64_spec _ _ _ h hb, splice_app _ _ _ _ (by simp [beBytes, leBytes, hw])]
  exact deserializeBE64_spec p q v (by simpa [beBytes, leBytes, hw] using hb)

theorem roundtrip_LE16 (b : Buf) (o : Nat) (v : BitVec 16)
    (h : o + 2 ≤ b.length) (hb : b.length ≤ 2 ^ 32) :
    writeThenRead serializeLEInt16 deserializeLE16 b o v = .ok v := by
  obtain ⟨p, w, q, rfl, rfl, hw⟩ := split_window b o 2 h
  rw [writeThenRead, serializeLEInt16_spec _ _ _ h hb, splice_app _ _ _ _ (by simp [beBytes, leBytes, hw])]
  exact deserializeLE16_spec p q v (by simpa [beBytes, leBytes, hw] using hb)

theorem roundtrip_LEU16 (b : Buf) (o : Nat) (v : BitVec 16)
    (h : o + 2 ≤ b.length) (hb : b.length ≤ 2 ^ 32) :
    writeThenRead serializeLEUInt16 deserializeLE16 b o v = .ok v := by
  obtain ⟨p, w, q, rfl, rfl, hw⟩ := split_window b o 2 h
  rw [writeThenRead, serializeLEUInt16_spec _ _ _ h hb, splice_app _ _ _ _ (by simp [beBytes, leBytes, hw])]
  exact deserializeLE16_spec p q v (by simpa [beBytes, leBytes, hw] using hb)

theorem roundtrip_LE32 (b : Buf) (o : Nat) (v : BitVec 32)
    (h : o + 4 ≤ b.length) (hb : b.length ≤ 2 ^ 32) :
    writeThenRead serializeLEInt32 deserializeLE32 b o v = .ok v := by
  obtain ⟨p, w, q, rfl, rfl, hw⟩ := split_window b o 4 h
  rw [writeThenRead, serializeLEInt32_spec _ _ _ h hb, splice_app _ _ _ _ (by simp [beBytes, leBytes, hw])]
  exact deserializeLE32_spec p q v (by simpa [beBytes, leBytes, hw] using hb)

theorem roundtrip_LE64 (b : Buf) (o : Nat) (v : BitVec 64)
    (h : o + 8 ≤ b.length) (hb : b.length ≤ 2 ^ 32) :
    writeThenRead serializeLEInt64 deserializeLE64 b o v = .ok v := by
  obtain ⟨p, w, q, rfl, rfl, hw⟩ := split_window b o 8 h
  rw [writeThenRead, serializeLEInt64_spec _ _ _ h hb, splice_app _ _ _ _ (by simp [beBytes, leBytes, hw])]
  exact deserializeLE64_spec p q v (by simpa [beBytes, leBytes, hw] using hb)

theorem roundtrip_LEDouble (b : Buf) (o : Nat) (v : BitVec 64)
    (h : o + 8 ≤ b.length) (hb : b.length ≤ 2 ^ 32) :
    writeThenRead serializeLEDouble deserializeLEDouble b o v = .ok v := by
  obtain ⟨p, w, q, rfl, rfl, hw⟩ := split_window b o 8 h
  rw [writeThenRead, serializeLEDouble_spec _ _ _ h hb, splice_app _ _ _ _ (by simp [beBytes, leBytes, hw])]
  exact deserializeLEDouble_spec p q v (by simpa [beBytes, leBytes, hw] using hb)

/-- The little- and big-endian layouts are mirror images. -/
theorem be_is_reversed_le {w : Nat} (n : Nat) (v : BitVec w) : beBytes n v = (leBytes n v).reverse := rfl

/-- Non-vacuity: a concrete negative value in the middle of a buffer. -/
example : serializeBEInt32 (List.replicate 6 0xAA#8) 1 (BitVec.ofInt 32 (-2)) =
    .ok ([0xAA#8, 0xFF#8, 0xFF#8, 0xFF#8, 0xFE#8, 0xAA#8], 4) := by decide
example : (1 + 4 ≤ (List.replicate 6 0xAA#8).length) ∧ (List.replicate 6 0xAA#8).length ≤ 2 ^ 32 := by decide
example : writeThenRead serializeLEInt64 deserializeLE64 (List.replicate 9 0#8) 1 (BitVec.ofInt 64 (-12345678901)) =
    .ok (BitVec.ofInt 64 (-12345678901)) := by decide

end Verif.Serializer
