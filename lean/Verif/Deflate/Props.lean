import Verif.Deflate.Model
import Verif.Inflate.Props
import Mathlib.Data.Finset.Card
/-
C106: what Deflater makes of bytes, and Inflater of the result.
-/
namespace Verif.Deflate.Props
open Verif Verif.Deflate Verif.Inflate

/-! ### Specification -/

/-- `s` is a zlib stream (RFC 1950, RFC 1951) for the bytes `x`, as zlib begins it at its best level: two bytes of header, blocks, the bits up
to the next byte, a checksum of four bytes (whose value does not matter here). -/
def Stream (x s : List Byte) : Prop :=
  ∃ bs body rest, s = 0x78 :: 0xDA :: body ∧ bitsOf body = encode bs ++ rest ∧ 32 ≤ rest.length ∧ StreamOk 16 [] bs ∧ decoded [] bs = x

/-- what is known about zlib: its streams stand for the bytes -/
def IsZlib (z : Zlib) : Prop := ∀ x, Stream x (z x)

/-- the same for one input, whose stream the library's own Inflater understands (C46) -/
def Readable (x s : List Byte) : Prop :=
  ∃ bs body rest, s = 0x78 :: 0xDA :: body ∧ bitsOf body = encode bs ++ rest ∧ 32 ≤ rest.length ∧ StreamOk 16 [] bs ∧ StreamNear [] bs ∧
    decoded [] bs = x

/-- `Deflater d; d.setInput(x, x.length); d.deflate(buffer, length)` -/
def deflated (z : Zlib) (x : List Byte) : Res (List Byte) := ((Deflater.new.setInput x x.length).deflate z).map (·.1)

/-- `Inflater i; i.SetInput(s, length); i.Inflate(buffer, length)` -/
def inflated (s : List Byte) : Res (List Byte) := (inflate ((St.new false).setInput s)).map (·.out)

/-! ### Lemmas -/

theorem deflated_eq (z : Zlib) (x : List Byte) (h : x.length < 2 ^ 32) : deflated z x = .ok ((z x).take x.length) := by
  have h1 : ¬ (x.length : Int) < 0 := by omega
  have h2 : x.length % 2 ^ 32 = x.length := Nat.mod_eq_of_lt h
  simp only [deflated, Deflater.deflate, Deflater.setInput, h1, if_false, Int.toNat_natCast, h2, Nat.lt_irrefl, List.take_length, Except.map]

theorem bitsOf_length (l : List Byte) : (bitsOf l).length = 8 * l.length := by
  induction l with
  | nil => rfl
  | cons b l ih =>
    show (byteBits b ++ bitsOf l).length = _
    rw [List.length_append, ih, List.length_cons]
    simp [byteBits]; omega

theorem numBits_length (n v : Nat) : (numBits n v).length = n := by
  induction n generalizing v with
  | zero => rfl
  | succ n ih => simp [numBits, ih]

theorem block_bits (f : Bool) (b : Block) : 10 ≤ (b.encode f).length := by
  have e : (b.encode f).length = 3 + b.bits.length := by
    simp only [Block.encode, List.length_cons, List.length_append, numBits_length, List.cons_append]; omega
  rw [e]
  cases b with
  | stored pad bytes => simp only [Block.bits, List.length_append, numBits_length]; omega
  | fixed toks =>
    have : (codeWord fixedLit 256).length = 7 := by decide +kernel
    simp only [Block.bits, List.length_append, this]; omega
  | dyn h toks =>
    have : 14 ≤ h.bits.length := by simp only [Dyn.bits, List.length_append, numBits_length]; omega
    simp only [Block.bits, List.length_append]; omega

theorem encode_bits (bs : List Block) (p : Nat) (out : List Byte) (h : StreamOk p out bs) : 10 ≤ (encode bs).length := by
  match bs, h with
  | [], h => exact absurd h id
  | [b], _ => exact block_bits true b
  | b :: c :: bs, _ =>
    have := block_bits false b
    simp only [encode, List.length_append]; omega

/-- a zlib stream has at least eight bytes -/
theorem stream_length {x s : List Byte} (h : Stream x s) : 8 ≤ s.length := by
  obtain ⟨bs, body, rest, rfl, hb, hr, ok, _⟩ := h
  have h1 := congrArg List.length hb
  rw [bitsOf_length, List.length_append] at h1
  have h2 := encode_bits bs _ _ ok
  simp only [List.length_cons]; omega

/-! counting -/

def bytesOf : Nat → Nat → List Byte
  | 0, _ => []
  | n + 1, i => BitVec.ofNat 8 (i % 256) :: bytesOf n (i / 256)

theorem bytesOf_length (n i : Nat) : (bytesOf n i).length = n := by
  induction n generalizing i with
  | zero => rfl
  | succ n ih => simp [bytesOf, ih]

theorem bytesOf_inj (n i j : Nat) (hi : i < 256 ^ n) (hj : j < 256 ^ n) (h : bytesOf n i = bytesOf n j) : i = j := by
  induction n generalizing i j with
  | zero => simp at hi hj; omega
  | succ n ih =>
    simp only [bytesOf, List.cons.injEq] at h
    have h1 := congrArg BitVec.toNat h.1
    simp only [BitVec.toNat_ofNat] at h1
    rw [Nat.pow_succ] at hi hj
    have := ih (i / 256) (j / 256) (by omega) (by omega) h.2
    omega

def code : List Byte → Nat
  | [] => 1
  | b :: t => 256 * code t + b.toNat

theorem code_pos (t : List Byte) : 1 ≤ code t := by
  induction t with
  | nil => simp [code]
  | cons b t ih => simp only [code]; omega

theorem code_lt (t : List Byte) : code t < 2 * 256 ^ t.length := by
  induction t with
  | nil => simp [code]
  | cons b t ih =>
    have := b.isLt
    simp only [code, List.length_cons, Nat.pow_succ]; omega

theorem code_inj (s t : List Byte) (h : code s = code t) : s = t := by
  induction s generalizing t with
  | nil =>
    cases t with
    | nil => rfl
    | cons b t => have := code_pos t; simp only [code] at h; omega
  | cons a s ih =>
    cases t with
    | nil => have := code_pos s; simp only [code] at h; omega
    | cons b t =>
      have ha := a.isLt
      have hb := b.isLt
      simp only [code] at h
      have h1 : a.toNat = b.toNat := by omega
      have h2 : code s = code t := by omega
      rw [BitVec.eq_of_toNat_eq h1, ih t h2]

/-! ### Theorems -/

/-- **C106** Bytes that zlib can compress into at most as many bytes are compressed to the complete stream, and Inflater gives back exactly
these bytes.  Missing: bytes whose stream is longer (`not_injective`, `short_incomplete`), 4 GiB and more (`long_input_cut`), and the
streams that Inflater does not decode (C46). -/
theorem deflate_inflate_partial (z : Zlib) (x : List Byte) (hz : Readable x (z x)) (hfit : (z x).length ≤ x.length) (h32 : x.length < 2 ^ 32) :
    deflated z x = .ok (z x) ∧ inflated (z x) = .ok x := by
  constructor
  · rw [deflated_eq z x h32, List.take_of_length_le hfit]
  · obtain ⟨bs, body, rest, e, hb, _, ok, near, hd⟩ := hz
    rw [e]
    obtain ⟨s, h1, h2, _⟩ := inflate_zlib_partial 0x78 0xDA (by decide) bs body rest hb ok near
    simp only [inflated, h1, Except.map, h2, hd]

/-- **C106** In every case the output is a beginning of the zlib stream, no longer than the input. -/
theorem deflated_prefix (z : Zlib) (x : List Byte) (h32 : x.length < 2 ^ 32) : ∃ o, deflated z x = .ok o ∧ o <+: z x ∧ o.length ≤ x.length :=
  ⟨_, deflated_eq z x h32, List.take_prefix _ _, by rw [List.length_take]; omega⟩

/-- Violation, whatever zlib does (as long as its streams begin with their header): among the inputs of any one length two different ones
have the same output, so that no decompressor can restore both. -/
theorem not_injective (z : Zlib) (hz : IsZlib z) (n : Nat) (h0 : 0 < n) (h32 : n < 2 ^ 32) :
    ∃ x y o, x.length = n ∧ y.length = n ∧ x ≠ y ∧ deflated z x = .ok o ∧ deflated z y = .ok o := by
  obtain ⟨k, rfl⟩ : ∃ k, n = k + 1 := ⟨n - 1, by omega⟩
  let f : Nat → Nat := fun i => code ((z (bytesOf (k + 1) i)).take (k + 1)).tail
  have hhead : ∀ x, ∃ t, z x = 0x78 :: t := by
    intro x
    obtain ⟨bs, body, rest, e, _⟩ := hz x
    exact ⟨_, e⟩
  have hlt : 2 * 256 ^ k < 256 ^ (k + 1) := by
    have := Nat.pow_pos (n := k) (show 0 < 256 by omega)
    rw [Nat.pow_succ]; omega
  obtain ⟨i, hi, j, hj, hne, he⟩ := Finset.exists_ne_map_eq_of_card_lt_of_maps_to
    (s := Finset.range (256 ^ (k + 1))) (t := Finset.range (2 * 256 ^ k)) (f := f) (by simpa using hlt) (by
      intro i _
      simp only [Finset.coe_range, Set.mem_Iio]
      obtain ⟨t, ht⟩ := hhead (bytesOf (k + 1) i)
      have h1 := code_lt ((z (bytesOf (k + 1) i)).take (k + 1)).tail
      have h2 : ((z (bytesOf (k + 1) i)).take (k + 1)).tail.length ≤ k := by
        rw [List.length_tail, List.length_take]; omega
      have h3 := Nat.pow_le_pow_right (show 0 < 256 by omega) h2
      show code _ < _
      omega)
  rw [Finset.mem_range] at hi hj
  refine ⟨bytesOf (k + 1) i, bytesOf (k + 1) j, (z (bytesOf (k + 1) i)).take (k + 1), bytesOf_length _ _, bytesOf_length _ _,
    fun h => hne (bytesOf_inj _ _ _ hi hj h), ?_, ?_⟩
  · rw [deflated_eq z _ (by rw [bytesOf_length]; exact h32), bytesOf_length]
  · rw [deflated_eq z _ (by rw [bytesOf_length]; exact h32), bytesOf_length]
    have h := code_inj _ _ he
    obtain ⟨t, ht⟩ := hhead (bytesOf (k + 1) i)
    obtain ⟨u, hu⟩ := hhead (bytesOf (k + 1) j)
    rw [ht, hu] at h ⊢
    simp only [List.take_succ_cons, List.tail_cons] at h ⊢
    rw [h]

/-- Violation: an input of up to seven bytes is never compressed completely. -/
theorem short_incomplete (z : Zlib) (hz : IsZlib z) (x : List Byte) (h : x.length ≤ 7) : ∃ o, deflated z x = .ok o ∧ o.length < (z x).length := by
  refine ⟨_, deflated_eq z x (by omega), ?_⟩
  have := stream_length (hz x)
  rw [List.length_take]; omega

/-- Violation: no bytes become no bytes, which Inflater rejects; the same for one byte. -/
theorem empty_rejected (z : Zlib) (hz : IsZlib z) (x : List Byte) (h : x.length ≤ 1) :
    ∃ o, deflated z x = .ok o ∧ inflated o = .error .thrown := by
  refine ⟨_, deflated_eq z x (by omega), ?_⟩
  have : inflate ((St.new false).setInput ((z x).take x.length)) = .error .thrown := by
    apply header_rejects
    intro a b c e
    have := congrArg List.length e
    rw [List.length_take] at this
    simp only [List.length_cons] at this
    omega
  simp only [inflated, this, Except.map]

/-- Violation: from 4 GiB on only the first `length` modulo 2^32 bytes are compressed: what follows them is lost. -/
theorem long_input_cut (z : Zlib) (x y : List Byte) (hl : x.length = y.length)
    (h : x.take (x.length % 2 ^ 32) = y.take (y.length % 2 ^ 32)) : deflated z x = deflated z y := by
  have h1 : ∀ x : List Byte, deflated z x = .ok ((z (x.take (x.length % 2 ^ 32))).take (x.length % 2 ^ 32)) := by
    intro x
    have h1 : ¬ (x.length : Int) < 0 := by omega
    have h2 : ¬ x.length < x.length % 2 ^ 32 := by have := Nat.mod_le x.length (2 ^ 32); omega
    simp only [deflated, Deflater.deflate, Deflater.setInput, h1, if_false, Int.toNat_natCast, h2, Except.map]
  rw [h1, h1, h, hl]

example (a b : List Byte) (ha : a.length = 2 ^ 32) (hb : b.length = 2 ^ 32) :
    a.take (a.length % 2 ^ 32) = b.take (b.length % 2 ^ 32) := by simp [ha, hb]

/-- Violation: deflate before setInput reads members that were never initialised. -/
theorem deflate_first (z : Zlib) : Deflater.new.deflate z = .error .ub := rfl

/-- bytes given to the object since the last reset; `n` were given before -/
def bytesIn (n : Nat) : List Call → Nat
  | [] => n
  | .setInput b :: h => bytesIn (n + b.length) h
  | .reset :: h => bytesIn 0 h
  | .deflate :: h => bytesIn n h

/-- bytes returned since the last reset -/
def bytesOut (n : Nat) : List Call → List (List Byte) → Nat
  | .deflate :: h, o :: outs => bytesOut (n + o.length) h outs
  | .reset :: h, outs => bytesOut 0 h outs
  | .setInput _ :: h, outs => bytesOut n h outs
  | _, _ => n

/-- what the deflate calls return; `b` are the bytes given last -/
def lastOutputs (z : Zlib) (b : List Byte) : List Call → List (List Byte)
  | [] => []
  | .setInput x :: h => lastOutputs z x h
  | .reset :: h => lastOutputs z [] h
  | .deflate :: h => (z b).take b.length :: lastOutputs z b h

theorem totals_from (z : Zlib) (h : List Call) (d d' : Deflater) (n m : Nat) (outs : List (List Byte)) (hi : d.totalIn = n) (ho : d.totalOut = m)
    (hr : run z d h = .ok (outs, d')) : d'.totalInSize = bytesIn n h ∧ d'.totalOutSize = bytesOut m h outs := by
  induction h generalizing d n m outs with
  | nil => cases hr; exact ⟨hi, ho⟩
  | cons c h ih =>
    cases c with
    | setInput b => exact ih (d.setInput b b.length) (n + b.length) m outs (by simp [Deflater.setInput, hi]) ho hr
    | reset => exact ih d.reset 0 0 outs rfl rfl hr
    | deflate =>
      simp only [run] at hr
      cases hd : d.deflate z with
      | error e => rw [hd] at hr; cases hr
      | ok p =>
        obtain ⟨o, d1⟩ := p
        rw [hd] at hr
        simp only at hr
        cases hq : run z d1 h with
        | error e => rw [hq] at hr; cases hr
        | ok q =>
          obtain ⟨os, d2⟩ := q
          rw [hq] at hr
          simp only [Except.map, Except.ok.injEq, Prod.mk.injEq] at hr
          obtain ⟨rfl, rfl⟩ := hr
          have hd1 : d1 = { d with totalOut := d.totalOut + o.length } := by
            simp only [Deflater.deflate] at hd
            split at hd
            · cases hd
            · split at hd
              · cases hd
              · split at hd
                · cases hd
                · cases hd; rfl
          subst hd1
          exact ih { d with totalOut := d.totalOut + o.length } n (m + o.length) os hi (by simp [ho]) hq

/-- **C106** totalInSize and totalOutSize are the numbers of bytes given and returned since the last reset, after any history. -/
theorem totals (z : Zlib) (h : List Call) (d : Deflater) (outs : List (List Byte)) (hr : run z Deflater.new h = .ok (outs, d)) :
    d.totalInSize = bytesIn 0 h ∧ d.totalOutSize = bytesOut 0 h outs :=
  totals_from z h Deflater.new d 0 0 outs rfl rfl hr

/-- **C106** Every history on an object that has its input is defined, and every deflate returns the beginning of the stream of the bytes
given last. -/
theorem run_defined (z : Zlib) (b : List Byte) (h : List Call) (hl : ∀ c ∈ h, ∀ x, c = .setInput x → x.length < 2 ^ 32) (hb : b.length < 2 ^ 32)
    (d : Deflater) (hd : d.input = some (b, (b.length : Int))) : ∃ p, run z d h = .ok p ∧ p.1 = lastOutputs z b h := by
  induction h generalizing b d with
  | nil => exact ⟨_, rfl, rfl⟩
  | cons c h ih =>
    have hl' : ∀ c ∈ h, ∀ x, c = .setInput x → x.length < 2 ^ 32 := fun c hc => hl c (by simp [hc])
    cases c with
    | setInput x => exact ih x hl' (hl _ (by simp) x rfl) (d.setInput x x.length) rfl
    | reset => exact ih [] hl' (by simp) d.reset rfl
    | deflate =>
      have e : d.deflate z = .ok ((z b).take b.length, { d with totalOut := d.totalOut + ((z b).take b.length).length }) := by
        have h1 : ¬ (b.length : Int) < 0 := by omega
        have h2 : b.length % 2 ^ 32 = b.length := Nat.mod_eq_of_lt hb
        simp only [Deflater.deflate, hd, h1, if_false, Int.toNat_natCast, h2, Nat.lt_irrefl, List.take_length]
      obtain ⟨p, h1, h2⟩ := ih b hl' hb _ (show ({ d with totalOut := d.totalOut + ((z b).take b.length).length } : Deflater).input = _ from hd)
      exact ⟨((z b).take b.length :: p.1, p.2), by simp only [run, e, h1, Except.map], by simp only [lastOutputs, h2]⟩

/-! ### the hypotheses are met -/

/-- the blocks of bytes that are not compressed -/
def storedBlocks : Nat → List Byte → List Block
  | 0, x => [.stored [false, false, false, false, false] x]
  | n + 1, x => .stored [false, false, false, false, false] (x.take 65535) :: storedBlocks n (x.drop 65535)

theorem storedBlocks_ne (n : Nat) (x : List Byte) : ∃ b bs, storedBlocks n x = b :: bs := by
  cases n <;> exact ⟨_, _, rfl⟩

theorem storedBlocks_ok (n : Nat) (x out : List Byte) (p : Nat) (hp : p % 8 = 0) (h : x.length ≤ 65535 * (n + 1)) :
    StreamOk p out (storedBlocks n x) ∧ decoded out (storedBlocks n x) = out ++ x ∧ (encode (storedBlocks n x)).length % 8 = 0 := by
  have hlen : ∀ f y, ((Block.stored [false, false, false, false, false] y).encode f).length = 40 + 8 * y.length := by
    intro f y
    simp only [Block.encode, Block.bits, List.length_cons, List.length_append, numBits_length, bitsOf_length, List.cons_append, List.length_nil]; omega
  induction n generalizing x out p with
  | zero =>
    refine ⟨⟨by simp, by simp; omega, by omega⟩, rfl, ?_⟩
    show ((Block.stored _ x).encode true).length % 8 = 0
    rw [hlen]; omega
  | succ n ih =>
    obtain ⟨h1, h2, h3⟩ := ih (x.drop 65535) (out ++ x.take 65535) (p + (40 + 8 * (x.take 65535).length)) (by omega) (by rw [List.length_drop]; omega)
    have hd : decoded out (storedBlocks (n + 1) x) = out ++ x := by
      show decoded (out ++ x.take 65535) (storedBlocks n (x.drop 65535)) = _
      rw [h2, List.append_assoc, List.take_append_drop]
    obtain ⟨b, bs, hb⟩ := storedBlocks_ne n (x.drop 65535)
    refine ⟨?_, hd, ?_⟩
    · show StreamOk p out (_ :: storedBlocks n (x.drop 65535))
      have h0 : StreamOk (p + ((Block.stored [false, false, false, false, false] (x.take 65535)).encode false).length)
        ((Block.stored [false, false, false, false, false] (x.take 65535)).expand out) (storedBlocks n (x.drop 65535)) := by rw [hlen]; exact h1
      rw [hb] at h0 ⊢
      exact ⟨⟨by simp, by simp; omega, by rw [List.length_take]; omega⟩, h0⟩
    · have e : encode (storedBlocks (n + 1) x) =
          (Block.stored [false, false, false, false, false] (x.take 65535)).encode false ++ encode (storedBlocks n (x.drop 65535)) := by
        show encode (_ :: storedBlocks n (x.drop 65535)) = _
        rw [hb]; rfl
      rw [e, List.length_append, hlen]; omega

theorem exists_stream (x : List Byte) : ∃ s, Stream x s := by
  obtain ⟨h1, h2, h3⟩ := storedBlocks_ok x.length x [] 16 (by omega) (by omega)
  refine ⟨_, storedBlocks x.length x, packBits (encode (storedBlocks x.length x) ++ List.replicate 32 false), List.replicate 32 false, rfl, ?_, by simp, h1, h2⟩
  apply packBits_ok (((encode (storedBlocks x.length x)).length + 32) / 8)
  rw [List.length_append, List.length_replicate]; omega

/-- 259 times the letter A -/
def manyA : List Byte := List.replicate 259 65

def manyBits : List Bool := encode [.fixed [.lit 65, .copy 258 1]] ++ List.replicate 32 false

theorem manyA_stream : ∃ s, Readable manyA s ∧ s.length ≤ manyA.length := by
  have hl : (manyBits ++ [false]).length = 8 * 8 := by decide +kernel
  refine ⟨0x78 :: 0xDA :: packBits (manyBits ++ [false]), ⟨[.fixed [.lit 65, .copy 258 1]], _, List.replicate 32 false ++ [false], rfl, ?_, by decide, ?_, ?_, ?_⟩, ?_⟩
  · rw [packBits_ok 8 _ hl, manyBits, List.append_assoc]
  · show Block.Ok 16 [] _
    simp [Block.Ok, toksOk, tokOk, expand1]
  · refine ⟨?_, trivial⟩
    simp [Block.Near, toksNear, expand1]
  · decide +kernel
  · decide +kernel

/-- a zlib exists that meets all hypotheses, compressing 259 letters to ten bytes -/
theorem zlib_exists : ∃ z, IsZlib z ∧ Readable manyA (z manyA) ∧ (z manyA).length ≤ manyA.length := by
  classical
  obtain ⟨s, hs, hf⟩ := manyA_stream
  refine ⟨fun x => if x = manyA then s else Classical.choose (exists_stream x), ?_, ?_, ?_⟩
  · intro x
    show Stream x (if x = manyA then s else _)
    by_cases h : x = manyA
    · rw [if_pos h, h]
      obtain ⟨bs, body, rest, h1, h2, h3, h4, _, h5⟩ := hs
      exact ⟨bs, body, rest, h1, h2, h3, h4, h5⟩
    · rw [if_neg h]; exact Classical.choose_spec (exists_stream x)
  · simpa using hs
  · simpa using hf

end Verif.Deflate.Props
