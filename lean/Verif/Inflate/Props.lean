import Verif.Inflate.Proofs
/-
C45, C46: the properties of the Inflater.
-/
namespace Verif.Inflate
open Verif

/-! ### C45: the codes -/

/-- C45: the code words computed from the code lengths are the canonical ones of RFC 1951 -/
theorem codes_canonical (lens : List Nat) (hl : ∀ l ∈ lens, l ≤ 15) (hk : kraft lens ≤ 2 ^ 15) (hlen : lens.length ≤ 32767) :
    ∃ codes mb, huffmanCodes lens = .ok (codes, mb) ∧ codes.length = lens.length ∧
      ∀ i, lens.getD i 0 ≠ 0 → codes[i]? = some (canon lens i) ∧ canon lens i < 2 ^ lens.getD i 0 := by
  refine ⟨_, _, huffmanCodes_ok lens hl hk (by omega), codesFrom_length _ _, fun i hi => ⟨?_, canon_lt lens hl hk i hi⟩⟩
  have hlt : i < lens.length := by
    refine Nat.lt_of_not_le fun h => hi ?_
    rw [List.getD_eq_getElem?_getD, List.getElem?_eq_none h]; rfl
  have e : lens.getD i 0 = lens[i] := by simp [List.getD_eq_getElem?_getD, hlt]
  rw [codesFrom_get _ _ _ hlt, canon_eq lens i hi, e, if_pos (by rw [← e]; exact hi)]

example : (∀ l ∈ [3, 3, 3, 3, 3, 2, 4, 4], l ≤ 15) ∧ kraft [3, 3, 3, 3, 3, 2, 4, 4] ≤ 2 ^ 15 := by decide +kernel

/-- C45: no code word is the beginning of another one -/
theorem codes_prefix_free (lens : List Nat) (h : Complete lens ∨ OneCode lens) (hlen : lens.length ≤ 32767) (i j : Nat) (hi : lens.getD i 0 ≠ 0)
    (hj : lens.getD j 0 ≠ 0) (hp : codeWord lens i <+: codeWord lens j) : i = j := by
  obtain ⟨codes, t, _, _, ht⟩ := tree_ok lens h hlen
  obtain ⟨w, hw⟩ := hp
  have hle : lens.getD i 0 ≤ lens.getD j 0 := by
    have := congrArg List.length hw
    rw [List.length_append, codeWord_length, codeWord_length] at this; omega
  have hci := canon_lt lens ht.le ht.kraft i hi
  have hcj := canon_lt lens ht.le ht.kraft j hj
  have h15 := getD_le lens 15 ht.le j
  have e : canon lens i = canon lens j >>> (lens.getD j 0 - lens.getD i 0) := by
    have h1 := valM_shift _ (lens.getD j 0) (canon lens j) (lens.getD i 0) rfl hcj hle
    rw [← h1, show codeBits (lens.getD j 0) (canon lens j) = codeWord lens j from rfl, ← hw, List.take_append_of_le_length (by rw [codeWord_length]; omega),
      List.take_of_length_le (by rw [codeWord_length]; omega)]
    exact (valM_codeBits _ _ hci).symm
  have hmi := find_mem ht.wf (by omega) (ht.mem i hi)
  by_cases hlt : lens.getD i 0 < lens.getD j 0
  · have := find_prefix ht.wf (by omega) (ht.mem j hj) hlt
    rw [← e, hmi] at this
    exact absurd this (by simp)
  · have heq : lens.getD i 0 = lens.getD j 0 := by omega
    have hmj := find_mem ht.wf (by omega) (ht.mem j hj)
    rw [e, heq] at hmi
    rw [Nat.sub_self, Nat.shiftRight_zero, hmj] at hmi
    exact (Option.some.inj hmi).symm

/-- C45: with the tree built from a complete code, or from a single code word, every code word in the input is decoded to its symbol,
and exactly its bits are consumed -/
theorem tree_decodes_partial (lens : List Nat) (h : Complete lens ∨ OneCode lens) (hlen : lens.length ≤ 32767) :
    ∃ codes mb t, huffmanCodes lens = .ok (codes, mb) ∧ createTree lens codes = .ok t ∧
      ∀ i s r, lens.getD i 0 ≠ 0 → s.bit < 8 → s.maxBits = mb ∨ s.maxBits = 15 → s.bits = codeWord lens i ++ r →
        ∃ s', decodeSymbol t s = .ok (i, s') ∧ s'.bits = r ∧ s'.pos = s.pos + (codeWord lens i).length ∧ s'.out = s.out := by
  obtain ⟨codes, t, h1, h2, ht⟩ := tree_ok lens h hlen
  refine ⟨codes, _, t, h1, h2, ?_⟩
  intro i s r hi hb hm hs
  have h15 := getD_le lens 15 ht.le i
  have hmx := getD_le lens _ (maxLength_ge lens) i
  refine ⟨_, decodeSymbol_ok ht i hi s hb r hs (by omega), ?_, ?_, rfl⟩
  · rw [bits_adv, hs, drop_left _ _ _ (codeWord_length _ _)]
  · rw [pos_adv, codeWord_length]

example : Complete [3, 3, 3, 3, 3, 2, 4, 4] := ⟨by decide +kernel, by decide⟩
example : OneCode [0, 0, 1, 0] := ⟨2, 1, rfl⟩

/-- decoding the code word of symbol `i` and what follows -/
def decodeOf (lens : List Nat) (i : Nat) : Res Nat := do
  let c ← huffmanCodes lens
  let t ← createTree lens c.1
  let comp := [(0xff : Byte), 0xff, 0xff]
  let bits := (codeWord lens i).foldr (fun b n => 2 * n + b.toNat) 0
  let r ← decodeSymbol t { (St.new true).setInput ((BitVec.ofNat 8 bits) :: comp) with maxBits := 15 }
  return r.1

/-- three code words of two bits, the fourth is missing: not a complete code -/
def gapped : List Nat := [2, 2, 2]

/-- C45: in an incomplete code words are lost: a node without sibling is attached to the wrong side (code >> 1 is tested instead of code) -/
theorem incomplete_code_lost : kraft gapped ≤ 2 ^ 15 ∧ (∀ l ∈ gapped, l ≤ 15) ∧ decodeOf gapped 0 = .ok 0 ∧ decodeOf gapped 1 = .ok 1 ∧ decodeOf gapped 2 ≠ .ok 2 := by
  decide +kernel

/-- C45: a code without any word: the tree is read from an empty list -/
theorem empty_code_ub (n : Nat) (hn : n ≤ 32767) : ∃ codes mb, huffmanCodes (List.replicate n 0) = .ok (codes, mb) ∧ createTree (List.replicate n 0) codes = .error .ub := by
  have hl : ∀ l ∈ List.replicate n 0, l ≤ 15 := by intro l h; rw [List.eq_of_mem_replicate h]; omega
  refine ⟨_, _, huffmanCodes_ok _ hl (by rw [kraft_zeros]; omega) (by simp; omega), ?_⟩
  unfold createTree
  rw [leaves_ok 0 _ _ (by simp; omega)]
  have := leafList_zeros 0 n (start (List.replicate n 0)) []
  rw [List.append_nil] at this
  rw [this, maxLength_zeros]
  rfl

/-! ### C46: streams -/

/-- C46: what the decompressor makes of every valid stream: as the specification says, except that blocks with fixed codes compute the
source of a copy modulo 32 KiB (`wrapped`) -/
theorem inflate_wraps (bs : List Block) (comp : List Byte) (rest : List Bool) (h : bitsOf comp = encode bs ++ rest) (ok : StreamOk 0 [] bs) :
    ∃ s, inflate ((St.new true).setInput comp) = .ok s ∧ s.out = wrapDecoded [] bs ∧ s.eof = true ∧ s.totalOut = (wrapDecoded [] bs).length ∧
      8 * s.idx + s.bit = (encode bs).length ∧ s.totalIn = s.idx := by
  obtain ⟨s0, hs0⟩ : ∃ s0, s0 = { (St.new true).setInput comp with out := [] } := ⟨_, rfl⟩
  have f : Fit s0 := by subst hs0; exact ⟨Nat.zero_lt_succ 7, rfl, Nat.zero_le _⟩
  obtain ⟨s', mb, e1, e2⟩ := inflateFrom_ok bs s0 f (by subst hs0; rfl) (by subst hs0; exact ok) rest (by subst hs0; exact h)
  refine ⟨{ s' with eof := true }, ?_, ?_, rfl, ?_, ?_, ?_⟩
  · unfold inflate
    rw [← hs0]
    have : header s0 = .ok s0 := by subst hs0; rfl
    rw [this]
    exact e1
  · simp only; rw [e2.out, hs0]
  · obtain ⟨c, _, _, rfl⟩ := e2
    subst hs0
    simp [St.new, St.setInput]
  · have := e2.pos
    subst hs0
    simpa [St.pos, St.new, St.setInput] using this
  · obtain ⟨c, _, _, rfl⟩ := e2
    subst hs0
    simp [St.new, St.setInput, St.adv]

/-- C46 (raw deflate data, as in zip archives): a valid stream is decompressed to the data it stands for; the decompressor reports the
end of the stream, the number of bytes written and the number of input bytes used.  Missing: blocks with fixed codes that copy from
32 KiB or more after the beginning of the output, see `far_copy_wrong`; blocks without distance codes, see `no_distances_ub`;
repetitions of code lengths across the two alphabets, see `crossing_repeat_throws`. -/
theorem inflate_decodes_partial (bs : List Block) (comp : List Byte) (rest : List Bool) (h : bitsOf comp = encode bs ++ rest) (ok : StreamOk 0 [] bs)
    (near : StreamNear [] bs) :
    ∃ s, inflate ((St.new true).setInput comp) = .ok s ∧ s.out = decoded [] bs ∧ s.eof = true ∧ s.totalOut = (decoded [] bs).length ∧
      8 * s.idx + s.bit = (encode bs).length ∧ s.totalIn = s.idx := by
  rw [← wrapDecoded_near 0 [] bs ok near]
  exact inflate_wraps bs comp rest h ok

theorem and15 (n : Nat) : n &&& 15 = n % 16 := Nat.and_two_pow_sub_one_eq_mod n 4
theorem and1 (n : Nat) : n &&& 1 = n % 2 := Nat.and_two_pow_sub_one_eq_mod n 1

theorem header_eq (cmf flg : Byte) (body : List Byte) (s : St) (hs : s = { (St.new false).setInput (cmf :: flg :: body) with out := [] }) :
    header s = if HeaderOk cmf flg then .ok { s with idx := 2, totalIn := 2, bit := 0 } else .error .thrown := by
  have hc := cmf.isLt
  have hf := flg.isLt
  subst hs
  unfold header
  rw [if_pos ⟨rfl, rfl⟩, if_neg (by show ¬ (cmf :: flg :: body).length < 2; simp)]
  rw [show rd ((({ (St.new false).setInput (cmf :: flg :: body) with out := [] } : St).comp)) 0 = .ok cmf from rfl]
  simp only [bind, Except.bind]
  rw [show rd (({ (St.new false).setInput (cmf :: flg :: body) with out := [] } : St).comp) 1 = .ok flg from rfl]
  simp only [pure, Except.pure]
  rw [and15, and15, and1, Nat.shiftRight_eq_div_pow, Nat.shiftRight_eq_div_pow, u16_small (by omega)]
  have e : cmf.toNat / 2 ^ 4 % 16 = cmf.toNat / 16 := by omega
  have e2 : flg.toNat / 2 ^ 5 % 2 = flg.toNat / 32 % 2 := by omega
  rw [e, e2]
  by_cases h1 : cmf.toNat % 16 = 8
  · rw [if_neg (by omega)]
    by_cases h2 : cmf.toNat / 16 ≤ 7
    · rw [if_neg (by omega)]
      by_cases h3 : flg.toNat / 32 % 2 = 0
      · rw [if_neg (by omega)]
        by_cases h4 : (cmf.toNat * 256 + flg.toNat) % 31 = 0
        · rw [if_neg (by omega), if_pos (show HeaderOk cmf flg from ⟨h1, h2, h3, h4⟩)]
        · rw [if_pos h4, if_neg (fun h : HeaderOk cmf flg => h4 h.2.2.2)]
      · rw [if_pos h3, if_neg (fun h : HeaderOk cmf flg => h3 h.2.2.1)]
    · rw [if_pos (by omega), if_neg (fun h : HeaderOk cmf flg => h2 h.2.1)]
  · rw [if_pos h1, if_neg (fun h : HeaderOk cmf flg => h1 h.1)]

/-- C46: data in the zlib format: without two bytes of a right header an exception is thrown and nothing is decompressed -/
theorem header_rejects (comp : List Byte) (h : ∀ cmf flg body, comp = cmf :: flg :: body → ¬ HeaderOk cmf flg) :
    inflate ((St.new false).setInput comp) = .error .thrown := by
  unfold inflate
  match comp, h with
  | [], _ => rfl
  | [_], _ => rfl
  | cmf :: flg :: body, h =>
    rw [header_eq cmf flg body _ rfl, if_neg (h cmf flg body rfl)]
    rfl

/-- C46: data in the zlib format (RFC 1950) with a right header.  The checksum after the data is not examined, see `checksum_ignored`. -/
theorem inflate_zlib_partial (cmf flg : Byte) (hh : HeaderOk cmf flg) (bs : List Block) (body : List Byte) (rest : List Bool) (h : bitsOf body = encode bs ++ rest)
    (ok : StreamOk 16 [] bs) (near : StreamNear [] bs) :
    ∃ s, inflate ((St.new false).setInput (cmf :: flg :: body)) = .ok s ∧ s.out = decoded [] bs ∧ s.eof = true ∧ s.totalOut = (decoded [] bs).length ∧
      8 * s.idx + s.bit = 16 + (encode bs).length ∧ s.totalIn = s.idx := by
  obtain ⟨s0, hs0⟩ : ∃ s0, s0 = { (St.new false).setInput (cmf :: flg :: body) with out := [] } := ⟨_, rfl⟩
  have hhd := header_eq cmf flg body s0 hs0
  rw [if_pos hh] at hhd
  obtain ⟨s1, hs1⟩ : ∃ s1, s1 = { s0 with idx := 2, totalIn := 2, bit := 0 } := ⟨_, rfl⟩
  rw [← hs1] at hhd
  have f : Fit s1 := by subst hs1; subst hs0; exact ⟨Nat.zero_lt_succ 7, rfl, Nat.zero_le _⟩
  have hb : s1.bits = encode bs ++ rest := by
    subst hs1; subst hs0
    show (bitsOf (cmf :: flg :: body)).drop 16 = _
    rw [show bitsOf (cmf :: flg :: body) = (byteBits cmf ++ byteBits flg) ++ bitsOf body by simp [bitsOf]]
    rw [drop_left _ _ _ (by rw [List.length_append, byteBits_length, byteBits_length]), h]
  rw [← wrapDecoded_near 16 [] bs ok near]
  obtain ⟨s', mb, e1, e2⟩ := inflateFrom_ok bs s1 f (by subst hs1; subst hs0; rfl) (by subst hs1; subst hs0; exact ok) rest hb
  refine ⟨{ s' with eof := true }, ?_, ?_, rfl, ?_, ?_, ?_⟩
  · unfold inflate
    rw [← hs0, hhd]
    exact e1
  · simp only; rw [e2.out, hs1, hs0]
  · obtain ⟨c, _, _, rfl⟩ := e2
    subst hs1; subst hs0
    simp [St.new, St.setInput]
  · have := e2.pos
    subst hs1; subst hs0
    simpa [St.pos, St.new, St.setInput] using this
  · obtain ⟨c, _, _, rfl⟩ := e2
    subst hs1; subst hs0
    simp [St.new, St.setInput, St.adv, St.pos]; omega


/-- C46: the checksum at the end of zlib data is not examined: any other bytes in its place give the same result -/
theorem checksum_ignored (cmf flg : Byte) (hh : HeaderOk cmf flg) (bs : List Block) (body body' : List Byte) (rest rest' : List Bool)
    (h : bitsOf body = encode bs ++ rest) (h' : bitsOf body' = encode bs ++ rest') (ok : StreamOk 16 [] bs) (near : StreamNear [] bs) :
    ∃ s s', inflate ((St.new false).setInput (cmf :: flg :: body)) = .ok s ∧ inflate ((St.new false).setInput (cmf :: flg :: body')) = .ok s' ∧ s.out = s'.out := by
  obtain ⟨s, h1, h2, _⟩ := inflate_zlib_partial cmf flg hh bs body rest h ok near
  obtain ⟨s', h3, h4, _⟩ := inflate_zlib_partial cmf flg hh bs body' rest' h' ok near
  exact ⟨s, s', h1, h3, by rw [h2, h4]⟩

/-! ### a valid stream: the hypotheses can be met -/

/-- a block with its own codes: 'A' has one bit, the end two, length 3 two; one distance -/
def exHead : Dyn where
  hclen := 18
  clLens := [0, 1, 2, 0, 0, 0, 0, 0, 0, 0, 0, 0, 0, 0, 0, 0, 0, 0, 2]
  lits := [.zeros 65, .len 1, .zeros 138, .zeros 52, .len 2, .len 2]
  dists := [.len 1]

theorem exHead_ok : exHead.Ok where
  hclen := by decide
  clLen := by decide
  clMax := by decide
  clRest := by decide
  clComplete := ⟨by decide +kernel, by decide⟩
  clCoded := by decide +kernel
  clOk := by
    intro c hc
    simp only [exHead, List.cons_append, List.nil_append, List.mem_cons, List.not_mem_nil, or_false] at hc
    rcases hc with rfl | rfl | rfl | rfl | rfl | rfl | rfl <;> simp [CL.ok]
  litLen := by decide +kernel
  distLen := by decide +kernel
  litFirst := by intro n; simp [exHead]
  distFirst := by intro n; simp [exHead]
  litComplete := ⟨by decide +kernel, by decide +kernel⟩
  distComplete := Or.inr ⟨0, 0, by decide +kernel⟩
  endCoded := by decide +kernel

def exToks : List Tok := [.lit 65, .copy 3 1]

/-- three blocks, one of each kind: "hi", "AAAA", "AAAA" -/
def exBlocks : List Block := [.stored [false, false, false, false, false] [104, 105], .fixed exToks, .dyn exHead exToks]

theorem exBlocks_ok : StreamOk 0 [] exBlocks ∧ StreamNear [] exBlocks ∧ decoded [] exBlocks = [104, 105, 65, 65, 65, 65, 65, 65, 65, 65] := by
  refine ⟨⟨?_, ?_, exHead_ok, ?_, ?_⟩, ⟨trivial, ?_, trivial, trivial⟩, by decide +kernel⟩
  · simp [Block.Ok]
  · simp [Block.Ok, toksOk, tokOk, expand1, exToks, Block.expand]
  · simp [toksOk, tokOk, expand1, exToks, Block.expand, Inflate.expand, copyFrom]
  · intro t ht
    simp only [exToks, List.mem_cons, List.not_mem_nil, or_false] at ht
    rcases ht with rfl | rfl
    · show exHead.litLens.getD 65 0 ≠ 0
      decide +kernel
    · show exHead.litLens.getD (row lengthTable 3).1 0 ≠ 0 ∧ exHead.distLens.getD (row distTable 1).1 0 ≠ 0
      decide +kernel
  · simp [Block.Near, toksNear, exToks, expand1, Block.expand]

/-- bits as bytes -/
def packBits : List Bool → List Byte
  | b0 :: b1 :: b2 :: b3 :: b4 :: b5 :: b6 :: b7 :: l =>
    BitVec.ofNat 8 (b0.toNat + 2 * b1.toNat + 4 * b2.toNat + 8 * b3.toNat + 16 * b4.toNat + 32 * b5.toNat + 64 * b6.toNat + 128 * b7.toNat) :: packBits l
  | _ => []

theorem packBits_byte (b0 b1 b2 b3 b4 b5 b6 b7 : Bool) :
    byteBits (BitVec.ofNat 8 (b0.toNat + 2 * b1.toNat + 4 * b2.toNat + 8 * b3.toNat + 16 * b4.toNat + 32 * b5.toNat + 64 * b6.toNat + 128 * b7.toNat)) =
      [b0, b1, b2, b3, b4, b5, b6, b7] := by
  revert b0 b1 b2 b3 b4 b5 b6 b7
  decide +kernel

theorem packBits_ok (n : Nat) (l : List Bool) (h : l.length = 8 * n) : bitsOf (packBits l) = l := by
  induction n generalizing l with
  | zero => have : l = [] := List.length_eq_zero_iff.1 (by omega); subst this; rfl
  | succ n ih =>
    match l, h with
    | b0 :: b1 :: b2 :: b3 :: b4 :: b5 :: b6 :: b7 :: l, h =>
      simp only [List.length_cons] at h
      show byteBits _ ++ bitsOf (packBits l) = _
      rw [packBits_byte, ih l (by omega)]; rfl

/-- every sequence of bits begins a sequence of bytes -/
theorem exists_comp (w : List Bool) : ∃ comp rest, bitsOf comp = w ++ rest := by
  refine ⟨packBits (w ++ List.replicate (7 * w.length) false), _, packBits_ok w.length _ ?_⟩
  rw [List.length_append, List.length_replicate]; omega

example : ∃ comp rest s, bitsOf comp = encode exBlocks ++ rest ∧ inflate ((St.new true).setInput comp) = .ok s ∧
    s.out = [104, 105, 65, 65, 65, 65, 65, 65, 65, 65] := by
  obtain ⟨h1, h2, h3⟩ := exBlocks_ok
  obtain ⟨comp, rest, hc⟩ := exists_comp (encode exBlocks)
  obtain ⟨s, h4, h5, _⟩ := inflate_decodes_partial exBlocks comp rest hc h1 h2
  exact ⟨comp, rest, s, hc, h4, by rw [h5, h3]⟩

example : HeaderOk 0x78 0x9c := by decide

/-! ### what does not work -/

/-- 32768 bytes, then the byte 1 four times, as a stored block and a fixed block -/
def farBlocks (z : List Byte) : List Block := [.stored [false, false, false, false, false] z, .fixed [.lit 1, .copy 3 1]]

theorem getD_last (l : List Byte) (x : Byte) : (l ++ [x]).getD ((l ++ [x]).length - 1) 0 = x := by
  simp [List.getD_eq_getElem?_getD]

/-- C46 fails: a block with fixed codes that copies from a position of 32768 or more copies other bytes (unless they happen to be equal) -/
theorem far_copy_wrong (z : List Byte) (hzl : z.length = 32768) (hz0 : z.getD 0 0 ≠ 1) : StreamOk 0 [] (farBlocks z) ∧
    ∀ comp rest, bitsOf comp = encode (farBlocks z) ++ rest →
    ∃ s, inflate ((St.new true).setInput comp) = .ok s ∧ s.out ≠ decoded [] (farBlocks z) := by
  have hok : StreamOk 0 [] (farBlocks z) := by
    refine ⟨⟨by simp, by simp, by omega⟩, ?_⟩
    have e : (Block.stored [false, false, false, false, false] z).expand [] = z := rfl
    rw [e]
    refine ⟨trivial, ⟨by omega, by omega, by omega, by omega, ?_⟩, trivial⟩
    show 1 ≤ (z ++ [1]).length
    rw [List.length_append, hzl]; simp
  refine ⟨hok, ?_⟩
  intro comp rest h
  obtain ⟨s, h1, h2, _⟩ := inflate_wraps (farBlocks z) comp rest h hok
  refine ⟨s, h1, ?_⟩
  rw [h2]
  have e1 : decoded [] (farBlocks z) = copyFrom 3 1 (z ++ [1]) := rfl
  have e2 : wrapDecoded [] (farBlocks z) = copyFrom 3 (wrapped (z ++ [1]).length 1) (z ++ [1]) := rfl
  have e3 : wrapped (z ++ [1]).length 1 = (z ++ [1]).length := by
    rw [List.length_append, hzl, List.length_singleton]; unfold wrapped; omega
  rw [e1, e2, e3]
  intro heq
  have hd := congrArg (fun l => l.getD 32769 0) heq
  obtain ⟨y, hy⟩ : ∃ y : List Byte, y = z ++ [1] := ⟨_, rfl⟩
  have hyl : y.length = 32769 := by rw [hy, List.length_append, hzl, List.length_singleton]
  rw [← hy] at hd
  have hd : (copyFrom 3 y.length y).getD 32769 0 = (copyFrom 3 1 y).getD 32769 0 := hd
  have hy0 : y.getD 0 0 = z.getD 0 0 := by
    rw [hy]; simp only [List.getD_eq_getElem?_getD]; rw [List.getElem?_append_left (by omega)]
  have hy1 : y.getD 32768 0 = 1 := by
    have := getD_last z 1
    rw [← hy, hyl] at this
    exact this
  have hkeep : ∀ n d (l : List Byte) i, i < l.length → (copyFrom n d l).getD i 0 = l.getD i 0 := by
    intro n
    induction n with
    | zero => intros; rfl
    | succ n ih =>
      intro d l i hi
      unfold copyFrom
      rw [ih _ _ _ (by rw [List.length_append, List.length_singleton]; omega)]
      simp only [List.getD_eq_getElem?_getD]
      rw [List.getElem?_append_left hi]
  have hfirst : ∀ d, (copyFrom 3 d y).getD 32769 0 = y.getD (y.length - d) 0 := by
    intro d
    rw [copyFrom, hkeep _ _ _ _ (by rw [List.length_append, hyl]; simp)]
    have := getD_last y (y.getD (y.length - d) 0)
    rw [List.length_append, hyl] at this
    rw [hyl]
    exact this
  rw [hfirst, hfirst, Nat.sub_self, hyl, hy0, hy1] at hd
  exact hz0 hd

example : ∃ z : List Byte, z.length = 32768 ∧ z.getD 0 0 ≠ 1 ∧ ∃ comp rest, bitsOf comp = encode (farBlocks z) ++ rest := by
  refine ⟨0 :: List.replicate 32767 0, by rw [List.length_cons, List.length_replicate], ?_, exists_comp _⟩
  rw [List.getD_cons_zero]; decide

/-- a block without distance codes: one distance code of zero bits (RFC 1951, 3.2.7) -/
def noDist : Dyn where
  hclen := 18
  clLens := [2, 2, 0, 0, 0, 0, 0, 0, 0, 0, 0, 0, 0, 0, 0, 0, 0, 0, 1]
  lits := [.zeros 65, .len 1, .zeros 138, .zeros 52, .len 1]
  dists := [.len 0]

/-- C46 fails: a block that uses no distances: undefined behaviour -/
theorem no_distances_ub : noDist.distLens = [0] ∧ Complete noDist.litLens ∧ Complete noDist.clLens ∧
    ∃ rest, bitsOf [5, 192, 129, 8, 0, 0, 0, 0, 32, 182, 253, 165, 142] = encode [.dyn noDist [.lit 65, .lit 65]] ++ rest ∧
      inflate ((St.new true).setInput [5, 192, 129, 8, 0, 0, 0, 0, 32, 182, 253, 165, 142]) = .error .ub :=
  ⟨by decide +kernel, ⟨by decide +kernel, by decide +kernel⟩, ⟨by decide +kernel, by decide⟩, (bitsOf [5, 192, 129, 8, 0, 0, 0, 0, 32, 182, 253, 165, 142]).drop
    (encode [.dyn noDist [.lit 65, .lit 65]]).length, by decide +kernel, by decide +kernel⟩

/-- the code lengths of both alphabets in one sequence, as RFC 1951 allows: the repetition covers symbol 258 and the first four distances -/
def crossing : List CL := [.zeros 65, .len 1, .zeros 138, .zeros 52, .len 2, .len 3, .prev 5, .prev 4]
def crossingLens : List Nat := [0, 2, 3, 3, 0, 0, 0, 0, 0, 0, 0, 0, 0, 0, 0, 0, 2, 0, 2]
def crossingBits : List Bool :=
  true :: numBits 2 2 ++ numBits 5 (259 - 257) ++ numBits 5 (8 - 1) ++ numBits 4 (18 - 4) ++
    (clOrder.take 18).flatMap (fun s => numBits 3 (crossingLens.getD s 0)) ++ crossing.flatMap (clBits (codeWord crossingLens)) ++
    (codeWord ((clExpand [] crossing).take 259) 65 ++ codeWord ((clExpand [] crossing).take 259) 65 ++ codeWord ((clExpand [] crossing).take 259) 256)

/-- C46 fails: a repetition of code lengths that goes from the first alphabet to the second one throws -/
theorem crossing_repeat_throws : (clExpand [] crossing).length = 259 + 8 ∧ Complete ((clExpand [] crossing).take 259) ∧ Complete ((clExpand [] crossing).drop 259) ∧
    ∃ rest, bitsOf [21, 199, 5, 1, 0, 0, 0, 195, 160, 108, 244, 47, 181, 171, 17] = crossingBits ++ rest ∧
      inflate ((St.new true).setInput [21, 199, 5, 1, 0, 0, 0, 195, 160, 108, 244, 47, 181, 171, 17]) = .error .thrown :=
  ⟨by decide +kernel, ⟨by decide +kernel, by decide +kernel⟩, ⟨by decide +kernel, by decide +kernel⟩,
    (bitsOf [21, 199, 5, 1, 0, 0, 0, 195, 160, 108, 244, 47, 181, 171, 17]).drop crossingBits.length, by decide +kernel, by decide +kernel⟩

/-- C46: an Inflater made without argument has no output buffer: the first byte of output is undefined behaviour
(the data are "aaaaaaaaaa" in the zlib format) -/
theorem default_constructor_ub : inflate (St.new0.setInput [120, 156, 75, 76, 132, 1, 0, 20, 225, 3, 203]) = .error .ub ∧
    (inflate ((St.new false).setInput [120, 156, 75, 76, 132, 1, 0, 20, 225, 3, 203])).map (·.out) = .ok (List.replicate 10 97) := by
  decide +kernel

/-- C46: invalid data: the length of a stored block and its complement need not fit together (only a common bit is detected);
a block of the reserved type 3 is skipped; input that ends too early is undefined behaviour -/
theorem invalid_not_detected :
    (inflate ((St.new true).setInput [1, 1, 0, 0, 0, 65])).map (·.out) = .ok [65] ∧
    (inflate ((St.new true).setInput [7])).map (·.out) = .ok [] ∧
    inflate ((St.new true).setInput [75, 76]) = .error .ub ∧ inflate ((St.new true).setInput []) = .error .ub := by
  decide +kernel

end Verif.Inflate
