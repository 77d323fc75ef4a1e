import Verif.Base
/-
Model of src/core/Inflater.cpp.
 * uint16 values are natural numbers, reduced modulo 2^16 where one is stored (`u16`).
 * `comp` is the block passed to SetInput; reading beyond its end is UB (the code never compares mCompIndex with
   mCompLength).  `length` of SetInput is the size of the block.
 * `out` are the bytes written to mUncompBytes so far, `cap` is mUncompLength; reading a byte not written yet is UB.
   `null`: mUncompBytes is the null pointer.
 * The growth of the buffer (checkCapacity) is computed with exact numbers instead of doubles; only a division by zero
   matters and cannot happen once a byte has been consumed (index 0: ratio 0, the conversion of infinity is UB).
 * Loops over the stream carry a step limit larger than the number of bits of the input (each round reads a bit, so the
   limit is never reached before the input ends).
 * Objects allocated and never freed (`new Exception(...)` without throw, trees after an exception) are not modelled.
 * The trees are values: every node has exactly one owner in the code.
-/
namespace Verif.Inflate
open Verif

def u16 (n : Nat) : Nat := n % 65536

/-- Inflater.h:63-89 -/
structure St where
  comp : List Byte
  idx : Nat
  bit : Nat
  totalIn : Nat
  out : List Byte
  cap : Nat
  null : Bool
  totalOut : Nat
  last : Bool
  eof : Bool
  wrap : Bool
  maxBits : Nat
deriving DecidableEq

/-- Inflater.cpp:44-58 the constructor without argument -/
def St.new0 : St := ⟨[], 0, 0, 0, [], 1024, true, 0, false, false, false, 0⟩

/-- Inflater.cpp:60-65, 133-147 the constructor with argument (and Reset) -/
def St.new (wrap : Bool) : St := ⟨[], 0, 0, 0, [], 1024, false, 0, false, false, wrap, 0⟩

/-- Inflater.cpp:71-76 -/
def St.setInput (s : St) (buffer : List Byte) : St := { s with comp := buffer, idx := 0 }

/-- Inflater.cpp:165-177 -/
def nextBit (s : St) : Res (Nat × St) := do
  let c ← rd s.comp s.idx
  let ret := ((1 <<< s.bit) &&& c.toNat) >>> s.bit
  if (s.bit + 1) % 8 = 0 then return (ret, { s with bit := 0, idx := s.idx + 1, totalIn := s.totalIn + 1 })
  else return (ret, { s with bit := s.bit + 1 })

/-- Inflater.cpp:179-185 -/
def skipByteBits (s : St) : St :=
  if s.bit = 0 then s else { s with bit := 0, idx := s.idx + 1, totalIn := s.totalIn + 1 }

/-- Inflater.cpp:187-193 -/
def nextAligned8 (s : St) : Res (Byte × St) :=
  if s.bit ≠ 0 then .error .thrown
  else do
    let c ← rd s.comp s.idx
    return (c, { s with idx := s.idx + 1, totalIn := s.totalIn + 1 })

/-- Inflater.cpp:195-203 (deserializeLEUInt16: Verif/Serializer) -/
def nextAligned16 (s : St) : Res (Nat × St) := do
  let a ← nextAligned8 s
  let b ← nextAligned8 a.2
  return (a.1.toNat + 256 * b.1.toNat, b.2)

/-- Inflater.cpp:208-212 the loop of nextUIntX -/
def uintX : Nat → Nat → St → Res (Nat × St)
  | 0, ret, s => .ok (ret, s)
  | n + 1, ret, s => do
    let b ← nextBit s
    uintX n (u16 (ret <<< 1) ||| b.1) b.2

/-- Inflater.cpp:205-214 -/
def nextUIntX (bits : Nat) (s : St) : Res (Nat × St) := uintX bits 0 s

/-- Inflater.cpp:219-222 the loop of nextUIntXR; `a` counts up, `n` rounds are left -/
def uintXR : Nat → Nat → Nat → St → Res (Nat × St)
  | 0, _, ret, s => .ok (ret, s)
  | n + 1, a, ret, s => do
    let b ← nextBit s
    uintXR n (a + 1) (u16 (ret ||| (b.1 <<< a))) b.2

/-- Inflater.cpp:216-224 -/
def nextUIntXR (bits : Nat) (s : St) : Res (Nat × St) := uintXR bits 0 0 s

/-- Inflater.cpp:226-239 -/
def checkCapacity (s : St) : Res St :=
  if s.out.length < s.cap then .ok s
  else if s.idx = 0 then .error .ub
  else .ok { s with cap := s.cap + max 4096 (s.cap * s.comp.length / s.idx) }

/-- Inflater.cpp:244-245 -/
def put (s : St) (b : Byte) : Res St :=
  if s.null then .error .ub
  else if s.out.length < s.cap then .ok { s with out := s.out ++ [b], totalOut := s.totalOut + 1 }
  else .error .ub

/-- Inflater.cpp:241-246 -/
def write (s : St) (b : Byte) : Res St := do
  let s ← checkCapacity s
  put s b

/-- Inflater.cpp:261-265 -/
def copyStored : Nat → St → Res St
  | 0, s => .ok s
  | n + 1, s => do
    let b ← nextAligned8 s
    let s ← write b.2 b.1
    copyStored n s

/-- Inflater.cpp:249-266 -/
def stored (s : St) : Res St := do
  let len ← nextAligned16 (skipByteBits s)
  let nlen ← nextAligned16 len.2
  if (nlen.1 &&& len.1) ≠ 0 then .error .thrown else copyStored len.1 nlen.2

/-- Inflater.cpp:39-42 -/
def LENGTH_EXTRA : List Nat := [0, 0, 0, 0, 0, 0, 0, 0, 1, 1, 1, 1, 2, 2, 2, 2, 3, 3, 3, 3, 4, 4, 4, 4, 5, 5, 5, 5, 0]
def LENGTH_OFFSET : List Nat := [3, 4, 5, 6, 7, 8, 9, 10, 11, 13, 15, 17, 19, 23, 27, 31, 35, 43, 51, 59, 67, 83, 99, 115, 131, 163, 195, 227, 258]
def DIST_EXTRA : List Nat := [0, 0, 0, 0, 1, 1, 2, 2, 3, 3, 4, 4, 5, 5, 6, 6, 7, 7, 8, 8, 9, 9, 10, 10, 11, 11, 12, 12, 13, 13]
def DIST_OFFSET : List Nat := [1, 2, 3, 4, 5, 7, 9, 13, 17, 25, 33, 49, 65, 97, 129, 193, 257, 385, 513, 769, 1025, 1537, 2049, 3073, 4097, 6145, 8193, 12289, 16385, 24577]

/-- Inflater.cpp:742-762, the codes of more than 7 bits -/
def fixedLong (code : Nat) (s : St) : Res (Nat × St) := do
  let b ← nextBit s
  let code := u16 (code <<< 1) ||| b.1
  if code ≥ 0xC0 ∧ code ≤ 0xC7 then return (u16 (code + 0x58), b.2)
  else if code ≥ 0x30 ∧ code ≤ 0xBF then return (code - 0x30, b.2)
  else
    let c ← nextBit b.2
    let code := u16 (code <<< 1) ||| c.1
    if code ≥ 0x190 ∧ code ≤ 0x1FF then return (code - 0x100, c.2) else return (code, c.2)

/-- Inflater.cpp:733-764 (`new Exception("Wrong code")` is not thrown) -/
def nextFixedCode (s : St) : Res (Nat × St) := do
  let code ← nextUIntX 7 s
  if code.1 ≤ 0x17 then return (u16 (code.1 + 0x100), code.2) else fixedLong code.1 code.2

/-- Inflater.cpp:312-315, 679-682: copies `n` bytes beginning at `src` -/
def copyBack : Nat → Nat → St → Res St
  | 0, _, s => .ok s
  | n + 1, src, s => do
    let b ← rd s.out src
    let s ← write s b
    copyBack n (src + 1) s

/-- Inflater.cpp:289-291, 657-659: the length of a match -/
def readLength (value : Nat) (s : St) : Res (Nat × St) := do
  let extra ← rd LENGTH_EXTRA (value - 257)
  let x ← nextUIntXR extra s
  let off ← rd LENGTH_OFFSET (value - 257)
  return (u16 (x.1 + off), x.2)

/-- Inflater.cpp:302-304, 669-671: the distance of a match -/
def readDistance (code : Nat) (s : St) : Res (Nat × St) := do
  let extra ← rd DIST_EXTRA code
  let x ← nextUIntXR extra s
  let off ← rd DIST_OFFSET code
  return (u16 (x.1 + off), x.2)

/-- Inflater.cpp:286-316: a match in a block with fixed codes -/
def fixedMatch (value : Nat) (s : St) : Res St := do
  let len ← readLength value s
  let code ← nextUIntX 5 len.2
  let dist ← readDistance code.1 code.2
  let src : Int := ((dist.2.out.length : Int) - dist.1) % 32768
  if src < 0 then .error .thrown else copyBack len.1 src.toNat dist.2

/-- Inflater.cpp:269-321; the first argument limits the rounds -/
def fixedBlock : Nat → St → Res St
  | 0, _ => .error .ub
  | fuel + 1, s => do
    let v ← nextFixedCode s
    if v.1 < 256 then
      let s ← write v.2 (BitVec.ofNat 8 v.1)
      fixedBlock fuel s
    else if v.1 = 256 then return v.2
    else if v.1 ≤ 285 then
      let s ← fixedMatch v.1 v.2
      fixedBlock fuel s
    else .error .thrown

/-! ### Huffman codes -/

/-- Inflater.h:50-61; `nil` is the null pointer.  `tmp` is not stored: it is written and read at one level only. -/
inductive HT where
  | nil
  | node (node0 node1 : HT) (symbol length code : Nat)
deriving DecidableEq

def HT.isNil : HT → Bool
  | .nil => true
  | _ => false

def HT.length : HT → Nat
  | .nil => 0
  | .node _ _ _ l _ => l

def HT.code : HT → Nat
  | .nil => 0
  | .node _ _ _ _ c => c

/-- Inflater.cpp:783-798 `Find`: the symbol of the node found -/
def HT.find : HT → Nat → Nat → Option Nat
  | .nil, _, _ => none
  | .node n0 n1 symbol length code, c, bits =>
    if length = bits ∧ code = c ∧ n0.isNil ∧ n1.isNil then some symbol
    else if bits > length then
      if u16 (1 <<< (bits - length - 1)) &&& c = 0 then n0.find c bits else n1.find c bits
    else none

/-- Inflater.cpp:480-482 -/
def maxLength : List Nat → Nat
  | [] => 0
  | l :: ls => max l (maxLength ls)

/-- Inflater.cpp:495-499 -/
def countLengths : List Nat → List Nat → Res (List Nat)
  | [], bl => .ok bl
  | l :: ls, bl => do
    let n ← rd bl l
    let bl ← wr bl l (u16 (n + 1))
    countLengths ls bl

/-- Inflater.cpp:507-511; `n` rounds are left -/
def firstCodes : Nat → Nat → Nat → List Nat → List Nat → Res (List Nat)
  | 0, _, _, _, next => .ok next
  | n + 1, bits, code, bl, next => do
    let c ← rd bl (bits - 1)
    let code := u16 ((code + c) <<< 1)
    let next ← wr next bits code
    firstCodes n (bits + 1) code bl next

/-- Inflater.cpp:521-530 -/
def assignCodes : List Nat → List Nat → Res (List Nat)
  | [], _ => .ok []
  | len :: ls, next =>
    if len ≠ 0 then do
      let c ← rd next len
      let next ← wr next len (u16 (c + 1))
      let r ← assignCodes ls next
      return c :: r
    else do
      let r ← assignCodes ls next
      return 0 :: r

/-- Inflater.cpp:477-537 `huffmanCodes`; the second result is MAX_BITS -/
def huffmanCodes (lengths : List Nat) : Res (List Nat × Nat) := do
  let mb := maxLength lengths
  let bl ← countLengths lengths (List.replicate (mb + 1) 0)
  let bl ← wr bl 0 0
  let next ← firstCodes mb 1 0 bl (List.replicate (mb + 1) 0)
  let codes ← assignCodes lengths next
  return (codes, mb)

/-- Inflater.cpp:337-352: the leaves; `a` is the index -/
def leaves : Nat → List Nat → List Nat → Res (List HT)
  | _, [], _ => .ok []
  | a, l :: ls, codes =>
    if l ≠ 0 then
      match codes with
      | [] => .error .thrown
      | c :: cs => do
        let r ← leaves (a + 1) ls cs
        return .node .nil .nil (u16 a) l c :: r
    else leaves (a + 1) ls codes.tail

/-- Inflater.cpp:359-368: the nodes of length `n` and the others -/
def takeLength (n : Int) : List HT → List HT × List HT
  | [] => ([], [])
  | t :: ts =>
    let r := takeLength n ts
    if (t.length : Int) = n then (t :: r.1, r.2) else (r.1, t :: r.2)

/-- Inflater.cpp:374-382: one pass of the bubble sort over the first `n` elements -/
def bubblePass : Nat → List HT → List HT
  | n + 2, a :: b :: l =>
    if a.code > b.code then b :: bubblePass (n + 1) (a :: l) else a :: bubblePass (n + 1) (b :: l)
  | _, l => l

/-- Inflater.cpp:372-383 -/
def bubble : Nat → List HT → List HT
  | n + 2, l => bubble (n + 1) (bubblePass (n + 2) l)
  | _, l => l

/-- Inflater.cpp:386-389 -/
def hasDup : List HT → Bool
  | a :: b :: l => a.code == b.code || hasDup (b :: l)
  | _ => false

/-- Inflater.cpp:415-420, 431-437: a parent with one child, put in according to the last bit of `tmp` = code >> 1 -/
def single (n1 : HT) : HT :=
  let tmp := n1.code >>> 1
  if tmp &&& 1 = 0 then .node n1 .nil 0 (u16 (n1.length + 65535)) tmp else .node .nil n1 0 (u16 (n1.length + 65535)) tmp

/-- Inflater.cpp:397-441: the parents of the nodes in focus -/
def parents : List HT → List HT
  | [] => []
  | [n1] => [single n1]
  | n1 :: n2 :: l =>
    if n1.code >>> 1 = n2.code >>> 1 then .node n1 n2 0 (u16 (n1.length + 65535)) (n1.code >>> 1) :: parents l
    else single n1 :: parents (n2 :: l)

/-- Inflater.cpp:354-449; the first argument limits the rounds (maxBits decreases and must not become negative) -/
def treeLoop : Nat → Int → List HT → Res HT
  | 0, _, _ => .error .thrown
  | fuel + 1, maxBits, nodes =>
    if maxBits < 0 then .error .thrown
    else
      let r := takeLength maxBits nodes
      let focus := bubble r.1.length r.1
      if hasDup focus then .error .thrown
      else
        let nodes := r.2 ++ parents focus
        if nodes.length > 1 then treeLoop fuel (maxBits - 1) nodes else rd nodes 0

/-- Inflater.cpp:323-450 -/
def createTree (lengths codes : List Nat) : Res HT := do
  let nodes ← leaves 0 lengths codes
  treeLoop (maxLength lengths + 2) (maxLength lengths) nodes

/-- Inflater.cpp:459-473: `n` rounds are left -/
def decodeLoop (tree : HT) : Nat → Nat → Nat → St → Res (Nat × St)
  | 0, _, _, _ => .error .thrown
  | n + 1, bits, ret, s => do
    let b ← nextBit s
    let ret := u16 (ret <<< 1) ||| b.1
    match tree.find ret (bits + 1) with
    | some symbol => return (symbol, b.2)
    | none => decodeLoop tree n (bits + 1) ret b.2

/-- Inflater.cpp:454-474: at most MAX_BITS + 1 rounds -/
def decodeSymbol (tree : HT) (s : St) : Res (Nat × St) := decodeLoop tree (s.maxBits + 1) 0 0 s

/-- `(*target)[i]` of an Array<uint16> (include/core/Array.h:129-134): throws outside -/
def aget (t : List Nat) (i : Int) : Res Nat :=
  if 0 ≤ i ∧ i < t.length then rd t i.toNat else .error .thrown

def aset (t : List Nat) (i : Int) (x : Nat) : Res (List Nat) :=
  if 0 ≤ i ∧ i < t.length then .ok (t.set i.toNat x) else .error .thrown

/-- Inflater.cpp:557-561 -/
def repeatPrev : Nat → List Nat → Int → Res (List Nat)
  | 0, t, _ => .ok t
  | n + 1, t, cnt => do
    let x ← aget t (cnt - 1)
    let t ← aset t cnt x
    repeatPrev n t (cnt + 1)

/-- Inflater.cpp:567-571, 577-581 -/
def repeatZero : Nat → List Nat → Int → Res (List Nat)
  | 0, t, _ => .ok t
  | n + 1, t, cnt => do
    let t ← aset t cnt 0
    repeatZero n t (cnt + 1)

/-- Inflater.cpp:552-588: one symbol of the code of code lengths; the new number of entries -/
def lengthStep (t : List Nat) (length cnt : Nat) (s : St) : Res (List Nat × Nat × St) :=
  if length = 16 then do
    let r ← nextUIntXR 2 s
    let t ← repeatPrev (r.1 + 3) t cnt
    return (t, cnt + (r.1 + 3), r.2)
  else if length = 17 then do
    let r ← nextUIntXR 3 s
    let t ← repeatZero (r.1 + 3) t cnt
    return (t, cnt + (r.1 + 3), r.2)
  else if length = 18 then do
    let r ← nextUIntXR 7 s
    let t ← repeatZero (r.1 + 11) t cnt
    return (t, cnt + (r.1 + 11), r.2)
  else do
    let t ← aset t cnt length
    return (t, cnt + 1, s)

/-- Inflater.cpp:540-591; the first argument limits the rounds (cnt grows in each) -/
def readLengths (tree : HT) (count : Nat) : Nat → List Nat → Nat → St → Res (List Nat × St)
  | fuel, t, cnt, s =>
    if cnt < count then
      match fuel with
      | 0 => .error .ub
      | fuel + 1 => do
        let v ← decodeSymbol tree s
        let r ← lengthStep t v.1 cnt v.2
        readLengths tree count fuel r.1 r.2.1 r.2.2
    else .ok (t, s)

/-- Inflater.cpp:605 -/
def CODELENGTH_ALPHABET : List Nat := [16, 17, 18, 0, 8, 7, 9, 6, 10, 5, 11, 4, 12, 3, 13, 2, 14, 1, 15]

/-- Inflater.cpp:612-616 -/
def readCodeLengths : Nat → Nat → List Nat → St → Res (List Nat × St)
  | 0, _, t, s => .ok (t, s)
  | n + 1, a, t, s => do
    let x ← nextUIntXR 3 s
    let p ← rd CODELENGTH_ALPHABET a
    let t ← aset t p x.1
    readCodeLengths n (a + 1) t x.2

/-- Inflater.cpp:654-683: a match in a block with dynamic codes -/
def dynMatch (htdist : HT) (value : Nat) (s : St) : Res St := do
  let len ← readLength value s
  let code ← decodeSymbol htdist len.2
  let dist ← readDistance code.1 code.2
  let src : Int := (dist.2.out.length : Int) - dist.1
  if src < 0 then .error .thrown else copyBack len.1 src.toNat dist.2

/-- Inflater.cpp:639-687 (`Exception(...)` at 684 is not thrown) -/
def dynLoop (htvallen htdist : HT) : Nat → St → Res St
  | 0, _ => .error .ub
  | fuel + 1, s => do
    let v ← decodeSymbol htvallen s
    if v.1 < 256 then
      let s ← write v.2 (BitVec.ofNat 8 v.1)
      dynLoop htvallen htdist fuel s
    else if v.1 = 256 then return v.2
    else if v.1 ≤ 285 then
      let s ← dynMatch htdist v.1 v.2
      dynLoop htvallen htdist fuel s
    else dynLoop htvallen htdist fuel v.2

/-- Inflater.cpp:600-637: the trees of a block with dynamic codes -/
def dynTrees (s : St) : Res (HT × HT × St) := do
  let hlit ← nextUIntXR 5 s
  let hdist ← nextUIntXR 5 hlit.2
  let hclen ← nextUIntXR 4 hdist.2
  let cl ← readCodeLengths (hclen.1 + 4) 0 (List.replicate 19 0) hclen.2
  let codes ← huffmanCodes cl.1
  let intermediate ← createTree cl.1 codes.1
  let lens ← readLengths intermediate (hlit.1 + 257) (hlit.1 + 257) (List.replicate (hlit.1 + 257) 0) 0 { cl.2 with maxBits := codes.2 }
  let dists ← readLengths intermediate (hdist.1 + 1) (hdist.1 + 1) (List.replicate (hdist.1 + 1) 0) 0 lens.2
  let lcodes ← huffmanCodes lens.1
  let dcodes ← huffmanCodes dists.1
  let htvallen ← createTree lens.1 lcodes.1
  let htdist ← createTree dists.1 dcodes.1
  return (htvallen, htdist, { dists.2 with maxBits := 15 })

/-- more rounds than the input has bits -/
def limit (s : St) : Nat := 8 * s.comp.length + 1

/-- Inflater.cpp:595-698 -/
def dynBlock (s : St) : Res St := do
  let t ← dynTrees s
  dynLoop t.1 t.2.1 (limit s) t.2.2

/-- Inflater.cpp:712-725: one block (`new Exception` at 725 is not thrown) -/
def block (btype : Nat) (s : St) : Res St :=
  if btype = 0 then stored s else if btype = 1 then fixedBlock (limit s) s else if btype = 2 then dynBlock s else .ok s

/-- Inflater.cpp:707-725.  The two calls of nextBit in line 708 are not sequenced; this is the order from left to right, which
compilers use. -/
def oneBlock (s : St) : Res St := do
  let bfinal ← nextBit s
  let b0 ← nextBit bfinal.2
  let b1 ← nextBit b0.2
  block (b0.1 + b1.1 * 2) { b1.2 with last := if bfinal.1 = 1 then true else b1.2.last }

/-- Inflater.cpp:701-731; the first argument limits the rounds -/
def inflateLoop : Nat → St → Res St
  | 0, _ => .error .ub
  | fuel + 1, s => do
    let s ← oneBlock s
    if s.last then return { s with eof := true } else inflateLoop fuel s

/-- Inflater.cpp:93-124: the header of RFC 1950 -/
def header (s : St) : Res St :=
  if s.totalIn = 0 ∧ s.wrap = false then
    if s.comp.length < 2 then .error .thrown
    else do
      let cmf ← rd s.comp 0
      let flg ← rd s.comp 1
      if cmf.toNat &&& 0x0F ≠ 8 then .error .thrown
      else if (cmf.toNat >>> 4) &&& 0x0F > 7 then .error .thrown
      else if (flg.toNat >>> 5) &&& 1 ≠ 0 then .error .thrown
      else if u16 (cmf.toNat * 256 + flg.toNat) % 31 ≠ 0 then .error .thrown
      else return { s with idx := 2, totalIn := 2, bit := 0 }
  else .ok s

/-- Inflater.cpp:88-131 `Inflate`: `out` of the result is the buffer and its length -/
def inflate (s : St) : Res St := do
  let s ← header { s with out := [] }
  inflateLoop (limit s) s

end Verif.Inflate
