import Verif.Base
/-
The DEFLATE format (RFC 1951), written as an encoder: independent of the decompressor.
-/
namespace Verif.Inflate
open Verif

/-- the bits of a byte, least significant first (RFC 1951, 3.1.1) -/
def byteBits (b : Byte) : List Bool := (List.range 8).map fun i => b.getLsbD i

/-- the bits of a block of bytes -/
def bitsOf (l : List Byte) : List Bool := l.flatMap byteBits

/-- `n` bits of `c`, most significant first: code words -/
def codeBits : Nat → Nat → List Bool
  | 0, _ => []
  | n + 1, c => c.testBit n :: codeBits n c

/-- `n` bits of `c`, least significant first: all other numbers -/
def numBits : Nat → Nat → List Bool
  | 0, _ => []
  | n + 1, c => c.testBit 0 :: numBits n (c / 2)

/-! ### canonical codes (3.2.2) -/

/-- symbol `j` (of code length `l`) comes before symbol `i` (of length `L`): shorter codes first, then in the order of the symbols -/
def precedes (L i l j : Nat) : Prop := l ≠ 0 ∧ (l < L ∨ l = L ∧ j < i)

instance (L i l j : Nat) : Decidable (precedes L i l j) := by unfold precedes; infer_instance

/-- the code word of symbol `i`, as a number of `L` bits: a code word of length `l` occupies 2^(L-l) words of length `L`,
and the code words follow each other without a gap -/
def canon (lens : List Nat) (i : Nat) : Nat :=
  let L := lens.getD i 0
  ((List.range lens.length).map fun j => if precedes L i (lens.getD j 0) j then 2 ^ (L - lens.getD j 0) else 0).sum

/-- the sum of 2^-l, times 2^15 -/
def kraft (lens : List Nat) : Nat := (lens.map fun l => if l = 0 then 0 else 2 ^ (15 - l)).sum

/-- a complete code: every sequence of bits can be decoded -/
def Complete (lens : List Nat) : Prop := kraft lens = 2 ^ 15 ∧ ∀ l ∈ lens, l ≤ 15

/-- the exception of 3.2.7: a single code, of one bit -/
def OneCode (lens : List Nat) : Prop := ∃ a b, lens = List.replicate a 0 ++ 1 :: List.replicate b 0

/-- the code word of symbol `i` -/
def codeWord (lens : List Nat) (i : Nat) : List Bool := codeBits (lens.getD i 0) (canon lens i)

/-! ### the contents: literals and matches (3.2.3, 3.2.5) -/

inductive Tok where
  | lit (b : Byte)
  | copy (length distance : Nat)
deriving DecidableEq

/-- copies `n` bytes beginning `d` bytes back; the copy may overlap what it writes -/
def copyFrom : Nat → Nat → List Byte → List Byte
  | 0, _, out => out
  | n + 1, d, out => copyFrom n d (out ++ [out.getD (out.length - d) 0])

def expand1 (out : List Byte) : Tok → List Byte
  | .lit b => out ++ [b]
  | .copy n d => copyFrom n d out

def expand (out : List Byte) (ts : List Tok) : List Byte := ts.foldl expand1 out

/-- the table of length codes in 3.2.5: symbol, extra bits, first and last length -/
def lengthTable : List (Nat × Nat × Nat × Nat) :=
  [(257, 0, 3, 3), (258, 0, 4, 4), (259, 0, 5, 5), (260, 0, 6, 6), (261, 0, 7, 7), (262, 0, 8, 8), (263, 0, 9, 9), (264, 0, 10, 10),
   (265, 1, 11, 12), (266, 1, 13, 14), (267, 1, 15, 16), (268, 1, 17, 18), (269, 2, 19, 22), (270, 2, 23, 26), (271, 2, 27, 30),
   (272, 2, 31, 34), (273, 3, 35, 42), (274, 3, 43, 50), (275, 3, 51, 58), (276, 3, 59, 66), (277, 4, 67, 82), (278, 4, 83, 98),
   (279, 4, 99, 114), (280, 4, 115, 130), (281, 5, 131, 162), (282, 5, 163, 194), (283, 5, 195, 226), (284, 5, 227, 257),
   (285, 0, 258, 258)]

/-- the table of distance codes in 3.2.5 -/
def distTable : List (Nat × Nat × Nat × Nat) :=
  [(0, 0, 1, 1), (1, 0, 2, 2), (2, 0, 3, 3), (3, 0, 4, 4), (4, 1, 5, 6), (5, 1, 7, 8), (6, 2, 9, 12), (7, 2, 13, 16), (8, 3, 17, 24),
   (9, 3, 25, 32), (10, 4, 33, 48), (11, 4, 49, 64), (12, 5, 65, 96), (13, 5, 97, 128), (14, 6, 129, 192), (15, 6, 193, 256),
   (16, 7, 257, 384), (17, 7, 385, 512), (18, 8, 513, 768), (19, 8, 769, 1024), (20, 9, 1025, 1536), (21, 9, 1537, 2048),
   (22, 10, 2049, 3072), (23, 10, 3073, 4096), (24, 11, 4097, 6144), (25, 11, 6145, 8192), (26, 12, 8193, 12288),
   (27, 12, 12289, 16384), (28, 13, 16385, 24576), (29, 13, 24577, 32768)]

/-- the row of a table for a number -/
def row (t : List (Nat × Nat × Nat × Nat)) (n : Nat) : Nat × Nat × Nat × Nat :=
  (t.find? fun r => r.2.2.1 ≤ n ∧ n ≤ r.2.2.2).getD (0, 0, 0, 0)

/-- a token in a block whose literal/length code is `lit` and whose distance code is `dist` -/
def tokBits (lit dist : Nat → List Bool) : Tok → List Bool
  | .lit b => lit b.toNat
  | .copy n d =>
    lit (row lengthTable n).1 ++ numBits (row lengthTable n).2.1 (n - (row lengthTable n).2.2.1) ++
      (dist (row distTable d).1 ++ numBits (row distTable d).2.1 (d - (row distTable d).2.2.1))

/-- what a token may be: a match lies inside the output so far -/
def tokOk (out : List Byte) : Tok → Prop
  | .lit _ => True
  | .copy n d => 3 ≤ n ∧ n ≤ 258 ∧ 1 ≤ d ∧ d ≤ 32768 ∧ d ≤ out.length

/-- the symbols of a token have a code -/
def tokCoded (litLens distLens : List Nat) : Tok → Prop
  | .lit b => litLens.getD b.toNat 0 ≠ 0
  | .copy n d => litLens.getD (row lengthTable n).1 0 ≠ 0 ∧ distLens.getD (row distTable d).1 0 ≠ 0

def toksOk (out : List Byte) : List Tok → Prop
  | [] => True
  | t :: ts => tokOk out t ∧ toksOk (expand1 out t) ts

/-- the code lengths of the fixed codes (3.2.6) -/
def fixedLit : List Nat := List.replicate 144 8 ++ List.replicate 112 9 ++ List.replicate 24 7 ++ List.replicate 8 8
def fixedDist : List Nat := List.replicate 32 5

/-! ### code lengths of a dynamic block (3.2.7) -/

/-- a symbol of the code length alphabet, with the value of its extra bits -/
inductive CL where
  | len (l : Nat)
  | prev (n : Nat)
  | zeros (n : Nat)
deriving DecidableEq

/-- 16: copy the previous length 3-6 times; 17: zero 3-10 times; 18: zero 11-138 times -/
def CL.ok : CL → Prop
  | .len l => l ≤ 15
  | .prev n => 3 ≤ n ∧ n ≤ 6
  | .zeros n => 3 ≤ n ∧ n ≤ 138

def CL.sym : CL → Nat
  | .len l => l
  | .prev _ => 16
  | .zeros n => if n ≤ 10 then 17 else 18

def CL.extra : CL → List Bool
  | .len _ => []
  | .prev n => numBits 2 (n - 3)
  | .zeros n => if n ≤ 10 then numBits 3 (n - 3) else numBits 7 (n - 11)

def clExpand1 (out : List Nat) : CL → List Nat
  | .len l => out ++ [l]
  | .prev n => out ++ List.replicate n (out.getLastD 0)
  | .zeros n => out ++ List.replicate n 0

def clExpand (out : List Nat) (l : List CL) : List Nat := l.foldl clExpand1 out

def clBits (cl : Nat → List Bool) (c : CL) : List Bool := cl c.sym ++ c.extra

/-- the order of the code lengths of the code length alphabet -/
def clOrder : List Nat := [16, 17, 18, 0, 8, 7, 9, 6, 10, 5, 11, 4, 12, 3, 13, 2, 14, 1, 15]

/-- the head of a dynamic block: how many of the 19 code lengths are sent, these lengths (by symbol), and the encoded
code lengths of the literal/length alphabet and of the distance alphabet -/
structure Dyn where
  hclen : Nat
  clLens : List Nat
  lits : List CL
  dists : List CL

def Dyn.litLens (h : Dyn) : List Nat := clExpand [] h.lits
def Dyn.distLens (h : Dyn) : List Nat := clExpand [] h.dists

def Dyn.bits (h : Dyn) : List Bool :=
  numBits 5 (h.litLens.length - 257) ++ numBits 5 (h.distLens.length - 1) ++ numBits 4 (h.hclen - 4) ++
    (clOrder.take h.hclen).flatMap (fun s => numBits 3 (h.clLens.getD s 0)) ++
    (h.lits ++ h.dists).flatMap (clBits (codeWord h.clLens))

/-- the head is right: the code of code lengths is complete, its lengths fit in 3 bits, those not sent are zero;
the two alphabets have at most 286 and 30 symbols, the end of the block has a code; a repetition never crosses from the
first to the second alphabet (RFC 1951 allows that) and distances are used at all (RFC 1951 allows a block without
distance codes). -/
structure Dyn.Ok (h : Dyn) : Prop where
  hclen : 4 ≤ h.hclen ∧ h.hclen ≤ 19
  clLen : h.clLens.length = 19
  clMax : ∀ l ∈ h.clLens, l ≤ 7
  clRest : ∀ s ∈ clOrder.drop h.hclen, h.clLens.getD s 0 = 0
  clComplete : Complete h.clLens
  clCoded : ∀ c ∈ h.lits ++ h.dists, h.clLens.getD c.sym 0 ≠ 0
  clOk : ∀ c ∈ h.lits ++ h.dists, c.ok
  litLen : 257 ≤ h.litLens.length ∧ h.litLens.length ≤ 286
  distLen : 1 ≤ h.distLens.length ∧ h.distLens.length ≤ 30
  litFirst : ∀ n, h.lits.head? ≠ some (.prev n)
  distFirst : ∀ n, h.dists.head? ≠ some (.prev n)
  litComplete : Complete h.litLens
  distComplete : Complete h.distLens ∨ OneCode h.distLens
  endCoded : h.litLens.getD 256 0 ≠ 0

/-! ### blocks (3.2.3, 3.2.4) -/

inductive Block where
  /-- the padding bits up to the next byte, and the bytes -/
  | stored (pad : List Bool) (bytes : List Byte)
  | fixed (toks : List Tok)
  | dyn (head : Dyn) (toks : List Tok)

/-- the bits of a block after its first three -/
def Block.bits : Block → List Bool
  | .stored pad bytes => pad ++ numBits 16 bytes.length ++ numBits 16 (65535 - bytes.length) ++ bitsOf bytes
  | .fixed toks => toks.flatMap (tokBits (codeWord fixedLit) (codeWord fixedDist)) ++ codeWord fixedLit 256
  | .dyn h toks => h.bits ++ (toks.flatMap (tokBits (codeWord h.litLens) (codeWord h.distLens)) ++ codeWord h.litLens 256)

def Block.type : Block → Nat
  | .stored _ _ => 0
  | .fixed _ => 1
  | .dyn _ _ => 2

/-- what a block adds to the output -/
def Block.expand (out : List Byte) : Block → List Byte
  | .stored _ bytes => out ++ bytes
  | .fixed toks => Inflate.expand out toks
  | .dyn _ toks => Inflate.expand out toks

/-- a block at bit position `pos`, after the output `out` -/
def Block.Ok (pos : Nat) (out : List Byte) : Block → Prop
  | .stored pad bytes => pad.length < 8 ∧ (pos + 3 + pad.length) % 8 = 0 ∧ bytes.length ≤ 65535
  | .fixed toks => toksOk out toks
  | .dyn h toks => h.Ok ∧ toksOk out toks ∧ ∀ t ∈ toks, tokCoded h.litLens h.distLens t

/-- the whole block: BFINAL, BTYPE, contents -/
def Block.encode (final : Bool) (b : Block) : List Bool := final :: numBits 2 b.type ++ b.bits

/-- a sequence of blocks; the last one is marked -/
def encode : List Block → List Bool
  | [] => []
  | [b] => b.encode true
  | b :: bs => b.encode false ++ encode bs

/-- the data a sequence of blocks stands for -/
def decoded (out : List Byte) (bs : List Block) : List Byte := bs.foldl Block.expand out

/-- a valid stream beginning at bit position `pos` -/
def StreamOk (pos : Nat) (out : List Byte) : List Block → Prop
  | [] => False
  | [b] => b.Ok pos out
  | b :: bs => b.Ok pos out ∧ StreamOk (pos + (b.encode false).length) (b.expand out) bs

end Verif.Inflate
