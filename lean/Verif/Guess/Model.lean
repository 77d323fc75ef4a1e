import Verif.Charset.Pages
import Verif.Fp.Model
import Verif.Fp32.Model
import Verif.Str.Model
/-
Model of src/core/Charset.cpp: guessing the character set of a byte stream, and finding a character set by its name.

 * The stream is the list of its bytes, `length` is their number: not negative, below 2^32.
 * `char` is signed (x86, all Apple systems, Windows) or unsigned (Linux and Android on ARM): parameter `signed`.
 * The operating system is a parameter (`#ifdef` in Charset.cpp:171-177).
 * Names are sequences of characters.
-/
namespace Verif.Guess
open Verif Verif.Str

/-- a string literal of the source -/
def lit (s : String) : List Ch := s.toList.map fun c => BitVec.ofNat 16 c.toNat

inductive Os where
  | mac | linux | windows | other
  deriving DecidableEq

/-- Charset.cpp:169-177: the initial value of `encoding` -/
def osDefault : Os → List Ch
  | .mac => lit "MacRoman"
  | .linux => lit "UTF-8"
  | .windows => lit "Windows-1252"
  | .other => []

/-- the value of a `char` after promotion to `int` -/
def charVal (signed : Bool) (b : Byte) : Int := if signed then b.toInt else b.toNat

/-- Charset.cpp:185-186, 189-190: `stream[0] == x && stream[1] == y` -/
def starts2 (b : List Byte) (x y : Byte) : Res Bool := do
  let c ← rd b 0
  if c = x then (rd b 1).bind fun d => .ok (d == y) else .ok false

/-- Charset.cpp:193-195 -/
def starts3 (b : List Byte) (x y z : Byte) : Res Bool := do
  let c ← starts2 b x y
  if c then (rd b 2).bind fun d => .ok (d == z) else .ok false

/-- the conversion `float` to `double`, which is exact -/
def toDouble : Fp32.F32 → Fp.F64
  | .nan => .nan
  | .num s b _ => if b = Fp32.infBits then Fp.mk s Fp.infBits else Fp.ofUnits s (Fp32.sgn s (Fp32.mag b) * 2 ^ 925) 1

/-- Charset.cpp:206-212: the counters for even and odd positions -/
def countZeros (b : List Byte) : Nat → Nat → Fp32.F32 × Fp32.F32 → Res (Fp32.F32 × Fp32.F32)
  | 0, _, c => .ok c
  | n + 1, a, (c1, c2) => do
    let x ← rd b a
    countZeros b n (a + 1) (if x = 0 then (if a % 2 = 0 then (c1 + Fp32.lit 1 1, c2) else (c1, c2 + Fp32.lit 1 1)) else (c1, c2))

/-- Charset.cpp:214: `count1 / (0.5f * frame) > 0.9`; the quotient is a `float`, 0.9 a `double` -/
def many1 (count1 : Fp32.F32) (frame : Nat) : Bool := Fp.lt (Fp.lit 9 10) (toDouble (count1 / (Fp32.lit 1 2 * Fp32.ofInt frame)))

/-- Charset.cpp:218: `count2 / (0.5 * frame) > 0.9`, all `double` -/
def many2 (count2 : Fp32.F32) (frame : Nat) : Bool := Fp.lt (Fp.lit 9 10) (toDouble count2 / (Fp.lit 1 2 * Fp.ofInt frame))

/-- Charset.cpp:224-243: Windows-1252 becomes MacRoman if an undefined character occurs -/
def winCheck (signed : Bool) (b : List Byte) (encoding : List Ch) : List Ch :=
  if encoding = lit "Windows-1252" then
    (if b.any (fun x => [0x81, 0x8D, 0x8F, 0x90, 0x9D].contains (charVal signed x)) then lit "MacRoman" else encoding)
  else encoding

/-- Charset.cpp:223-261: no UTF -/
def guessRest (signed : Bool) (os : Os) (b : List Byte) : List Ch :=
  let encoding := winCheck signed b (osDefault os)
  if b.any (fun x => charVal signed x > 0x7F) then encoding else lit "ASCII"

/-- Charset.cpp:204-261: no marker -/
def guessBody (signed : Bool) (os : Os) (b : List Byte) : Res (List Ch) := do
  let frame := min 4096 b.length
  let c ← countZeros b frame 0 (Fp32.zero, Fp32.zero)
  return if many1 c.1 frame then lit "UTF-16BE"
    else if many2 c.2 frame then lit "UTF-16LE"
    else guessRest signed os b

/-- Charset.cpp:166-262 `guess` -/
def guess (signed : Bool) (os : Os) (b : List Byte) : Res (List Ch) := do
  let be ← starts2 b 0xFE 0xFF
  if be then .ok (lit "UTF-16BE") else do
    let le ← starts2 b 0xFF 0xFE
    if le then .ok (lit "UTF-16LE") else do
      let u8 ← starts3 b 0xEF 0xBB 0xBF
      if u8 then .ok (lit "UTF-8") else guessBody signed os b

/-! ### The list of character sets -/

inductive Decoder where
  | utf8 | windows1252 | macRoman | utf16le | utf16be | raw
  deriving DecidableEq

/-- include/core/Charset.h:174-194: the members -/
structure Charset where
  name : List Ch
  alternatives : List (List Ch)
  decoder : Decoder
  deriving DecidableEq

/-- Charset.cpp:36-44: the table -/
def table : List Charset :=
  [⟨lit "UTF-8", [], .utf8⟩, ⟨lit "Windows-1252", [], .windows1252⟩, ⟨lit "MacRoman", [], .macRoman⟩, ⟨lit "UTF-16LE", [], .utf16le⟩,
   ⟨lit "UTF-16BE", [], .utf16be⟩, ⟨lit "RAW", [], .raw⟩, ⟨lit "ASCII", [], .raw⟩]

/-- Charset.cpp:135-145 -/
def hasName (c : Charset) (name : List Ch) : Bool := if c.name = name then true else c.alternatives.any (fun a => a = name)

/-- Charset.cpp:157-164 (`nullptr` is `none`); `cs` are the character sets that there are, none after `quitCharsets` -/
def forName (cs : List Charset) (name : List Ch) : Option Charset :=
  match cs with
  | [] => none
  | c :: cs => if hasName c name then some c else forName cs name

/-- Charset.cpp:111-119: `new String[mAltCount]` before `mAltCount` has a value; `old` is what the memory contains.  The loop
writes `alternatives.length` names into a block for `old`. -/
def withAlternatives (old : Nat) (name : List Ch) (alternatives : List (List Ch)) (d : Decoder) : Res Charset :=
  if alternatives.length ≤ old then .ok ⟨name, alternatives, d⟩ else .error .ub

/-- Charset.cpp:147-150 `decode` -/
def decode (c : Charset) (b : List Byte) : Res (List Ch) :=
  match c.decoder with
  | .utf8 => Verif.Charset.utf8Decode b
  | .windows1252 => Verif.Charset.win1252Decode b
  | .macRoman => Verif.Charset.macDecode b
  | .utf16le => Verif.Charset.utf16Decode false b
  | .utf16be => Verif.Charset.utf16Decode true b
  | .raw => Verif.Charset.rawDecode b

end Verif.Guess
