import Verif.Base
/-
Model of `jm::String` (src/core/String.cpp, include/core/String.h) and `jm::Char`
(include/core/CharArray.h, src/core/Character.cpp).

 * `Ch` is a `uint16` character.
 * `Str.buf` is the heap block behind `mValue`; its length is `mArrLength`.  `new Char[n]` runs
   the default constructor, so a new block holds zeros (CharArray.h:47-50).
 * Every access to `mValue[i]` goes through `rd`/`wr`/`memcpy` and is UB outside the block.
 * `int64` arguments are unbounded integers; the code adds and subtracts them only after
   range checks or, where it does not, the sums of lengths below 2^62 are assumed not to overflow.
 * The exception texts are not modelled.
-/
namespace Verif.Str
open Verif

abbrev Ch := BitVec 16

/-- String.h:683-692 data members. -/
structure Str where
  buf : List Ch
  len : Nat
  hash : BitVec 32
deriving DecidableEq, Repr

/-- `new Char[n]` -/
def newBuf (n : Nat) : List Ch := List.replicate n 0

/-- `memcpy(&dst[d], &src[s], sizeof(Char) * n)` on different blocks or disjoint ranges. -/
def memcpy (dst : List Ch) (d : Nat) (src : List Ch) (s n : Nat) : Res (List Ch) :=
  if d + n ≤ dst.length ∧ s + n ≤ src.length then
    .ok (dst.take d ++ (src.drop s).take n ++ dst.drop (d + n))
  else .error .ub

/-- String.cpp:36-42 -/
def empty : Str := { buf := newBuf 16, len := 0, hash := 0 }

/-- the capacity rounding of String.cpp:150-155 and 162-166 -/
def round16 (n : Nat) : Nat := if n % 16 ≠ 0 then n + (16 - n % 16) else n

/-- String.cpp:150-158 `copy(CharArray)`: the string all decoding constructors build. -/
def ofChars (cs : List Ch) : Res Str := do
  let v ← memcpy (newBuf (round16 cs.length)) 0 cs 0 cs.length
  return { buf := v, len := cs.length, hash := 0 }

/-- String.cpp:52-59 copy constructor -/
def copyCtor (s : Str) : Res Str := do
  let v ← memcpy (newBuf s.buf.length) 0 s.buf 0 s.len
  return { buf := v, len := s.len, hash := s.hash }

/-- String.cpp:1233-1245 `operator=` (`this != &another`); `mHash` keeps its value. -/
def assign (this another : Str) : Res Str := do
  let v ← memcpy (newBuf another.buf.length) 0 another.buf 0 another.len
  return { buf := v, len := another.len, hash := this.hash }

/-- String.cpp:210-213 -/
def size (s : Str) : Nat := s.len

/-- String.cpp:160-173 `checkCapacity` -/
def checkCapacity (s : Str) (more : Nat) : Res Str := do
  if s.len + more < s.buf.length then return s
  else
    let v ← memcpy (newBuf (round16 (s.len + more))) 0 s.buf 0 s.len
    return { s with buf := v }

/-- String.cpp:502-508 `charAt` -/
def charAt (s : Str) (index : Int) : Res Ch :=
  if index < 0 ∨ index ≥ s.len then .error .thrown else rd s.buf index.toNat

/-- String.cpp:510-517 `setCharAt` -/
def setCharAt (s : Str) (index : Int) (c : Ch) : Res Str :=
  if index < 0 ∨ index ≥ s.len then .error .thrown else do
    let v ← wr s.buf index.toNat c
    return { s with buf := v, hash := 0 }

/-- String.cpp:519-526 `append(const String&)` -/
def append (s another : Str) : Res Str :=
  if another.len = 0 then .ok s else do
    let s ← checkCapacity s another.len
    let v ← memcpy s.buf s.len another.buf 0 another.len
    return { buf := v, len := s.len + another.len, hash := 0 }

/-- String.cpp:519-526 `append` called with `another` being the same object: after
`checkCapacity` the source is the (possibly new) block of the object itself. -/
def appendSelf (s : Str) : Res Str :=
  if s.len = 0 then .ok s else do
    let s ← checkCapacity s s.len
    let v ← memcpy s.buf s.len s.buf 0 s.len
    return { buf := v, len := s.len + s.len, hash := 0 }

/-- String.cpp:528-534 `append(Char)` -/
def appendChar (s : Str) (c : Ch) : Res Str := do
  let s ← checkCapacity s 1
  let v ← wr s.buf s.len c
  return { buf := v, len := s.len + 1, hash := 0 }

/-- The loops `for(a = mStrLength; a > index; a--) mValue[a + k - 1] = mValue[a - 1]` of
String.cpp:541 (`k = 1`) and 556 (`k = len`); first argument `a`. -/
def shiftUp (index k : Nat) : Nat → List Ch → Res (List Ch)
  | 0, v => .ok v
  | a + 1, v =>
    if a + 1 > index then do
      let c ← rd v a
      let v ← wr v (a + k) c
      shiftUp index k a v
    else .ok v

/-- String.cpp:536-545 `insert(int64, Char)` -/
def insertChar (s : Str) (index : Int) (c : Ch) : Res Str :=
  if index < 0 ∨ index > s.len then .error .thrown else do
    let s ← checkCapacity s 1
    let v ← shiftUp index.toNat 1 s.len s.buf
    let v ← wr v index.toNat c
    return { buf := v, len := s.len + 1, hash := 0 }

/-- String.cpp:557: `for(a = 0; a < len; a++) mValue[index + a] = str.charAt(a)`;
`get a` is `str.charAt(a)` evaluated on the current block. -/
def copyIn (get : List Ch → Nat → Res Ch) (index len a : Nat) (v : List Ch) : Res (List Ch) :=
  if a < len then do
    let c ← get v a
    let v ← wr v (index + a) c
    copyIn get index len (a + 1) v
  else .ok v
termination_by len - a

/-- String.cpp:547-561 `insert(int64, const String&)`, `str` another object -/
def insert (s : Str) (index : Int) (str : Str) : Res Str :=
  if index < 0 ∨ index > s.len then .error .thrown else do
    let s ← checkCapacity s str.len
    let v ← shiftUp index.toNat str.len s.len s.buf
    let v ← copyIn (fun _ a => charAt str a) index.toNat str.len 0 v
    return { buf := v, len := s.len + str.len, hash := 0 }

/-- String.cpp:547-561 with `str` the same object: `str.charAt(a)` reads the block being written. -/
def insertSelf (s : Str) (index : Int) : Res Str :=
  if index < 0 ∨ index > s.len then .error .thrown else do
    let n := s.len
    let s ← checkCapacity s n
    let v ← shiftUp index.toNat n s.len s.buf
    let v ← copyIn (fun w a => charAt { s with buf := w } a) index.toNat n 0 v
    return { buf := v, len := s.len + n, hash := 0 }

/-- The loops `for(a = index; a < n; a++) mValue[a] = mValue[a + k]` of String.cpp:568-572
(`k = 1`) and 582-585 (`k = length`). -/
def shiftDown (n k : Nat) (a : Nat) (v : List Ch) : Res (List Ch) :=
  if a < n then do
    let c ← rd v (a + k)
    let v ← wr v a c
    shiftDown n k (a + 1) v
  else .ok v
termination_by n - a

/-- String.cpp:563-574 `deleteCharAt` -/
def deleteCharAt (s : Str) (index : Int) : Res Str :=
  if index < 0 ∨ index ≥ s.len then .error .thrown else do
    let v ← shiftDown (s.len - 1) 1 index.toNat s.buf
    return { buf := v, len := s.len - 1, hash := 0 }

/-- String.cpp:576-587 `deleteCharRangeAt` for `length ≥ 0`.  The code does not check
`index + length ≤ mStrLength`; `mStrLength - length` may become negative, hence the result is
the pair of block and the signed new `mStrLength`. -/
def deleteCharRangeAtRaw (s : Str) (index : Int) (length : Nat) : Res (List Ch × Int) :=
  if index < 0 ∨ index > s.len then .error .thrown else do
    let v ← shiftDown (s.len - length) length index.toNat s.buf
    return (v, (s.len : Int) - length)

/-- The same, when the resulting length is not negative. -/
def deleteCharRangeAt (s : Str) (index : Int) (length : Nat) : Res Str := do
  let r ← deleteCharRangeAtRaw s index length
  return { buf := r.1, len := r.2.toNat, hash := 0 }

/-- String.cpp:613-617 `zero` -/
def zero (s : Str) : Str := { s with len := 0, hash := 0 }

/-- String.cpp:602-611 `clear` -/
def clear (s : Str) : Str :=
  let s := zero s
  if s.buf.length > 16 then { s with buf := newBuf 16 } else s

/-- String.cpp:1130-1133 `isEmpty` -/
def isEmpty (s : Str) : Bool := s.len == 0

/-! ### Characters (Character.cpp) -/

/-- Character.cpp:35-50 -/
def isWhitespace (c : Ch) : Bool :=
  c == 0x20 || c == 0x0d || c == 0x0a || c == 0x09 || c == 0x08 || c == 0x0c

/-- Character.cpp:53-57 -/
def isDigit (c : Ch) : Bool := decide (0x30 ≤ c.toNat ∧ c.toNat ≤ 0x39)

/-- Character.cpp:83-87 -/
def digitValue (c : Ch) : Int := if 0x30 ≤ c.toNat ∧ c.toNat ≤ 0x39 then (c.toNat : Int) - 0x30 else -1

/-- Character.cpp:59-65 -/
def isUpperCase (c : Ch) : Bool :=
  decide (0x41 ≤ c.toNat ∧ c.toNat ≤ 0x5a) || decide (0xc0 ≤ c.toNat ∧ c.toNat ≤ 0xd6)
    || decide (0xd8 ≤ c.toNat ∧ c.toNat ≤ 0xde)

/-- Character.cpp:67-73 -/
def isLowerCase (c : Ch) : Bool :=
  decide (0x61 ≤ c.toNat ∧ c.toNat ≤ 0x7a) || decide (0xdf ≤ c.toNat ∧ c.toNat ≤ 0xf6)
    || decide (0xf8 ≤ c.toNat ∧ c.toNat ≤ 0xff)

/-- Character.cpp:90-160: the 26 Latin capitals and Ä Ö Ü (cases written as a range). -/
def toLowerCh (c : Ch) : Ch :=
  if 0x41 ≤ c.toNat ∧ c.toNat ≤ 0x5a then c + 0x20
  else if c = 0xC4 then 0xE4 else if c = 0xD6 then 0xF6 else if c = 0xDC then 0xFC
  else c

/-- Character.cpp:163-234 -/
def toUpperCh (c : Ch) : Ch :=
  if 0x61 ≤ c.toNat ∧ c.toNat ≤ 0x7a then c - 0x20
  else if c = 0xE4 then 0xC4 else if c = 0xF6 then 0xD6 else if c = 0xFC then 0xDC
  else c

/-! ### Comparison -/

/-- The loops of String.cpp:238-241, 627-631, 646-652, 265-268: compare `n` characters of the two
blocks starting at `i` and `j`, after applying `f` to each. -/
def sameRange (f : Ch → Ch) (v : List Ch) (i : Nat) (w : List Ch) (j : Nat) : Nat → Res Bool
  | 0 => .ok true
  | n + 1 => do
    let c1 ← rd v i
    let c2 ← rd w j
    if f c1 ≠ f c2 then return false
    else sameRange f v (i + 1) w (j + 1) n

/-- String.cpp:628-640 `equals(const String&)` (`uint32 cnt`: lengths below 2^32). -/
def equals (s t : Str) : Res Bool :=
  if s.len ≠ t.len then .ok false else sameRange id s.buf 0 t.buf 0 s.len

/-- String.cpp:642-656 `equalsIgnoreCase` -/
def equalsIgnoreCase (s t : Str) : Res Bool :=
  if s.len ≠ t.len then .ok false else sameRange toLowerCh s.buf 0 t.buf 0 s.len

/-- String.cpp:236-246 `startsWith` -/
def startsWith (s t : Str) : Res Bool :=
  if t.len > s.len then .ok false else sameRange id s.buf 0 t.buf 0 t.len

/-- String.cpp:253-256: `for(a = 1; a <= n; a++) if(mValue[mStrLength - a] != another...)` -/
def sameBack (s t : Str) (a : Nat) : Res Bool :=
  if a ≤ t.len then do
    let c1 ← rd s.buf (s.len - a)
    let c2 ← rd t.buf (t.len - a)
    if c1 ≠ c2 then return false else sameBack s t (a + 1)
  else .ok true
termination_by t.len + 1 - a

/-- String.cpp:249-259 `endsWith` -/
def endsWith (s t : Str) : Res Bool :=
  if t.len > s.len then .ok false else sameBack s t 1

/-- String.cpp:261-271 `atIs`, `position ≥ 0` (a negative position reads in front of the block). -/
def atIs (s : Str) (position : Int) (t : Str) : Res Bool :=
  if position + t.len > s.len then .ok false
  else if position < 0 then (if t.len = 0 then .ok true else .error .ub)
  else sameRange id s.buf position.toNat t.buf 0 t.len

/-- String.cpp:273-285 `atIsIgnoreCase` -/
def atIsIgnoreCase (s : Str) (position : Int) (t : Str) : Res Bool :=
  if position + t.len > s.len then .ok false
  else if position < 0 then (if t.len = 0 then .ok true else .error .ub)
  else sameRange toLowerCh s.buf position.toNat t.buf 0 t.len

/-- String.cpp:662-671 the loop of `compareTo` -/
def cmpLoop (v w : List Ch) (smallest cnt : Nat) : Res (Option Int) :=
  if cnt < smallest then do
    let c1 ← rd v cnt
    let c2 ← rd w cnt
    if c1 < c2 then return some (-1)
    else if c1 > c2 then return some 1
    else cmpLoop v w smallest (cnt + 1)
  else .ok none
termination_by smallest - cnt

/-- String.cpp:658-677 `compareTo` -/
def compareTo (s t : Str) : Res Int := do
  let r ← cmpLoop s.buf t.buf (min s.len t.len) 0
  match r with
  | some x => return x
  | none => if s.len < t.len then return -1 else if s.len > t.len then return 1 else return 0

/-- String.cpp:1317-1321 `operator<` -/
def less (s t : Str) : Res Bool := do
  let s ← copyCtor s
  let r ← compareTo s t
  return decide (r < 0)

/-! ### Hash codes and case -/

/-- String.cpp:290-291: `hash = (hash << 5) - hash + mValue[a].unicode()` in `uint32` -/
def hashLoop (v : List Ch) (n a : Nat) (h : BitVec 32) : Res (BitVec 32) :=
  if a < n then do
    let c ← rd v a
    hashLoop v n (a + 1) ((h <<< 5) - h + c.setWidth 32)
  else .ok h
termination_by n - a

/-- String.cpp:287-294 `hashCode`: a cached value is returned sign extended (`int32` to `int64`),
a fresh one zero extended (`uint32` to `int64`). -/
def hashCode (s : Str) : Res (Str × BitVec 64) :=
  if s.hash ≠ 0 then .ok (s, s.hash.signExtend 64) else do
    let h ← hashLoop s.buf s.len 0 0
    return ({ s with hash := h }, h.setWidth 64)

/-- String.cpp:296-302 `constHashCode` -/
def constHashCode (s : Str) : Res (BitVec 64) :=
  if s.hash ≠ 0 then .ok (s.hash.signExtend 64) else do
    let h ← hashLoop s.buf s.len 0 0
    return h.setWidth 64

/-- String.cpp:308-311, 320-323, 437-440: rewrite the first `n` characters in place. -/
def mapLoop (f : Ch → Ch) (n a : Nat) (v : List Ch) : Res (List Ch) :=
  if a < n then do
    let c ← rd v a
    let v ← wr v a (f c)
    mapLoop f n (a + 1) v
  else .ok v
termination_by n - a

/-- String.cpp:304-314 `toLowerCase`: the copy inherits the cached hash. -/
def toLowerCase (s : Str) : Res Str := do
  let r ← copyCtor s
  let v ← mapLoop toLowerCh s.len 0 r.buf
  return { r with buf := v }

/-- String.cpp:316-326 `toUpperCase` -/
def toUpperCase (s : Str) : Res Str := do
  let r ← copyCtor s
  let v ← mapLoop toUpperCh s.len 0 r.buf
  return { r with buf := v }

/-- String.cpp:433-443 `replace(Char, Char)` -/
def replaceChar (s : Str) (old new : Ch) : Res Str := do
  let r ← copyCtor s
  let v ← mapLoop (fun c => if c = old then new else c) s.len 0 r.buf
  return { r with buf := v }

/-! ### Parts of a string -/

/-- String.cpp:762-772: the copying part of `substring`. -/
def takeRange (s : Str) (b sub : Int) : Res Str :=
  if sub > 0 then do
    let r ← checkCapacity empty sub.toNat
    let v ← memcpy r.buf 0 s.buf b.toNat sub.toNat
    return { r with buf := v, len := sub.toNat }
  else .ok empty

/-- String.cpp:756-773 `substring(int64, int64)` -/
def substring (s : Str) (beginIndex endIndex : Int) : Res Str :=
  let b := if beginIndex < 0 then 0 else beginIndex
  let e := if endIndex < b then b else endIndex
  let e := if e > s.len then (s.len : Int) else e
  takeRange s b (e - b)

/-- String.cpp:775-778 `substring(int64)` -/
def substringFrom (s : Str) (beginIndex : Int) : Res Str := substring s beginIndex s.len

/-- String.cpp:336: `while(beginIndex < mStrLength && isWhitespace(mValue[beginIndex])) beginIndex++` -/
def trimLeft (s : Str) (b : Nat) : Res Nat :=
  if b < s.len then do
    let c ← rd s.buf b
    if isWhitespace c then trimLeft s (b + 1) else return b
  else .ok b
termination_by s.len - b

/-- String.cpp:339: `while(endIndex > 0 && isWhitespace(mValue[endIndex - 1])) endIndex--` -/
def trimRight (s : Str) : Nat → Res Nat
  | 0 => .ok 0
  | e + 1 => do
    let c ← rd s.buf e
    if isWhitespace c then trimRight s e else return e + 1

/-- String.cpp:328-344 `trim` -/
def trim (s : Str) : Res Str :=
  if s.len = 0 then .ok empty else do
    let b ← trimLeft s 0
    let e ← trimRight s s.len
    if e ≤ b then return empty else substring s b e

/-- String.cpp:479-485: swap `mValue[a]` and `mValue[last]` for `a < cnt`. -/
def revLoop (cnt a last : Nat) (v : List Ch) : Res (List Ch) :=
  if a < cnt then do
    let tmp ← rd v a
    let x ← rd v last
    let v ← wr v a x
    let v ← wr v last tmp
    revLoop cnt (a + 1) (last - 1) v
  else .ok v
termination_by cnt - a

/-- String.cpp:474-488 `reverse` -/
def reverse (s : Str) : Res Str := do
  let r ← copyCtor s
  let v ← revLoop (s.len / 2) 0 (s.len - 1) r.buf
  return { r with buf := v }

/-- String.cpp:589-599 `count` -/
def countLoop (s : Str) (c : Ch) (i n : Nat) : Res Nat :=
  if i < s.len then do
    let x ← rd s.buf i
    countLoop s c (i + 1) (if x = c then n + 1 else n)
  else .ok n
termination_by s.len - i

/-- String.cpp:589-599 `count` -/
def count (s : Str) (c : Ch) : Res Nat := countLoop s c 0 0

/-! ### Search -/

/-- String.cpp:360-364 -/
def findChar (s : Str) (c : Ch) (a : Nat) : Res (Option Nat) :=
  if a < s.len then do
    let x ← rd s.buf a
    if x = c then return some a else findChar s c (a + 1)
  else .ok none
termination_by s.len - a

/-- `-1` for "not found" -/
def orMinus1 : Option Nat → Int
  | some a => a
  | none => -1

/-- String.cpp:356-365 `indexOf(Char, int64)`; `indexOf(Char)` (346-349) passes 0. -/
def indexOfChar (s : Str) (c : Ch) (fromIndex : Int) : Res Int := do
  let r ← findChar s c fromIndex.toNat
  return orMinus1 r

/-- String.cpp:374-381 and 418-425: the inner comparison loop; nothing keeps `a + b` below
`mStrLength`. -/
def matchAt (s t : Str) (a : Nat) : Res Bool := sameRange id s.buf a t.buf 0 t.len

/-- String.cpp:371-383 -/
def findStr (s t : Str) (a : Nat) : Res (Option Nat) :=
  if a < s.len then do
    let m ← matchAt s t a
    if m then return some a else findStr s t (a + 1)
  else .ok none
termination_by s.len - a

/-- String.cpp:367-385 `indexOf(const String&, int64)` -/
def indexOfStr (s t : Str) (fromIndex : Int) : Res Int := do
  let r ← findStr s t fromIndex.toNat
  return orMinus1 r

/-- String.cpp:404-407: `for(a = fromIndex; a >= 0; a--)`; first argument is `a + 1`. -/
def findCharBack (s : Str) (c : Ch) : Nat → Res (Option Nat)
  | 0 => .ok none
  | a + 1 => do
    let x ← rd s.buf a
    if x = c then return some a else findCharBack s c a

/-- String.cpp:397-409 `lastIndexOf(Char, int64)` -/
def lastIndexOfCharFrom (s : Str) (c : Ch) (fromIndex : Int) : Res Int :=
  if fromIndex ≥ s.len then .error .thrown else
    let f := if fromIndex < 0 then 0 else fromIndex
    let f := if f > (s.len : Int) - 1 then (s.len : Int) - 1 else f
    do let r ← findCharBack s c (f + 1).toNat
       return orMinus1 r

/-- String.cpp:387-390 `lastIndexOf(Char)` -/
def lastIndexOfChar (s : Str) (c : Ch) : Res Int := lastIndexOfCharFrom s c ((s.len : Int) - 1)

/-- String.cpp:416-428; first argument is `a + 1`. -/
def findStrBack (s t : Str) : Nat → Res (Option Nat)
  | 0 => .ok none
  | a + 1 => do
    let m ← matchAt s t a
    if m then return some a else findStrBack s t a

/-- String.cpp:411-430 `lastIndexOf(const String&, int64)` -/
def lastIndexOfStrFrom (s t : Str) (fromIndex : Int) : Res Int :=
  let begin_ := (s.len : Int) - t.len
  let f := if fromIndex > begin_ then begin_ else fromIndex
  do let r ← findStrBack s t (f + 1).toNat
     return orMinus1 r

/-- String.cpp:392-395 `lastIndexOf(const String&)` -/
def lastIndexOfStr (s t : Str) : Res Int := lastIndexOfStrFrom s t ((s.len : Int) - 1)

/-- String.cpp:453-465: the `do … while` loop of `replace`; the first argument bounds the number
of iterations, `none` = not finished within it. -/
def replaceLoop (s old new : Str) : Nat → Str → Int → Int → Option (Res (Str × Int))
  | 0, _, _, _ => none
  | fuel + 1, output, pos1, pos2 =>
    let r : Res (Str × Int × Int) := do
      let part ← substring s pos1 pos2
      let output ← append output part
      let output ← append output new
      let pos1 := pos2 + old.len
      let pos2 ← indexOfStr s old pos1
      return (output, pos1, pos2)
    match r with
    | .error f => some (.error f)
    | .ok (output, pos1, pos2) =>
      if pos2 ≥ pos1 then replaceLoop s old new fuel output pos1 pos2 else some (.ok (output, pos1))

/-- String.cpp:445-470 `replace(const String&, const String&)` -/
def replaceStr (fuel : Nat) (s old new : Str) : Option (Res Str) :=
  match indexOfStr s old 0 with
  | .error f => some (.error f)
  | .ok pos2 =>
    if pos2 < 0 then some (copyCtor s) else
      match replaceLoop s old new fuel empty 0 pos2 with
      | none => none
      | some (.error f) => some (.error f)
      | some (.ok (output, pos1)) => some (do
          let rest ← substringFrom s pos1
          append output rest)

end Verif.Str
