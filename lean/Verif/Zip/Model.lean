import Verif.Serializer.Model
import Verif.Charset.Model
import Verif.Inflate.Model
import Verif.MemStream.Model
/-
Model of src/core/ZipFile.cpp and src/core/ZipOutputFile.cpp.

 * A file is the list of its bytes and a position (`FS`), the part of src/core/File.cpp these classes use: 582-594 `createNewFile`,
   596-647 `open`, 657-662 `seek`, 671-674 `position`, 682-696 `readFully`, 698-701 `write`.  Every call of the C library succeeds (no
   full disk, no missing rights); files of 2^63 bytes and more do not exist.
 * Texts are lists of characters; `mEntries` (a `LinkedList`, see Verif.LinkedList) is the list of its entries.  An entry object is
   passed to `putNextEntry` once; the caller's pointer to it is not modelled.
 * The temporary file "jmzipdata.tmp" is not the archive itself.
 * Memory from `new` and local arrays without initialisation hold `junk` in every byte, for any value of `junk`.
-/
namespace Verif.Zip
open Verif

abbrev Ch := Charset.Ch

/-- include/core/File.h: the bytes of an open file and its position -/
structure FS where
  bytes : List Byte
  pos : Nat
deriving DecidableEq

/-- File.cpp:657-662 -/
def FS.seek (f : FS) (p : Nat) : FS := { f with pos := p }

/-- File.cpp:698-701: overwrites or appends; a gap behind the end is filled with zeros (`fwrite`, `fseek`) -/
def FS.write (f : FS) (d : List Byte) : FS :=
  if d = [] then f
  else
    let b := f.bytes ++ List.replicate (f.pos - f.bytes.length) 0
    ⟨b.take f.pos ++ d ++ b.drop (f.pos + d.length), f.pos + d.length⟩

/-- Stream.cpp:48-51, File.cpp:682-696: `buffer.size()` bytes from `p`; at the end of the file the rest of the buffer keeps its contents.
The buffer is the block behind the `ByteArray`, with the additional zero (ByteArray.cpp:81-88). -/
def readInto (bytes : List Byte) (p : Nat) (buffer : List Byte) : List Byte :=
  let got := (bytes.drop p).take (buffer.length - 1)
  got ++ buffer.drop got.length

/-- ByteArray.cpp:81-88 `ByteArray(length, 0)` -/
def zeros (length : Nat) : List Byte := List.replicate (length + 1) 0

/-- include/core/ZipFile.h:75-83 -/
structure Entry where
  name : List Ch
  extra : List Ch
  comment : List Ch
  uncompressedSize : BitVec 32
  compressedSize : BitVec 32
  headerOffset : BitVec 32
  crc : BitVec 32
  dataOffset : BitVec 32
deriving DecidableEq

/-- ZipFile.cpp:213-221 -/
def Entry.new (name : List Ch) : Entry := ⟨name, [], [], 0, 0, 0, 0, 0⟩

/-! ### reading -/

/-- a value of type uint32 -/
def u32 (n : Nat) : Nat := n % 2 ^ 32

/-- ZipFile.cpp:75-89: the rounds with `seek` = n, n-1, …, 1; the first round of an archive of 22 bytes has `seek` = 0 and continues with
the largest number, this is `n` = 2^32.  The buffer at the end, `none` when the signature is not found. -/
def search (bytes : List Byte) : Nat → List Byte → Res (Option (List Byte))
  | 0, _ => .ok none
  | n + 1, eocd => do
    let eocd := readInto bytes (u32 (n + 1)) eocd
    let signature ← Serializer.deserializeLE32 eocd 0
    if signature = 0x06054b50 then return some eocd else search bytes n eocd

/-- `String((char*)&dict[i], n)`, ZipFile.cpp:112-115, String.cpp:61-75: a copy of the bytes with a final zero, decoded as UTF-8 -/
def text (dict : List Byte) (i n : Nat) : Res (List Ch) :=
  if i < dict.length ∧ i + n ≤ dict.length then Charset.utf8Decode ((dict.drop i).take n ++ [0]) else .error .ub

/-- ZipFile.cpp:104-129: one round of the loop, the entry and the next `index` -/
def dirEntry (dict : List Byte) (index : Nat) : Res (Entry × Nat) := do
  let compressedSize ← Serializer.deserializeLE32 dict (u32 (index + 20))
  let uncompressedSize ← Serializer.deserializeLE32 dict (u32 (index + 24))
  let fileNameLength ← Serializer.deserializeLE16 dict (u32 (index + 28))
  let extraFieldLength ← Serializer.deserializeLE16 dict (u32 (index + 30))
  let commentLength ← Serializer.deserializeLE16 dict (u32 (index + 32))
  let offset ← Serializer.deserializeLE32 dict (u32 (index + 42))
  let name ← text dict (u32 (index + 46)) fileNameLength.toNat
  let extra ← text dict (u32 (index + 46 + fileNameLength.toNat)) extraFieldLength.toNat
  let comment ← text dict (u32 (index + 46 + fileNameLength.toNat + extraFieldLength.toNat)) commentLength.toNat
  return ({ Entry.new name with
            extra := extra, comment := comment, uncompressedSize := uncompressedSize, compressedSize := compressedSize, headerOffset := offset },
    u32 (index + 46 + fileNameLength.toNat + extraFieldLength.toNat + commentLength.toNat))

/-- ZipFile.cpp:100-130: the loop over the directory -/
def dirLoop (dict : List Byte) : Nat → Nat → List Entry → Res (List Entry)
  | 0, _, es => .ok es
  | n + 1, index, es => do
    let r ← dirEntry dict index
    dirLoop dict n r.2 (es ++ [r.1])

/-- ZipFile.cpp:93-100: the directory the record describes -/
def directory (bytes : List Byte) (eocd : List Byte) : Res (List Entry) := do
  let recordCount ← Serializer.deserializeLE16 eocd 10
  let dictSize ← Serializer.deserializeLE32 eocd 12
  let dictOffset ← Serializer.deserializeLE32 eocd 16
  let dict := readInto bytes dictOffset.toNat (zeros dictSize.toNat)
  dirLoop dict recordCount.toNat 0 []

/-- ZipFile.cpp:58-59: the number of rounds of the search -/
def rounds (length : Nat) : Nat :=
  let seek := u32 (u32 length + (2 ^ 32 - 22))
  if seek = 0 then 2 ^ 32 else seek

/-- ZipFile.cpp:56-133: the entries of the archive -/
def openZip (bytes : List Byte) : Res (List Entry) := do
  if u32 bytes.length = 0 then return []
  else
    match ← search bytes (rounds bytes.length) (zeros 22) with
    | none => .error .thrown
    | some eocd => directory bytes eocd

/-- ZipFile.cpp:145-156; String.cpp `equals` compares the characters -/
def entry (es : List Entry) (name : List Ch) : Option Entry := es.find? fun e => decide (e.name = name)

/-- ZipFile.cpp:163-166 -/
def entryCount (es : List Entry) : Nat := u32 es.length

/-- ZipFile.cpp:190-204: the block behind the new stream, `none` is the null pointer.  The packed bytes are read into a `ByteArray`, so a
zero follows them. -/
def unpack (junk : Byte) (cm : Nat) (e : Entry) (input : List Byte) : Res (Option (List Byte)) :=
  if cm = 0 then do
    let b ← MemStream.memcpy (List.replicate e.uncompressedSize.toNat junk) 0 input 0 e.compressedSize.toNat
    return some b
  else if cm = 8 then do
    let s ← Inflate.inflate ((Inflate.St.new true).setInput input)
    return some s.out
  else .ok none

/-- ZipFile.cpp:168-207: the block and the length of the new `MemoryStream` -/
def stream (junk : Byte) (bytes : List Byte) (e : Entry) : Res (Option (List Byte) × Nat) := do
  let localHeader := readInto bytes e.headerOffset.toNat (zeros 30)
  let signature ← Serializer.deserializeLE32 localHeader 0
  if signature ≠ 0x04034b50 then .error .thrown
  else
    let cm ← Serializer.deserializeLE16 localHeader 8
    let fl ← Serializer.deserializeLE16 localHeader 26
    let el ← Serializer.deserializeLE16 localHeader 28
    let input := readInto bytes (u32 (e.headerOffset.toNat + 30 + fl.toNat + el.toNat)) (zeros e.compressedSize.toNat)
    let b ← unpack junk cm.toNat e input
    return (b, e.uncompressedSize.toNat)

/-- a client that reads a `MemoryStream` of `n` bytes in one call, into a buffer of `size()` bytes (MemoryStream.cpp:67-75); a null block
can only be read when nothing is copied -/
def readAll (junk : Byte) (block : Option (List Byte)) (n : Nat) : Res (List Byte) := do
  let r ← (MemStream.MS.new (block.getD []) n).read (List.replicate n junk) n
  return r.2.1

/-- a client that reads all the data of an entry -/
def content (junk : Byte) (bytes : List Byte) (e : Entry) : Res (List Byte) := do
  let s ← stream junk bytes e
  readAll junk s.1 s.2

/-! ### writing -/

/-- ZipOutputFile.cpp:41-50: one bit; `char` is signed -/
def crcBit (ch : Byte) (crc : BitVec 32) : Byte × BitVec 32 :=
  let b := (ch.signExtend 32 ^^^ crc) &&& 1
  let crc := crc >>> 1
  (ch.sshiftRight 1, if b ≠ 0 then crc ^^^ 0xEDB88320 else crc)

/-- ZipOutputFile.cpp:43: `j` rounds -/
def crcBits : Nat → Byte → BitVec 32 → BitVec 32
  | 0, _, crc => crc
  | n + 1, ch, crc => let r := crcBit ch crc; crcBits n r.1 r.2

/-- ZipOutputFile.cpp:40-51 -/
def crcLoop : List Byte → BitVec 32 → BitVec 32
  | [], crc => crc
  | ch :: l, crc => crcLoop l (crcBits 8 ch crc)

/-- ZipOutputFile.cpp:36-53 -/
def crc32 (s : List Byte) : BitVec 32 := ~~~ (crcLoop s 0xFFFFFFFF)

/-- a field of a header: its offset and its value -/
inductive Field where
  | f16 (o : Nat) (v : BitVec 16)
  | f32 (o : Nat) (v : BitVec 32)

/-- a sequence of `serializeLEInt16` and `serializeLEInt32` calls on the same array -/
def fields : List Field → List Byte → Res (List Byte)
  | [], b => .ok b
  | .f16 o v :: l, b => do
    let r ← Serializer.serializeLEInt16 b o v
    fields l r.1
  | .f32 o v :: l, b => do
    let r ← Serializer.serializeLEInt32 b o v
    fields l r.1

/-- include/core/ZipFile.h:215-223: the archive, the temporary file and the entries -/
structure ZipOut where
  file : FS
  temp : Option FS
  entries : List Entry

/-- ZipOutputFile.cpp:55-66: `none`: the file does not exist.  An existing file is opened with "rb+" and keeps its bytes. -/
def openOut (existing : Option (List Byte)) : ZipOut := ⟨⟨existing.getD [], 0⟩, none, []⟩

/-- ZipOutputFile.cpp:203-214 -/
def lfh (junk : Byte) (cname cextra : List Byte) : Res (List Byte) :=
  fields [.f32 0 0x04034b50, .f16 4 0, .f16 6 0, .f16 8 0, .f16 10 0, .f16 12 0, .f32 14 0, .f32 18 0, .f32 22 0,
    .f16 26 (.ofNat 16 cname.length), .f16 28 (.ofNat 16 cextra.length)] (List.replicate 30 junk)

/-- ZipOutputFile.cpp:195-227 -/
def putNextEntry (junk : Byte) (z : ZipOut) (e : Entry) : Res ZipOut := do
  let cname ← Charset.utf8Encode e.name
  let cextra ← Charset.utf8Encode e.extra
  let h ← lfh junk cname cextra
  let file := ((z.file.write h).write cname).write cextra
  return ⟨file, some ⟨[], 0⟩,
    z.entries ++ [{ e with headerOffset := .ofNat 32 z.file.pos, dataOffset := .ofNat 32 file.pos }]⟩

/-- ZipOutputFile.cpp:229-232 -/
def writeOut (z : ZipOut) (data : List Byte) (offset length : Int) : Res ZipOut :=
  match z.temp with
  | none => .error .ub
  | some t =>
    if 0 ≤ offset ∧ 0 ≤ length ∧ offset + length ≤ data.length then
      .ok { z with temp := some (t.write ((data.drop offset.toNat).take length.toNat)) }
    else .error .ub

/-- ZipOutputFile.cpp:149-153, 184-188 -/
def fragment (junk : Byte) (e : Entry) : Res (List Byte) :=
  fields [.f32 0 e.crc, .f32 4 e.compressedSize, .f32 8 e.uncompressedSize] (List.replicate 12 junk)

/-- ZipOutputFile.cpp:140-157, 175-192: the data, the sizes in the local header and in the entry -/
def finish (junk : Byte) (z : ZipOut) (e : Entry) (buffer : List Byte) : Res ZipOut := do
  let e := { e with crc := crc32 (buffer.take e.uncompressedSize.toNat), compressedSize := e.uncompressedSize }
  let file := z.file.write (buffer.take e.uncompressedSize.toNat)
  let pos := u32 file.pos
  let frag ← fragment junk e
  let file := (file.seek (u32 (e.headerOffset.toNat + 14))).write frag
  return ⟨file.seek pos, none, z.entries.dropLast ++ [e]⟩

/-- ZipOutputFile.cpp:127-158 -/
def closeEntry (junk : Byte) (z : ZipOut) : Res ZipOut :=
  match z.entries.getLast?, z.temp with
  | some e, some t =>
    let e := { e with uncompressedSize := .ofNat 32 t.pos }
    finish junk z e (readInto t.bytes 0 (zeros e.uncompressedSize.toNat))
  | _, _ => .error .ub

/-- ZipOutputFile.cpp:160-193; `src` are the bytes of the file that is added -/
def writeAndClose (junk : Byte) (z : ZipOut) (src : List Byte) : Res ZipOut :=
  match z.entries.getLast?, z.temp with
  | some e, some _ =>
    let e := { e with uncompressedSize := .ofNat 32 src.length }
    finish junk z e (readInto src 0 (zeros e.uncompressedSize.toNat))
  | _, _ => .error .ub

/-- ZipOutputFile.cpp:82-99 -/
def cdfh (junk : Byte) (e : Entry) (cname cextra ccomment : List Byte) : Res (List Byte) :=
  fields [.f32 0 0x02014b50, .f16 4 0, .f16 6 0, .f16 8 0, .f16 10 0, .f16 12 0, .f16 14 0, .f32 16 e.crc, .f32 20 e.compressedSize,
    .f32 24 e.uncompressedSize, .f16 28 (.ofNat 16 cname.length), .f16 30 (.ofNat 16 cextra.length), .f16 32 (.ofNat 16 ccomment.length),
    .f16 34 0, .f16 36 0, .f32 38 0, .f32 42 e.headerOffset] (List.replicate 46 junk)

/-- ZipOutputFile.cpp:72-106: the loop -/
def writeDir (junk : Byte) : List Entry → FS → Res FS
  | [], f => .ok f
  | e :: es, f => do
    let cname ← Charset.utf8Encode e.name
    let cextra ← Charset.utf8Encode e.extra
    let ccomment ← Charset.utf8Encode e.comment
    let h ← cdfh junk e cname cextra ccomment
    writeDir junk es ((((f.write h).write cname).write cextra).write ccomment)

/-- ZipOutputFile.cpp:110-120 -/
def eocd (junk : Byte) (count start stop : Nat) : Res (List Byte) :=
  fields [.f32 0 0x06054b50, .f16 4 0, .f16 6 0, .f16 8 (.ofNat 16 count), .f16 10 (.ofNat 16 count), .f32 12 (.ofNat 32 stop - .ofNat 32 start),
    .f32 16 (.ofNat 32 start), .f16 20 0] (List.replicate 22 junk)

/-- ZipOutputFile.cpp:68-125: the bytes of the archive -/
def closeOut (junk : Byte) (z : ZipOut) : Res (List Byte) := do
  let f ← writeDir junk z.entries z.file
  let r ← eocd junk z.entries.length z.file.pos f.pos
  return (f.write r).bytes

/-! ### a client of the writer -/

inductive Op where
  | put (e : Entry)
  | write (data : List Byte) (offset length : Int)
  | closeEntry
  | writeAndClose (src : List Byte)

def step (junk : Byte) (z : ZipOut) : Op → Res ZipOut
  | .put e => putNextEntry junk z e
  | .write d o n => writeOut z d o n
  | .closeEntry => closeEntry junk z
  | .writeAndClose src => writeAndClose junk z src

def run (junk : Byte) (z : ZipOut) : List Op → Res ZipOut
  | [] => .ok z
  | o :: os => do
    let z ← step junk z o
    run junk z os

end Verif.Zip
