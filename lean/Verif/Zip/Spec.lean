import Verif.Serializer.Spec
import Verif.Charset.Lemmas
import Verif.Inflate.Spec
import Verif.Inflate.Proofs
/-
The ZIP format, as far as a reader of single-disk archives without encryption needs it (PKWARE APPNOTE 4.3): three kinds of records as
concatenations of little-endian numbers, texts and bytes.
-/
namespace Verif.Zip
open Verif

/-- a number of `n` bytes, least significant byte first -/
def le (n v : Nat) : List Byte := Serializer.Spec.leBytes n (BitVec.ofNat (8 * n) v)

/-- the UTF-8 bytes of a text -/
def utf8 (t : List Charset.Ch) : List Byte := t.flatMap Charset.enc1

/-- one file in an archive -/
structure Member where
  name : List Charset.Ch
  extra : List Charset.Ch
  comment : List Charset.Ch
  /-- compression method: 0 stored, 8 deflated -/
  method : Nat
  /-- the bytes in the archive -/
  packed : List Byte
  /-- the bytes of the file -/
  data : List Byte
  /-- the place of its local header -/
  offset : Nat
  /-- central record, bytes 0-19: signature, versions, flags, method, time, date, CRC -/
  dirHead : List Byte
  /-- central record, bytes 34-41: disk number, attributes -/
  dirAttr : List Byte
  /-- local header, bytes 4-7: version, flags -/
  locHead : List Byte
  /-- local header, bytes 10-25: time, date, CRC, sizes -/
  locSizes : List Byte
  /-- name and extra field of the local header -/
  locName : List Byte
  locExtra : List Byte

/-- APPNOTE 4.3.12: the record of the central directory -/
def Member.dirRecord (m : Member) : List Byte :=
  m.dirHead ++ le 4 m.packed.length ++ le 4 m.data.length ++ le 2 (utf8 m.name).length ++ le 2 (utf8 m.extra).length ++
    le 2 (utf8 m.comment).length ++ m.dirAttr ++ le 4 m.offset ++ utf8 m.name ++ utf8 m.extra ++ utf8 m.comment

/-- APPNOTE 4.3.7, 4.3.8: the local header and the packed bytes -/
def Member.localRecord (m : Member) : List Byte :=
  le 4 0x04034b50 ++ m.locHead ++ le 2 m.method ++ m.locSizes ++ le 2 m.locName.length ++ le 2 m.locExtra.length ++ m.locName ++ m.locExtra ++
    m.packed

/-- APPNOTE 4.3.16: the end of central directory record; `disks`: 6 bytes of disk numbers and counts -/
def endRecord (disks : List Byte) (count dirSize dirPos : Nat) (comment : List Byte) : List Byte :=
  le 4 0x06054b50 ++ disks ++ le 2 count ++ le 4 dirSize ++ le 4 dirPos ++ le 2 comment.length ++ comment

/-- a text that UTF-8 carries unchanged in this library (see C17) and that fits its length field -/
def TextOk (t : List Charset.Ch) : Prop := (0 : Charset.Ch) ∉ t ∧ t.head? ≠ some 0xFEFF ∧ (utf8 t).length < 2 ^ 16

/-- the fields have the sizes the format gives them -/
structure Member.Shape (m : Member) : Prop where
  name : TextOk m.name
  extra : TextOk m.extra
  comment : TextOk m.comment
  packed : m.packed.length < 2 ^ 32
  data : m.data.length < 2 ^ 32
  offset : m.offset < 2 ^ 32
  dirHead : m.dirHead.length = 20
  dirAttr : m.dirAttr.length = 8

/-- the packed bytes hold the data -/
def Member.Holds (m : Member) : Prop :=
  m.method = 0 ∧ m.packed = m.data ∨
  m.method = 8 ∧ ∃ bs rest, Inflate.bitsOf m.packed = Inflate.encode bs ++ rest ∧ Inflate.StreamOk 0 [] bs ∧ Inflate.StreamNear [] bs ∧
    Inflate.decoded [] bs = m.data

/-- the member is in the archive -/
structure Member.In (m : Member) (bytes : List Byte) : Prop where
  locHead : m.locHead.length = 4
  locSizes : m.locSizes.length = 16
  locName : m.locName.length < 2 ^ 16
  locExtra : m.locExtra.length < 2 ^ 16
  here : m.localRecord <+: bytes.drop m.offset
  holds : m.Holds

/-- the archive has a central directory of the members `ms`, which starts at `dirPos`, and the end record at `endPos` -/
structure Records (bytes : List Byte) (ms : List Member) (dirPos endPos : Nat) (disks comment : List Byte) : Prop where
  size : bytes.length < 2 ^ 32
  shape : ∀ m ∈ ms, m.Shape
  dirSize : (ms.flatMap Member.dirRecord).length < 2 ^ 32
  dirPosLt : dirPos < 2 ^ 32
  dir : ms.flatMap Member.dirRecord <+: bytes.drop dirPos
  disksLen : disks.length = 6
  commentLen : comment.length < 2 ^ 16
  tail : endPos ≤ bytes.length ∧ bytes.drop endPos = endRecord disks ms.length (ms.flatMap Member.dirRecord).length dirPos comment
  /-- nothing behind the beginning of the end record looks like the beginning of another end record -/
  last : ∀ p, endPos < p → p + 22 ≤ bytes.length → ¬ le 4 0x06054b50 <+: bytes.drop p
  /-- an end record at the very beginning is only found without a comment, see `leading_end_record_missed` -/
  front : endPos = 0 → comment = []

/-- … and their number fits the two bytes for it -/
structure Directory (bytes : List Byte) (ms : List Member) (dirPos endPos : Nat) (disks comment : List Byte) : Prop
    extends Records bytes ms dirPos endPos disks comment where
  count : ms.length < 2 ^ 16

/-- a complete archive of the members `ms` -/
def Archive (bytes : List Byte) (ms : List Member) : Prop :=
  (∃ dirPos endPos disks comment, Directory bytes ms dirPos endPos disks comment) ∧ ∀ m ∈ ms, m.In bytes

/-! ### the archive a writer produces for a list of files: nothing compressed, no times, no attributes -/

/-- CRC-32 (ISO 3309, APPNOTE 4.4.7), one bit: the register shifts towards its low bit, the generator is 0xEDB88320 -/
def crcStep (r : BitVec 32) (bit : Bool) : BitVec 32 := if r.getLsbD 0 ≠ bit then (r >>> 1) ^^^ 0xEDB88320 else r >>> 1

/-- CRC-32: starts with ones, takes the bits of every byte from the lowest to the highest, ends with the complement -/
def stdCrc (data : List Byte) : BitVec 32 := ~~~ ((Inflate.bitsOf data).foldl crcStep 0xFFFFFFFF)

/-- a file to be put into an archive -/
structure Item where
  name : List Charset.Ch
  extra : List Charset.Ch
  comment : List Charset.Ch
  data : List Byte

/-- its member at `offset` -/
def Item.member (i : Item) (offset : Nat) : Member where
  name := i.name
  extra := i.extra
  comment := i.comment
  method := 0
  packed := i.data
  data := i.data
  offset := offset
  dirHead := le 4 0x02014b50 ++ List.replicate 12 0 ++ le 4 (stdCrc i.data).toNat
  dirAttr := List.replicate 8 0
  locHead := List.replicate 4 0
  locSizes := List.replicate 4 0 ++ le 4 (stdCrc i.data).toNat ++ le 4 i.data.length ++ le 4 i.data.length
  locName := utf8 i.name
  locExtra := utf8 i.extra

/-- the members lie one behind the other -/
def members : Nat → List Item → List Member
  | _, [] => []
  | offset, i :: is => i.member offset :: members (offset + (i.member offset).localRecord.length) is

/-- the data, the directory and the end record -/
def layout (items : List Item) : List Byte :=
  let ms := members 0 items
  let files := ms.flatMap Member.localRecord
  let dir := ms.flatMap Member.dirRecord
  files ++ dir ++ endRecord (List.replicate 4 0 ++ le 2 items.length) items.length dir.length files.length []

end Verif.Zip
