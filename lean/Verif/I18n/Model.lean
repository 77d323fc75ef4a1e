import Verif.Prefs.Model
import Verif.Serializer.Model
/-
Model of src/core/I18nBundle.cpp: reading a translation catalogue (*.mo) and translating.  An `I18nBundle` is a
`Preferences` object (include/core/I18nBundle.h:54) with a language, which is only used for messages.

 * The stream is its bytes; it opens and is read completely (otherwise a message is logged and nothing changes).
 * The buffer is a `ByteArray`: the bytes and one zero byte behind them (ByteArray.cpp:81-88).
 * Writing to the log is not modelled.
-/
namespace Verif.I18n
open Verif Verif.Str Verif.Prefs

/-- I18nBundle.cpp:92-98 `struct Record` -/
structure Record where
  origOffset : BitVec 32
  origLength : BitVec 32
  transOffset : BitVec 32
  transLength : BitVec 32

/-- `memcpy` of `len` bytes from `&buffer[off]`: outside of the block it is UB -/
def bytesAt (buffer : List Byte) (off len : Nat) : Res (List Byte) :=
  if off + len ≤ buffer.length then .ok ((buffer.drop off).take len) else .error .ub

/-- String.cpp:61-75 `String(const char*, size)`: a copy with a zero byte behind it, decoded as UTF-8 -/
def stringAt (buffer : List Byte) (off len : Nat) : Res Str := do
  let c ← bytesAt buffer off len
  let cs ← Charset.utf8Decode (c ++ [0])
  ofChars cs

/-- I18nBundle.cpp:106-110: one record -/
def readRecord (buffer : List Byte) (origOffset transOffset offset : BitVec 32) : Res Record := do
  let origLength ← Serializer.deserializeLE32 buffer (origOffset + offset).toNat
  let origOff ← Serializer.deserializeLE32 buffer (origOffset + offset + 4).toNat
  let transLength ← Serializer.deserializeLE32 buffer (transOffset + offset).toNat
  let transOff ← Serializer.deserializeLE32 buffer (transOffset + offset + 4).toNat
  return ⟨origOff, origLength, transOff, transLength⟩

/-- I18nBundle.cpp:103-115: the records, `n` of them left -/
def readRecords (buffer : List Byte) (origOffset transOffset : BitVec 32) : Nat → BitVec 32 → List Record → Res (List Record)
  | 0, _, records => .ok records
  | n + 1, offset, records => do
    let r ← readRecord buffer origOffset transOffset offset
    readRecords buffer origOffset transOffset n (offset + 8) (records ++ [r])

/-- I18nBundle.cpp:117-124 -/
def process (h : List Ch → BitVec 64) (buffer : List Byte) : List Record → Prefs → Res Prefs
  | [], p => .ok p
  | r :: rs, p => do
    let orig ← stringAt buffer r.origOffset.toNat r.origLength.toNat
    let trans ← stringAt buffer r.transOffset.toNat r.transLength.toNat
    let p ← setValue h p (chars orig) trans
    process h buffer rs p

/-- I18nBundle.cpp:81-124: after the header -/
def body (h : List Ch → BitVec 64) (p : Prefs) (buffer : List Byte) (magic version stringCount origOffset transOffset : BitVec 32) : Res Prefs :=
  if magic ≠ 0x950412de then .ok p
  else if version ≠ 0 then .ok p
  else do
    let records ← readRecords buffer origOffset transOffset stringCount.toNat 0 []
    process h buffer records p

/-- I18nBundle.cpp:43-125 `appendMo` -/
def appendMo (h : List Ch → BitVec 64) (p : Prefs) (file : List Byte) : Res Prefs :=
  if file.length = 0 then .ok p
  else do
    let buffer := file ++ [0]
    let magic ← Serializer.deserializeLE32 buffer 0
    let version ← Serializer.deserializeLE32 buffer 4
    let stringCount ← Serializer.deserializeLE32 buffer 8
    let origOffset ← Serializer.deserializeLE32 buffer 12
    let transOffset ← Serializer.deserializeLE32 buffer 16
    body h p buffer magic version stringCount origOffset transOffset

/-- I18nBundle.cpp:127-130 `translate` -/
def translate (h : List Ch → BitVec 64) (p : Prefs) (key : Str) : Res Str := valueOr h p (chars key) key

/-- a text of the program -/
def lit (s : String) : List Ch := s.toList.map fun c => BitVec.ofNat 16 c.toNat

/-- String.cpp:1253-1258 `operator+` -/
def plus (left right : Str) : Res Str := do
  let ret ← copyCtor left
  append ret right

/-- I18nBundle.cpp:172, 188: `dir + filename + "." + language + ".mo"` (from left to right) -/
def withName (dir filename language : Str) : Res Str := do
  let a ← plus dir filename
  let dot ← ofChars (lit ".")
  let b ← plus a dot
  let c ← plus b language
  let mo ← ofChars (lit ".mo")
  plus c mo

/-- I18nBundle.cpp:177, 199: `dir + language + ".mo"` -/
def withoutName (dir language : Str) : Res Str := do
  let a ← plus dir language
  let mo ← ofChars (lit ".mo")
  plus a mo

/-- I18nBundle.cpp:184-187, 195-198 -/
def dropRegion (language : Str) : Res Str := do
  let i ← indexOfChar language (BitVec.ofNat 16 '_'.toNat) 0
  if i > 0 then substring language 0 i else .ok language

/-- I18nBundle.cpp:161-165: the language with `_` -/
def underscored (systemLanguage lang : Str) : Res Str :=
  replaceChar (if lang.len = 0 then systemLanguage else lang) (BitVec.ofNat 16 '-'.toNat) (BitVec.ofNat 16 '_'.toNat)

/-- I18nBundle.cpp:168-169 -/
def translationsDir : Res Str := do
  let d ← ofChars (lit "translations")
  appendChar d (BitVec.ofNat 16 '/'.toNat)

/-- I18nBundle.cpp:193-203: the last attempt -/
def try4 (exist : List Ch → Bool) (dir language file3 : Str) : Res Str :=
  if exist (chars file3) = false then do
    let language ← dropRegion language
    withoutName dir language
  else .ok file3

/-- I18nBundle.cpp:182-190 -/
def try3 (exist : List Ch → Bool) (dir filename language file2 : Str) : Res Str :=
  if exist (chars file2) = false then do
    let language ← dropRegion language
    let file3 ← withName dir filename language
    try4 exist dir language file3
  else .ok file2

/-- I18nBundle.cpp:158-204 `transFileByBundleId`.  A `Resource` is its path; `exist` tells which resource files
exist (`Resource::exists`, Resource.cpp:129-138; the files do not change during the call).  Unix: `DIR_SEP` is the slash. -/
def transFile (exist : List Ch → Bool) (systemLanguage filename lang : Str) : Res Str := do
  let language ← underscored systemLanguage lang
  let dir ← translationsDir
  let file1 ← withName dir filename language
  if exist (chars file1) = false then do
    let file2 ← withoutName dir language
    try3 exist dir filename language file2
  else .ok file1

end Verif.I18n
