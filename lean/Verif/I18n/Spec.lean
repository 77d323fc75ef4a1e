import Verif.Serializer.Spec
import Verif.Charset.Utf8Props
/-
Specification of a translation catalogue, after the GNU gettext manual ("The Format of GNU MO Files", revision 0, little
endian).
-/
namespace Verif.I18n.Spec
open Verif Verif.Serializer.Spec Verif.Charset.Utf8Props

/-- four bytes at position `o`: the number `v` -/
structure U32At (b : List Byte) (o v : Nat) : Prop where
  small : v < 2 ^ 32
  bytes : (b.drop o).take 4 = leBytes 4 (BitVec.ofNat 32 v)

/-- A table of strings at position `table` whose `i`-th entry describes the text `l`: length, then position. -/
def TextEntry (b : List Byte) (table i : Nat) (l : List Char) : Prop :=
  ∃ off, U32At b (table + 8 * i) (standardBytes l).length ∧ U32At b (table + 8 * i + 4) off ∧
    off + (standardBytes l).length ≤ b.length ∧ (b.drop off).take (standardBytes l).length = standardBytes l

/-- The file contains the pairs of a text and its translation. -/
structure IsMo (b : List Byte) (es : List (List Char × List Char)) : Prop where
  size : b.length < 2 ^ 32
  magic : U32At b 0 0x950412de
  revision : U32At b 4 0
  count : U32At b 8 es.length
  tables : ∃ orig trans, U32At b 12 orig ∧ U32At b 16 trans ∧
    ∀ i (h : i < es.length), TextEntry b orig i es[i].1 ∧ TextEntry b trans i es[i].2

/-- A text up to U+FFFF without the characters NUL and, in front, U+FEFF. -/
def Plain (l : List Char) : Prop := (∀ c ∈ l, c.toNat < 0x10000) ∧ '\x00' ∉ l ∧ l.head? ≠ some '\uFEFF'

/-- The translation of `key`: that of the last entry for it, unless it is empty; a text without translation
is its own translation. -/
def translation (es : List (List Char × List Char)) (key : List Char) : List Char :=
  match es.reverse.find? (fun e => e.1 == key) with
  | some e => if e.2 = [] then key else e.2
  | none => key

/-- characters of the Latin alphabet as UTF-16 units -/
def units (s : String) : List (BitVec 16) := s.toList.map fun c => BitVec.ofNat 16 c.toNat

/-- The language without its region: `de_DE` is `de`.  A text with an underscore in front stays as it is. -/
def withoutRegion (l : List (BitVec 16)) : List (BitVec 16) :=
  if l.head? = some (BitVec.ofNat 16 '_'.toNat) then l else l.takeWhile (fun x => x ≠ BitVec.ofNat 16 '_'.toNat)

/-- The language that is asked for: `lang`, or that of the system if it is empty, with `_` for `-`. -/
def asked (systemLanguage lang : List (BitVec 16)) : List (BitVec 16) :=
  (if lang = [] then systemLanguage else lang).map fun c => if c = BitVec.ofNat 16 '-'.toNat then BitVec.ofNat 16 '_'.toNat else c

/-- The files in question, best first. -/
def candidates (name language : List (BitVec 16)) : List (List (BitVec 16)) :=
  [units "translations/" ++ name ++ units "." ++ language ++ units ".mo",
   units "translations/" ++ language ++ units ".mo",
   units "translations/" ++ name ++ units "." ++ withoutRegion language ++ units ".mo",
   units "translations/" ++ withoutRegion language ++ units ".mo"]

end Verif.I18n.Spec
