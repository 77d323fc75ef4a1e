import Verif.Str.Lemmas
import Verif.Num.Model
import Verif.Heap
import Verif.Hashtable.Model
import Verif.Lists.Tokenizer
import Verif.Lists.StringList
import Verif.Charset.Model
/-
Model of src/core/Preferences.cpp on top of the models of Hashtable, String, StringTokenizer, StringList and the UTF-8
charset.

 * The values are `String` objects on a heap; a table value `p ≠ 0` is the address `p - 1`.
 * Keys are their contents; their hash code is an arbitrary function `h` of the contents (Verif/Str/HashProps).
 * The file is its bytes: `save` yields the bytes written when the file system reports no error, `load` gets the bytes
   of a file which is read completely (otherwise it throws). Logging and the branch for errors are not modelled.
 * Edits inside bounds of strings which never share memory are done on the buffer model `Str` wherever `indexOf` or
   `replace` for strings follow, because these look behind the content.
-/
namespace Verif.Prefs
open Verif Verif.Str Verif.Hashtable

def cBackslash : Ch := 0x5C
def cN : Ch := 0x6E
def cT : Ch := 0x74
def cTab : Ch := 9
def cCR : Ch := 0x0D
def cLF : Ch := 0x0A
def cEquals : Ch := 0x3D

/-- include/core/Preferences.h:43-137: the table and the strings it owns -/
structure Prefs where
  table : Table (List Ch)
  heap : Heap Str

/-- Preferences.cpp:36-38 -/
def Prefs.new : Prefs := ⟨Hashtable.init, []⟩

/-- String.cpp:445-471 `replace`; the number of rounds is bounded by the number of characters, exceeding it would be
reported as UB (`replaceStr_safe` shows that it does not happen) -/
def replace (s old new : Str) : Res Str :=
  match replaceStr (s.len + 1) s old new with
  | some r => r
  | none => .error .ub

/-- one statement `tmp = tmp.replace(old, "\\n")` of Preferences.cpp:197-199 -/
def replaceBreak (tmp : Str) (old : List Ch) : Res Str := do
  let o ← ofChars old
  let n ← ofChars [cBackslash, cN]
  let r ← replace tmp o n
  assign tmp r

/-- Preferences.cpp:196-199: the value with its line breaks replaced -/
def flatten (value : Str) : Res Str := do
  let tmp ← copyCtor value
  let tmp ← replaceBreak tmp [cCR, cLF]
  let tmp ← replaceBreak tmp [cCR]
  replaceBreak tmp [cLF]

/-- Preferences.cpp:202: `if(old != nullptr)delete old` -/
def deleteOld (heap : Heap Str) (old : Ptr) : Res (Heap Str) :=
  if old = nullptr then .ok heap else heap.free (old - 1)

/-- Preferences.cpp:194-203 `setValue(String, String)` -/
def setValue (h : List Ch → BitVec 64) (p : Prefs) (key : List Ch) (value : Str) : Res Prefs := do
  let tmp ← flatten value
  let actual ← copyCtor tmp
  let a := p.heap.alloc actual
  let r ← Hashtable.put p.table (h key) key (a.2 + 1)
  let heap ← deleteOld a.1 r.2
  return ⟨r.1, heap⟩

/-- Preferences.cpp:189-192 `hasValue` -/
def hasValue (h : List Ch → BitVec 64) (p : Prefs) (key : List Ch) : Res Bool := do
  let v ← Hashtable.get p.table (h key) key
  return decide (v ≠ nullptr)

/-- Preferences.cpp:220-225 `value(key)` -/
def value (h : List Ch → BitVec 64) (p : Prefs) (key : List Ch) : Res Str := do
  let v ← Hashtable.get p.table (h key) key
  if v = nullptr then return Verif.Str.empty
  else
    let s ← p.heap.load (v - 1)
    copyCtor s

/-- Preferences.cpp:227-232 `value(key, defaultValue)` -/
def valueOr (h : List Ch → BitVec 64) (p : Prefs) (key : List Ch) (default : Str) : Res Str := do
  let v ← Hashtable.get p.table (h key) key
  if v = nullptr then copyCtor default
  else
    let s ← p.heap.load (v - 1)
    if s.len = 0 then copyCtor default else copyCtor s

/-! ### typed values -/

/-- Preferences.cpp:205-208 `setValue(String, int64)` -/
def setInt (h : List Ch → BitVec 64) (p : Prefs) (key : List Ch) (z : Int) : Res Prefs := do
  let t ← Num.valueOf z
  let s ← ofChars t
  setValue h p key s

/-- Preferences.cpp:215-218 `setValue(String, bool)` -/
def setBool (h : List Ch → BitVec 64) (p : Prefs) (key : List Ch) (b : Bool) : Res Prefs := do
  let s ← ofChars (if b then [0x74, 0x72, 0x75, 0x65] else [0x66, 0x61, 0x6c, 0x73, 0x65])
  setValue h p key s

/-- Preferences.cpp:240-248: the parsed number, or the default when `toInt` throws -/
def caught (r : Res Int) (default : Int) : Res Int :=
  match r with
  | .ok z => .ok z
  | .error .thrown => .ok default
  | .error .ub => .error .ub

/-- Preferences.cpp:234-249 `valueInt` -/
def valueInt (h : List Ch → BitVec 64) (p : Prefs) (key : List Ch) (default : Int) : Res Int := do
  let r ← value h p key
  if r.len = 0 then return default else caught (Num.toInt (chars r)) default

/-- Preferences.cpp:268-275 `valueBool` -/
def valueBool (h : List Ch → BitVec 64) (p : Prefs) (key : List Ch) (default : Bool) : Res Bool := do
  let r ← value h p key
  if r.len = 0 then return default
  else
    let t ← ofChars [0x74, 0x72, 0x75, 0x65]
    equals r t

/-- Preferences.cpp:43-46, 136-138: the keys delivered by the iterator, one after the other; `fuel` bounds the rounds -/
def keysLoop : Nat → Iter (List Ch) → Res (List (List Ch))
  | 0, _ => .error .ub
  | fuel + 1, it => do
    let r ← Hashtable.hasNext it
    if r.2 then
      let n ← Hashtable.next r.1
      match n.2 with
      | some e =>
        let rest ← keysLoop fuel n.1
        return e.key :: rest
      | none => .error .ub
    else return []

/-- Hashtable.cpp:201-204 `keys`, and the loop over it (the table is not changed meanwhile) -/
def keys (p : Prefs) : Res (List (List Ch)) := keysLoop (Hashtable.size p.table + 1) (Hashtable.iterator p.table)

/-- Preferences.cpp:44-48: delete the values one after the other; `delete nullptr` does nothing -/
def deleteAll (h : List Ch → BitVec 64) (t : Table (List Ch)) : List (List Ch) → Heap Str → Res (Heap Str)
  | [], heap => .ok heap
  | k :: ks, heap => do
    let v ← Hashtable.get t (h k) k
    let heap ← deleteOld heap v
    deleteAll h t ks heap

/-- Preferences.cpp:41-51: the destructor; the result is the heap it leaves behind -/
def destroy (h : List Ch → BitVec 64) (p : Prefs) : Res (Heap Str) := do
  let ks ← keys p
  deleteAll h p.table ks p.heap

/-! ### save -/

/-- Preferences.cpp:143-160: the escaping loop (`fuel`: one round per character of the value) -/
def escapeLoop : Nat → Nat → Str → Res Str
  | 0, _, _ => .error .ub
  | fuel + 1, index, val =>
    if index < val.len then do
      let c ← charAt val index
      if c = cBackslash then
        let val ← insertChar val (index + 1) cBackslash
        escapeLoop fuel (index + 2) val
      else if c = cTab then
        let val ← setCharAt val index cBackslash
        let val ← insertChar val (index + 1) cT
        escapeLoop fuel (index + 2) val
      else escapeLoop fuel (index + 1) val
    else .ok val

/-- Preferences.cpp:138-165: the line for one key -/
def lineOf (h : List Ch → BitVec 64) (p : Prefs) (key : List Ch) : Res (List Ch) := do
  let val ← value h p key
  let val ← escapeLoop (val.len + 1) 0 val
  return key ++ [cEquals] ++ chars val ++ [cLF]

/-- Preferences.cpp:136-168: the lines of all keys -/
def entries (h : List Ch → BitVec 64) (p : Prefs) : List (List Ch) → Lists.SList → Res Lists.SList
  | [], l => .ok l
  | k :: ks, l => do
    let line ← lineOf h p k
    let l ← l.append (.ext line)
    entries h p ks l

/-- Preferences.cpp:174-178: the bytes written, line by line -/
def writeLines : List (List Ch) → Res (List Byte)
  | [] => .ok []
  | l :: ls => do
    let b ← Charset.utf8Encode l
    let r ← writeLines ls
    return b ++ r

/-- Preferences.cpp:114-187 `save`: the contents of the file -/
def save (h : List Ch → BitVec 64) (p : Prefs) : Res (List Byte) := do
  let ks ← keys p
  let l ← entries h p ks Lists.SList.new
  let l ← l.sort
  writeLines (l.data.take l.size)

/-! ### load -/

/-- Preferences.cpp:81-84: replace "\\n" by line breaks; `fuel` bounds the rounds -/
def breaksLoop : Nat → Str → Res Str
  | 0, _ => .error .ub
  | fuel + 1, value => do
    let pat ← ofChars [cBackslash, cN]
    let pos ← indexOfStr value pat 0
    if pos > 0 then
      let a ← substring value 0 pos
      let n ← ofChars [cLF]
      let b ← substringFrom value (pos + 2)
      let t ← append a n
      let t ← append t b
      let value ← assign value t
      breaksLoop fuel value
    else return value

/-- Preferences.cpp:95-99 -/
def unescapeTab (value : Str) (index : Nat) (d : Ch) : Res Str :=
  if d = cT then do
    let value ← setCharAt value index cTab
    deleteCharAt value (index + 1)
  else .ok value

/-- Preferences.cpp:100-103 -/
def unescapeBackslash (value : Str) (index : Nat) (d : Ch) : Res Str :=
  if d = cBackslash then deleteCharAt value (index + 1) else .ok value

/-- Preferences.cpp:87-106: the unescaping loop (`fuel`: one round per character) -/
def unescapeLoop : Nat → Nat → Str → Res Str
  | 0, _, _ => .error .ub
  | fuel + 1, index, value =>
    if index < value.len then do
      let c ← charAt value index
      if c = cBackslash ∧ index + 1 < value.len then
        let d ← charAt value (index + 1)
        let value ← unescapeTab value index d
        let value ← unescapeBackslash value index d
        unescapeLoop fuel (index + 1) value
      else unescapeLoop fuel (index + 1) value
    else .ok value

/-- Preferences.cpp:78-106: the value of a line whose first '=' stands at `pos` -/
def lineValue (line : Str) (pos : Int) : Res Str := do
  let v ← substringFrom line (pos + 1)
  let v ← trim v
  let v ← breaksLoop (v.len + 1) v
  unescapeLoop (v.len + 1) 0 v

/-- Preferences.cpp:72-109: one line. The line is the substring delivered by the tokenizer; only its contents matter. -/
def loadLine (h : List Ch → BitVec 64) (p : Prefs) (tok : List Ch) : Res Prefs := do
  let line ← ofChars tok
  let pos ← indexOfChar line cEquals 0
  if pos > 0 then
    let k ← substring line 0 pos
    let k ← trim k
    let v ← lineValue line pos
    setValue h p (chars k) v
  else return p

/-- Preferences.cpp:70-110: all lines -/
def loadLines (h : List Ch → BitVec 64) : List (List Ch) → Prefs → Res Prefs
  | [], p => .ok p
  | l :: ls, p => do
    let p ← loadLine h p l
    loadLines h ls p

/-- Preferences.cpp:63, String.cpp:108-125: the contents of the buffer as text (it ends with a zero byte,
ByteArray.cpp:81-88) -/
def decodeFile (bytes : List Byte) : Res (List Ch) :=
  if bytes.length > 0 then Charset.utf8Decode (bytes ++ [0]) else .ok []

/-- Preferences.cpp:54-113 `load`. The lines are collected before they are used (the tokenizer works on its own copy). -/
def load (h : List Ch → BitVec 64) (p : Prefs) (bytes : List Byte) : Res Prefs := do
  let data ← decodeFile bytes
  let lines ← Lists.splitLoop (data.length + 1) (Lists.Tok.new data [cCR, cLF] false) []
  loadLines h lines p

end Verif.Prefs
