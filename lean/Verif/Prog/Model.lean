import Verif.Str.Model
import Verif.Charset.Model
import Verif.Num.Model
/-
Model of src/core/File.cpp: `File::lastModified`, and where a program finds itself (`ExecPath`, `ExecName`, `ExecDir`),
all for Linux.

 * `lstat` and `readlink` are the operating system: they answer with a time (seconds and nanoseconds) and with the bytes
   of the link, or they fail.
 * An overflow of `int64` is undefined behaviour.
-/
namespace Verif.Prog
open Verif Verif.Str

/-- `struct timespec` -/
structure TimeSpec where
  sec : Int
  nsec : Int

/-- File.cpp:370-380 `lastModified` (Linux): the milliseconds of the `Date`. `none`: `lstat` fails, and the structure,
which is not initialised, is read. `/` truncates, which for the nanoseconds (never negative) is the floor. -/
def lastModified : Option TimeSpec → Res Int
  | none => .error .ub
  | some tm => do
    let time ← Num.i64 (tm.sec * 1000)
    Num.i64 (time + tm.nsec.tdiv 1000)

/-- `readlink("/proc/self/exe", buff, 1023)`: as much of the link as fits; `none` on failure -/
def readlink (link : Option (List Byte)) : List Byte := (link.getD []).take 1023

/-- File.cpp:904-916 `ExecPath` (Linux): the bytes behind the zero are not initialised, reading them is undefined; a
failure has a length of -1, here no bytes at all -/
def execPath (link : Option (List Byte)) : Res Str :=
  let buff := readlink link
  if buff.length > 0 then do
    let t ← Charset.utf8Decode (buff ++ [0])
    ofChars t
  else .ok Verif.Str.empty

/-- include/core/File.h:51 `DIR_SEP` on Linux -/
def dirSep : Ch := 0x2F
def dot : Ch := 0x2E

/-- File.cpp:941-946 `ExecName` -/
def execName (link : Option (List Byte)) : Res Str := do
  let exec ← execPath link
  let pos ← lastIndexOfChar exec dirSep
  substringFrom exec (pos + 1)

/-- File.cpp:952: `exec.charAt(pos - 1) == '.' && exec.charAt(pos - 2) == DIR_SEP` -/
def endsWithDot (exec : Str) (pos : Int) : Res Bool := do
  let c ← charAt exec (pos - 1)
  if c = dot then
    let d ← charAt exec (pos - 2)
    return decide (d = dirSep)
  else return false

/-- File.cpp:948-954 `ExecDir` -/
def execDir (link : Option (List Byte)) : Res Str := do
  let exec ← execPath link
  let pos ← lastIndexOfChar exec dirSep
  let b ← endsWithDot exec pos
  substring exec 0 (if b then pos - 2 else pos)

end Verif.Prog
