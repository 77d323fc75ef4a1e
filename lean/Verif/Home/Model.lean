import Verif.Path.Model
import Verif.Prog.Model
/-
Model of the well-known directories (src/core/File.cpp, the Linux branches): `PropertyDir`, `UserDir`, `TempDir` and `currentDir`; `ExecName`
is the one of `Verif.Prog`.

The environment is given by what the operating system answers: the target of the link /proc/self/exe (or a failure), the value of HOME (or
no such variable), the current directory (or a failure).  All three are byte strings without NUL.  A local `char` buffer is modelled by the
bytes the system call stored in it; what lies behind them is uninitialised (or outside the array), and reading it is undefined behaviour.
-/
namespace Verif.Home
open Verif Verif.Str
open Verif.Charset (utf8Decode)

/-- String.cpp:89-106: `String(const char*)`; `none` is the null pointer.  The block is the bytes and their NUL. -/
def ofCString (c : Option (List Byte)) : Res Str :=
  match c with
  | none => .ok { buf := newBuf 16, len := 0, hash := 0 }
  | some b => do
    let cs ← utf8Decode b
    ofChars cs

/-- `getenv`: the value with its NUL, or the null pointer -/
def getenv (v : Option (List Byte)) : Option (List Byte) := v.map (· ++ [0])

/-- File.cpp:1073-1076 (in `PropertyDir`): `File(home, "." + ExecName())` -/
def propertyDir (home link : Option (List Byte)) : Res Str := do
  let n ← Prog.execName link
  let d ← ofChars [0x2E]
  let child ← Path.plus d n
  let h ← ofCString (getenv home)
  Path.fileIn h child

/-- File.cpp:1111-1112 (in `UserDir`): `File(home)` -/
def userDir (home : Option (List Byte)) : Res Str := do
  let h ← ofCString (getenv home)
  Path.file h

/-- File.cpp:1159-1161 (in `currentDir`): the result of `getcwd` is not looked at; if it fails (the directory has been removed, its path
does not fit) the buffer is uninitialised -/
def currentDir (cwd : Option (List Byte)) : Res Str :=
  match cwd with
  | none => .error .ub
  | some b => do
    let s ← ofCString (some (b ++ [0]))
    Path.file s

/-- File.cpp:1139-1141 (in `TempDir`): the same again; `tmp` is the value of TMPDIR, which is not looked at on Linux -/
def tempDir (_tmp cwd : Option (List Byte)) : Res Str :=
  match cwd with
  | none => .error .ub
  | some b => do
    let s ← ofCString (some (b ++ [0]))
    Path.file s

end Verif.Home
