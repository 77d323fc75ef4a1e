import Verif.FileIO.Stdio
/-
C101, C102: `jm::File` (File.cpp) over the C library.  A program has variables of type `File`.
-/
namespace Verif.FileIO
open Verif

/-- File.h: the path as C string (`mCstr`) and `mHandle` -/
structure File where
  path : Path
  handle : Option Nat
deriving DecidableEq, Repr

/-- Types.h:161-178 -/
inductive Status where
  | ok
  | notAllowed
  | notFound
  | timeout
  | noDirectory
deriving DecidableEq, Repr

/-- File.cpp:37-49 (the path is normalised before; see C43) -/
def File.make (path : Path) : File := ⟨path, none⟩

/-- File.cpp:66-72, 79-90: the handle is copied, too -/
def File.copy (f : File) : File := ⟨f.path, f.handle⟩

/-- File.cpp:630-634: `errno` after the message was logged -/
def statusOf : Errno → Res Status
  | .access => .ok .notAllowed
  | .noEntry => .ok .notFound
  | .timedOut => .ok .timeout
  | .notDir => .ok .noDirectory
  | .other => .error .thrown

/-- File.cpp:596-642; `logged` is what `errno` is after `System::log` has written the message -/
def File.open (os : Os) (f : File) (m : Mode) (deny : Option Errno) (logged : Errno → Errno) : Os × File × Res Status :=
  match fopen os f.path m deny with
  | (os, .ok h) => (os, { f with handle := some h }, .ok .ok)
  | (os, .error e) => (os, { f with handle := none }, statusOf (logged e))

/-- File.cpp:644-647 -/
def File.isOpen (f : File) : Bool := f.handle.isSome

/-- File.cpp:649-655: when it fails the pointer stays -/
def File.close (os : Os) (f : File) (fail : Bool) : Res (Os × File × Bool) :=
  match f.handle with
  | none => .ok (os, f, false)
  | some h =>
    match fclose os h fail with
    | .error e => .error e
    | .ok (os, true) => .ok (os, f, true)
    | .ok (os, false) => .ok (os, { f with handle := none }, false)

/-- the functions below pass a null pointer on to the C library when the file is not open -/
def File.ptr (f : File) : Res Nat :=
  match f.handle with
  | none => .error .ub
  | some h => .ok h

/-- File.cpp:657-662; false: it throws -/
def File.seek (os : Os) (f : File) (p : Int) : Res (Os × Bool) := do fseekSet os (← f.ptr) p

/-- File.cpp:664-669 -/
def File.move (os : Os) (f : File) (d : Int) : Res (Os × Bool) := do fseekCur os (← f.ptr) d

/-- File.cpp:671-674 -/
def File.position (os : Os) (f : File) : Res Nat := do ftell os (← f.ptr)

/-- File.cpp:677-680: into a buffer of `cap` bytes; more than that would be written behind it -/
def File.read (os : Os) (f : File) (cap n : Nat) : Res (Os × List Byte) := do
  let r ← fread os (← f.ptr) n
  if r.2.length > cap then .error .ub else return r

/-- File.cpp:689-693 -/
def readLoop (os : Os) (f : File) (cap : Nat) : Nat → Nat → List Byte → Res (Os × List Byte)
  | 0, _, acc => .ok (os, acc)
  | _, 0, acc => .ok (os, acc)
  | fuel + 1, rest + 1, acc =>
    match f.read os (cap - acc.length) (rest + 1) with
    | .error e => .error e
    | .ok (os, []) => .ok (os, acc)
    | .ok (os, got) => readLoop os f cap fuel (rest + 1 - got.length) (acc ++ got)

/-- File.cpp:682-696; every round reads at least one byte, so `n` rounds are enough -/
def File.readFully (os : Os) (f : File) (cap n : Nat) : Res (Os × List Byte) := readLoop os f cap n n []

/-- File.cpp:698-701 -/
def File.write (os : Os) (f : File) (b : List Byte) : Res (Os × Nat) := do fwrite os (← f.ptr) b

/-- File.cpp:582-594 -/
def File.createNewFile (os : Os) (f : File) (deny : Option Errno) (fail : Bool) : Res (Os × File × Bool × Bool) :=
  match fopen os f.path .write deny with
  | (os, .ok h) =>
    match File.close os { f with handle := some h } fail with
    | .error e => .error e
    | .ok (os, f, thrown) => .ok (os, f, true, thrown)
  | (os, .error _) => .ok (os, { f with handle := none }, false, false)

/-- File.cpp:172-175 -/
def File.exists (os : Os) (f : File) : Bool := (os.names f.path).isSome

/-- File.cpp:537-546 -/
def File.size (os : Os) (f : File) : Nat :=
  match os.names f.path with
  | none => 0
  | some i => (os.file i).length

/-- File.cpp:395-401, a file that is not a directory -/
def File.remove (os : Os) (f : File) : Os × Bool := unlink os f.path

/-- File.cpp:420-447 -/
def File.renameTo (os : Os) (f : File) (new : Path) : Os × File × Bool :=
  match rename os f.path new with
  | (os, true) => (os, { f with path := new }, true)
  | (os, false) => (os, f, false)

end Verif.FileIO
