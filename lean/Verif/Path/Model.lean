import Verif.Str.Lemmas
/-
Model of the parts of src/core/File.cpp which do not depend on the file system:
path strings (normalize, resolve, constructors, parent, name, extension), compareTo, readFully, and the
arithmetic of lastModified (Linux).

 * `DIR_SEP` is '/' (Linux and macOS, include/core/File.h:49-51).
 * A `File` object is its member `mPathname`; `mCstr` (the path as bytes) and the stream handle are not modelled.
 * `isDirectory()` in `compareTo` is an arbitrary function of the path; the bytes delivered by `fread` come from an
   arbitrary schedule.
-/
namespace Verif.Path
open Verif Verif.Str

/-- include/core/File.h:49-51 -/
def sep : Ch := 0x2F

/-- File.cpp:139-151: the loop of `normalize` -/
def normLoop (s : Str) (a length : Nat) (prev : Ch) : Res (Str × Ch) :=
  if _h : a < length then do
    let c ← charAt s a
    if prev = sep ∧ c = sep then
      let s ← deleteCharAt s a
      normLoop s a (length - 1) c
    else normLoop s (a + 1) length c
  else .ok (s, prev)
termination_by length - a

/-- File.cpp:154: remove a trailing separator -/
def cutLast (s : Str) (prev : Ch) : Res Str :=
  if prev = sep ∧ s.len > 1 then deleteCharAt s ((s.len : Int) - 1) else .ok s

/-- File.cpp:133-157 `normalize` -/
def normalize (path : Str) : Res Str := do
  let s ← copyCtor path
  let r ← normLoop s 0 s.len 0
  cutLast r.1 r.2

/-- String.cpp:1253-1258 `operator+` -/
def plus (l r : Str) : Res Str := do
  let s ← copyCtor l
  append s r

/-- File.cpp:120-130: `resolve` when one of the two is not empty -/
def resolve2 (parent child s : Str) : Res Str := do
  let c ← charAt child 0
  let e ← equals parent s
  if c = sep then
    if e then copyCtor child else plus parent child
  else
    if e then plus parent child else do
      let t ← plus parent s
      plus t child

/-- File.cpp:111-131 `resolve` -/
def resolve (parent child : Str) : Res Str := do
  let s ← appendChar Verif.Str.empty sep
  if parent.len < 1 ∧ child.len < 1 then return s else resolve2 parent child s

/-- File.cpp:43-48: `File(pathname)`; the result is `mPathname` -/
def file (pathname : Str) : Res Str := normalize pathname

/-- File.cpp:50-56: `File(String parent, String child)` -/
def fileIn (parent child : Str) : Res Str :=
  if child.len < 1 then .error .thrown
  else do
    let p ← normalize parent
    let c ← normalize child
    resolve p c

/-- File.cpp:58-64: `File(const File& parent, String child)` -/
def fileOf (parent child : Str) : Res Str :=
  if child.len < 1 then .error .thrown
  else do
    let c ← normalize child
    resolve parent c

/-- File.cpp:559-564 `parent` -/
def parent (p : Str) : Res Str := do
  let idx ← lastIndexOfChar p sep
  substring p 0 (if idx < 0 then 0 else idx)

/-- File.cpp:566-569 `name` -/
def name (p : Str) : Res Str := do
  let idx ← lastIndexOfChar p sep
  substringFrom p (idx + 1)

/-- File.cpp:571-574 `extension` -/
def extension (p : Str) : Res Str := do
  let idx ← lastIndexOfChar p 0x2E
  substringFrom p (idx + 1)

/-- File.cpp:703-716 `compareTo`; `dir` answers `isDirectory` -/
def compareTo (dir : List Ch → Bool) (a b : Str) : Res Int :=
  let d1 := dir (Verif.Str.chars a)
  let d2 := dir (Verif.Str.chars b)
  if d1 ≠ d2 then .ok (if d1 then -1 else 1) else Verif.Str.compareTo a b

/-- File.cpp:370-380 (in `lastModified`) (Linux): milliseconds since 1970 from `st_mtim` -/
def lastModified (sec nsec : Int) : Int := sec * 1000 + nsec.tdiv 1000

/-- One answer of `fread` (File.cpp:677-680): the bytes delivered, at most as many as asked for (the rest of the answer
is cut off); no bytes means end of file or an error. -/
def fread (n : Nat) (answer : List Byte) : List Byte := answer.take n

/-- writing bytes into a buffer from position `i` on -/
def store : List Byte → Nat → List Byte → Res (List Byte)
  | buf, _, [] => .ok buf
  | buf, i, b :: bs => do
    let buf ← wr buf i b
    store buf (i + 1) bs

/-- File.cpp:689-693: the loop of `readFully`; `answers` are the answers of the successive `fread` calls (none left:
end of file). -/
def readLoop (answers : List (List Byte)) (buf : List Byte) (count rest : Nat) : Res (List Byte × Nat) :=
  match answers with
  | [] => .ok (buf, count)
  | a :: as =>
    if rest > 0 then
      if (fread rest a).length > 0 then do
        let buf ← store buf count (fread rest a)
        readLoop as buf (count + (fread rest a).length) (rest - (fread rest a).length)
      else .ok (buf, count)
    else .ok (buf, count)

/-- File.cpp:682-696 `readFully` -/
def readFully (answers : List (List Byte)) (buf : List Byte) (length : Nat) : Res (List Byte × Nat) :=
  readLoop answers buf 0 length

end Verif.Path
