import Verif.Path.Spec
import Verif.Path.Props
/-
C107: directories and kinds of files (File.cpp, Linux and macOS).  The file system is specified: a finite tree of names with directories,
regular files, symbolic links and pipes; only its root exists at the beginning, relative paths begin there.  Links are not followed inside of
a path.  Names are texts (File.cpp:98-109 and String(dirp->d_name) convert to and from UTF-8, C17).  The system may refuse every change.
-/
namespace Verif.Dirs
open Verif Verif.Path

abbrev Ch := Verif.Str.Ch
abbrev Text := List Ch
/-- a place in the tree: names from the root on -/
abbrev Place := List Text

inductive Kind where
  | dir
  | file
  | link (dangling : Bool)
  | pipe
deriving DecidableEq, Repr

/-- the tree without its root -/
structure Fs where
  nodes : List (Place × Kind)

def Fs.get (fs : Fs) (p : Place) : Option Kind := if p = [] then some .dir else fs.nodes.lookup p

/-- the names of the entries of a directory -/
def Fs.children (fs : Fs) (p : Place) : List Text := fs.nodes.filterMap (fun q => if q.1 ≠ [] ∧ q.1.dropLast = p then q.1.getLast? else none)

def dot : Text := [46]
def dotdot : Text := [46, 46]

/-- the place a path leads to (its last name need not exist) -/
def walk (fs : Fs) : Place → List Text → Option Place
  | cur, [] => some cur
  | cur, n :: ns =>
    if fs.get cur = some .dir then
      if n = dot then walk fs cur ns
      else if n = dotdot then walk fs cur.dropLast ns
      else walk fs (cur ++ [n]) ns
    else none

/-- the empty path is invalid for every call -/
def place (fs : Fs) (path : Text) : Option Place := if path = [] then none else walk fs [] (Spec.comps path)

/-- `lstat`; `none` is a failure -/
def lstat (fs : Fs) (path : Text) : Option Kind := (place fs path).bind fs.get

/-- `access(path, F_OK)`: follows a link at the end -/
def accessF (fs : Fs) (path : Text) : Bool :=
  match lstat fs path with
  | none => false
  | some (.link dangling) => !dangling
  | some _ => true

/-- `mkdir` -/
def mkdir (fs : Fs) (refuse : Bool) (path : Text) : Fs × Bool :=
  match place fs path with
  | none => (fs, false)
  | some p => if fs.get p = none ∧ fs.get p.dropLast = some .dir ∧ refuse = false then (⟨fs.nodes ++ [(p, .dir)]⟩, true) else (fs, false)

def Fs.without (fs : Fs) (p : Place) : Fs := ⟨fs.nodes.filter (fun q => q.1 ≠ p)⟩

/-- `rmdir`: an empty directory that is not the root and not called by "." -/
def rmdir (fs : Fs) (refuse : Bool) (path : Text) : Fs × Bool :=
  match place fs path with
  | none => (fs, false)
  | some p =>
    if fs.get p = some .dir ∧ p ≠ [] ∧ (Spec.comps path).getLast? ≠ some dot ∧ fs.children p = [] ∧ refuse = false then (fs.without p, true)
    else (fs, false)

/-- `::remove`: rmdir for a directory, unlink for everything else -/
def cremove (fs : Fs) (refuse : Bool) (path : Text) : Fs × Bool :=
  match place fs path with
  | none => (fs, false)
  | some p =>
    match fs.get p with
    | none => (fs, false)
    | some .dir => rmdir fs refuse path
    | some _ => if refuse then (fs, false) else (fs.without p, true)

/-! ### class File -/

/-- File.cpp:252-253 and the like: `struct stat st; lstat(…, &st);` – when lstat fails, `st` keeps what was on the stack.  Strictly this is
undefined behaviour; here the mode is then an arbitrary `garbage`. -/
def stMode (fs : Fs) (garbage : Option Kind) (path : Text) : Option Kind :=
  match lstat fs path with
  | some k => some k
  | none => garbage

/-- File.cpp:172-188 -/
def exists' (fs : Fs) (path : Text) : Bool := accessF fs path

/-- File.cpp:247-266 -/
def isDirectory (fs : Fs) (garbage : Option Kind) (path : Text) : Bool := stMode fs garbage path == some .dir

/-- File.cpp:268-289 -/
def isFile (fs : Fs) (garbage : Option Kind) (path : Text) : Bool := stMode fs garbage path == some .file

/-- File.cpp:308-330 -/
def isLink (fs : Fs) (garbage : Option Kind) (path : Text) : Bool :=
  match stMode fs garbage path with
  | some (.link _) => true
  | _ => false

/-- File.cpp:332-353 -/
def isPipe (fs : Fs) (garbage : Option Kind) (path : Text) : Bool := stMode fs garbage path == some .pipe

/-- File.cpp:291-306; `name()` is what stands behind the last separator (File.cpp:566-569, C43), `charAt(0)` of nothing throws -/
def isHidden (path : Text) : Res Bool :=
  match (Spec.split path).getLast? with
  | some (c :: _) => .ok (c == 46)
  | _ => .error .thrown

/-- File.cpp:159-170 -/
def makeDirectory (fs : Fs) (refuse : Bool) (path : Text) : Fs × Bool := mkdir fs refuse path

/-- File.cpp:395-401 -/
def remove (fs : Fs) (garbage : Option Kind) (refuse : Bool) (path : Text) : Fs × Bool :=
  if isDirectory fs garbage path && (rmdir fs refuse path).2 then rmdir fs refuse path else cremove fs refuse path

/-- File.cpp:475-482: the entries of the second pass, put into an array of `count` files; `none` is a File without a path
(File.cpp:37-41).  `Array::set` throws behind the end (Array.h) -/
def fill (count : Nat) (path : Text) (names : List Text) : Res (List (Option Text)) :=
  if names.length ≤ count then
    .ok (names.map (fun n => some (Path.resolved path n)) ++ List.replicate (count - names.length) none)
  else .error .thrown

/-- File.cpp:450-485: `first` and `second` are what readdir delivers in the two passes; `none` is the null pointer.  `File(*this, name)`
resolves the name against the path (File.cpp:58-64; `Path.resolve_ok`).  `opendir` fails for everything that is no directory. -/
def listFiles (fs : Fs) (garbage : Option Kind) (path : Text) (first second : List Text) : Res (Option (List (Option Text))) :=
  if isDirectory fs garbage path then
    if lstat fs path = some .dir then (fill first.length path second).map some
    else .error .thrown
  else .ok none

/-- what readdir may deliver: all entries and the two dots, once each, in any order -/
def Listing (fs : Fs) (p : Place) (l : List Text) : Prop := l.Perm (dot :: dotdot :: fs.children p)

end Verif.Dirs
