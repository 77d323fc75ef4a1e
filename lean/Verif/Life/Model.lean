import Verif.Prefs.Props
import Verif.Guess.Model
/-
Model of the life cycle of a program which uses the library: src/core/System.cpp (`init`, `quit`, `preferences`,
`savePreferences`), the character sets of src/core/Charset.cpp and the default translation of src/core/I18nBundle.cpp.

 * `Sys` holds the global variables of one process and the objects they point to.
 * The disk maps a bundle id to the contents of its file of preferences `PropertyDir()/<bundle id>.properties`
   (System.cpp:449-452). Simplification: bundle ids are used as file names as they are, and HOME is set.
 * Whether the file can be opened for writing is decided by the environment (parameter `writable`). If it can, all
   writes succeed, or the process dies while it writes (`crashInSave`).
 * The contents of the translation are not modelled here (Verif/I18n): loading the catalogue does not fail.
 * Objects which the autorelease pool owns are not modelled here (Verif/RefCount).
-/
namespace Verif.Life
open Verif Verif.Str Verif.Prefs

/-- the objects which System.cpp, Charset.cpp and I18nBundle.cpp create -/
inductive Obj where
  | charset (name : List Ch)
  | pool
  | translation
  | prefs (p : Prefs)
  | file (id : List Ch)

/-- System.cpp:39-40, 421-422, Charset.cpp:36-37, I18nBundle.cpp (`gDefaultTranslation`): the globals of a process.
`left` collects what deleted preferences leave behind on their heap. -/
structure Sys where
  heap : Heap Obj
  charsets : List Nat
  charsetCount : Nat
  bundleId : List Ch
  pool : Option Nat
  translation : Option Nat
  prefs : Option Nat
  prefFile : Option Nat
  left : List (Heap Str)

/-- Charset.cpp:37-44: the names of the character sets -/
def charsetNames : List (List Ch) :=
  [Guess.lit "UTF-8", Guess.lit "Windows-1252", Guess.lit "MacRoman", Guess.lit "UTF-16LE", Guess.lit "UTF-16BE",
   Guess.lit "RAW", Guess.lit "ASCII"]

/-- the process before `main`: the character sets are created by static initialisation (Charset.cpp:36-44), the other
globals are null -/
def Sys.start : Sys where
  heap := charsetNames.map fun n => some (.charset n)
  charsets := [0, 1, 2, 3, 4, 5, 6]
  charsetCount := 7
  bundleId := []
  pool := none
  translation := none
  prefs := none
  prefFile := none
  left := []

/-- a file of preferences per bundle id -/
abbrev Disk := List Ch → Option (List Byte)

def Disk.set (d : Disk) (id : List Ch) (b : List Byte) : Disk := fun x => if x = id then some b else d x

/-- Charset.cpp:161: `gCharsets[a]->hasName(name)` (the built-in character sets have no alternative names) -/
def hasName (s : Sys) (a : Nat) (name : List Ch) : Res Bool :=
  match s.heap.load a with
  | .ok (.charset n) => .ok (decide (n = name))
  | _ => .error .ub

/-- Charset.cpp:157-164: the loop of `forName` over the remaining entries -/
def forNameLoop (s : Sys) (name : List Ch) : List Nat → Res (Option Nat)
  | [] => .ok none
  | a :: as => do
    let b ← hasName s a name
    if b then return some a else forNameLoop s name as

/-- Charset.cpp:157-164 `forName` -/
def forName (s : Sys) (name : List Ch) : Res (Option Nat) := forNameLoop s name (s.charsets.take s.charsetCount)

/-- `charset->encode(...)` in String::toCString: a call on a null pointer or on a deleted object is undefined -/
def useCharset (s : Sys) : Option Nat → Res Unit
  | none => .error .ub
  | some a => do let _ ← hasName s a []; return ()

/-- File.cpp:98-109 `setCString`, called by every constructor of `File` with a path (43-66): needs the character set -/
def fileCtor (s : Sys) : Res Unit := do
  let c ← forName s (Guess.lit "UTF-8")
  useCharset s c

/-- Charset.cpp:265-268 `getDefault` and String.cpp:215-218 `toCString()` -/
def toCString (s : Sys) : Res Unit := useCharset s s.charsets.head?

/-- Charset.cpp:276-280: delete the character sets, one after the other -/
def deleteAll : List Nat → Heap Obj → Res (Heap Obj)
  | [], h => .ok h
  | a :: as, h => do
    let h ← h.free a
    deleteAll as h

/-- Charset.cpp:276-280 `quitCharsets` (the pointers keep their values) -/
def quitCharsets (s : Sys) : Res Sys := do
  let h ← deleteAll (s.charsets.take s.charsetCount) s.heap
  return { s with heap := h, charsetCount := 0 }

/-- I18nBundle.cpp:138-147 `initDefault`: a new bundle always; a catalogue is searched if there is a bundle id -/
def initDefault (s : Sys) : Res Sys :=
  let a := s.heap.alloc .translation
  let s := { s with heap := a.1, translation := some a.2 }
  if s.bundleId = [] then .ok s
  else do
    fileCtor s
    return s

/-- I18nBundle.cpp:149-156 `quitDefault` -/
def quitDefault (s : Sys) : Res Sys :=
  match s.translation with
  | none => .ok s
  | some a => do
    let h ← s.heap.free a
    return { s with heap := h, translation := none }

/-- System.cpp:442: `if(gMainThreadPool == nullptr)gMainThreadPool = new AutoreleasePool()` -/
def initPool (s : Sys) : Sys :=
  match s.pool with
  | none => let a := s.heap.alloc .pool; { s with heap := a.1, pool := some a.2 }
  | some _ => s

/-- System.cpp:452: `if(gPrefFile->exists())gPreferences->load(*gPrefFile)` -/
def loadIfExists (h : List Ch → BitVec 64) (p : Prefs) : Option (List Byte) → Res Prefs
  | none => .ok p
  | some bytes => load h p bytes

/-- System.cpp:449-452: the preferences of the bundle; the old pointers are overwritten -/
def initPrefs (h : List Ch → BitVec 64) (d : Disk) (s : Sys) (id : List Ch) : Res Sys := do
  fileCtor s
  let p ← loadIfExists h Prefs.new (d id)
  let a := s.heap.alloc (.prefs p)
  let b := a.1.alloc (.file id)
  return { s with heap := b.1, prefs := some a.2, prefFile := some b.2 }

/-- System.cpp:434-453 `init` -/
def init (h : List Ch → BitVec 64) (d : Disk) (s : Sys) (id : List Ch) : Res Sys := do
  let s := initPool { s with bundleId := id }
  let s ← initDefault s
  if id = [] then return s else initPrefs h d s id

/-- `*gPreferences` -/
def getPrefs (s : Sys) : Res Prefs :=
  match s.prefs with
  | none => .error .ub
  | some a =>
    match s.heap.load a with
    | .ok (.prefs p) => .ok p
    | _ => .error .ub

/-- `*gPrefFile` -/
def getFile (s : Sys) : Res (List Ch) :=
  match s.prefFile with
  | none => .error .ub
  | some a =>
    match s.heap.load a with
    | .ok (.file id) => .ok id
    | _ => .error .ub

/-- what `gPreferences->save(*gPrefFile)` writes and to which file; copying the file needs the character set
(File.cpp:68-74), and so does writing the lines (Preferences.cpp:176) -/
def toSave (h : List Ch → BitVec 64) (s : Sys) : Res (List Ch × List Byte) := do
  let p ← getPrefs s
  let id ← getFile s
  fileCtor s
  toCString s
  let bytes ← save h p
  return (id, bytes)

/-- System.cpp:485-492 `savePreferences`. A file which cannot be opened is left as it is (Preferences.cpp:124-129). -/
def savePreferences (h : List Ch → BitVec 64) (d : Disk) (s : Sys) (writable : Bool) : Res Disk :=
  match s.prefs with
  | none => .ok d
  | some _ => do
    let r ← toSave h s
    return if writable then d.set r.1 r.2 else d

/-- the process dies in `savePreferences` after the file was opened (which truncates it) and `n` bytes are written -/
def crashInSave (h : List Ch → BitVec 64) (d : Disk) (s : Sys) (n : Nat) : Res Disk :=
  match s.prefs with
  | none => .ok d
  | some _ => do
    let r ← toSave h s
    return d.set r.1 (r.2.take n)

/-- `delete` of a pointer which may be null -/
def deletePtr (heap : Heap Obj) : Option Nat → Res (Heap Obj)
  | none => .ok heap
  | some a => heap.free a

/-- System.cpp:459-465: delete the preferences and the file -/
def quitPrefs (h : List Ch → BitVec 64) (s : Sys) : Res Sys :=
  match s.prefs with
  | none => .ok s
  | some a => do
    let p ← getPrefs s
    let rest ← destroy h p
    let heap ← s.heap.free a
    let heap ← deletePtr heap s.prefFile
    return { s with heap := heap, prefs := none, prefFile := none, left := rest :: s.left }

/-- System.cpp:467-471 -/
def quitPool (s : Sys) : Res Sys :=
  match s.pool with
  | none => .ok s
  | some a => do
    let heap ← s.heap.free a
    return { s with heap := heap, pool := none }

/-- System.cpp:459-476: delete everything -/
def tearDown (h : List Ch → BitVec 64) (s : Sys) : Res Sys := do
  let s ← quitPrefs h s
  let s ← quitPool s
  let s ← quitDefault s
  quitCharsets s

/-- System.cpp:455-477 `quit` -/
def quit (h : List Ch → BitVec 64) (d : Disk) (s : Sys) (writable : Bool) : Res (Disk × Sys) := do
  let d ← savePreferences h d s writable
  let s ← tearDown h s
  return (d, s)

/-- a call on `System::preferences()` (System.cpp:480-483) -/
def callPrefs (h : List Ch → BitVec 64) (s : Sys) (c : Props.Call) : Res (Sys × Prefs.Spec.Out) :=
  match s.prefs with
  | none => .error .ub
  | some a => do
    let p ← getPrefs s
    let r ← Props.exec h p c
    let heap ← s.heap.store a (.prefs r.1)
    return ({ s with heap := heap }, r.2)

/-! ### processes -/

/-- what a program does between `init` and its end -/
inductive Act where
  | call (c : Props.Call)
  | save (writable : Bool)

/-- how a process ends -/
inductive End where
  /-- `System::quit()` -/
  | quit (writable : Bool)
  /-- it dies, or does not call `quit` -/
  | crash
  /-- it dies in `savePreferences()` -/
  | crashInSave (n : Nat)

structure Process where
  id : List Ch
  acts : List Act
  ending : End

def act (h : List Ch → BitVec 64) (d : Disk) (s : Sys) : Act → Res (Disk × Sys × List Prefs.Spec.Out)
  | .call c => do let r ← callPrefs h s c; return (d, r.1, [r.2])
  | .save w => do let d ← savePreferences h d s w; return (d, s, [])

def acts (h : List Ch → BitVec 64) : List Act → Disk → Sys → Res (Disk × Sys × List Prefs.Spec.Out)
  | [], d, s => .ok (d, s, [])
  | a :: as, d, s => do
    let r ← act h d s a
    let t ← acts h as r.1 r.2.1
    return (t.1, t.2.1, r.2.2 ++ t.2.2)

/-- the disk after the end of a process, and its memory -/
def finish (h : List Ch → BitVec 64) (d : Disk) (s : Sys) : End → Res (Disk × Sys)
  | .quit w => quit h d s w
  | .crash => .ok (d, s)
  | .crashInSave n => do let d ← crashInSave h d s n; return (d, s)

/-- one process: the disk, the final memory and the answers to its calls -/
def process (h : List Ch → BitVec 64) (d : Disk) (p : Process) : Res (Disk × Sys × List Prefs.Spec.Out) := do
  let s ← init h d Sys.start p.id
  let r ← acts h p.acts d s
  let e ← finish h r.1 r.2.1 p.ending
  return (e.1, e.2, r.2.2)

/-- processes one after the other on the same disk: the answers of each -/
def processes (h : List Ch → BitVec 64) : List Process → Disk → Res (Disk × List (List Prefs.Spec.Out))
  | [], d => .ok (d, [])
  | p :: ps, d => do
    let r ← process h d p
    let t ← processes h ps r.1
    return (t.1, r.2.2 :: t.2)

end Verif.Life
