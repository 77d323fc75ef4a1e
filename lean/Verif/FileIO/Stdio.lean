import Verif.Base
/-
C101, C102: the part of the C library and the operating system the class `File` stands on: names, files, streams (`FILE*`) with a
buffer for writing.  A stream hands written bytes over when it likes, at the latest when it is closed or positioned.  Reading
gives what is in the file now (a stream that read ahead could give older bytes when somebody else writes to the file).
Directories, links and short writes are not modelled.
-/
namespace Verif.FileIO
open Verif

abbrev Path := List Byte

inductive Mode where
  | read
  | write
  | readWrite
deriving DecidableEq, Repr

inductive Errno where
  | access
  | noEntry
  | timedOut
  | notDir
  | other
deriving DecidableEq, Repr

/-- what the stream did since it was positioned: C99 7.19.5.3 forbids reading directly after writing, and writing directly after reading
unless reading met the end of the file -/
inductive Turn where
  | fresh
  | read
  | wrote
deriving DecidableEq, Repr

/-- an open stream: the file, the position, the bytes written but not yet handed over (they belong directly before the position) -/
structure Stream where
  file : Nat
  mode : Mode
  pos : Nat
  pend : List Byte
  turn : Turn
deriving DecidableEq, Repr

structure Os where
  names : Path → Option Nat
  files : List (List Byte)
  streams : List (Option Stream)

/-- bytes `b` at position `p`; a gap behind the end is filled with zeros -/
def putAt (l : List Byte) (p : Nat) (b : List Byte) : List Byte :=
  if b = [] then l else (l ++ List.replicate (p - l.length) 0).take p ++ b ++ l.drop (p + b.length)

def Os.file (os : Os) (i : Nat) : List Byte := os.files.getD i []

/-- a live stream; anything else is an invalid pointer -/
def Os.get (os : Os) (h : Nat) : Res Stream :=
  match os.streams[h]? with
  | some (some s) => .ok s
  | _ => .error .ub

def Os.put (os : Os) (h : Nat) (s : Stream) : Os := { os with streams := os.streams.set h (some s) }

/-- the first `k` pending bytes reach the file -/
def Os.hand (os : Os) (h : Nat) (s : Stream) (k : Nat) : Os :=
  { os with
    files := os.files.set s.file (putAt (os.file s.file) (s.pos - s.pend.length) (s.pend.take k))
    streams := os.streams.set h (some { s with pend := s.pend.drop k }) }

/-- at any time the library may hand over some of the bytes -/
def Os.background (os : Os) (h k : Nat) : Os :=
  match os.streams[h]? with
  | some (some s) => os.hand h s k
  | _ => os

def newStream (i : Nat) (m : Mode) : Stream := ⟨i, m, 0, [], .fresh⟩

/-- `fopen` with "rb", "wb", "rb+"; `deny`: the system refuses -/
def fopen (os : Os) (path : Path) (m : Mode) (deny : Option Errno) : Os × Except Errno Nat :=
  match deny with
  | some e => (os, .error e)
  | none =>
    match os.names path, m with
    | none, .write =>
      ({ names := fun p => if p = path then some os.files.length else os.names p
         files := os.files ++ [[]]
         streams := os.streams ++ [some (newStream os.files.length m)] }, .ok os.streams.length)
    | none, _ => (os, .error .noEntry)
    | some i, .write =>
      ({ os with files := os.files.set i [], streams := os.streams ++ [some (newStream i m)] }, .ok os.streams.length)
    | some i, _ => ({ os with streams := os.streams ++ [some (newStream i m)] }, .ok os.streams.length)

/-- `fclose`; the stream is gone also when it fails (`fail`: the rest of the bytes could not be written) -/
def fclose (os : Os) (h : Nat) (fail : Bool) : Res (Os × Bool) :=
  match os.get h with
  | .error e => .error e
  | .ok s =>
    let os := if fail then os else os.hand h s s.pend.length
    .ok ({ os with streams := os.streams.set h none }, fail)

/-- `fseek` to position `p`; a negative one is refused -/
def fseekTo (os : Os) (h : Nat) (s : Stream) (p : Int) : Os × Bool :=
  if p < 0 then (os, false)
  else ((os.hand h s s.pend.length).put h { s with pos := p.toNat, pend := [], turn := .fresh }, true)

/-- `SEEK_SET` -/
def fseekSet (os : Os) (h : Nat) (p : Int) : Res (Os × Bool) := do
  let s ← os.get h
  return fseekTo os h s p

/-- `SEEK_CUR` -/
def fseekCur (os : Os) (h : Nat) (d : Int) : Res (Os × Bool) := do
  let s ← os.get h
  return fseekTo os h s (s.pos + d)

def ftell (os : Os) (h : Nat) : Res Nat := do
  let s ← os.get h
  return s.pos

/-- the bytes a file has at a position -/
def slice (l : List Byte) (p n : Nat) : List Byte := (l.drop p).take n

/-- `fread(…, 1, n, h)` -/
def fread (os : Os) (h : Nat) (n : Nat) : Res (Os × List Byte) := do
  let s ← os.get h
  if n = 0 ∨ s.mode = .write then return (os, [])
  else if s.turn = .wrote then .error .ub
  else
    let got := slice (os.file s.file) s.pos n
    return (os.put h { s with pos := s.pos + got.length, turn := if got.length < n then .fresh else .read }, got)

/-- `fwrite(b, 1, …, h)` -/
def fwrite (os : Os) (h : Nat) (b : List Byte) : Res (Os × Nat) := do
  let s ← os.get h
  if b = [] ∨ s.mode = .read then return (os, 0)
  else if s.turn = .read then .error .ub
  else return (os.put h { s with pos := s.pos + b.length, pend := s.pend ++ b, turn := .wrote }, b.length)

/-- `remove` of a file: the name goes, the file stays for those who have it open -/
def unlink (os : Os) (path : Path) : Os × Bool :=
  match os.names path with
  | none => (os, false)
  | some _ => ({ os with names := fun p => if p = path then none else os.names p }, true)

/-- `rename`: replaces a file of the new name -/
def rename (os : Os) (old new : Path) : Os × Bool :=
  match os.names old with
  | none => (os, false)
  | some i => ({ os with names := fun p => if p = new then some i else if p = old then none else os.names p }, true)

end Verif.FileIO
