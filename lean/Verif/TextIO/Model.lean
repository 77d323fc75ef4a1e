import Verif.Charset.Model
import Verif.Charset.Pages
/-
C104: writing a String to a std::ostream and reading a line from a std::istream (String.cpp:1146-1183).  The C++ library is specified:
`getline` as in the standard ([istream.unformatted]); a stream is the bytes still to come and its state.
-/
namespace Verif.TextIO
open Verif Verif.Charset

abbrev Text := List Ch

/-- a std::istream -/
structure In where
  rest : List Byte
  eof : Bool
  failed : Bool
deriving DecidableEq, Repr

def In.good (s : In) : Bool := !s.eof && !s.failed

/-- what getline did: the bytes stored, whether the delimiter was extracted, the bytes left, end of file, buffer full -/
structure Got where
  stored : List Byte
  delim : Bool
  rest : List Byte
  eof : Bool
  full : Bool
deriving DecidableEq, Repr

/-- the conditions are tested in the order of the standard: end of file, delimiter, buffer full; `room` more bytes fit -/
def scan : Nat → List Byte → Got
  | _, [] => ⟨[], false, [], true, false⟩
  | room, c :: rest =>
    if c = 10 then ⟨[], true, rest, false, false⟩
    else
      match room with
      | 0 => ⟨[], false, c :: rest, false, true⟩
      | room + 1 => { scan room rest with stored := c :: (scan room rest).stored }

/-- `in.getline(cstr, n)`: what is in `cstr` up to the terminating zero, `gcount()`, the stream afterwards -/
def getline (s : In) (n : Nat) : List Byte × Nat × In :=
  if s.good then
    let g := scan (n - 1) s.rest
    let count := g.stored.length + (if g.delim then 1 else 0)
    (g.stored ++ [0], count, ⟨g.rest, g.eof, g.full || count == 0⟩)
  else ([0], 0, { s with failed := true })

/-- String.cpp:61-75: `String(buffer, size)`; the bytes of the buffer behind the ones given here were never written -/
def ofBuffer (buffer : List Byte) (size : Nat) : Res Text :=
  if size ≤ buffer.length then utf8Decode (buffer.take size ++ [0]) else .error .ub

/-- String.cpp:1177-1183 `operator>>` -/
def read (s : In) : Res (Text × In) :=
  match ofBuffer (getline s 256).1 (getline s 256).2.1 with
  | .error e => .error e
  | .ok t => .ok (t, (getline s 256).2.2)

/-- the console charsets modelled (String.cpp:1148-1151) -/
inductive Console where
  | windows1252
  | utf8
deriving DecidableEq, Repr

/-- String.cpp:1167-1175 `operator<<`: as a C string, up to the first zero byte -/
def write (cs : Console) (t : Text) : Res (List Byte) :=
  match cs with
  | .windows1252 => .ok ((win1252Encode t).takeWhile (· ≠ 0))
  | .utf8 =>
    match utf8Encode t with
    | .error e => .error e
    | .ok b => .ok (b.takeWhile (· ≠ 0))

/-- `while(in >> str)`: all strings read before the stream failed; `none` when `fuel` was not enough -/
def readAll : Nat → In → Res (Option (List Text))
  | 0, _ => .ok none
  | fuel + 1, s =>
    match read s with
    | .error e => .error e
    | .ok (t, s) => if s.failed then .ok (some []) else (readAll fuel s).map (Option.map (t :: ·))

end Verif.TextIO
