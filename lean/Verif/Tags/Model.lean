import Verif.Charset.Model
import Verif.Lists.Tokenizer
/-
C105: the tags of a file on Linux (File.cpp:718-886).  The file system is specified: the file has an extended attribute "user.xdg.tags" or
not; `getxattr` copies it if it fits into the buffer, and may be denied for any other reason; `setxattr` replaces it or is denied.  The
StringList operations are those of a list of texts (shown in `Verif/Lists/StringListProps`).
-/
namespace Verif.Tags
open Verif Verif.Charset

abbrev Text := List Ch

/-- the attribute of the file -/
abbrev Attr := Option (List Byte)

/-- what the operating system permits during one call -/
structure Env where
  reads : Bool
  writes : Bool
deriving DecidableEq, Repr

inductive Status where
  | ok
  | no
deriving DecidableEq, Repr

/-- `getxattr(path, name, buffer, sz)`; `none` is a negative result: denied, no such attribute, or ERANGE -/
def getxattr (a : Attr) (env : Env) (sz : Nat) : Option (List Byte) :=
  if env.reads then
    match a with
    | none => none
    | some v => if v.length ≤ sz then some v else none
  else none

/-- `setxattr(path, name, value, size, 0)`: the attribute afterwards and whether the result is 0 -/
def setxattr (a : Attr) (env : Env) (v : List Byte) : Attr × Bool := if env.writes then (some v, true) else (a, false)

/-- File.cpp:769-785 (Linux).  `ByteArray(buffer, result)` is followed by a zero (ByteArray.cpp:75-77), `String(tagList)` decodes up to it
(String.cpp:108-118) -/
def getTags (a : Attr) (env : Env) : Res (List Text) :=
  match getxattr a env 4096 with
  | none => .ok []
  | some v =>
    if v.length > 0 then
      match utf8Decode (v ++ [0]) with
      | .error e => .error e
      | .ok s => Lists.split s 44
    else .ok []

/-- File.cpp:839-848 (Linux), the default charset is UTF-8 (Charset.cpp:37, 265-268) -/
def setTags (a : Attr) (env : Env) (tags : List Text) : Res (Attr × Status) :=
  match utf8Encode ([44].intercalate tags) with
  | .error e => .error e
  | .ok b => .ok ((setxattr a env b).1, if (setxattr a env b).2 then .ok else .no)

/-- File.cpp:854-869 -/
def addTag (a : Attr) (env : Env) (tag : Text) : Res (Attr × Status) :=
  match getTags a env with
  | .error e => .error e
  | .ok tags => if tags.contains tag then .ok (a, .ok) else setTags a env (tags ++ [tag])

/-- File.cpp:871-886 -/
def removeTag (a : Attr) (env : Env) (tag : Text) : Res (Attr × Status) :=
  match getTags a env with
  | .error e => .error e
  | .ok tags => if tags.contains tag then setTags a env (tags.filter (· != tag)) else .ok (a, .ok)

inductive Call where
  | get
  | set (tags : List Text)
  | add (tag : Text)
  | remove (tag : Text)

inductive Answer where
  | tags (l : List Text)
  | status (s : Status)
deriving DecidableEq, Repr

/-- one call -/
def step (a : Attr) (env : Env) : Call → Res (Attr × Answer)
  | .get => (getTags a env).map (fun l => (a, .tags l))
  | .set l => (setTags a env l).map (fun r => (r.1, .status r.2))
  | .add t => (addTag a env t).map (fun r => (r.1, .status r.2))
  | .remove t => (removeTag a env t).map (fun r => (r.1, .status r.2))

/-- a history of calls, each with what the operating system permits -/
def run (a : Attr) : List (Call × Env) → Res (Attr × List Answer)
  | [] => .ok (a, [])
  | (c, env) :: h =>
    match step a env c with
    | .error e => .error e
    | .ok (a, r) => (run a h).map (fun p => (p.1, r :: p.2))

end Verif.Tags
