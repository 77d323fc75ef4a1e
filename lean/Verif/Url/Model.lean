import Verif.Num.Integer
import Verif.Charset.Model
/-
Model of jm::URLEncode / jm::URLDecode (src/core/String.cpp:1334-1403).  Strings are character lists.
-/
namespace Verif.Url
open Verif Verif.Str Verif.Num

/-- String.cpp:1378-1400: what one character appends. -/
def encChar (c : Ch) : List Ch :=
  if c = 0x20 then [0x2B]
  else if c = 0x25 then [0x25, 0x32, 0x35]
  else if c = 0x2B then [0x25, 0x32, 0x42]
  else [c]

/-- String.cpp:1369-1403 `URLEncode` -/
def urlEncode (s : List Ch) : List Ch := s.flatMap encChar

/-- String.cpp:1345-1362: the loop of `URLDecode`; `out` are the bytes written to `buffer`
(`ByteArray(str.size(), 0)`). -/
def urlLoop (str : List Ch) (a : Nat) (out : List Byte) : Res (List Byte) :=
  if h : a < str.length then
    if str[a] = 0x25 then do
      let out ← emit str.length out (BitVec.ofInt 8 (fromHex ((str.take (a + 3)).drop (a + 1))))
      urlLoop str (a + 3) out
    else if str[a] = 0x2B then do
      let out ← emit str.length out 0x20
      urlLoop str (a + 1) out
    else do
      let out ← emit str.length out (str[a].setWidth 8)
      urlLoop str (a + 1) out
  else .ok out
termination_by str.length - a

/-- String.cpp:1334-1367 `URLDecode`; `buffer.resize(pos)` puts a zero behind the bytes in the same block
(ByteArray.cpp:216-222), `String(buffer)` decodes UTF-8 if there are any (String.cpp:108-132). -/
def urlDecode (str : List Ch) : Res (List Ch) := do
  let out ← urlLoop str 0 []
  if out.length > 0 then Charset.utf8Decode (out ++ 0 :: List.replicate (str.length - out.length) 0)
  else return []

end Verif.Url
