import Verif.Lists.Tokenizer
import Verif.Str.Lemmas
import Verif.Base64.Model
import Verif.Charset.Model
/-
Model of src/core/XMLWriter.cpp, src/core/SAXParser.cpp and src/core/SAXAttributes.cpp.

 * Strings are character lists (refinement proved in Verif/Str); `charAt` outside throws.
 * The writer's output stream is the list of characters written so far.  `Stream::write(const String&)`
   (Stream.cpp:41-46) encodes each string as UTF-8; that step is modelled in `bytesOf` / `parseFile`.
   Opening and closing the stream and failing writes are not modelled.
 * `mIndent` is an unbounded integer (the code: `int32`).
 * A position `pos` in the parsed text is represented by the remaining suffix of the text.
 * The handler methods of the parser append an `Event` to a list.
-/
namespace Verif.Xml
open Verif Verif.Str Verif.Lists

def chr (c : Char) : Ch := BitVec.ofNat 16 c.toNat

/-- a string literal of the source -/
def lit (s : String) : List Ch := s.toList.map chr

def cLt : Ch := 0x3C
def cGt : Ch := 0x3E
def cAmp : Ch := 0x26
def cQuot : Ch := 0x22
def cApos : Ch := 0x27
def cSlash : Ch := 0x2F
def cEq : Ch := 0x3D
def cSemi : Ch := 0x3B
def cColon : Ch := 0x3A
def cSpace : Ch := 0x20
def cNl : Ch := 0x0A

/-! ### XMLWriter -/

/-- XMLWriter.h:186-200 `ElementInfo` -/
structure Elem where
  name : List Ch
  indent : Bool
  hasContent : Bool
  hasCharacters : Bool
deriving DecidableEq, Repr

/-- XMLWriter.h:175-202: `mIndent` and `mLastIndent` have no initialiser and are not set by the constructor
(XMLWriter.cpp:36-41): `none` until `startDocument`.  `stack` is `mOpenElements`, top first. -/
structure W where
  indent : Option Int
  last : Option Bool
  stack : List Elem
  out : List Ch
deriving DecidableEq, Repr

/-- XMLWriter.cpp:36-41 -/
def W.new : W := ⟨none, none, [], []⟩

/-- `mOutput->write(String)` -/
def W.write (w : W) (s : List Ch) : W := { w with out := w.out ++ s }

/-- XMLWriter.cpp:66-70 = 77-81 = 89-93 = 139-143: finish the start tag of the innermost element -/
def W.closeTag (w : W) : W :=
  match w.stack with
  | [] => w
  | e :: st => if e.hasContent = false then { w with stack := { e with hasContent := true } :: st }.write [cGt] else w

/-- XMLWriter.cpp:48-56 -/
def W.startDocument (w : W) : W :=
  { w with indent := some 0, last := some false }.write (lit "<?xml version=\"1.0\" encoding=\"UTF-8\"?>\n")

/-- XMLWriter.cpp:64-73; adding to an uninitialised `mIndent` is UB. -/
def W.startIndent (w : W) : Res W :=
  let w := w.closeTag
  match w.indent with
  | none => .error .ub
  | some i => .ok { w with indent := some (i + 3), last := some true }

/-- XMLWriter.cpp:75-84 -/
def W.endIndent (w : W) : Res W :=
  let w := w.closeTag
  match w.indent with
  | none => .error .ub
  | some i => .ok { w with indent := some (i - 3), last := some false }

/-- XMLWriter.cpp:245-252 -/
def W.writeIndent (w : W) : Res W :=
  match w.indent with
  | none => .error .ub
  | some i => .ok (w.write (cNl :: List.replicate i.toNat cSpace))

/-- XMLWriter.cpp:101-108: the part of `startElement` after the indentation -/
def W.openTag (w : W) (name : List Ch) (b : Bool) : W :=
  { (w.write [cLt]).write name with stack := ⟨name, b, false, false⟩ :: w.stack, last := some false }

/-- XMLWriter.cpp:86-109; `if(mLastIndent)` on an uninitialised flag is UB. -/
def W.startElement (w : W) (name : List Ch) : Res W :=
  let w := w.closeTag
  match w.last with
  | none => .error .ub
  | some true => do
    let w ← w.writeIndent
    return w.openTag name true
  | some false => .ok (w.openTag name false)

/-- XMLWriter.cpp:126-128 -/
def W.endTag (w : W) (name : List Ch) : W := ((w.write [cLt, cSlash]).write name).write [cGt]

/-- XMLWriter.cpp:131-134: the element is popped -/
def W.popped (w : W) (st : List Elem) : W := { w with stack := st, last := some false }

/-- XMLWriter.cpp:111-135 -/
def W.endElement (w : W) : Res W :=
  match w.stack with
  | [] => .ok { w with last := some false }
  | e :: st =>
    if e.hasContent = false then .ok ((w.write [cSlash, cGt]).popped st)
    else if e.indent ∧ e.hasCharacters = false then do
      let w ← w.writeIndent
      return (w.endTag e.name).popped st
    else .ok ((w.endTag e.name).popped st)

/-- XMLWriter.cpp:174-179 -/
def encodeToken (token : List Ch) : List Ch :=
  if token = lit "&" then lit "&amp;"
  else if token = lit "<" then lit "&lt;"
  else if token = lit ">" then lit "&gt;"
  else if token = lit "\"" then lit "&quot;"
  else if token = lit "'" then lit "&apos;"
  else token

/-- XMLWriter.cpp:170-180: the loop of `Encode`; `fuel` bounds the number of rounds (running out is
reported as UB; `encode_eq` shows it never happens). -/
def encodeLoop : Nat → Tok → List Ch → Res (List Ch)
  | 0, _, _ => .error .ub
  | fuel + 1, t, out => do
    let (b, t) ← t.hasNext
    if b then
      let (x, t) ← t.next
      match x with
      | some x => encodeLoop fuel t (out ++ encodeToken x)
      | none => .error .thrown
    else return out

/-- XMLWriter.cpp:165-182 `Encode` -/
def encode (s : List Ch) : Res (List Ch) := encodeLoop (s.length + 1) (Tok.new s (lit "&<>\"'") true) []

/-- XMLWriter.cpp:145-148 -/
def W.markCharacters (w : W) : W :=
  match w.stack with
  | [] => w
  | e :: st => if e.hasCharacters = false then { w with stack := { e with hasCharacters := true } :: st } else w

/-- XMLWriter.cpp:137-163 -/
def W.writeCData (w : W) (cdata : List Ch) (xmlencode : Bool) : Res W :=
  let w := w.closeTag.markCharacters
  if xmlencode then do
    let encoded ← encode cdata
    return { w.write encoded with last := some false }
  else .ok { w.write cdata with last := some false }

/-- XMLWriter.cpp:186-191 -/
def W.closeTagCharacters (w : W) : W :=
  match w.stack with
  | [] => w
  | e :: st =>
    if e.hasContent = false then { w with stack := { e with hasContent := true, hasCharacters := true } :: st }.write [cGt] else w

/-- XMLWriter.cpp:184-198: `Base64::encode` takes `length` by reference and sets it to the length of the encoded
text (Base64.h:55), which is then written.  The bytes are ASCII and shown as characters. -/
def W.writeBase64 (w : W) (data : List Byte) : Res W := do
  let w := w.closeTagCharacters
  let encoded ← Base64.encode data
  return { w.write (encoded.map (fun b => b.setWidth 16)) with last := some false }

/-- XMLWriter.cpp:201-214 -/
def W.writeAttribute (w : W) (name content : List Ch) : Res W :=
  match w.stack with
  | [] => .ok w
  | e :: _ =>
    if e.hasContent = true then .ok w
    else do
      let encoded ← encode content
      return { ((((w.write [cSpace]).write name).write [cEq, cQuot]).write encoded).write [cQuot] with last := some false }

/-- A call of the writer.  The numeric overloads of `writeAttribute` (XMLWriter.cpp:216-243) are calls of the
string version. -/
inductive Call where
  | startIndent | endIndent
  | startElement (name : List Ch)
  | endElement
  | cdata (text : List Ch) (xmlencode : Bool)
  | base64 (data : List Byte)
  | attribute (name content : List Ch)

def Call.exec (w : W) : Call → Res W
  | .startIndent => w.startIndent
  | .endIndent => w.endIndent
  | .startElement n => w.startElement n
  | .endElement => w.endElement
  | .cdata t e => w.writeCData t e
  | .base64 d => w.writeBase64 d
  | .attribute n c => w.writeAttribute n c

def runCalls (w : W) : List Call → Res W
  | [] => .ok w
  | c :: cs => do
    let w ← c.exec w
    runCalls w cs

/-- the text of the document written by `startDocument` and the calls `cs` on a new writer -/
def written (cs : List Call) : Res (List Ch) := do
  let w ← runCalls W.new.startDocument cs
  return w.out

/-! ### SAXAttributes -/

/-- SAXAttributes.h: `mNames`, `mValues` -/
structure Attrs where
  names : List (List Ch)
  values : List (List Ch)
deriving DecidableEq, Repr

/-- SAXAttributes.cpp:36-40 -/
def Attrs.empty : Attrs := ⟨[], []⟩

/-- SAXAttributes.cpp:76-81 -/
def Attrs.add (a : Attrs) (localname value : List Ch) : Attrs := ⟨a.names ++ [localname], a.values ++ [value]⟩

/-- SAXAttributes.cpp:85-90: the loop from index `i` on -/
def indexFrom (q : List Ch) : List (List Ch) → Nat → Int
  | [], _ => -1
  | n :: ns, i => if n = q then (i : Int) else indexFrom q ns (i + 1)

/-- SAXAttributes.cpp:83-91 (32-bit indices not modelled) -/
def Attrs.indexOf (a : Attrs) (q : List Ch) : Int := indexFrom q a.names 0

/-- SAXAttributes.cpp:138-143; `std::vector::at` throws outside -/
def Attrs.value (a : Attrs) (q : List Ch) : Res (List Ch) :=
  if a.indexOf q > -1 then
    match a.values[(a.indexOf q).toNat]? with
    | some v => .ok v
    | none => .error .thrown
  else .ok []

/-- SAXAttributes.cpp:166-171 -/
def Attrs.hasValue (a : Attrs) (q : List Ch) : Bool := decide (a.indexOf q > -1)

/-- SAXAttributes.cpp:48-58, the copy constructor: `mNames->clear()` through an uninitialised pointer. -/
def Attrs.copyCtor (_ : Attrs) : Res Attrs := .error .ub

/-- SAXAttributes.cpp:60-74 -/
def Attrs.assign (_ other : Attrs) : Attrs := ⟨other.names, other.values⟩

/-! ### SAXParser -/

/-- a call of one of the handler methods (SAXParser.h); the `uri` argument is always empty -/
inductive Event where
  | startDocument
  | endDocument
  | startElement (localName qName : List Ch) (attrs : Attrs)
  | endElement (localName qName : List Ch)
  | characters (s : List Ch)
  | ignorable (s : List Ch)
deriving DecidableEq, Repr

/-- SAXParser.cpp:142-149 = 257-264: characters from the one after `&` to the next `;` or to the end of the text;
the first `charAt` throws when `&` is the last character.  Second component: the text behind. -/
def readEscape : List Ch → Res (List Ch × List Ch)
  | [] => .error .thrown
  | c :: r =>
    if c ≠ cSemi ∧ r ≠ [] then
      match readEscape r with
      | .ok (e, r') => .ok (c :: e, r')
      | .error x => .error x
    else .ok ([c], r)

theorem readEscape_length {r e r' : List Ch} (h : readEscape r = .ok (e, r')) : r'.length < r.length := by
  induction r generalizing e with
  | nil => cases h
  | cons c r ih =>
    simp only [readEscape] at h
    split at h
    · split at h
      · rename_i e1 r1 h1
        cases h
        have := ih h1
        simp only [List.length_cons]; omega
      · cases h
    · cases h; simp

/-- SAXParser.cpp:151-158 -/
def textEntity (escape : List Ch) : List Ch :=
  if escape = lit "lt;" then [cLt]
  else if escape = lit "gt;" then [cGt]
  else if escape = lit "amp;" then [cAmp]
  else if escape = lit "quot;" then [cQuot]
  else if escape = lit "le;" then [0x2264]
  else if escape = lit "ge;" then [0x2265]
  else if escape = lit "leq;" then [0x2264]
  else if escape = lit "geq;" then [0x2265]
  else []

/-- SAXParser.cpp:266-269 -/
def valueEntity (escape : List Ch) : List Ch :=
  if escape = lit "lt;" then [cLt]
  else if escape = lit "gt;" then [cGt]
  else if escape = lit "amp;" then [cAmp]
  else if escape = lit "quot;" then [cQuot]
  else []

/-- SAXParser.cpp:120-135: one character of white space at either end goes back to the text; deliver the parts -/
def deliverText (b t e : List Ch) : List Event :=
  let t := if b.length > 0 then b.getLast?.toList ++ t else t
  let b := if b.length > 0 then b.dropLast else b
  let t := if e.length > 0 then t ++ e.head?.toList else t
  let e := if e.length > 0 then e.tail else e
  (if b.length > 0 then [.ignorable b] else []) ++ (if t.length > 0 then [.characters t] else []) ++
    (if e.length > 0 then [.ignorable e] else [])

/-- SAXParser.cpp:90-103 `beginWhitespaces` and the rest -/
def cutBegin (token : List Ch) : List Ch × List Ch :=
  (token.takeWhile isWhitespace, token.drop (token.takeWhile isWhitespace).length)

/-- SAXParser.cpp:105-118 the rest and `endWhiteSpaces` -/
def cutEnd (token : List Ch) : List Ch × List Ch :=
  let e := (token.reverse.takeWhile isWhitespace).reverse
  (token.take (token.length - e.length), e)

/-- SAXParser.cpp:85-136: deliver the text collected in `token` -/
def textEvents (token : List Ch) : List Event :=
  if token.length > 0 then
    deliverText (cutBegin token).1 (cutEnd (cutBegin token).2).1 (cutEnd (cutBegin token).2).2
  else []

/-- SAXParser.cpp:295-296: `qualifiedName.substring(qualifiedName.lastIndexOf(':') + 1)` -/
def localNameOf (q : List Ch) : Res (List Ch) := do
  let s ← Verif.Str.ofChars q
  let i ← Verif.Str.lastIndexOfChar s cColon
  let r ← Verif.Str.substringFrom s (i + 1)
  return Verif.Str.chars r

/-- SAXParser.cpp:196-228: the local variables of `parseTagString` -/
structure T where
  inValue : Bool
  opener : Ch
  step : Nat
  token : List Ch
  tname : List Ch
  aname : List Ch
  attribs : Attrs
deriving DecidableEq, Repr

/-- SAXParser.cpp:196-228: their initial values -/
def T.init : T := ⟨false, 0, 0, [], [], [], Attrs.empty⟩

/-- SAXParser.cpp:236-253: a quotation mark -/
def T.quote (t : T) (c : Ch) : T :=
  if t.inValue = false then { t with inValue := true, opener := c }
  else if t.opener = c then
    if t.step = 2 then { t with inValue := false, step := 1, attribs := t.attribs.add t.aname t.token, token := [] }
    else { t with inValue := false }
  else { t with token := t.token ++ [c] }

/-- SAXParser.cpp:274-287: a separator -/
def T.separator (t : T) : T :=
  if t.token.length > 0 then
    if t.step = 0 then { t with tname := t.token, step := 1, token := [] }
    else if t.step = 1 then { t with aname := t.token, step := 2, token := [] }
    else { t with token := [] }
  else t

/-- SAXParser.cpp:230-292: the loop of `parseTagString` -/
def tagLoop (t : T) : List Ch → Res T
  | [] => .ok t
  | c :: r =>
    if c = cQuot ∨ c = cApos then tagLoop (t.quote c) r
    else if c = cAmp ∧ t.inValue = true then
      match _h : readEscape r with
      | .ok (e, r') => tagLoop { t with token := t.token ++ valueEntity e } r'
      | .error x => .error x
    else if (isWhitespace c ∨ c = cEq ∨ c = cSlash) ∧ t.inValue = false then tagLoop t.separator r
    else tagLoop { t with token := t.token ++ [c] } r
termination_by l => l.length
decreasing_by
  · simp
  · have := readEscape_length ‹_›; simp only [List.length_cons]; omega
  · simp
  · simp

/-- SAXParser.cpp:295-312: report the tag -/
def tagEvents (tagType : Nat) (t : T) : Res (List Event) := do
  let l ← localNameOf t.tname
  return if tagType = 0 then [.startElement l t.tname t.attribs]
    else if tagType = 1 then [.endElement l t.tname]
    else [.startElement l t.tname t.attribs, .endElement l t.tname]

/-- SAXParser.cpp:188-314 `parseTagString`.  The two loops skipping whitespace run over the ends of a line of
whitespace only: `charAt(-1)` throws (line 204). -/
def parseTagString (xmlline : List Ch) : Res (List Event) :=
  let line := xmlline ++ [cSpace]
  match (line.reverse.dropWhile isWhitespace), (line.dropWhile isWhitespace) with
  | z :: _, a :: r => do
    let tagType := if z = cSlash then 2 else 0
    let tagType := if a = cSlash then 1 else tagType
    let t ← tagLoop T.init (if a = cSlash then r else a :: r)
    tagEvents tagType t
  | _, _ => .error .thrown

/-- SAXParser.cpp:61-75: the local variables of `parse`, and the events reported so far -/
structure P where
  inTag : Bool
  inValue : Bool
  opener : Ch
  token : List Ch
  events : List Event
deriving DecidableEq, Repr

/-- SAXParser.cpp:168-177: a quotation mark inside a tag -/
def P.quote (p : P) (c : Ch) : P :=
  let p := if p.inValue = false then { p with inValue := true, opener := c }
    else if p.opener = c then { p with inValue := false } else p
  { p with token := p.token ++ [c] }

/-- SAXParser.cpp:77-183: the loop of `parse` -/
def parseLoop (p : P) : List Ch → Res P
  | [] => .ok p
  | c :: r =>
    if c = cLt ∧ p.inTag = false ∧ p.inValue = false then
      parseLoop { p with inTag := true, events := p.events ++ textEvents p.token, token := [] } r
    else if c = cAmp ∧ p.inTag = false then
      match _h : readEscape r with
      | .ok (e, r') => parseLoop { p with token := p.token ++ textEntity e } r'
      | .error x => .error x
    else if c = cGt ∧ p.inTag = true ∧ p.inValue = false then
      match parseTagString p.token with
      | .ok ev => parseLoop { p with inTag := false, token := [], events := p.events ++ ev } r
      | .error x => .error x
    else if (c = cQuot ∨ c = cApos) ∧ p.inTag = true then parseLoop (p.quote c) r
    else parseLoop { p with token := p.token ++ [c] } r
termination_by l => l.length
decreasing_by
  · simp
  · have := readEscape_length ‹_›; simp only [List.length_cons]; omega
  · simp
  · simp
  · simp

/-- SAXParser.cpp:59-186 `parse(const String&)`: the events reported -/
def parse (xml : List Ch) : Res (List Event) := do
  let p ← parseLoop ⟨false, false, cQuot, [], [.startDocument]⟩ xml
  return p.events ++ [.endDocument]

/-! ### through a file -/

/-- Stream.cpp:41-46, String.cpp:215-225: the bytes `write(String)` passes on (default charset UTF-8) -/
def bytesOf (s : List Ch) : Res (List Byte) := Charset.utf8Encode s

/-- SAXParser.cpp:46-57 `parse(File&)` of a readable file with content `b`; the buffer is followed by a NUL byte
(Verif/Arrays).  An empty file gives the empty string (String.cpp:119-124). -/
def parseFile (b : List Byte) : Res (List Event) :=
  if b = [] then parse [] else do
    let s ← Charset.utf8Decode (b ++ [0])
    parse s

end Verif.Xml
