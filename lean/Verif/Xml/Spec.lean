import Verif.Xml.Model
import Verif.Base64.Spec
/-
Specification for the XML part: a fragment of XML 1.0 (elements, attributes, character data, the five predefined
entities) as token lists with their source text and their meaning, and what a history of writer calls means.
Nothing here refers to the functions of the model; only the type `Call` (the writer's API) and the types of the
events (the parser's API) are shared.
-/
namespace Verif.Xml.Spec
open Verif Verif.Str Verif.Xml

/-- the predefined entities of XML 1.0, section 4.6 -/
inductive Entity where
  | lt | gt | amp | quot | apos
deriving DecidableEq, Repr

def Entity.name : Entity → List Ch
  | .lt => lit "lt" | .gt => lit "gt" | .amp => lit "amp" | .quot => lit "quot" | .apos => lit "apos"

def Entity.char : Entity → Ch
  | .lt => chr '<' | .gt => chr '>' | .amp => chr '&' | .quot => chr '"' | .apos => chr '\''

/-- a character of data: literally, or as entity reference -/
inductive Piece where
  | lit (c : Ch)
  | ref (e : Entity)
deriving DecidableEq, Repr

def Piece.src : Piece → List Ch
  | .lit c => [c]
  | .ref e => chr '&' :: e.name ++ [chr ';']

/-- the character meant -/
def Piece.char : Piece → Ch
  | .lit c => c
  | .ref e => e.char

/-- white space of XML 1.0 (production S) -/
def IsS (c : Ch) : Prop := c = 0x20 ∨ c = 0x09 ∨ c = 0x0D ∨ c = 0x0A

/-- Names, somewhat wider than the production Name: non-empty and without white space, quotation marks and the
characters `< > & = /` (and without the control characters U+0008, U+000C). -/
def NameOk (n : List Ch) : Prop :=
  n ≠ [] ∧ ∀ c ∈ n, ¬ IsS c ∧ c ≠ 0x08 ∧ c ≠ 0x0C ∧ c ≠ chr '<' ∧ c ≠ chr '>' ∧ c ≠ chr '&' ∧ c ≠ chr '=' ∧ c ≠ chr '/' ∧
    c ≠ chr '"' ∧ c ≠ chr '\''

/-- an attribute in a start tag: white space, name `=` quoted value (productions S Attribute, Eq, AttValue) -/
structure Attr where
  sp : List Ch
  name : List Ch
  sp1 : List Ch
  sp2 : List Ch
  quote : Ch
  value : List Piece
deriving DecidableEq, Repr

def Attr.src (a : Attr) : List Ch :=
  a.sp ++ a.name ++ a.sp1 ++ chr '=' :: a.sp2 ++ a.quote :: a.value.flatMap Piece.src ++ [a.quote]

structure Attr.Ok (a : Attr) : Prop where
  sp : a.sp ≠ [] ∧ ∀ c ∈ a.sp, IsS c
  name : NameOk a.name
  sp1 : ∀ c ∈ a.sp1, IsS c
  sp2 : ∀ c ∈ a.sp2, IsS c
  quote : a.quote = chr '"' ∨ a.quote = chr '\''
  value : ∀ c, Piece.lit c ∈ a.value → c ≠ chr '<' ∧ c ≠ chr '&' ∧ c ≠ a.quote

/-- start tags, empty-element tags, end tags, character data -/
inductive Token where
  | open_ (name : List Ch) (attrs : List Attr) (sp : List Ch)
  | empty (name : List Ch) (attrs : List Attr) (sp : List Ch)
  | close (name : List Ch) (sp : List Ch)
  | text (data : List Piece)

def Token.src : Token → List Ch
  | .open_ n as sp => chr '<' :: n ++ as.flatMap Attr.src ++ sp ++ [chr '>']
  | .empty n as sp => chr '<' :: n ++ as.flatMap Attr.src ++ sp ++ [chr '/', chr '>']
  | .close n sp => chr '<' :: chr '/' :: n ++ sp ++ [chr '>']
  | .text d => d.flatMap Piece.src

def Token.Ok : Token → Prop
  | .open_ n as sp => NameOk n ∧ (∀ a ∈ as, a.Ok) ∧ ∀ c ∈ sp, IsS c
  | .empty n as sp => NameOk n ∧ (∀ a ∈ as, a.Ok) ∧ ∀ c ∈ sp, IsS c
  | .close n sp => NameOk n ∧ ∀ c ∈ sp, IsS c
  | .text d => ∀ c, Piece.lit c ∈ d → c ≠ chr '<' ∧ c ≠ chr '&'

def Token.isTag : Token → Bool
  | .text _ => false
  | _ => true

/-- source text of a token list -/
def src (ts : List Token) : List Ch := ts.flatMap Token.src

/-- What a document says, in order: start of an element, an attribute of it, a character, end of an element. -/
inductive Item where
  | start (name : List Ch)
  | attr (name value : List Ch)
  | char (c : Ch)
  | stop (name : List Ch)
deriving DecidableEq, Repr

def Attr.items (a : Attr) : Item := .attr a.name (a.value.map Piece.char)

def Token.items : Token → List Item
  | .open_ n as _ => .start n :: as.map Attr.items
  | .empty n as _ => .start n :: as.map Attr.items ++ [.stop n]
  | .close n _ => [.stop n]
  | .text d => d.map (fun p => .char p.char)

def items (ts : List Token) : List Item := ts.flatMap Token.items

/-- Tags nest: reading the tokens with the stack `st` of open elements leads to the returned stack; `none` when
an end tag does not match the innermost open element. -/
def nest : List Token → List (List Ch) → Option (List (List Ch))
  | [], st => some st
  | .open_ n _ _ :: ts, st => nest ts (n :: st)
  | .empty _ _ _ :: ts, st => nest ts st
  | .text _ :: ts, st => nest ts st
  | .close n _ :: ts, m :: st => if n = m then nest ts st else none
  | .close _ _ :: _, [] => none

/-! ### the parser's events -/

/-- what one event reports; text may arrive in several portions and through two methods -/
def eventItems : Event → List Item
  | .startDocument => []
  | .endDocument => []
  | .startElement _ q a => .start q :: (a.names.zip a.values).map (fun x => .attr x.1 x.2)
  | .endElement _ q => [.stop q]
  | .characters s => s.map .char
  | .ignorable s => s.map .char

def reported (evs : List Event) : List Item := evs.flatMap eventItems

/-- `l` is the local part of the qualified name `q` -/
def IsLocalPart (q l : List Ch) : Prop :=
  chr ':' ∉ l ∧ (q = l ∨ ∃ pre, q = pre ++ chr ':' :: l)

/-- the side conditions on single events: local names are right, names and values of attributes correspond, ignorable
white space is white space -/
def EventOk : Event → Prop
  | .startElement l q a => IsLocalPart q l ∧ a.names.length = a.values.length
  | .endElement l q => IsLocalPart q l
  | .ignorable s => s ≠ [] ∧ ∀ c ∈ s, isWhitespace c = true
  | .characters s => s ≠ []
  | _ => True

/-! ### the writer's calls -/

/-- What a history of calls says, given the names of the open elements (innermost first) and whether the start tag of
the innermost one can still take attributes.  Attributes at any other place are ignored, and so is `endElement` without an
open element.  Indentation says nothing.  Binary data is its RFC 4648 text. -/
def saidFrom : List (List Ch) → Bool → List Call → List Item
  | _, _, [] => []
  | st, _, .startIndent :: cs => saidFrom st false cs
  | st, _, .endIndent :: cs => saidFrom st false cs
  | st, _, .startElement n :: cs => .start n :: saidFrom (n :: st) true cs
  | [], _, .endElement :: cs => saidFrom [] false cs
  | n :: st, _, .endElement :: cs => .stop n :: saidFrom st false cs
  | st, _, .cdata t _ :: cs => t.map .char ++ saidFrom st false cs
  | st, _, .base64 d :: cs => (Base64.Spec.encode d).map (fun b => .char (b.setWidth 16)) ++ saidFrom st false cs
  | st, true, .attribute n v :: cs => .attr n v :: saidFrom st true cs
  | st, false, .attribute _ _ :: cs => saidFrom st false cs

def said (cs : List Call) : List Item := saidFrom [] false cs

/-- names of the elements still open after a history of calls, innermost first -/
def openAfter : List (List Ch) → List Call → List (List Ch)
  | st, [] => st
  | st, .startElement n :: cs => openAfter (n :: st) cs
  | st, .endElement :: cs => openAfter st.tail cs
  | st, _ :: cs => openAfter st cs

/-- `b` is `a` with indentation: white space inserted directly in front of starts and ends of elements -/
inductive Indented : List Item → List Item → Prop
  | nil : Indented [] []
  | same (x : Item) {a b} : Indented a b → Indented (x :: a) (x :: b)
  | start (ws n : List Ch) {a b} : (∀ c ∈ ws, IsS c) → Indented a b →
      Indented (.start n :: a) (ws.map .char ++ .start n :: b)
  | stop (ws n : List Ch) {a b} : (∀ c ∈ ws, IsS c) → Indented a b →
      Indented (.stop n :: a) (ws.map .char ++ .stop n :: b)

/-- apostrophes left out of text and attribute values -/
def withoutApos : List Item → List Item
  | [] => []
  | .char c :: l => if c = chr '\'' then withoutApos l else .char c :: withoutApos l
  | .attr n v :: l => .attr n (v.filter (fun c => decide (c ≠ chr '\''))) :: withoutApos l
  | x :: l => x :: withoutApos l

/-- a call with a usable name; unescaped text (`writeCData(…, false)`) is the caller's responsibility -/
def CallOk : Call → Prop
  | .startElement n => NameOk n
  | .attribute n _ => NameOk n
  | .cdata _ e => e = true
  | _ => True

def isIndent : Call → Bool
  | .startIndent => true
  | .endIndent => true
  | _ => false

end Verif.Xml.Spec
