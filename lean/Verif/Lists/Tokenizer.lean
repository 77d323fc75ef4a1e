import Verif.Str.Model
/-
Model of src/core/StringTokenizer.cpp and String::split (src/core/String.cpp:490-499).
Strings are character lists; `charAt` inside the string is list access (Verif/Str).
-/
namespace Verif.Lists
open Verif Verif.Str

/-- include/core/StringTokenizer.h:70-82; `mNewStart = -1` is `none`. -/
structure Tok where
  str : List Ch
  delims : List Ch
  pos : Nat
  newStart : Option Nat
  retDelim : Bool

/-- StringTokenizer.cpp:36-44, the constructor -/
def Tok.new (str delims : List Ch) (ret : Bool) : Tok := ⟨str, delims, 0, none, ret⟩

/-- StringTokenizer.cpp:46-57 `isDelimiter`; `charAt` throws outside. -/
def Tok.isDelimiter (t : Tok) (index : Nat) : Res Bool :=
  match t.str[index]? with
  | some c => .ok (decide (c ∈ t.delims))
  | none => .error .thrown

/-- StringTokenizer.cpp:59-70 `findTokenEnd` -/
def Tok.findTokenEnd (t : Tok) (pos : Nat) : Res Nat :=
  if pos < t.str.length then do
    let b ← t.isDelimiter pos
    if b then return pos else t.findTokenEnd (pos + 1)
  else .ok pos
termination_by t.str.length - pos

/-- StringTokenizer.cpp:79-83: the loop of `findDelimiterEnd` -/
def Tok.skip (t : Tok) (pos : Nat) : Res Nat :=
  if pos < t.str.length then do
    let b ← t.isDelimiter pos
    if !b then return pos else t.skip (pos + 1)
  else .ok pos
termination_by t.str.length - pos

/-- StringTokenizer.cpp:72-85 `findDelimiterEnd` -/
def Tok.findDelimiterEnd (t : Tok) (pos : Nat) : Res Nat := do
  let stop ← if t.retDelim ∧ pos < t.str.length then t.isDelimiter pos else .ok false
  if stop then return pos else t.skip pos

/-- StringTokenizer.cpp:89, 96-98: the remembered start, or the next one -/
def Tok.start (t : Tok) : Res Nat :=
  match t.newStart with
  | some n => .ok n
  | none => t.findDelimiterEnd t.pos

/-- StringTokenizer.cpp:87-92 `hasNext` -/
def Tok.hasNext (t : Tok) : Res (Bool × Tok) := do
  let n ← t.start
  return (decide (n < t.str.length), { t with newStart := some n })

/-- StringTokenizer.cpp:106-113: where the token starting at `p` ends -/
def Tok.tokenEnd (t : Tok) (p : Nat) : Res Nat :=
  if t.retDelim then
    match t.isDelimiter p with
    | .ok true => .ok (p + 1)
    | .ok false => t.findTokenEnd p
    | .error e => .error e
  else t.findTokenEnd p

/-- StringTokenizer.cpp:101-116: `next`, from the start position on -/
def Tok.nextAt (t : Tok) (p : Nat) : Res (Option (List Ch) × Tok) :=
  if p ≥ t.str.length then .ok (none, { t with pos := p, newStart := none })
  else do
    let e ← t.tokenEnd p
    return (some ((t.str.take e).drop p), { t with pos := e, newStart := none })

/-- StringTokenizer.cpp:94-116 `next`; if it throws, the position has been advanced all the same. -/
def Tok.next (t : Tok) : Res (Option (List Ch) × Tok) := do
  let p ← t.start
  t.nextAt p

/-- String.cpp:490-499 `split`: `while(st.hasNext()) result << st.next()`; `fuel` bounds the number of
rounds (running out is reported as UB; `split_spec` shows it never happens). -/
def splitLoop : Nat → Tok → List (List Ch) → Res (List (List Ch))
  | 0, _, _ => .error .ub
  | fuel + 1, t, out => do
    let (b, t) ← t.hasNext
    if b then
      let (x, t) ← t.next
      match x with
      | some x => splitLoop fuel t (out ++ [x])
      | none => .error .thrown
    else return out

/-- String.cpp:490-499 `split` -/
def split (s : List Ch) (c : Ch) : Res (List (List Ch)) := splitLoop (s.length + 1) (Tok.new s [c] false) []

end Verif.Lists
