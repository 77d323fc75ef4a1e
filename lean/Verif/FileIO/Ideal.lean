import Verif.FileIO.Model
/-
C101: what a user of an open file expects, and lemmas about the bytes of a file.
-/
namespace Verif.FileIO
open Verif

theorem putAt_nil (l : List Byte) (p : Nat) : putAt l p [] = l := by simp [putAt]

/-- byte by byte: what was written at `p` is there, everything else is as before, and a gap is zero -/
theorem putAt_get (l : List Byte) (p : Nat) (b : List Byte) (hb : b ≠ []) (i : Nat) :
    (putAt l p b)[i]? = if i < p then some (l.getD i 0) else if i < p + b.length then b[i - p]? else l[i]? := by
  have hlen : ((l ++ List.replicate (p - l.length) (0 : Byte)).take p).length = p := by
    simp only [List.length_take, List.length_append, List.length_replicate]; omega
  simp only [putAt, hb, if_false]
  by_cases h1 : i < p
  · rw [if_pos h1, List.append_assoc, List.getElem?_append_left (by omega), List.getElem?_take_of_lt h1]
    by_cases h2 : i < l.length
    · rw [List.getElem?_append_left h2]
      simp [List.getD, List.getElem?_eq_getElem h2]
    · rw [List.getElem?_append_right (by omega)]
      have h3 : l[i]? = none := List.getElem?_eq_none_iff.2 (by omega)
      simp only [List.getD, h3, Option.getD_none]
      rw [List.getElem?_replicate, if_pos (by omega)]
  · rw [if_neg h1, List.append_assoc, List.getElem?_append_right (by omega), hlen]
    by_cases h2 : i < p + b.length
    · rw [if_pos h2, List.getElem?_append_left (by omega)]
    · rw [if_neg h2, List.getElem?_append_right (by omega), List.getElem?_drop]
      congr 1
      omega

theorem putAt_append (l : List Byte) (p : Nat) (a b : List Byte) : putAt (putAt l p a) (p + a.length) b = putAt l p (a ++ b) := by
  by_cases ha : a = []
  · subst ha; simp [putAt_nil]
  by_cases hb : b = []
  · subst hb; simp [putAt_nil]
  have hl : 0 < a.length := List.length_pos_iff.2 ha
  apply List.ext_getElem?
  intro i
  rw [putAt_get _ _ b hb, putAt_get l p (a ++ b) (by simp [ha])]
  simp only [List.length_append, List.getD]
  rw [putAt_get l p a ha]
  by_cases h1 : i < p
  · simp only [h1, show i < p + a.length by omega, if_true]
    simp
  · by_cases h2 : i < p + a.length
    · simp only [h1, h2, if_true, if_false, show i < p + (a.length + b.length) by omega]
      rw [List.getElem?_append_left (by omega)]
      rw [List.getElem?_eq_getElem (show i - p < a.length by omega)]
      rfl
    · simp only [h1, h2, if_false]
      have e : i - p - a.length = i - (p + a.length) := by omega
      by_cases h3 : i < p + a.length + b.length
      · rw [if_pos h3, if_pos (by omega), List.getElem?_append_right (by omega), e]
      · rw [if_neg h3, if_neg (by omega)]

/-! ### what is done with one open file -/

/-- `background`: the library hands over some bytes, whenever it likes -/
inductive Act where
  | write (b : List Byte)
  | read (cap n : Nat)
  | readFully (cap n : Nat)
  | seek (p : Int)
  | move (d : Int)
  | position
  | background (k : Nat)
deriving DecidableEq, Repr

/-- the answers of the calls; `thrown` for an exception -/
inductive Ans where
  | count (n : Nat)
  | bytes (b : List Byte)
  | done
  | thrown
deriving DecidableEq, Repr

def seekAns (b : Bool) : Ans := if b then .done else .thrown

/-- the program -/
def act (os : Os) (f : File) : Act → Res (Os × Ans)
  | .write b => (f.write os b).map (fun r => (r.1, .count r.2))
  | .read cap n => (f.read os cap n).map (fun r => (r.1, .bytes r.2))
  | .readFully cap n => (f.readFully os cap n).map (fun r => (r.1, .bytes r.2))
  | .seek p => (f.seek os p).map (fun r => (r.1, seekAns r.2))
  | .move d => (f.move os d).map (fun r => (r.1, seekAns r.2))
  | .position => (f.position os).map (fun n => (os, .count n))
  | .background k => .ok ((match f.handle with | some h => os.background h k | none => os), .done)

def acts (os : Os) (f : File) : List Act → Res (Os × List Ans)
  | [] => .ok (os, [])
  | a :: l =>
    match act os f a with
    | .error e => .error e
    | .ok (os, x) =>
      match acts os f l with
      | .error e => .error e
      | .ok (os, xs) => .ok (os, x :: xs)

/-! ### the specification: bytes and a position -/

structure Ideal where
  mode : Mode
  content : List Byte
  pos : Nat
deriving DecidableEq, Repr

def Ideal.got (i : Ideal) (n : Nat) : List Byte := if i.mode = .write then [] else slice i.content i.pos n

def Ideal.goTo (i : Ideal) (p : Int) : Ideal × Ans := if p < 0 then (i, .thrown) else ({ i with pos := p.toNat }, .done)

def Ideal.write (i : Ideal) (b : List Byte) : Ideal := if i.mode = .read then i else { i with content := putAt i.content i.pos b, pos := i.pos + b.length }

def Ideal.act (i : Ideal) : Act → Ideal × Ans
  | .write b => (i.write b, .count (if i.mode = .read then 0 else b.length))
  | .read _ n => ({ i with pos := i.pos + (i.got n).length }, .bytes (i.got n))
  | .readFully _ n => ({ i with pos := i.pos + (i.got n).length }, .bytes (i.got n))
  | .seek p => i.goTo p
  | .move d => i.goTo (i.pos + d)
  | .position => (i, .count i.pos)
  | .background _ => (i, .done)

def Ideal.acts (i : Ideal) : List Act → Ideal × List Ans
  | [] => (i, [])
  | a :: l => let r := (i.act a).1.acts l; (r.1, (i.act a).2 :: r.2)

/-- the same without answers -/
def Ideal.after (i : Ideal) (l : List Act) : Ideal := l.foldl (fun i a => (i.act a).1) i

theorem Ideal.acts_after (i : Ideal) (l : List Act) : (i.acts l).1 = i.after l := by
  induction l generalizing i with
  | nil => rfl
  | cons a l ih => exact ih _

end Verif.FileIO
