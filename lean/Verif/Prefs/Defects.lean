import Verif.Prefs.Props
import Verif.Str.HashProps
/-
C44, C66: where Preferences do not keep what was stored, and examples for the hypotheses of the theorems. The hash
function here is the one of the library (for strings whose cached hash is valid).
-/
namespace Verif.Prefs.Props
open Verif Verif.Str Verif.Prefs Verif.Prefs.Spec Verif.Prefs.Lemmas Verif.Str.HashProps

/-- store, and ask for the value -/
def stored (k v : List Ch) : Res (List Ch) := do
  let s ← ofChars v
  let p ← setValue H64 Prefs.new k s
  let r ← value H64 p k
  return chars r

/-- store, save, load into a new object, and ask for the value (`none`: there is no value) -/
def reloaded (k v : List Ch) : Res (Option (List Ch)) := do
  let s ← ofChars v
  let p ← setValue H64 Prefs.new k s
  let bytes ← save H64 p
  let q ← load H64 Prefs.new bytes
  let b ← hasValue H64 q k
  let r ← value H64 q k
  return if b then some (chars r) else none

/-- **C66 violated.** A value with a line break is not returned as stored: `a LF b` comes back as `a\nb`. -/
theorem line_break_not_restored : stored [0x6B] [0x61, 0x0A, 0x62] = .ok [0x61, 0x5C, 0x6E, 0x62] := by decide +kernel

/-- **C44 violated.** After saving and loading the value has one more backslash: `a LF b` → `a\\nb`, and so does a path:
`C:\new` → `C:\\new`. -/
theorem backslash_n_grows : reloaded [0x6B] [0x61, 0x0A, 0x62] = .ok (some [0x61, 0x5C, 0x5C, 0x6E, 0x62]) ∧
    stored [0x6B] [0x43, 0x3A, 0x5C, 0x6E, 0x65, 0x77] = .ok [0x43, 0x3A, 0x5C, 0x6E, 0x65, 0x77] ∧
    reloaded [0x6B] [0x43, 0x3A, 0x5C, 0x6E, 0x65, 0x77] = .ok (some [0x43, 0x3A, 0x5C, 0x5C, 0x6E, 0x65, 0x77]) := by
  decide +kernel

/-- **C44 violated.** Outer blanks of a value are lost, a key with `=` is cut, an empty key and its value are lost. -/
theorem file_loses : reloaded [0x6B] [0x20, 0x61, 0x20] = .ok (some [0x61]) ∧
    reloaded [0x61, 0x3D, 0x62] [0x63] = .ok none ∧ reloaded [] [0x61] = .ok none ∧ reloaded [0x20, 0x6B] [0x61] = .ok none := by
  decide +kernel

/-- **C44 violated (memory).** A value of eight backslashes is escaped to 16 characters; loading it reads behind the
buffer. -/
theorem reload_reads_behind : reloaded [0x6B] (List.replicate 8 0x5C) = .error .ub := by decide +kernel

/-- **C66 violated (memory).** Storing a value of 16 characters ending with a carriage return reads behind its buffer. -/
theorem setValue_cr_reads_behind : stored [0x6B] (List.replicate 15 0x61 ++ [0x0D]) = .error .ub := by decide +kernel

/-- The smallest integer cannot be stored. -/
theorem setInt_min (h : List Ch → BitVec 64) (p : Prefs) (k : List Ch) : setInt h p k Num.minInt64 = .error .ub := by
  simp only [setInt, Num.Props.valueOf_min_overflows, bind, Except.bind]

/-! ### examples: the hypotheses are met -/

/-- strings for the examples -/
def st (l : List Ch) : Str := { buf := l ++ List.replicate (16 - l.length) 0, len := l.length, hash := 0 }

/-- a key with a blank inside, a value with `=`, a backslash and a tabulator in front -/
def exKey : List Ch := [0x61, 0x20, 0x62]
def exValue : List Ch := [0x09, 0x3D, 0x5C, 0x61]

def exCalls : List Call := [.setValue exKey (st exValue), .setValue [0x6B] (st []), .setValue exKey (st exValue)]

example : ∃ p m, Reached H64 p m ∧ m exKey = some exValue ∧ m [0x6B] = some [] ∧ m [0x78] = none ∧
    (∀ k v, m k = some v → PlainKey k ∧ PlainValue v) := by
  have hok : ∀ c ∈ exCalls, c.Ok := by
    intro c hc
    simp only [exCalls, List.mem_cons, List.not_mem_nil, or_false] at hc
    rcases hc with rfl | rfl | rfl
    · exact ⟨by unfold Str.WF; decide, by decide⟩
    · exact ⟨by unfold Str.WF; decide, by decide⟩
    · exact ⟨by unfold Str.WF; decide, by decide⟩
  obtain ⟨p, e⟩ := history_partial H64 exCalls hok
  have hm : ∀ k, (steps (fun _ => none) (exCalls.map Call.op)).1 k =
      if k = exKey then some exValue else if k = [0x6B] then some [] else none := by
    intro k
    have h1 : oneLine (chars (st exValue)) = exValue := by decide
    have h2 : oneLine (chars (st [])) = [] := by decide
    simp only [exCalls, List.map_cons, List.map_nil, Call.op, steps, step, h1, h2]
    by_cases hk : k = exKey
    · rw [if_pos hk, if_pos hk]
    · rw [if_neg hk, if_neg hk, if_neg hk]
  refine ⟨p, _, ⟨exCalls, _, hok, e, rfl⟩, by rw [hm]; decide, by rw [hm]; decide, by rw [hm]; decide, ?_⟩
  intro k v hk
  rw [hm] at hk
  split at hk
  · rename_i hk'
    cases hk
    subst hk'
    refine ⟨⟨by decide, by decide, by decide, by decide, by decide, by decide, ?_, ?_⟩, ⟨by decide, by decide, by decide, ?_, ?_, ?_, ?_⟩⟩
    · intro c hc; cases hc; decide
    · intro c hc; cases hc; decide
    · rintro ⟨a, b, e⟩
      have : ∀ a b : List Ch, exValue = a ++ 0x5C :: 0x6E :: b → False := by
        intro a b e
        match a, e with
        | [], e => simp [exValue] at e
        | [_], e => simp [exValue] at e
        | [_, _], e => simp [exValue] at e
        | [_, _, _], e => simp [exValue] at e
        | _ :: _ :: _ :: _ :: a, e => simp [exValue] at e
      exact this a b e
    · intro c hc _; cases hc; rfl
    · intro c hc hw; cases hc; exact absurd hw (by decide)
    · intro hc; cases hc
  · split at hk
    · rename_i hk'
      cases hk
      subst hk'
      refine ⟨⟨by decide, by decide, by decide, by decide, by decide, by decide, ?_, ?_⟩, ⟨by decide, by decide, by decide, ?_, ?_, ?_, ?_⟩⟩
      · intro c hc; cases hc; decide
      · intro c hc; cases hc; decide
      · rintro ⟨a, b, e⟩; cases a <;> cases e
      · intro c hc; cases hc
      · intro c hc; cases hc
      · intro hc; cases hc
    · cases hk

example : reloaded exKey exValue = .ok (some exValue) := by decide +kernel

example : (do let p ← setInt H64 Prefs.new [0x6B] (-42); valueInt H64 p [0x6B] 7) = .ok (-42) := by decide +kernel

end Verif.Prefs.Props
