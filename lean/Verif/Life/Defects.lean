import Verif.Life.Props
import Verif.Prefs.Defects
set_option linter.unusedVariables false
set_option linter.unusedSimpArgs false
/-
C110: where the life cycle goes wrong, and examples for the hypotheses of the theorems.
-/
namespace Verif.Life.Props
open Verif Verif.Str Verif.Prefs Verif.Prefs.Spec Verif.Life
open Verif.Prefs.Props (Call exec st exKey exValue)
open Verif.Str.HashProps (H64)

theorem fileCtor_ub {t : Sys} (ht : t.charsetCount = 0) : fileCtor t = .error .ub := by
  simp only [fileCtor, forName, ht, List.take_zero, forNameLoop, bind, Except.bind, useCharset]

theorem initDefault_ub {t : Sys} (ht : t.charsetCount = 0) (hb : t.bundleId ≠ []) : initDefault t = .error .ub := by
  have := fileCtor_ub (t := { t with heap := (t.heap.alloc .translation).1, translation := some (t.heap.alloc .translation).2 }) ht
  simp only [initDefault, if_neg hb, this, bind, Except.bind]

/-- **C110 violated (after `quit`).** The character sets are gone for good: after `quit` no `File` can be created and no
text can be converted by `toCString()`, and so `init` with a bundle id is undefined behaviour. -/
theorem after_quit_ub (h : List Ch → BitVec 64) (d : Disk) (s : Sys) (hn : Null s) (hc : Clean s) (id : List Ch) (hi : id ≠ []) :
    fileCtor s = .error .ub ∧ toCString s = .error .ub ∧ init h d s id = .error .ub := by
  have hload : ∀ a : Nat, s.heap.load a = .error .ub := by
    intro a
    unfold Heap.load
    cases hx : s.heap[a]? with
    | none => rfl
    | some c => rw [hc.1 c (List.mem_of_getElem? hx)]
  refine ⟨fileCtor_ub hn.2.2.2.2, ?_, ?_⟩
  · unfold toCString
    cases s.charsets.head? with
    | none => rfl
    | some a => simp only [useCharset, hasName, hload, bind, Except.bind]
  · have hp : s.pool = none := hn.2.2.1
    have e : initDefault (initPool { s with bundleId := id }) = .error .ub := by
      apply initDefault_ub
      · simp only [initPool, hp]; exact hn.2.2.2.2
      · simp only [initPool, hp]; exact hi
    simp only [init, e, bind, Except.bind]

/-- **C110 violated (leak).** `init` a second time, with whatever bundle ids: the first translation, preferences and file
are never deleted, even if `quit` follows. -/
theorem init_twice_leaks (h : List Ch → BitVec 64) (id id' : List Ch) (hi : id ≠ []) (hi' : id' ≠ []) (w : Bool) :
    ∃ s s' d s'', init h emptyDisk Sys.start id = .ok s ∧ init h emptyDisk s id' = .ok s' ∧ quit h emptyDisk s' w = .ok (d, s'') ∧
      ¬ s''.heap.AllFreed := by
  have e1 := init_some h emptyDisk hi (p := Prefs.new) rfl
  let s2 : Sys := { running id Prefs.new with
    heap := charsetObjs ++ [some .pool, some .translation, some (.prefs Prefs.new), some (.file id), some .translation,
      some (.prefs Prefs.new), some (.file id')]
    bundleId := id', translation := some 11, prefs := some 12, prefFile := some 13 }
  have e2 : init h emptyDisk (running id Prefs.new) id' = .ok s2 := by
    have h1 : initDefault (initPool { running id Prefs.new with bundleId := id' }) = .ok
        { running id Prefs.new with
          heap := charsetObjs ++ [some .pool, some .translation, some (.prefs Prefs.new), some (.file id), some .translation]
          bundleId := id', translation := some 11 } := by
      show (if id' = [] then Except.ok _ else _) = _
      rw [if_neg hi']
      rfl
    simp only [init, h1, if_neg hi', initPrefs, bind, Except.bind]
    rfl
  obtain ⟨b, e3⟩ : ∃ b, save h Prefs.new = .ok b := by
    obtain ⟨ks, nd, hk, e3⟩ := Lemmas.save_ok (Lemmas.inv_new h)
    exact ⟨_, e3⟩
  obtain ⟨rest, e4, f4⟩ := Lemmas.destroy_ok (Lemmas.inv_new h)
  have e5 : toSave h s2 = .ok (id', b) := by
    have h1 : getPrefs s2 = .ok Prefs.new := rfl
    have h2 : getFile s2 = .ok id' := rfl
    have h3 : fileCtor s2 = .ok () := rfl
    have h4 : toCString s2 = .ok () := rfl
    simp only [toSave, h1, h2, h3, h4, e3, bind, Except.bind, pure, Except.pure]
  have e6 : ∃ d, savePreferences h emptyDisk s2 w = .ok d := by
    refine ⟨if w then emptyDisk.set id' b else emptyDisk, ?_⟩
    show (do let r ← toSave h s2; pure (if w then emptyDisk.set r.1 r.2 else emptyDisk) : Res Disk) = _
    rw [e5]; rfl
  obtain ⟨d, e6⟩ := e6
  have e7 : ∃ t, tearDown h s2 = .ok t ∧ some (.file id) ∈ t.heap := by
    have h1 : getPrefs s2 = .ok Prefs.new := rfl
    have h2 : quitPrefs h s2 = .ok { s2 with
        heap := charsetObjs ++ [some .pool, some .translation, some (.prefs Prefs.new), some (.file id), some .translation, none, none]
        prefs := none, prefFile := none, left := [rest] } := by
      show (do let p ← getPrefs s2; let rest ← destroy h p; let heap ← s2.heap.free 12; let heap ← deletePtr heap (some 13); pure { s2 with heap := heap, prefs := none, prefFile := none, left := rest :: [] } : Res Sys) = _
      simp only [h1, e4, bind, Except.bind]
      rfl
    unfold tearDown
    rw [h2]
    refine ⟨_, rfl, ?_⟩
    simp [charsetObjs, charsetNames, s2]
  obtain ⟨t, e7, ht⟩ := e7
  refine ⟨_, _, d, t, e1, e2, ?_, ?_⟩
  · simp only [quit, e6, e7, bind, Except.bind, pure, Except.pure]
  · intro hf
    exact absurd (hf _ ht) (by simp)

/-- a program as a list of steps, with the answer of the last call -/
def lost : Res Out := do
  let s ← init H64 emptyDisk Sys.start [0x61]
  let r ← callPrefs H64 s (.setValue exKey (st exValue))
  let s ← init H64 emptyDisk r.1 [0x61]
  let r ← callPrefs H64 s (.hasValue exKey)
  return r.2

/-- **C110 violated.** A second `init` discards settings which are not saved. -/
theorem init_twice_drops_settings : lost = .ok (.bool false) := by decide +kernel

/-- **C110 violated.** `init("")` after `init("a")`: there is no bundle id any more, but the preferences of the first
bundle are still in use, and `quit` saves them for it. -/
theorem init_empty_keeps (h : List Ch → BitVec 64) (id : List Ch) (hi : id ≠ []) (p : Prefs) :
    ∃ s, init h emptyDisk (running id p) [] = .ok s ∧ s.bundleId = [] ∧ getPrefs s = .ok p ∧ getFile s = .ok id :=
  ⟨_, rfl, rfl, rfl, rfl⟩

/-- a program with bundle id `a` stores `€` under `k` and dies while saving it, after `n` bytes; then it is started again
and asked for the value -/
def afterCrash (n : Nat) : Res Out := do
  let s ← init H64 emptyDisk Sys.start [0x61]
  let r ← callPrefs H64 s (.setValue [0x6B] (st [0x20AC]))
  let d ← crashInSave H64 emptyDisk r.1 n
  let s ← init H64 d Sys.start [0x61]
  let r ← callPrefs H64 s (.value [0x6B])
  return r.2

/-- **C110 violated (crash points).** The file is `k=€` and a line end, six bytes. A program which dies while saving
leaves a file with which the next start of the program is undefined behaviour if the last character is incomplete; or
the setting is lost, or empty. -/
theorem crash_breaks_next_start : afterCrash 3 = .error .ub ∧ afterCrash 4 = .error .ub ∧
    afterCrash 0 = .ok (.text []) ∧ afterCrash 2 = .ok (.text []) ∧ afterCrash 5 = .ok (.text [0x20AC]) := by
  decide +kernel

/-! ### examples: the hypotheses are met -/

/-- one program stores a value and quits, another one (with another id) reads it in vain, a third one finds it, changes it
and dies; the last one finds the first value -/
def exPrograms : List Process :=
  [⟨[0x61], [.call (.setValue exKey (st exValue))], .quit true⟩,
   ⟨[0x62], [.call (.hasValue exKey)], .quit true⟩,
   ⟨[0x61], [.call (.value exKey), .call (.setValue exKey (st [0x78]))], .crash⟩,
   ⟨[], [.save true], .quit true⟩,
   ⟨[0x61], [.call (.value exKey)], .quit false⟩]

theorem exKey_plain : PlainKey exKey := by
  refine ⟨by decide, by decide, by decide, by decide, by decide, by decide, ?_, ?_⟩
  · intro c hc; cases hc; decide
  · intro c hc; cases hc; decide

theorem exValue_plain : PlainValue exValue := by
  refine ⟨by decide, by decide, by decide, ?_, ?_, ?_, ?_⟩
  · rintro ⟨a, b, e⟩
    match a, e with
    | [], e => simp [exValue] at e
    | [_], e => simp [exValue] at e
    | [_, _], e => simp [exValue] at e
    | [_, _, _], e => simp [exValue] at e
    | _ :: _ :: _ :: _ :: a, e => simp [exValue] at e
  · intro c hc _; cases hc; rfl
  · intro c hc hw; cases hc; exact absurd hw (by decide)
  · intro hc; cases hc

theorem x_plain : PlainValue [0x78] := by
  refine ⟨by decide, by decide, by decide, ?_, ?_, ?_, ?_⟩
  · rintro ⟨a, b, e⟩
    match a, e with
    | [], e => simp at e
    | _ :: a, e => simp at e
  · intro c hc hw; cases hc; exact absurd hw (by decide)
  · intro c hc hw; cases hc; exact absurd hw (by decide)
  · intro hc; cases hc

theorem exPrograms_ok : ∀ p ∈ exPrograms, OkProcess p := by
  have h1 : PlainCall (.setValue exKey (st exValue)) := ⟨⟨by unfold Str.WF; decide, by decide⟩, exKey_plain, exValue_plain⟩
  have h2 : PlainCall (.setValue exKey (st [0x78])) := ⟨⟨by unfold Str.WF; decide, by decide⟩, exKey_plain, x_plain⟩
  have h3 : PlainCall (.value exKey) := trivial
  have h4 : PlainCall (.hasValue exKey) := trivial
  intro p hp
  simp only [exPrograms, List.mem_cons, List.not_mem_nil, or_false] at hp
  rcases hp with rfl | rfl | rfl | rfl | rfl <;>
    simp [OkProcess, OkAct, OkEnd, h3, h4]
  · exact h1
  · exact h2

/-- so the disk after them, and the memory of a program which works on it, are among those the theorems speak of -/
example : ∃ d, Reached H64 d ∧ (d [0x61]).isSome := by
  obtain ⟨d, e⟩ := settings_persist_partial H64 exPrograms exPrograms_ok
  refine ⟨d, ⟨_, _, exPrograms_ok, e⟩, ?_⟩
  have : (processes H64 exPrograms emptyDisk).map (fun r => (r.1 [0x61]).isSome) = .ok true := by decide +kernel
  rw [e] at this
  simpa [Except.map] using this

example : ∃ s m, State H64 [0x61] s m ∧ PlainMap m := by
  obtain ⟨s, e, S⟩ := init_ok (h := H64) empty_inv [0x61]
  exact ⟨s, _, S, empty_inv.plain _⟩

example : (processes H64 exPrograms emptyDisk).map Prod.snd =
    .ok [[.unit], [.bool false], [.text exValue, .unit], [], [.text exValue]] := by decide +kernel

end Verif.Life.Props
