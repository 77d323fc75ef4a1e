import Verif.Arrays.Props
/-
C49: `ByteArray::replace(tgtOffset, srcOffset, buffer, length)` with the array itself as the source, and its exact effect for every target offset.
-/
namespace Verif.Arrays.Props
open Verif Verif.Arrays

/-- ByteArray.cpp:201-204 with `buffer` the array itself: the bytes are read from the block that is written -/
def replaceLoopSelf (srcOffset range : Int) (a : Nat) (v : List Cell) : Res (List Cell) :=
  if (a : Int) < range then do
    let x ← rdI v (srcOffset + a)
    let v ← wr v a x
    replaceLoopSelf srcOffset range (a + 1) v
  else .ok v
termination_by range.toNat - a

/-- ByteArray.cpp:196-205 `b.replace(tgtOffset, srcOffset, b, length)` -/
def _root_.Verif.Arrays.BA.replaceSelf (b : BA) (tgtOffset srcOffset length : Int) : Res BA := do
  let v ← replaceLoopSelf srcOffset (min length (b.size - tgtOffset)) 0 b.block
  return ⟨b.mem.map (fun _ => v), b.size⟩

theorem rdI_agree {src v : List Cell} {i : Int} {a : Nat} (h : ∀ j : Nat, a ≤ j → v[j]? = src[j]?) (hi : (a : Int) ≤ i) : rdI v i = rdI src i := by
  unfold rdI rd
  rw [if_neg (by omega), if_neg (by omega), h i.toNat (by omega)]

theorem replaceLoopSelf_eq (src : List Cell) (off range : Int) (a : Nat) (v : List Cell) (ha : 0 ≤ off ∨ a = 0)
    (h : ∀ j : Nat, a ≤ j → v[j]? = src[j]?) : replaceLoopSelf off range a v = replaceLoop src off range a v := by
  fun_induction replaceLoop src off range a v with
  | case1 a v hi ih =>
    unfold replaceLoopSelf
    rw [if_pos hi]
    by_cases h0 : 0 ≤ off
    · rw [rdI_agree (i := off + a) h (by omega)]
      simp only [bind, Except.bind]
      cases hx : rdI src (off + a) with
      | error e => rfl
      | ok x =>
        simp only
        by_cases hw : a < v.length
        · rw [wr_ok hw]
          refine ih _ (.inl h0) fun j hj => ?_
          rw [List.getElem?_set_ne (by omega)]
          exact h j (by omega)
        · unfold wr
          rw [if_neg hw]
    · have a0 : a = 0 := by omega
      subst a0
      have e : ∀ w : List Cell, rdI w (off + (0 : Nat)) = .error .ub := fun w => by unfold rdI; rw [if_pos (by omega)]
      rw [e, e]; rfl
  | case2 a v hi => unfold replaceLoopSelf; rw [if_neg hi]

/-- **C49.** Whatever the arguments: the array itself as the source acts like a copy of it made before. -/
theorem replaceSelf_eq (b : BA) (tgtOffset srcOffset length : Int) :
    b.replaceSelf tgtOffset srcOffset length = b.replaceRange tgtOffset srcOffset b.copy length := by
  unfold BA.replaceSelf BA.replaceRange
  rw [replaceLoopSelf_eq b.block srcOffset _ 0 b.block (.inr rfl) (fun _ _ => rfl)]
  rfl

/-- **C49.** The exact effect for every target offset inside: as many bytes as fit behind the offset – but they are written to the start. -/
theorem replaceRange_exact (l m : List Byte) (t off len : Nat) (ht : t ≤ l.length) (hoff : off + min len (l.length - t) ≤ m.length) :
    ∃ b, (BA.ofList l).replaceRange t off (BA.ofList m) len = .ok b ∧
      Holds b ((m.drop off).take (min len (l.length - t)) ++ l.drop (min len (l.length - t))) := by
  obtain ⟨b, e, h⟩ := replaceRange_partial l m off (min len (l.length - t)) (by omega) hoff
  refine ⟨b, ?_, h⟩
  rw [← e]
  have hs : (BA.ofList l).size = l.length := rfl
  unfold BA.replaceRange
  rw [hs, show min (len : Int) ((l.length : Int) - t) = min ((min len (l.length - t) : Nat) : Int) ((l.length : Int) - 0) by omega]

/-- Violation: the documented result – the bytes behind the target offset are replaced – comes out for an offset above 0 only if the
arrays happen to agree there. -/
theorem replaceRange_right_iff (l m : List Byte) (t off len : Nat) (ht : t ≤ l.length) (hoff : off + min len (l.length - t) ≤ m.length) :
    (∃ b, (BA.ofList l).replaceRange t off (BA.ofList m) len = .ok b ∧
      Holds b (l.take t ++ (m.drop off).take (min len (l.length - t)) ++ l.drop (t + min len (l.length - t)))) ↔
    (m.drop off).take (min len (l.length - t)) ++ l.drop (min len (l.length - t)) =
      l.take t ++ (m.drop off).take (min len (l.length - t)) ++ l.drop (t + min len (l.length - t)) := by
  obtain ⟨b, e, h⟩ := replaceRange_exact l m t off len ht hoff
  constructor
  · rintro ⟨b', e', h'⟩
    rw [e] at e'
    cases e'
    have hl := h.1
    have hl' := h'.1
    rw [hl] at hl'
    have hv := h.2
    have hv' := h'.2
    rw [← Int.natCast_inj.1 hl', hv] at hv'
    exact (List.map_inj_right fun _ _ => Option.some.inj).1 hv'
  · intro he
    exact ⟨b, e, he ▸ h⟩

example : ∃ b, (BA.ofList [1, 2, 3, 4]).replaceSelf 0 2 2 = .ok b ∧ Holds b [3, 4, 3, 4] :=
  ⟨⟨some [some 3, some 4, some 3, some 4, some 0], 4⟩, by decide +kernel, ⟨rfl, rfl⟩⟩

end Verif.Arrays.Props
