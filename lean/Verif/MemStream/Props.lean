import Verif.MemStream.Spec
/-
C42: a memory stream stays inside its buffer and a read returns what was last written.
-/
namespace Verif.MemStream
open Verif Verif.MemStream.Spec

/-- the stream `s` is the tape `t` -/
structure Rel (s : MS) (t : Tape) : Prop where
  len : s.len = t.init.length
  small : t.init.length < 2 ^ 63
  mlen : s.mem.length = t.init.length
  mem : ∀ q, q < t.init.length → s.mem[q]? = lastByte t.init t.log q
  pos : s.pos = t.pos
  bound : t.pos ≤ t.init.length
  wlen : s.wlen = t.high

theorem slice_eq {s : MS} {t : Tape} (h : Rel s t) (p n : Nat) (hb : p + n ≤ t.init.length) :
    slice t.init t.log p n = (s.mem.drop p).take n := by
  have hl := h.mlen
  induction n with
  | zero => simp [slice]
  | succ n ih =>
    have ih := ih (by omega)
    have h1 : lastByte t.init t.log (p + n) = s.mem[p + n]? := (h.mem _ (by omega)).symm
    unfold slice at ih ⊢
    rw [List.range_succ, List.filterMap_append, ih]
    simp only [List.filterMap_cons, List.filterMap_nil, h1]
    rw [List.getElem?_eq_getElem (by omega), List.take_add_one, List.getElem?_drop, List.getElem?_eq_getElem (by omega)]
    simp

theorem i64_ok {x : Int} (h : inI64 x) : i64 x = .ok x := if_pos h

theorem avail_ok {s : MS} {t : Tape} (h : Rel s t) (n : Int) (hn : inI64 (t.pos + n)) :
    s.available n = .ok (min n (t.init.length - t.pos : Nat)) := by
  have h1 := h.len; have h2 := h.pos; have h3 := h.bound; have h4 := h.small
  unfold MS.available
  rw [h2, i64_ok hn]
  simp only [bind, Except.bind]
  by_cases hc : (t.pos : Int) + n < s.len
  · rw [if_pos hc]
    simp only [pure, Except.pure]
    congr 1; omega
  · rw [if_neg hc, i64_ok (by unfold inI64; omega)]
    congr 1; omega

theorem read_ok {s : MS} {t : Tape} (h : Rel s t) (b : List Byte) (n : Int) (hb : n ≤ b.length)
    (hn : inI64 (t.pos + n)) : s.read b n =
      .ok ((min n.toNat (t.init.length - t.pos) : Nat),
        slice t.init t.log t.pos (min n.toNat (t.init.length - t.pos)) ++ b.drop (min n.toNat (t.init.length - t.pos)),
        { s with pos := (t.pos + min n.toNat (t.init.length - t.pos) : Nat) }) := by
  have e1 := h.len; have e2 := h.pos; have e3 := h.bound; have e5 := h.mlen
  have ha := avail_ok h n hn
  rw [slice_eq h _ _ (by omega)]
  unfold MS.read
  rw [ha]
  simp only [bind, Except.bind]
  by_cases hp : min n (t.init.length - t.pos : Nat) > 0
  · have hk : (min n (t.init.length - t.pos : Nat)) = ((min n.toNat (t.init.length - t.pos) : Nat) : Int) := by omega
    rw [if_pos hp, hk]
    generalize hke : min n.toNat (t.init.length - t.pos) = k at *
    have hkb : k ≤ b.length := by omega
    unfold memcpy
    rw [if_pos (by omega), e2]
    simp only [pure, Except.pure]
    congr 2
    simp
  · have hk : min n.toNat (t.init.length - t.pos) = 0 := by omega
    rw [if_neg hp, hk]
    simp only [pure, Except.pure, Nat.add_zero, List.take_zero, List.nil_append, List.drop_zero]
    cases s
    subst e2
    rfl

theorem write_ok {s : MS} {t : Tape} (h : Rel s t) (b : List Byte) (n : Int) (h0 : 0 ≤ n) (hb : n ≤ b.length)
    (hn : inI64 (t.pos + n)) (hf : t.pos + n ≤ t.init.length) : s.write b n =
      .ok (n, { s with mem := s.mem.take t.pos ++ b.take n.toNat ++ s.mem.drop (t.pos + n.toNat),
                       pos := (t.pos + n.toNat : Nat), wlen := (max t.high (t.pos + n.toNat) : Nat) }) := by
  have e1 := h.len; have e2 := h.pos; have e3 := h.bound; have e5 := h.mlen; have e6 := h.wlen
  have ha := avail_ok h n hn
  have hm : min n (t.init.length - t.pos : Nat) = n := by omega
  unfold MS.write
  rw [ha, hm]
  simp only [bind, Except.bind]
  unfold memcpy
  rw [if_pos (by omega), e2, i64_ok hn]
  simp only [pure, Except.pure]
  have hp : ((t.pos : Int) + n).toNat = t.pos + n.toNat := by omega
  have hw : (if (t.pos : Int) + n > s.wlen then (t.pos : Int) + n else s.wlen) = ((max t.high (t.pos + n.toNat) : Nat) : Int) := by
    split <;> omega
  rw [hp, hw]
  congr 3
  omega

theorem mem_write {m : List Byte} {b : List Byte} {p k : Nat} (hk : k ≤ b.length) (hl : p + k ≤ m.length) (q : Nat) :
    (m.take p ++ b.take k ++ m.drop (p + k))[q]? = if p ≤ q ∧ q < p + k then b[q - p]? else m[q]? := by
  have h1 : (m.take p).length = p := by simp; omega
  have h2 : (b.take k).length = k := by simp; omega
  by_cases a : q < p
  · rw [List.getElem?_append_left (by simp; omega), List.getElem?_append_left (by omega), if_neg (by omega), List.getElem?_take_of_lt a]
  · by_cases c : q < p + k
    · rw [List.getElem?_append_left (by simp; omega), List.getElem?_append_right (by omega), if_pos (by omega), h1,
        List.getElem?_take_of_lt (by omega)]
    · rw [List.getElem?_append_right (by simp; omega), if_neg (by omega), List.getElem?_drop]
      congr 1
      simp; omega

theorem goTo_ok {s : MS} {t : Tape} (h : Rel s t) (q : Int) (h0 : 0 ≤ q) :
    Rel { s with pos := if q < s.len then q else s.pos } (goTo t q) := by
  have e1 := h.len; have e2 := h.pos; have e3 := h.bound
  unfold goTo
  by_cases hc : q < t.init.length
  · rw [if_pos hc, if_pos (by omega)]
    exact ⟨h.len, h.small, h.mlen, h.mem, by simp only; omega, by simp only; omega, h.wlen⟩
  · rw [if_neg hc, if_neg (by omega)]
    exact ⟨h.len, h.small, h.mlen, h.mem, h.pos, h.bound, h.wlen⟩

/-- one call: no fault, the same result as on the tape, and the relation holds again -/
theorem step_ok {s : MS} {t : Tape} (h : Rel s t) (o : Op) (h1 : ClientOk t o) (h2 : CodeOk t o) :
    ∃ s', step s o = .ok ((Spec.step t o).1, s') ∧ Rel s' (Spec.step t o).2 := by
  have e1 := h.len; have e2 := h.pos; have e3 := h.bound; have e4 := h.small; have e5 := h.mlen
  cases o with
  | openS => exact ⟨_, rfl, ⟨h.len, h.small, h.mlen, h.mem, rfl, Nat.zero_le _, rfl⟩⟩
  | close => exact ⟨_, rfl, ⟨h.len, h.small, h.mlen, h.mem, rfl, Nat.zero_le _, h.wlen⟩⟩
  | read b n =>
    obtain ⟨hb, hn⟩ := h1
    simp only [step, read_ok h b n hb hn, bind, Except.bind, pure, Except.pure]
    exact ⟨_, rfl, ⟨h.len, h.small, h.mlen, h.mem, rfl, by simp only [Spec.step]; omega, h.wlen⟩⟩
  | write b n =>
    obtain ⟨h0, hb, hn⟩ := h1
    have h2 : (t.pos : Int) + n ≤ t.init.length := h2
    simp only [step, write_ok h b n h0 hb hn h2, bind, Except.bind, pure, Except.pure]
    refine ⟨_, rfl, ⟨h.len, h.small, ?_, ?_, rfl, by simp only [Spec.step]; omega, rfl⟩⟩
    · simp only [Spec.step, List.length_append, List.length_take, List.length_drop]
      omega
    · intro q hq
      simp only [Spec.step, lastByte] at hq ⊢
      rw [mem_write (by omega) (by omega)]
      have : (b.take n.toNat).length = n.toNat := by simp; omega
      rw [this]
      by_cases hc : t.pos ≤ q ∧ q < t.pos + n.toNat
      · rw [if_pos hc, if_pos hc, List.getElem?_take_of_lt (by omega)]
      · rw [if_neg hc, if_neg hc, h.mem q hq]
  | seek q =>
    have g := goTo_ok h q h2
    refine ⟨s.seek q, ?_, g⟩
    simp only [step, Spec.step, MS.position]
    rw [← g.pos]; rfl
  | move d =>
    have g := goTo_ok h (t.pos + d) h2
    have hm : s.move d = .ok { s with pos := if (t.pos : Int) + d < s.len then (t.pos : Int) + d else s.pos } := by
      unfold MS.move
      rw [e2, i64_ok h1]
      rfl
    refine ⟨_, ?_, g⟩
    simp only [step, hm, bind, Except.bind, pure, Except.pure, Spec.step, MS.position]
    rw [← g.pos]

theorem run_ok {s : MS} {t : Tape} (h : Rel s t) (os : List Op) (h1 : All ClientOk t os) (h2 : All CodeOk t os) :
    ∃ s', run s os = .ok ((Spec.run t os).1, s') ∧ Rel s' (Spec.run t os).2 := by
  induction os generalizing s t with
  | nil => exact ⟨s, rfl, h⟩
  | cons o os ih =>
    obtain ⟨s1, g1, g2⟩ := step_ok h o h1.1 h2.1
    obtain ⟨s2, g3, g4⟩ := ih g2 h1.2 h2.2
    refine ⟨s2, ?_, g4⟩
    simp only [run, g1, g3, bind, Except.bind, pure, Except.pure]
    rfl

theorem rel_new (init : List Byte) (h : init.length < 2 ^ 63) : Rel (MS.new init init.length) (Tape.new init) :=
  ⟨rfl, h, rfl, fun _ _ => rfl, rfl, Nat.zero_le _, rfl⟩

/-- **C42 (partial)** For every buffer and every history of calls in which writes fit into the rest of the buffer and
no negative position is asked for, no call touches memory outside the buffer, and every result, every buffer filled by
a read and every position is that of a tape with a log of writes: a read delivers the byte last written at each place.
The position stays within the buffer and `mWritelength` is the farthest end of a write since `open`.
Missing: the same without `CodeOk`, which is false of the code (`write_overflows`, `seek_negative`). -/
theorem stream_is_tape_partial (init : List Byte) (hs : init.length < 2 ^ 63) (os : List Op)
    (h1 : All ClientOk (Tape.new init) os) (h2 : All CodeOk (Tape.new init) os) :
    ∃ s, run (MS.new init init.length) os = .ok ((Spec.run (Tape.new init) os).1, s) ∧
      0 ≤ s.position ∧ s.position ≤ s.size ∧ s.size = init.length ∧ s.wlen = (Spec.run (Tape.new init) os).2.high ∧
      s.mem.length = init.length ∧ ∀ q, q < init.length → s.mem[q]? = lastByte init (Spec.run (Tape.new init) os).2.log q := by
  obtain ⟨s, g1, g2⟩ := run_ok (rel_new init hs) os h1 h2
  have hi : ∀ (t : Tape) os, (Spec.run t os).2.init = t.init := by
    intro t os
    induction os generalizing t with
    | nil => rfl
    | cons o os ih =>
      rw [Spec.run, ih]
      cases o <;> simp only [Spec.step, goTo] <;> (try split) <;> rfl
  have hi := hi (Tape.new init) os
  refine ⟨s, g1, ?_, ?_, ?_, g2.wlen, ?_, ?_⟩
  · have := g2.pos; unfold MS.position; omega
  · have := g2.pos; have := g2.bound; have := g2.len; unfold MS.position MS.size; omega
  · have := g2.len; rw [hi] at this; exact this
  · have := g2.mlen; rw [hi] at this; exact this
  · have := g2.mem; rw [hi] at this; exact this

/-- the property without restriction on what the client asks for -/
def StaysInside : Prop := ∀ (init : List Byte), init.length < 2 ^ 63 → ∀ os, All ClientOk (Tape.new init) os →
  ∃ r, run (MS.new init init.length) os = .ok r ∧ 0 ≤ r.2.position ∧ r.2.position ≤ r.2.size

/-- **C42 is violated**: at a position inside the buffer, a write goes wrong exactly if it does not fit, although the
return value announces a shorter write (`memcpy` copies `length`, not `available`). -/
theorem write_overflows {s : MS} {t : Tape} (h : Rel s t) (b : List Byte) (n : Int) (h1 : ClientOk t (.write b n)) :
    s.write b n = .error .ub ↔ t.init.length < t.pos + n := by
  obtain ⟨h0, hb, hn⟩ := h1
  constructor
  · intro he
    by_cases hc : t.pos + n ≤ t.init.length
    · rw [write_ok h b n h0 hb hn hc] at he; cases he
    · omega
  · intro hc
    have e2 := h.pos; have e5 := h.mlen
    unfold MS.write
    rw [avail_ok h n hn]
    simp only [bind, Except.bind]
    unfold memcpy
    rw [if_neg (by omega)]

theorem not_staysInside : ¬ StaysInside := by
  intro h
  obtain ⟨r, hr, _⟩ := h [1, 2] (by decide) [.write [7, 8, 9] 3] ⟨⟨by decide, by decide, by decide, by decide⟩, trivial⟩
  have : run (MS.new [1, 2] ([1, 2] : List Byte).length) [.write [7, 8, 9] 3] = .error .ub := by decide +kernel
  rw [this] at hr; cases hr

/-- **C42 is violated**: a seek to any negative position is accepted, and the next read of a byte is outside the buffer. -/
theorem seek_negative (init : List Byte) (q : Int) (h : q < 0) (h64 : -(2 ^ 63) ≤ q) (hs : init.length < 2 ^ 63) :
    ((MS.new init init.length).seek q).position = q ∧
    (q + 1 < init.length → ((MS.new init init.length).seek q).read [0] 1 = .error .ub) := by
  have hp : (MS.new init init.length).seek q = ⟨init, init.length, q, 0⟩ := by
    have hq : q < (init.length : Int) := by omega
    show (⟨init, init.length, if q < (init.length : Int) then q else 0, 0⟩ : MS) = _
    rw [if_pos hq]
  rw [hp]
  refine ⟨rfl, fun hq => ?_⟩
  have ha : (⟨init, init.length, q, 0⟩ : MS).available 1 = .ok 1 := by
    unfold MS.available
    simp only
    rw [i64_ok (by unfold inI64; omega)]
    simp only [bind, Except.bind]
    rw [if_pos hq]; rfl
  unfold MS.read
  rw [ha]
  simp only [bind, Except.bind]
  rw [if_pos (by omega)]
  unfold memcpy
  rw [if_neg (by omega)]

/-- the end of the stream cannot be reached by `seek` (as it can by reading): the cursor stays -/
theorem seek_end_ignored (s : MS) : (s.seek s.len).position = s.position := by
  simp [MS.seek, MS.position]

/-- a history of all calls; hypotheses and result -/
def demo : List Op := [.write [10, 11, 12] 3, .seek 1, .read [0, 0, 0, 0] 4, .move (-2), .write [77] 1, .close, .read [0, 0, 0] 3]

example : All ClientOk (Tape.new [1, 2, 3, 4]) demo ∧ All CodeOk (Tape.new [1, 2, 3, 4]) demo := by
  refine ⟨?_, ?_⟩ <;> simp [demo, All, ClientOk, CodeOk, Spec.step, Tape.new, goTo, inI64]

example : (run (MS.new [1, 2, 3, 4] 4) demo).map (fun r => r.1.map (fun o => (o.result, o.buffer, o.position))) =
    .ok [(3, [], 3), (0, [], 1), (3, [11, 12, 4, 0], 4), (0, [], 2), (1, [], 3), (0, [], 0), (3, [10, 11, 77], 3)] := by
  decide +kernel

end Verif.MemStream
