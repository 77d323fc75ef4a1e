import Verif.Inflate.Bits
/-
The counters of the Inflater (src/core/Inflater.cpp:78-86, 133-162) and what a run of `Inflate` depends on.

Two runs are compared: one on a block of input, the other on the same block with further bytes behind it (possibly none).
`Follows` says that the second run does what the first one does unless the first one reads outside its block.
-/
namespace Verif.Inflate.Count
open Verif Verif.Inflate

/-! ### the functions asked by a caller -/

/-- Inflater.cpp:78-81 -/
def needsInput (s : St) : Bool := !s.eof
/-- Inflater.cpp:83-86 -/
def finished (s : St) : Bool := s.eof
/-- Inflater.cpp:149-152 -/
def remaining (s : St) : Int := (s.comp.length : Int) - s.idx
/-- Inflater.cpp:154-157 -/
def totalIn (s : St) : Nat := s.totalIn
/-- Inflater.cpp:159-162 -/
def totalOut (s : St) : Nat := s.totalOut

/-- Inflater.cpp:133-147 `Reset`; mWrap and MAX_BITS stay as they are -/
def reset (s : St) : St :=
  { s with comp := [], idx := 0, out := [], cap := 1024, null := false, totalIn := 0, totalOut := 0, bit := 0, last := false, eof := false }

/-! ### the comparison of two runs -/

/-- what does not change in a run: the input and the kind of the first object, and the bytes `more` the second one has behind its input -/
structure Env where
  comp : List Byte
  more : List Byte
  wrap : Bool

/-- the states of the two runs; `ki`, `ko` are the counters at the beginning; `m` tells whether MAX_BITS agrees -/
structure Same (q : Env) (ki ko : Nat) (m : Prop) (s t : St) : Prop where
  base : s.comp = q.comp
  kind : s.wrap = q.wrap
  comp : t.comp = s.comp ++ q.more
  idx : t.idx = s.idx
  bit : t.bit = s.bit
  totalIn : t.totalIn = s.totalIn
  out : t.out = s.out
  null : t.null = s.null
  totalOut : t.totalOut = s.totalOut
  last : t.last = s.last
  eof : t.eof = s.eof
  wrap : t.wrap = s.wrap
  mb : m → t.maxBits = s.maxBits
  room : t.out.length ≤ t.cap
  caps : t.cap = s.cap ∨ 1 ≤ s.idx
  bit8 : s.bit < 8
  inside : 8 * s.idx + s.bit ≤ 8 * s.comp.length
  cntIn : s.totalIn = ki + s.idx
  cntOut : s.totalOut = ko + s.out.length

/-- the second computation does what the first does, unless that is undefined -/
def Follows {α β : Type} (R : α → β → Prop) : Res α → Res β → Prop
  | .error .ub, _ => True
  | .error .thrown, y => y = .error .thrown
  | .ok a, y => ∃ b, y = .ok b ∧ R a b

theorem Follows.ok {α β : Type} {R : α → β → Prop} {a : α} {b : β} (h : R a b) : Follows R (.ok a) (.ok b) := ⟨b, rfl, h⟩
theorem Follows.pure {α β : Type} {R : α → β → Prop} {a : α} {b : β} (h : R a b) : Follows R (pure a : Res α) (pure b : Res β) := ⟨b, rfl, h⟩
theorem Follows.ub {α β : Type} {R : α → β → Prop} {y : Res β} : Follows R (.error .ub) y := trivial
theorem Follows.thrown {α β : Type} {R : α → β → Prop} : Follows R (.error .thrown : Res α) (.error .thrown : Res β) := rfl

theorem Follows.refl {α : Type} {R : α → α → Prop} (h : ∀ a, R a a) (x : Res α) : Follows R x x := by
  cases x with
  | error e => cases e <;> first | trivial | rfl
  | ok a => exact ⟨a, rfl, h a⟩

theorem Follows.eq {α : Type} (x : Res α) : Follows (fun a b : α => b = a) x x := Follows.refl (R := fun a b : α => b = a) (fun _ => rfl) x

theorem Follows.bind {α β γ δ : Type} {R : α → β → Prop} {S : γ → δ → Prop} {x : Res α} {y : Res β} {f : α → Res γ} {g : β → Res δ}
    (h : Follows R x y) (k : ∀ a b, R a b → Follows S (f a) (g b)) : Follows S (x >>= f) (y >>= g) := by
  cases x with
  | error e =>
    cases e with
    | ub => trivial
    | thrown => have hy : y = .error .thrown := h; subst hy; rfl
  | ok a =>
    obtain ⟨b, rfl, hr⟩ := h
    exact k a b hr

theorem Follows.mono {α β : Type} {R S : α → β → Prop} {x : Res α} {y : Res β} (h : Follows R x y) (k : ∀ a b, R a b → S a b) : Follows S x y := by
  cases x with
  | error e => cases e <;> exact h
  | ok a => obtain ⟨b, e, hr⟩ := h; exact ⟨b, e, k a b hr⟩

variable {q : Env} {ki ko : Nat} {m : Prop}

attribute [local irreducible] Follows LENGTH_EXTRA LENGTH_OFFSET DIST_EXTRA DIST_OFFSET

/-- a value and a state -/
abbrev VS (q : Env) (ki ko : Nat) (m : Prop) {α : Type} (a b : α × St) : Prop := b.1 = a.1 ∧ Same q ki ko m a.2 b.2

theorem Same.weaken {s t : St} (h : Same q ki ko True s t) : Same q ki ko m s t := { h with mb := fun _ => h.mb trivial }

/-- reading a cell of the input -/
theorem rd_follows {s t : St} (h : Same q ki ko m s t) : Follows (fun a b : Byte => b = a ∧ s.idx < s.comp.length) (rd s.comp s.idx) (rd t.comp t.idx) := by
  rw [h.comp, h.idx]
  unfold rd
  cases e : s.comp[s.idx]? with
  | none => exact Follows.ub
  | some x =>
    have hl := (List.getElem?_eq_some_iff.1 e).1
    rw [List.getElem?_append_left hl, e]
    exact Follows.ok ⟨rfl, hl⟩

theorem nextBit_f {s t : St} (h : Same q ki ko m s t) : Follows (VS q ki ko m) (nextBit s) (nextBit t) := by
  unfold nextBit
  refine Follows.bind (rd_follows h) (fun a b hab => ?_)
  obtain ⟨rfl, hl⟩ := hab
  have hb := h.bit8
  have hi := h.inside
  simp only [h.bit]
  by_cases c : (s.bit + 1) % 8 = 0
  · rw [if_pos c, if_pos c]
    refine Follows.pure ⟨rfl, ?_⟩
    exact { h with
      idx := by show t.idx + 1 = s.idx + 1; rw [h.idx]
      bit := rfl
      totalIn := by show t.totalIn + 1 = s.totalIn + 1; rw [h.totalIn]
      caps := Or.inr (Nat.le_add_left 1 _)
      bit8 := Nat.zero_lt_succ 7
      inside := by show 8 * (s.idx + 1) + 0 ≤ 8 * s.comp.length; omega
      cntIn := by show s.totalIn + 1 = ki + (s.idx + 1); rw [h.cntIn]; omega }
  · rw [if_neg c, if_neg c]
    refine Follows.pure ⟨rfl, ?_⟩
    exact { h with
      bit := rfl
      bit8 := by show s.bit + 1 < 8; omega
      inside := by show 8 * s.idx + (s.bit + 1) ≤ 8 * s.comp.length; omega }

theorem skip_f {s t : St} (h : Same q ki ko m s t) : Same q ki ko m (skipByteBits s) (skipByteBits t) := by
  unfold skipByteBits
  rw [h.bit]
  have hi := h.inside
  by_cases c : s.bit = 0
  · rw [if_pos c, if_pos c]; exact h
  · rw [if_neg c, if_neg c]
    exact { h with
      idx := by show t.idx + 1 = s.idx + 1; rw [h.idx]
      bit := rfl
      totalIn := by show t.totalIn + 1 = s.totalIn + 1; rw [h.totalIn]
      caps := Or.inr (Nat.le_add_left 1 _)
      bit8 := Nat.zero_lt_succ 7
      inside := by show 8 * (s.idx + 1) + 0 ≤ 8 * s.comp.length; omega
      cntIn := by show s.totalIn + 1 = ki + (s.idx + 1); rw [h.cntIn]; omega }

theorem aligned8_f {s t : St} (h : Same q ki ko m s t) : Follows (VS q ki ko m) (nextAligned8 s) (nextAligned8 t) := by
  unfold nextAligned8
  rw [h.bit]
  by_cases c : s.bit ≠ 0
  · rw [if_pos c, if_pos c]; exact Follows.thrown
  · rw [if_neg c, if_neg c]
    refine Follows.bind (rd_follows h) (fun a b hab => ?_)
    obtain ⟨rfl, hl⟩ := hab
    refine Follows.pure ⟨rfl, ?_⟩
    exact { h with
      idx := by show t.idx + 1 = s.idx + 1; rw [h.idx]
      bit := rfl
      totalIn := by show t.totalIn + 1 = s.totalIn + 1; rw [h.totalIn]
      caps := Or.inr (Nat.le_add_left 1 _)
      inside := by show 8 * (s.idx + 1) + s.bit ≤ 8 * s.comp.length; omega
      cntIn := by show s.totalIn + 1 = ki + (s.idx + 1); rw [h.cntIn]; omega }

theorem aligned16_f {s t : St} (h : Same q ki ko m s t) : Follows (VS q ki ko m) (nextAligned16 s) (nextAligned16 t) := by
  unfold nextAligned16
  refine Follows.bind (aligned8_f h) (fun a b hab => ?_)
  refine Follows.bind (aligned8_f hab.2) (fun a' b' hab' => ?_)
  exact Follows.pure ⟨by rw [hab.1, hab'.1], hab'.2⟩

theorem uintX_f (n : Nat) : ∀ (ret : Nat) {s t : St}, Same q ki ko m s t → Follows (VS q ki ko m) (uintX n ret s) (uintX n ret t) := by
  induction n with
  | zero => intro ret s t h; exact Follows.ok ⟨rfl, h⟩
  | succ n ih =>
    intro ret s t h
    unfold uintX
    refine Follows.bind (nextBit_f h) (fun a b hab => ?_)
    rw [hab.1]
    exact ih _ hab.2

theorem nextUIntX_f (n : Nat) {s t : St} (h : Same q ki ko m s t) : Follows (VS q ki ko m) (nextUIntX n s) (nextUIntX n t) := uintX_f n 0 h

theorem uintXR_f (n : Nat) : ∀ (a ret : Nat) {s t : St}, Same q ki ko m s t → Follows (VS q ki ko m) (uintXR n a ret s) (uintXR n a ret t) := by
  induction n with
  | zero => intro a ret s t h; exact Follows.ok ⟨rfl, h⟩
  | succ n ih =>
    intro c ret s t h
    unfold uintXR
    refine Follows.bind (nextBit_f h) (fun a b hab => ?_)
    rw [hab.1]
    exact ih _ _ hab.2

theorem nextUIntXR_f (n : Nat) {s t : St} (h : Same q ki ko m s t) : Follows (VS q ki ko m) (nextUIntXR n s) (nextUIntXR n t) := uintXR_f n 0 0 h

/-- writing a byte -/
theorem write_f (x : Byte) {s t : St} (h : Same q ki ko m s t) : Follows (Same q ki ko m) (write s x) (write t x) := by
  have hroom := h.room
  -- the second run can write
  have ht : (s.idx = 0 → t.out.length < t.cap) → t.null = false → ∃ c, write t x = .ok { t with cap := c, out := t.out ++ [x], totalOut := t.totalOut + 1 } ∧ t.out.length < c ∧ (c = t.cap ∨ 1 ≤ s.idx) := by
    intro h0 hn
    by_cases c : t.out.length < t.cap
    · refine ⟨t.cap, ?_, c, Or.inl rfl⟩
      unfold write checkCapacity put
      rw [if_pos c]
      show (if t.null = true then _ else if t.out.length < t.cap then _ else _) = _
      rw [if_neg (by rw [hn]; exact Bool.noConfusion), if_pos c]
    · have hi : t.idx ≠ 0 := by intro e; exact c (h0 (by rw [← h.idx, e]))
      refine ⟨t.cap + max 4096 (t.cap * t.comp.length / t.idx), ?_, by have := Nat.le_max_left 4096 (t.cap * t.comp.length / t.idx); omega,
        Or.inr (by have := h.idx; omega)⟩
      unfold write checkCapacity put
      rw [if_neg c, if_neg hi]
      show (if t.null = true then _ else if t.out.length < t.cap + max 4096 (t.cap * t.comp.length / t.idx) then _ else _) = _
      rw [if_neg (by rw [hn]; exact Bool.noConfusion), if_pos (by have := Nat.le_max_left 4096 (t.cap * t.comp.length / t.idx); omega)]
  -- the first run
  have fin : ∀ c, (c = s.cap ∨ 1 ≤ s.idx) → (s.idx = 0 → s.out.length < s.cap) → s.null = false →
      Follows (Same q ki ko m) (.ok { s with cap := c, out := s.out ++ [x], totalOut := s.totalOut + 1 }) (write t x) := by
    intro c hc h0 hn
    obtain ⟨c', e, hlt, hc'⟩ := ht (fun e => by
      rcases h.caps with hc2 | hc2
      · rw [hc2, h.out]; exact h0 e
      · omega) (by rw [h.null, hn])
    rw [e]
    refine Follows.ok ?_
    exact { h with
      out := by show t.out ++ [x] = s.out ++ [x]; rw [h.out]
      totalOut := by show t.totalOut + 1 = s.totalOut + 1; rw [h.totalOut]
      room := by show (t.out ++ [x]).length ≤ c'; rw [List.length_append]; exact hlt
      caps := by
        show c' = c ∨ 1 ≤ s.idx
        rcases hc with hc | hc
        · rcases hc' with hc' | hc'
          · rcases h.caps with h2 | h2
            · exact Or.inl (by rw [hc, hc', h2])
            · exact Or.inr h2
          · exact Or.inr hc'
        · exact Or.inr hc
      cntOut := by show s.totalOut + 1 = ko + (s.out ++ [x]).length; rw [List.length_append, h.cntOut]; rfl }
  show Follows _ (write s x) (write t x)
  generalize hw : write t x = y at *
  unfold write checkCapacity put
  by_cases c : s.out.length < s.cap
  · rw [if_pos c]
    show Follows _ (if s.null = true then _ else if s.out.length < s.cap then _ else _) y
    by_cases n : s.null = true
    · rw [if_pos n]; exact Follows.ub
    · rw [if_neg n, if_pos c]
      exact fin s.cap (Or.inl rfl) (fun _ => c) (by simpa using n)
  · rw [if_neg c]
    by_cases i0 : s.idx = 0
    · rw [if_pos i0]; exact Follows.ub
    · rw [if_neg i0]
      show Follows _ (if s.null = true then _ else if s.out.length < s.cap + max 4096 (s.cap * s.comp.length / s.idx) then _ else _) y
      by_cases n : s.null = true
      · rw [if_pos n]; exact Follows.ub
      · rw [if_neg n]
        by_cases c2 : s.out.length < s.cap + max 4096 (s.cap * s.comp.length / s.idx)
        · rw [if_pos c2]
          exact fin _ (Or.inr (by omega)) (fun e => absurd e i0) (by simpa using n)
        · rw [if_neg c2]; exact Follows.ub

theorem copyStored_f (n : Nat) : ∀ {s t : St}, Same q ki ko m s t → Follows (Same q ki ko m) (copyStored n s) (copyStored n t) := by
  induction n with
  | zero => intro s t h; exact Follows.ok h
  | succ n ih =>
    intro s t h
    unfold copyStored
    refine Follows.bind (aligned8_f h) (fun a b hab => ?_)
    rw [hab.1]
    refine Follows.bind (write_f a.1 hab.2) (fun a' b' h' => ?_)
    exact ih h'

theorem stored_f {s t : St} (h : Same q ki ko m s t) : Follows (Same q ki ko m) (stored s) (stored t) := by
  unfold stored
  refine Follows.bind (aligned16_f (skip_f h)) (fun a b hab => ?_)
  refine Follows.bind (aligned16_f hab.2) (fun a' b' h' => ?_)
  rw [hab.1, h'.1]
  by_cases c : (a'.1 &&& a.1) ≠ 0
  · rw [if_pos c, if_pos c]; exact Follows.thrown
  · rw [if_neg c, if_neg c]; exact copyStored_f a.1 h'.2

theorem fixedLong_f (code : Nat) {s t : St} (h : Same q ki ko m s t) : Follows (VS q ki ko m) (fixedLong code s) (fixedLong code t) := by
  unfold fixedLong
  refine Follows.bind (nextBit_f h) (fun a b hab => ?_)
  simp only [hab.1]
  split
  · exact Follows.pure ⟨rfl, hab.2⟩
  · split
    · exact Follows.pure ⟨rfl, hab.2⟩
    · refine Follows.bind (nextBit_f hab.2) (fun a' b' h' => ?_)
      simp only [h'.1]
      split
      · exact Follows.pure ⟨rfl, h'.2⟩
      · exact Follows.pure ⟨rfl, h'.2⟩

theorem nextFixedCode_f {s t : St} (h : Same q ki ko m s t) : Follows (VS q ki ko m) (nextFixedCode s) (nextFixedCode t) := by
  unfold nextFixedCode
  refine Follows.bind (nextUIntX_f 7 h) (fun a b hab => ?_)
  rw [hab.1]
  by_cases c : a.1 ≤ 0x17
  · rw [if_pos c, if_pos c]; exact Follows.pure ⟨rfl, hab.2⟩
  · rw [if_neg c, if_neg c]; exact fixedLong_f a.1 hab.2

theorem copyBack_f (n : Nat) : ∀ (src : Nat) {s t : St}, Same q ki ko m s t → Follows (Same q ki ko m) (copyBack n src s) (copyBack n src t) := by
  induction n with
  | zero => intro src s t h; exact Follows.ok h
  | succ n ih =>
    intro src s t h
    unfold copyBack
    rw [h.out]
    refine Follows.bind (Follows.eq (rd s.out src)) (fun a b hab => ?_)
    subst hab
    refine Follows.bind (write_f _ h) (fun a' b' h' => ?_)
    exact ih (src + 1) h'

theorem readLength_f (v : Nat) {s t : St} (h : Same q ki ko m s t) : Follows (VS q ki ko m) (readLength v s) (readLength v t) := by
  unfold readLength
  refine Follows.bind (Follows.eq _) (fun a b hab => ?_)
  subst hab
  refine Follows.bind (nextUIntXR_f _ h) (fun a' b' h' => ?_)
  refine Follows.bind (Follows.eq _) (fun a b hab => ?_)
  subst hab
  exact Follows.pure ⟨by rw [h'.1], h'.2⟩

theorem readDistance_f (v : Nat) {s t : St} (h : Same q ki ko m s t) : Follows (VS q ki ko m) (readDistance v s) (readDistance v t) := by
  unfold readDistance
  refine Follows.bind (Follows.eq _) (fun a b hab => ?_)
  subst hab
  refine Follows.bind (nextUIntXR_f _ h) (fun a' b' h' => ?_)
  refine Follows.bind (Follows.eq _) (fun a b hab => ?_)
  subst hab
  exact Follows.pure ⟨by rw [h'.1], h'.2⟩

theorem fixedMatch_f (v : Nat) {s t : St} (h : Same q ki ko m s t) : Follows (Same q ki ko m) (fixedMatch v s) (fixedMatch v t) := by
  unfold fixedMatch
  refine Follows.bind (readLength_f v h) (fun a b hab => ?_)
  refine Follows.bind (nextUIntX_f 5 hab.2) (fun a' b' h' => ?_)
  rw [h'.1]
  refine Follows.bind (readDistance_f a'.1 h'.2) (fun a2 b2 h2 => ?_)
  simp only [h2.1, h2.2.out, hab.1]
  split
  · exact Follows.thrown
  · exact copyBack_f a.1 _ h2.2

theorem fixedBlock_f (f : Nat) : ∀ (f' : Nat) {s t : St}, f ≤ f' → Same q ki ko m s t → Follows (Same q ki ko m) (fixedBlock f s) (fixedBlock f' t) := by
  induction f with
  | zero => intro f' s t _ _; exact Follows.ub
  | succ f ih =>
    intro f' s t hf h
    obtain ⟨f', rfl⟩ : ∃ k, f' = k + 1 := ⟨f' - 1, by omega⟩
    unfold fixedBlock
    refine Follows.bind (nextFixedCode_f h) (fun a b hab => ?_)
    rw [hab.1]
    by_cases c1 : a.1 < 256
    · rw [if_pos c1, if_pos c1]
      refine Follows.bind (write_f _ hab.2) (fun a' b' h' => ?_)
      exact ih f' (by omega) h'
    · rw [if_neg c1, if_neg c1]
      by_cases c2 : a.1 = 256
      · rw [if_pos c2, if_pos c2]; exact Follows.pure hab.2
      · rw [if_neg c2, if_neg c2]
        by_cases c3 : a.1 ≤ 285
        · rw [if_pos c3, if_pos c3]
          refine Follows.bind (fixedMatch_f a.1 hab.2) (fun a' b' h' => ?_)
          exact ih f' (by omega) h'
        · rw [if_neg c3, if_neg c3]; exact Follows.thrown

theorem decodeLoop_f (tree : HT) (n : Nat) : ∀ (bits ret : Nat) {s t : St}, Same q ki ko m s t →
    Follows (VS q ki ko m) (decodeLoop tree n bits ret s) (decodeLoop tree n bits ret t) := by
  induction n with
  | zero => intro bits ret s t _; exact Follows.thrown
  | succ n ih =>
    intro bits ret s t h
    unfold decodeLoop
    refine Follows.bind (nextBit_f h) (fun a b hab => ?_)
    simp only [hab.1]
    split
    · exact Follows.pure ⟨rfl, hab.2⟩
    · exact ih _ _ hab.2

theorem decodeSymbol_f (tree : HT) {s t : St} (h : Same q ki ko True s t) : Follows (VS q ki ko True) (decodeSymbol tree s) (decodeSymbol tree t) := by
  unfold decodeSymbol
  rw [h.mb trivial]
  exact decodeLoop_f tree _ 0 0 h

theorem lengthStep_f (l : List Nat) (length cnt : Nat) {s t : St} (h : Same q ki ko m s t) :
    Follows (fun a b : List Nat × Nat × St => b.1 = a.1 ∧ b.2.1 = a.2.1 ∧ Same q ki ko m a.2.2 b.2.2) (lengthStep l length cnt s) (lengthStep l length cnt t) := by
  unfold lengthStep
  by_cases c1 : length = 16
  · rw [if_pos c1, if_pos c1]
    refine Follows.bind (nextUIntXR_f 2 h) (fun a b hab => ?_)
    rw [hab.1]
    refine Follows.bind (Follows.eq _) (fun a' b' h' => ?_)
    subst h'
    exact Follows.pure ⟨rfl, rfl, hab.2⟩
  · rw [if_neg c1, if_neg c1]
    by_cases c2 : length = 17
    · rw [if_pos c2, if_pos c2]
      refine Follows.bind (nextUIntXR_f 3 h) (fun a b hab => ?_)
      rw [hab.1]
      refine Follows.bind (Follows.eq _) (fun a' b' h' => ?_)
      subst h'
      exact Follows.pure ⟨rfl, rfl, hab.2⟩
    · rw [if_neg c2, if_neg c2]
      by_cases c3 : length = 18
      · rw [if_pos c3, if_pos c3]
        refine Follows.bind (nextUIntXR_f 7 h) (fun a b hab => ?_)
        rw [hab.1]
        refine Follows.bind (Follows.eq _) (fun a' b' h' => ?_)
        subst h'
        exact Follows.pure ⟨rfl, rfl, hab.2⟩
      · rw [if_neg c3, if_neg c3]
        refine Follows.bind (Follows.eq _) (fun a' b' h' => ?_)
        subst h'
        exact Follows.pure ⟨rfl, rfl, h⟩

theorem readLengths_f (tree : HT) (count f : Nat) : ∀ (l : List Nat) (cnt : Nat) {s t : St}, Same q ki ko True s t →
    Follows (VS q ki ko True) (readLengths tree count f l cnt s) (readLengths tree count f l cnt t) := by
  induction f with
  | zero =>
    intro l cnt s t h
    unfold readLengths
    by_cases c : cnt < count
    · rw [if_pos c]; exact Follows.ub
    · rw [if_neg c, if_neg c]; exact Follows.ok ⟨rfl, h⟩
  | succ f ih =>
    intro l cnt s t h
    unfold readLengths
    by_cases c : cnt < count
    · rw [if_pos c, if_pos c]
      refine Follows.bind (decodeSymbol_f tree h) (fun a b hab => ?_)
      rw [hab.1]
      refine Follows.bind (lengthStep_f l a.1 cnt hab.2) (fun a' b' h' => ?_)
      rw [h'.1, h'.2.1]
      exact ih _ _ h'.2.2
    · rw [if_neg c, if_neg c]; exact Follows.ok ⟨rfl, h⟩

theorem readCodeLengths_f (n : Nat) : ∀ (a : Nat) (l : List Nat) {s t : St}, Same q ki ko m s t →
    Follows (VS q ki ko m) (readCodeLengths n a l s) (readCodeLengths n a l t) := by
  induction n with
  | zero => intro a l s t h; exact Follows.ok ⟨rfl, h⟩
  | succ n ih =>
    intro a l s t h
    unfold readCodeLengths
    refine Follows.bind (nextUIntXR_f 3 h) (fun x y hxy => ?_)
    refine Follows.bind (Follows.eq _) (fun p p' hp => ?_)
    subst hp
    rw [hxy.1]
    refine Follows.bind (Follows.eq _) (fun p p' hp => ?_)
    subst hp
    exact ih _ _ hxy.2

theorem dynMatch_f (ht : HT) (v : Nat) {s t : St} (h : Same q ki ko True s t) : Follows (Same q ki ko True) (dynMatch ht v s) (dynMatch ht v t) := by
  unfold dynMatch
  refine Follows.bind (readLength_f v h) (fun a b hab => ?_)
  refine Follows.bind (decodeSymbol_f ht hab.2) (fun a' b' h' => ?_)
  rw [h'.1]
  refine Follows.bind (readDistance_f a'.1 h'.2) (fun a2 b2 h2 => ?_)
  simp only [h2.1, h2.2.out, hab.1]
  split
  · exact Follows.thrown
  · exact copyBack_f a.1 _ h2.2

theorem dynLoop_f (hv hd : HT) (f : Nat) : ∀ (f' : Nat) {s t : St}, f ≤ f' → Same q ki ko True s t →
    Follows (Same q ki ko True) (dynLoop hv hd f s) (dynLoop hv hd f' t) := by
  induction f with
  | zero => intro f' s t _ _; exact Follows.ub
  | succ f ih =>
    intro f' s t hf h
    obtain ⟨f', rfl⟩ : ∃ k, f' = k + 1 := ⟨f' - 1, by omega⟩
    unfold dynLoop
    refine Follows.bind (decodeSymbol_f hv h) (fun a b hab => ?_)
    rw [hab.1]
    by_cases c1 : a.1 < 256
    · rw [if_pos c1, if_pos c1]
      refine Follows.bind (write_f _ hab.2) (fun a' b' h' => ?_)
      exact ih f' (by omega) h'
    · rw [if_neg c1, if_neg c1]
      by_cases c2 : a.1 = 256
      · rw [if_pos c2, if_pos c2]; exact Follows.pure hab.2
      · rw [if_neg c2, if_neg c2]
        by_cases c3 : a.1 ≤ 285
        · rw [if_pos c3, if_pos c3]
          refine Follows.bind (dynMatch_f hd a.1 hab.2) (fun a' b' h' => ?_)
          exact ih f' (by omega) h'
        · rw [if_neg c3, if_neg c3]; exact ih f' (by omega) hab.2

theorem dynTrees_f {s t : St} (h : Same q ki ko m s t) :
    Follows (fun a b : HT × HT × St => b.1 = a.1 ∧ b.2.1 = a.2.1 ∧ Same q ki ko True a.2.2 b.2.2) (dynTrees s) (dynTrees t) := by
  unfold dynTrees
  refine Follows.bind (nextUIntXR_f 5 h) (fun a b h1 => ?_)
  refine Follows.bind (nextUIntXR_f 5 h1.2) (fun a2 b2 h2 => ?_)
  refine Follows.bind (nextUIntXR_f 4 h2.2) (fun a3 b3 h3 => ?_)
  rw [h3.1]
  refine Follows.bind (readCodeLengths_f _ _ _ h3.2) (fun a4 b4 h4 => ?_)
  rw [h4.1]
  refine Follows.bind (Follows.eq _) (fun p p' hp => ?_)
  subst hp
  refine Follows.bind (Follows.eq _) (fun t5 t5' hp => ?_)
  subst hp
  rw [h1.1]
  have h5 : Same q ki ko True { a4.2 with maxBits := p'.2 } { b4.2 with maxBits := p'.2 } := { h4.2 with mb := fun _ => rfl }
  refine Follows.bind (readLengths_f t5' _ _ _ _ h5) (fun a6 b6 h6 => ?_)
  rw [h2.1]
  refine Follows.bind (readLengths_f t5' _ _ _ _ h6.2) (fun a7 b7 h7 => ?_)
  rw [h6.1]
  refine Follows.bind (Follows.eq _) (fun p p' hp => ?_)
  subst hp
  rw [h7.1]
  refine Follows.bind (Follows.eq _) (fun p p' hp => ?_)
  subst hp
  refine Follows.bind (Follows.eq _) (fun p p' hp => ?_)
  subst hp
  refine Follows.bind (Follows.eq _) (fun p p' hp => ?_)
  subst hp
  exact Follows.pure ⟨rfl, rfl, { h7.2 with mb := fun _ => rfl }⟩

theorem limit_le {s t : St} (h : Same q ki ko m s t) : limit s ≤ limit t := by
  unfold limit
  rw [h.comp, List.length_append]
  omega

theorem dynBlock_f {s t : St} (h : Same q ki ko m s t) : Follows (Same q ki ko m) (dynBlock s) (dynBlock t) := by
  unfold dynBlock
  refine Follows.bind (dynTrees_f h) (fun a b hab => ?_)
  rw [hab.1, hab.2.1]
  exact (dynLoop_f _ _ _ _ (limit_le h) hab.2.2).mono (fun _ _ k => k.weaken)

theorem block_f (ty : Nat) {s t : St} (h : Same q ki ko m s t) : Follows (Same q ki ko m) (block ty s) (block ty t) := by
  unfold block
  by_cases c1 : ty = 0
  · rw [if_pos c1, if_pos c1]; exact stored_f h
  · rw [if_neg c1, if_neg c1]
    by_cases c2 : ty = 1
    · rw [if_pos c2, if_pos c2]; exact fixedBlock_f _ _ (limit_le h) h
    · rw [if_neg c2, if_neg c2]
      by_cases c3 : ty = 2
      · rw [if_pos c3, if_pos c3]; exact dynBlock_f h
      · rw [if_neg c3, if_neg c3]; exact Follows.ok h

theorem oneBlock_f {s t : St} (h : Same q ki ko m s t) : Follows (Same q ki ko m) (oneBlock s) (oneBlock t) := by
  unfold oneBlock
  refine Follows.bind (nextBit_f h) (fun a b h1 => ?_)
  refine Follows.bind (nextBit_f h1.2) (fun a2 b2 h2 => ?_)
  refine Follows.bind (nextBit_f h2.2) (fun a3 b3 h3 => ?_)
  rw [h1.1, h2.1, h3.1]
  refine block_f _ ?_
  exact { h3.2 with last := by show (if a.1 = 1 then true else b3.2.last) = (if a.1 = 1 then true else a3.2.last); rw [h3.2.last] }

theorem inflateLoop_f (f : Nat) : ∀ (f' : Nat) {s t : St}, f ≤ f' → Same q ki ko m s t →
    Follows (fun a b => Same q ki ko m a b ∧ a.eof = true ∧ a.last = true) (inflateLoop f s) (inflateLoop f' t) := by
  induction f with
  | zero => intro f' s t _ _; exact Follows.ub
  | succ f ih =>
    intro f' s t hf h
    obtain ⟨f', rfl⟩ : ∃ k, f' = k + 1 := ⟨f' - 1, by omega⟩
    unfold inflateLoop
    refine Follows.bind (oneBlock_f h) (fun a b hab => ?_)
    rw [hab.last]
    by_cases c : a.last = true
    · rw [if_pos c, if_pos c]
      exact Follows.pure ⟨{ hab with eof := rfl, last := rfl }, rfl, c⟩
    · rw [if_neg c, if_neg c]
      exact ih f' (by omega) hab

end Verif.Inflate.Count
