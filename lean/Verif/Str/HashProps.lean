import Verif.Str.Spec
import Verif.Hashtable.Props
/-
Property C07: hash codes of equal strings.
-/
namespace Verif.Str.HashProps
open Verif Verif.Str Verif.Str.Spec

theorem shl5_sub (h : BitVec 32) : (h <<< 5) - h = 31#32 * h := by
  apply BitVec.eq_of_toNat_eq
  have := h.isLt
  simp only [BitVec.toNat_sub, BitVec.toNat_shiftLeft, BitVec.toNat_mul, BitVec.toNat_ofNat, Nat.shiftLeft_eq]
  omega

theorem hashLoop_ok {s : Str} (hs : WF s) (a : Nat) (h : BitVec 32) (ha : a ≤ s.len) :
    hashLoop s.buf s.len a h = .ok (((chars s).drop a).foldl (fun h c => 31#32 * h + c.setWidth 32) h) := by
  fun_induction hashLoop s.buf s.len a h with
  | case1 a h hlt ih =>
    rw [rd_chars hs hlt]
    simp only [bind, Except.bind]
    rw [ih _ (by omega), List.drop_eq_getElem_cons (i := a) (by rw [chars_length hs]; exact hlt), List.foldl_cons, shl5_sub]
  | case2 a h hn =>
    rw [List.drop_eq_nil_of_le (by rw [chars_length hs]; omega)]; rfl

/-- The 64-bit value the hash polynomial stands for. -/
def H64 (l : List Ch) : BitVec 64 := (H l).setWidth 64

/-- The cached hash is harmless: not set, or right and without sign bit. -/
def Clean (s : Str) : Prop := s.hash = 0 ∨ (s.hash = H (chars s) ∧ (H (chars s)).msb = false)

theorem signExtend_of_msb {x : BitVec 32} (h : x.msb = false) : x.signExtend 64 = x.setWidth 64 := by
  rw [BitVec.signExtend_eq_setWidth_of_msb_false h]

theorem constHashCode_clean {s : Str} (hs : WF s) (hc : Clean s) : constHashCode s = .ok (H64 (chars s)) := by
  unfold constHashCode
  split
  · rename_i h
    rcases hc with h0 | ⟨h1, h2⟩
    · exact absurd h0 h
    · rw [h1, signExtend_of_msb h2]; rfl
  · rw [hashLoop_ok hs 0 0 (by omega)]; rfl

theorem hashCode_clean {s : Str} (hs : WF s) (hc : Clean s) :
    ∃ s', hashCode s = .ok (s', H64 (chars s)) ∧ WF s' ∧ chars s' = chars s := by
  unfold hashCode
  split
  · rename_i h
    refine ⟨s, ?_, hs, rfl⟩
    rcases hc with h0 | ⟨h1, h2⟩
    · exact absurd h0 h
    · rw [h1, signExtend_of_msb h2]; rfl
  · rw [hashLoop_ok hs 0 0 (by omega)]
    exact ⟨_, rfl, hs, rfl⟩

/-- **C07 (partial).** Two strings with equal content whose hash cache is `Clean` report the same
hash code, from `hashCode` as well as from `constHashCode`.  Missing: the property for strings
whose cache holds a value with the sign bit or a stale value; there it fails
(`hashCode_twice`, `hash_after_assign`, `hash_after_toLowerCase`, `table_lookup_fails`). -/
theorem equal_strings_equal_hash_partial {s t : Str} (hs : WF s) (ht : WF t) (cs : Clean s) (ct : Clean t)
    (e : chars s = chars t) :
    constHashCode s = constHashCode t ∧ (hashCode s).map Prod.snd = constHashCode t := by
  rw [constHashCode_clean hs cs, constHashCode_clean ht ct, e]
  refine ⟨rfl, ?_⟩
  obtain ⟨s', h, _⟩ := hashCode_clean hs cs
  rw [h, e]; rfl

/-- Everything a program can do to strings without calling the caching `hashCode` itself:
construct, copy, edit, clear, change case, replace characters, reverse, take parts. -/
inductive NeverHashed : Str → Prop
  | new : NeverHashed empty
  | ofChars {cs s} : ofChars cs = .ok s → NeverHashed s
  | copy {s r} : NeverHashed s → copyCtor s = .ok r → NeverHashed r
  | assign {s t r} : NeverHashed s → NeverHashed t → assign s t = .ok r → NeverHashed r
  | append {s t r} : NeverHashed s → NeverHashed t → append s t = .ok r → NeverHashed r
  | appendChar {s c r} : NeverHashed s → appendChar s c = .ok r → NeverHashed r
  | insertChar {s i c r} : NeverHashed s → insertChar s i c = .ok r → NeverHashed r
  | insert {s i t r} : NeverHashed s → NeverHashed t → insert s i t = .ok r → NeverHashed r
  | setCharAt {s i c r} : NeverHashed s → setCharAt s i c = .ok r → NeverHashed r
  | deleteCharAt {s i r} : NeverHashed s → deleteCharAt s i = .ok r → NeverHashed r
  | deleteRange {s i n r} : NeverHashed s → deleteCharRangeAt s i n = .ok r → NeverHashed r
  | clear {s} : NeverHashed s → NeverHashed (clear s)
  | toLower {s r} : NeverHashed s → toLowerCase s = .ok r → NeverHashed r
  | toUpper {s r} : NeverHashed s → toUpperCase s = .ok r → NeverHashed r
  | replaceChar {s a b r} : NeverHashed s → replaceChar s a b = .ok r → NeverHashed r
  | reverse {s r} : NeverHashed s → reverse s = .ok r → NeverHashed r
  | substring {s a b r} : NeverHashed s → substring s a b = .ok r → NeverHashed r

theorem copyCtor_hash {s r : Str} (h : copyCtor s = .ok r) : r.hash = s.hash := by
  unfold copyCtor at h
  simp only [bind, Except.bind, pure, Except.pure] at h
  split at h <;> cases h; rfl

theorem checkCapacity_hash {s r : Str} {n : Nat} (h : checkCapacity s n = .ok r) : r.hash = s.hash := by
  unfold checkCapacity at h
  simp only [bind, Except.bind, pure, Except.pure] at h
  split at h
  · cases h; rfl
  · split at h <;> cases h; rfl

theorem takeRange_hash {s r : Str} {b n : Int} (e : takeRange s b n = .ok r) : r.hash = 0 := by
  unfold takeRange at e
  simp only [bind, Except.bind, pure, Except.pure] at e
  split at e
  · split at e
    · cases e
    · split at e
      · cases e
      · cases e; exact (checkCapacity_hash (s := empty) (by assumption) :)
  · cases e; rfl

theorem neverHashed_zero {s : Str} (h : NeverHashed s) : s.hash = 0 := by
  induction h with
  | new => rfl
  | ofChars e => simp only [Str.ofChars, bind, Except.bind, pure, Except.pure] at e; split at e <;> cases e; rfl
  | copy _ e ih => rw [copyCtor_hash e, ih]
  | assign _ _ e ih _ =>
    simp only [Str.assign, bind, Except.bind, pure, Except.pure] at e; split at e <;> cases e; exact ih
  | append _ _ e ih _ =>
    simp only [Str.append, bind, Except.bind, pure, Except.pure] at e
    repeat' (split at e)
    all_goals (first | (cases e; done) | (cases e; rfl) | (cases e; exact ih))
  | appendChar _ e ih =>
    simp only [Str.appendChar, bind, Except.bind, pure, Except.pure] at e
    repeat' (split at e)
    all_goals (cases e; try rfl)
  | insertChar _ e ih =>
    simp only [Str.insertChar, bind, Except.bind, pure, Except.pure] at e
    repeat' (split at e)
    all_goals (cases e; try rfl)
  | insert _ _ e ih _ =>
    simp only [Str.insert, bind, Except.bind, pure, Except.pure] at e
    repeat' (split at e)
    all_goals (cases e; try rfl)
  | setCharAt _ e ih =>
    simp only [Str.setCharAt, bind, Except.bind, pure, Except.pure] at e
    repeat' (split at e)
    all_goals (cases e; try rfl)
  | deleteCharAt _ e ih =>
    simp only [Str.deleteCharAt, bind, Except.bind, pure, Except.pure] at e
    repeat' (split at e)
    all_goals (cases e; try rfl)
  | deleteRange _ e ih =>
    simp only [Str.deleteCharRangeAt, bind, Except.bind, pure, Except.pure] at e
    repeat' (split at e)
    all_goals (cases e; try rfl)
  | clear _ ih => exact (clear_ok _).2.2
  | toLower _ e ih =>
    simp only [Str.toLowerCase, bind, Except.bind, pure, Except.pure] at e
    repeat' (split at e)
    all_goals (cases e)
    rename_i h _ _ _; rw [← ih]; exact (copyCtor_hash h :)
  | toUpper _ e ih =>
    simp only [Str.toUpperCase, bind, Except.bind, pure, Except.pure] at e
    repeat' (split at e)
    all_goals (cases e)
    rename_i h _ _ _; rw [← ih]; exact (copyCtor_hash h :)
  | replaceChar _ e ih =>
    simp only [Str.replaceChar, bind, Except.bind, pure, Except.pure] at e
    repeat' (split at e)
    all_goals (cases e)
    rename_i h _ _ _; rw [← ih]; exact (copyCtor_hash h :)
  | reverse _ e ih =>
    simp only [Str.reverse, bind, Except.bind, pure, Except.pure] at e
    repeat' (split at e)
    all_goals (cases e)
    rename_i h _ _ _; rw [← ih]; exact (copyCtor_hash h :)
  | substring _ e ih =>
    unfold Str.substring at e
    exact takeRange_hash e

/-- Strings on which nobody called `hashCode` satisfy the hypothesis of the theorem above. -/
theorem neverHashed_clean {s : Str} (h : NeverHashed s) : Clean s := .inl (neverHashed_zero h)

/-! ### The table with String keys

`put` takes its key by value (a copy) and calls `key.hashCode()` on the copy;
`get`, `containsKey` and `remove` call `key.constHashCode()` (Hashtable.cpp:60, 94, 114). -/

def putStr (t : Hashtable.Table (List Ch)) (k : Str) (v : Hashtable.Ptr) : Res (Hashtable.Table (List Ch) × Hashtable.Ptr) := do
  let c ← copyCtor k
  let r ← hashCode c
  Hashtable.put t r.2 (chars c) v

def getStr (t : Hashtable.Table (List Ch)) (k : Str) : Res Hashtable.Ptr := do
  let h ← constHashCode k
  Hashtable.get t h (chars k)

def removeStr (t : Hashtable.Table (List Ch)) (k : Str) : Res (Hashtable.Table (List Ch) × Hashtable.Ptr) := do
  let h ← constHashCode k
  Hashtable.remove t h (chars k)

/-- With clean keys the String operations are the table operations for the hash function `H64`,
to which C05 and C06 apply. -/
theorem string_keys_partial (t : Hashtable.Table (List Ch)) {k : Str} (hk : WF k) (ck : Clean k) (v : Hashtable.Ptr) :
    putStr t k v = Hashtable.put t (H64 (chars k)) (chars k) v ∧
    getStr t k = Hashtable.get t (H64 (chars k)) (chars k) ∧
    removeStr t k = Hashtable.remove t (H64 (chars k)) (chars k) := by
  refine ⟨?_, ?_, ?_⟩
  · obtain ⟨r, e, wr, cr, hr, _⟩ := copyCtor_ok hk
    have cc : Clean r := by unfold Clean at *; rw [hr, cr]; exact ck
    obtain ⟨s', e2, _⟩ := hashCode_clean wr cc
    simp only [putStr, e, e2, bind, Except.bind, cr]
  · simp only [getStr, constHashCode_clean hk ck, bind, Except.bind]
  · simp only [removeStr, constHashCode_clean hk ck, bind, Except.bind]

/-- "zzzzzz" has a hash with the sign bit set -/
def zs : List Ch := List.replicate 6 0x7a

/-- Violation: two calls of `hashCode` on the same unchanged string differ. -/
theorem hashCode_twice :
    (do let s ← ofChars zs
        let r ← hashCode s
        let q ← hashCode r.1
        return decide (r.2 = q.2)) = .ok false := by decide +kernel

/-- Violation: after `a.hashCode(); a = b;` the strings are equal but their hash codes are not. -/
theorem hash_after_assign :
    (do let a ← ofChars [0x61]
        let b ← ofChars [0x62]
        let r ← hashCode a
        let a ← assign r.1 b
        let ha ← constHashCode a
        let hb ← constHashCode b
        return (decide (chars a = chars b), decide (ha = hb))) = .ok (true, false) := by decide +kernel

/-- Violation: after `a.hashCode()`, `a.toLowerCase()` carries the hash of `a`. -/
theorem hash_after_toLowerCase :
    (do let a ← ofChars [0x41]
        let b ← ofChars [0x61]
        let r ← hashCode a
        let a ← toLowerCase r.1
        let ha ← constHashCode a
        let hb ← constHashCode b
        return (decide (chars a = chars b), decide (ha = hb))) = .ok (true, false) := by decide +kernel

/-- Violation: a value put under a key is not found with the same key object once `hashCode`
was called on that object. -/
theorem table_lookup_fails :
    (do let k ← ofChars zs
        let t ← putStr Hashtable.init k 7
        let before ← getStr t.1 k
        let r ← hashCode k
        let after ← getStr t.1 r.1
        return (before, after)) = .ok (7, 0) := by decide +kernel

/-- Non-vacuity: clean strings with a cached and an uncached hash. -/
example : ∃ s t, ofChars [0x61, 0x62] = .ok s ∧ t = { s with hash := 0xc21 } ∧ WF s ∧ WF t ∧ Clean s ∧ Clean t ∧ chars s = chars t :=
  ⟨_, _, rfl, rfl, by decide, by decide, .inl rfl, .inr (by decide), rfl⟩

end Verif.Str.HashProps
