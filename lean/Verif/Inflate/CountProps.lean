import Verif.Inflate.Count
import Verif.Inflate.Props
/-
C130: the counters of the Inflater and what a run of it depends on (src/core/Inflater.cpp).
-/
namespace Verif.Inflate.Count.Props
open Verif Verif.Inflate Verif.Inflate.Count

/-- what a caller sees after `Inflate` -/
structure Report where
  data : List Byte
  finished : Bool
  needsInput : Bool
  remaining : Int
  totalIn : Nat
  totalOut : Nat
deriving DecidableEq

def report (s : St) : Report := ⟨s.out, finished s, needsInput s, remaining s, totalIn s, totalOut s⟩

/-- `SetInput(comp)` and `Inflate` of an object -/
def feed (s : St) (comp : List Byte) : Res Report := do
  let s ← inflate (s.setInput comp)
  return report s

/-- the same with a new object -/
def inflateAll (wrap : Bool) (comp : List Byte) : Res Report := feed (St.new wrap) comp

variable {q : Env} {ki ko : Nat} {m : Prop}

/-! ### lemmas -/

theorem header_f {s t : St} (h : Same q ki ko m s t) (h2 : s.totalIn = 0 ∧ s.wrap = false → 2 ≤ s.comp.length) :
    Follows (Same q ki ko m) (header s) (header t) := by
  unfold header
  rw [h.totalIn, h.wrap]
  by_cases c : s.totalIn = 0 ∧ s.wrap = false
  · have hl := h2 c
    have hlt : 2 ≤ t.comp.length := by rw [h.comp, List.length_append]; omega
    rw [if_pos c, if_pos c, if_neg (by omega), if_neg (by omega)]
    have e0 : rd t.comp 0 = rd s.comp 0 := by
      unfold rd; rw [h.comp, List.getElem?_append_left (by omega)]
    have e1 : rd t.comp 1 = rd s.comp 1 := by
      unfold rd; rw [h.comp, List.getElem?_append_left (by omega)]
    rw [e0, e1]
    refine Follows.bind (Follows.eq (rd s.comp 0)) (fun a b hab => ?_)
    rw [hab]
    refine Follows.bind (Follows.eq (rd s.comp 1)) (fun a' b' h' => ?_)
    rw [h']
    by_cases c1 : a.toNat &&& 0x0F ≠ 8
    · rw [if_pos c1, if_pos c1]; exact Follows.thrown
    rw [if_neg c1, if_neg c1]
    by_cases c2 : (a.toNat >>> 4) &&& 0x0F > 7
    · rw [if_pos c2, if_pos c2]; exact Follows.thrown
    rw [if_neg c2, if_neg c2]
    by_cases c3 : (a'.toNat >>> 5) &&& 1 ≠ 0
    · rw [if_pos c3, if_pos c3]; exact Follows.thrown
    rw [if_neg c3, if_neg c3]
    by_cases c4 : u16 (a.toNat * 256 + a'.toNat) % 31 ≠ 0
    · rw [if_pos c4, if_pos c4]; exact Follows.thrown
    rw [if_neg c4, if_neg c4]
    have hk := h.cntIn
    refine Follows.pure ?_
    exact { h with
      idx := rfl
      bit := rfl
      totalIn := rfl
      wrap := rfl
      caps := Or.inr (show 1 ≤ 2 by decide)
      bit8 := Nat.zero_lt_succ 7
      inside := by show 8 * 2 + 0 ≤ 8 * s.comp.length; omega
      cntIn := by show 2 = ki + 2; omega }
  · rw [if_neg c, if_neg c]; exact Follows.ok h

theorem inflate_f {s t : St} (h : Same q ki ko m { s with out := [] } { t with out := [] })
    (h2 : s.totalIn = 0 ∧ s.wrap = false → 2 ≤ s.comp.length) :
    Follows (fun a b => Same q ki ko m a b ∧ a.eof = true ∧ a.last = true) (inflate s) (inflate t) := by
  unfold inflate
  refine Follows.bind (header_f h h2) (fun a b hab => ?_)
  exact inflateLoop_f _ _ (limit_le hab) hab

theorem same_new (wrap : Bool) (comp q : List Byte) :
    Same ⟨comp, q, wrap⟩ 0 0 True { (St.new wrap).setInput comp with out := [] } { (St.new wrap).setInput (comp ++ q) with out := [] } where
  base := rfl
  kind := rfl
  comp := rfl
  idx := rfl
  bit := rfl
  totalIn := rfl
  out := rfl
  null := rfl
  totalOut := rfl
  last := rfl
  eof := rfl
  wrap := rfl
  mb := fun _ => rfl
  room := Nat.zero_le _
  caps := Or.inl rfl
  bit8 := Nat.zero_lt_succ 7
  inside := Nat.zero_le _
  cntIn := rfl
  cntOut := rfl

/-- a new object on a block and on the same block with more bytes behind it -/
theorem new_follows (wrap : Bool) (comp q : List Byte) (h : wrap = false → 2 ≤ comp.length) :
    Follows (fun a b => Same ⟨comp, q, wrap⟩ 0 0 True a b ∧ a.eof = true ∧ a.last = true) (inflate ((St.new wrap).setInput comp))
      (inflate ((St.new wrap).setInput (comp ++ q))) :=
  inflate_f (same_new wrap comp q) (fun c => h c.2)

theorem short_rejected (comp : List Byte) (h : comp.length < 2) : inflate ((St.new false).setInput comp) = .error .thrown := by
  match comp, h with
  | [], _ => rfl
  | [_], _ => rfl

theorem ok_long {wrap : Bool} {comp : List Byte} {s : St} (h : inflate ((St.new wrap).setInput comp) = .ok s) : wrap = false → 2 ≤ comp.length := by
  intro hw
  subst hw
  by_cases c : comp.length < 2
  · rw [short_rejected comp c] at h; exact absurd h (by simp)
  · omega

theorem report_same {s t : St} (h : Same q ki ko m s t) : report t = { report s with remaining := remaining s + q.more.length } := by
  have e : ((t.comp.length : Int) - t.idx) = ((s.comp.length : Int) - s.idx) + q.more.length := by
    rw [h.comp, h.idx, List.length_append]; omega
  unfold report finished needsInput remaining Count.totalIn Count.totalOut
  rw [h.out, h.eof, h.totalIn, h.totalOut, e]

theorem feed_ok {s : St} {comp : List Byte} {r : Report} (h : feed s comp = .ok r) : ∃ t, inflate (s.setInput comp) = .ok t ∧ r = report t := by
  unfold feed at h
  cases e : inflate (s.setInput comp) with
  | error x => rw [e] at h; exact absurd h (by simp [bind, Except.bind])
  | ok t =>
    rw [e] at h
    exact ⟨t, rfl, (Except.ok.inj h).symm⟩

theorem feed_error {s : St} {comp : List Byte} {e : Fault} : feed s comp = .error e ↔ inflate (s.setInput comp) = .error e := by
  unfold feed
  cases inflate (s.setInput comp) with
  | error x => simp [bind, Except.bind]
  | ok t => simp [bind, Except.bind, pure, Except.pure]

theorem final {wrap : Bool} {comp : List Byte} {s : St} (h : inflate ((St.new wrap).setInput comp) = .ok s) :
    s.comp = comp ∧ s.eof = true ∧ s.last = true ∧ s.totalOut = s.out.length ∧ s.totalIn = s.idx ∧ 8 * s.idx + s.bit ≤ 8 * comp.length ∧ s.bit < 8 ∧ s.wrap = wrap := by
  have f := new_follows wrap comp [] (ok_long h)
  rw [h] at f
  obtain ⟨b, _, hs, he, hl⟩ := f
  have hc : s.comp = comp ∧ s.wrap = wrap := ⟨hs.base, hs.kind⟩
  have h1 := hs.inside
  have h2 := hs.cntIn
  have h3 := hs.cntOut
  rw [hc.1] at h1
  exact ⟨hc.1, he, hl, by omega, by omega, h1, hs.bit8, hc.2⟩

/-! ### C130 -/

/-- C130: whatever the input is: if `Inflate` returns, the end of the stream is reported, no more input is asked for, `GetTotalOut` is the
number of bytes delivered, and the bytes counted by `GetTotalIn` and by `GetRemaining` make up the input -/
theorem counters (wrap : Bool) (comp : List Byte) (r : Report) (h : inflateAll wrap comp = .ok r) :
    r.finished = true ∧ r.needsInput = false ∧ r.totalOut = r.data.length ∧ 0 ≤ r.remaining ∧ (r.totalIn : Int) + r.remaining = comp.length := by
  obtain ⟨s, hs, rfl⟩ := feed_ok h
  obtain ⟨h1, h2, _, h4, h5, h6, h7, _⟩ := final hs
  refine ⟨h2, by show (!s.eof) = false; rw [h2]; rfl, h4, ?_, ?_⟩
  · show (0 : Int) ≤ (s.comp.length : Int) - s.idx
    rw [h1]; omega
  · show (s.totalIn : Int) + ((s.comp.length : Int) - s.idx) = _
    rw [h1, h5]; omega

/-- C130: bytes behind the data change nothing but the number of remaining bytes -/
theorem trailing_bytes (wrap : Bool) (comp q : List Byte) (r : Report) (h : inflateAll wrap comp = .ok r) :
    inflateAll wrap (comp ++ q) = .ok { r with remaining := r.remaining + q.length } := by
  obtain ⟨s, hs, rfl⟩ := feed_ok h
  have f := new_follows wrap comp q (ok_long hs)
  rw [hs] at f
  obtain ⟨b, hb, hsame, _⟩ := f
  unfold inflateAll feed
  rw [hb]
  exact congrArg Except.ok (report_same hsame)

/-- C130: data that are rejected are rejected with any bytes behind them (zlib data of at least two bytes) -/
theorem rejected_stays (wrap : Bool) (comp q : List Byte) (hl : wrap = false → 2 ≤ comp.length) (h : inflateAll wrap comp = .error .thrown) :
    inflateAll wrap (comp ++ q) = .error .thrown := by
  have f := new_follows wrap comp q hl
  rw [show inflate ((St.new wrap).setInput comp) = .error .thrown from feed_error.1 h] at f
  exact feed_error.2 f

theorem cut_at (wrap : Bool) (p q : List Byte) (s : St) (h : inflate ((St.new wrap).setInput (p ++ q)) = .ok s) (hl : wrap = false → 2 ≤ p.length)
    (hc : 8 * p.length < 8 * s.idx + s.bit) : inflateAll wrap p = .error .ub := by
  refine feed_error.2 ?_
  have f := new_follows wrap p q hl
  cases e : inflate ((St.new wrap).setInput p) with
  | error x =>
    cases x with
    | ub => rfl
    | thrown => rw [e, h] at f; exact absurd f (by simp [Follows])
  | ok t =>
    rw [e, h] at f
    obtain ⟨b, hb, hsame, _⟩ := f
    have hb := Except.ok.inj hb
    subst hb
    have h1 := (final e).2.2.2.2.2.1
    have h2 := hsame.idx
    have h3 := hsame.bit
    omega

/-- C130: if the input given ends before the bytes used of the whole, `Inflate` does not ask for more: it reads behind the input -/
theorem cut_input_ub (wrap : Bool) (p q : List Byte) (r : Report) (h : inflateAll wrap (p ++ q) = .ok r) (hl : wrap = false → 2 ≤ p.length)
    (hc : p.length < r.totalIn) : inflateAll wrap p = .error .ub := by
  obtain ⟨s, hs, rfl⟩ := feed_ok h
  refine cut_at wrap p q s hs hl ?_
  have h1 := (final hs).2.2.2.2.1
  have : p.length < s.totalIn := hc
  omega

/-- C130: every valid stream (raw deflate data) cut off anywhere before its last bit makes `Inflate` read behind the input -/
theorem cut_stream_ub (bs : List Block) (p q : List Byte) (rest : List Bool) (h : bitsOf (p ++ q) = encode bs ++ rest) (ok : StreamOk 0 [] bs)
    (hc : 8 * p.length < (encode bs).length) : inflateAll true p = .error .ub := by
  obtain ⟨s, hs, _, _, _, hp, _⟩ := inflate_wraps bs (p ++ q) rest h ok
  exact cut_at true p q s hs (fun e => Bool.noConfusion e) (by omega)

/-- C130: at the end of zlib data, the four bytes of the checksum and the byte the last bits of the data lie in count as remaining input -/
theorem zlib_trailer (cmf flg : Byte) (hh : HeaderOk cmf flg) (bs : List Block) (body sum : List Byte) (pad : List Bool) (hpad : pad.length < 8)
    (h : bitsOf body = encode bs ++ pad) (ok : StreamOk 16 [] bs) (near : StreamNear [] bs) (h4 : sum.length = 4) :
    ∃ r, inflateAll false (cmf :: flg :: body ++ sum) = .ok r ∧ r.data = decoded [] bs ∧ r.remaining = if pad = [] then 4 else 5 := by
  obtain ⟨s, hs, ho, _, _, hp, ht⟩ := inflate_zlib_partial cmf flg hh bs body pad h ok near
  have hr : inflateAll false (cmf :: flg :: body) = .ok (report s) := by unfold inflateAll feed; rw [hs]; rfl
  refine ⟨_, trailing_bytes false (cmf :: flg :: body) sum (report s) hr, ho, ?_⟩
  have hlen : 8 * body.length = (encode bs).length + pad.length := by rw [← bitsOf_length, h, List.length_append]
  have hcomp := (final hs).1
  have hb8 := (final hs).2.2.2.2.2.2.1
  show ((s.comp.length : Int) - s.idx) + sum.length = _
  have hl2 : (s.comp.length : Int) = body.length + 2 := by rw [hcomp]; simp; omega
  rw [hl2, h4]
  by_cases c : pad = []
  · rw [if_pos c]
    have : pad.length = 0 := by rw [c]; rfl
    omega
  · rw [if_neg c]
    have : 0 < pad.length := List.length_pos_iff.2 c
    omega

/-- C130: an object that has read nothing reports no bytes and is not finished, whichever constructor made it -/
theorem fresh_report (wrap : Bool) : report (St.new wrap) = ⟨[], false, true, 0, 0, 0⟩ ∧ report St.new0 = ⟨[], false, true, 0, 0, 0⟩ := by
  cases wrap <;> decide

/-- C130: after `Reset` the object behaves as a new one, whatever happened before -/
theorem reset_like_new (s : St) (comp : List Byte) : feed (reset s) comp = inflateAll s.wrap comp := by
  by_cases hl : s.wrap = false → 2 ≤ comp.length
  · have a : Same ⟨comp, [], s.wrap⟩ 0 0 False { (reset s).setInput comp with out := [] } { (St.new s.wrap).setInput comp with out := [] } :=
      ⟨rfl, rfl, (List.append_nil comp).symm, rfl, rfl, rfl, rfl, rfl, rfl, rfl, rfl, rfl, False.elim, Nat.zero_le _, Or.inl rfl, Nat.zero_lt_succ 7, Nat.zero_le _, rfl, rfl⟩
    have b : Same ⟨comp, [], s.wrap⟩ 0 0 False { (St.new s.wrap).setInput comp with out := [] } { (reset s).setInput comp with out := [] } :=
      ⟨rfl, rfl, (List.append_nil comp).symm, rfl, rfl, rfl, rfl, rfl, rfl, rfl, rfl, rfl, False.elim, Nat.zero_le _, Or.inl rfl, Nat.zero_lt_succ 7, Nat.zero_le _, rfl, rfl⟩
    have fa := inflate_f a (fun c => hl c.2)
    have fb := inflate_f b (fun c => hl c.2)
    unfold inflateAll feed
    cases e : inflate ((reset s).setInput comp) with
    | ok x =>
      rw [e] at fa
      obtain ⟨y, hy, hsame, _⟩ := fa
      rw [hy]
      have := report_same hsame
      show Except.ok (report x) = Except.ok (report y)
      rw [this]
      show Except.ok (report x) = Except.ok { report x with remaining := remaining x + 0 }
      rw [Int.add_zero]
      rfl
    | error f =>
      cases f with
      | thrown => rw [e] at fa; rw [show inflate ((St.new s.wrap).setInput comp) = .error .thrown from fa]
      | ub =>
        cases e2 : inflate ((St.new s.wrap).setInput comp) with
        | ok y => rw [e, e2] at fb; obtain ⟨z, hz, _⟩ := fb; exact absurd hz (by simp)
        | error g =>
          cases g with
          | ub => rfl
          | thrown => rw [e, e2] at fb; exact absurd fb (by simp [Follows])
  · have hw : s.wrap = false := by cases hw : s.wrap with
      | false => rfl
      | true => exact absurd (fun e => by rw [hw] at e; exact Bool.noConfusion e) hl
    have hc : comp.length < 2 := by
      rcases Nat.lt_or_ge comp.length 2 with h | h
      · exact h
      · exact absurd (fun _ => h) hl
    have e1 : feed (reset s) comp = .error .thrown := by
      refine feed_error.2 ?_
      have hd : header { (reset s).setInput comp with out := [] } = .error .thrown := by
        unfold header
        rw [if_pos ⟨rfl, hw⟩]
        exact if_pos (show comp.length < 2 from hc)
      unfold inflate
      rw [hd]
      rfl
    rw [e1, hw]
    exact (feed_error.2 (short_rejected comp hc)).symm

/-- C130: `Inflate` called again at the end of the input, without `Reset`, reads behind the input although the object is finished -/
theorem again_ub (wrap : Bool) (comp : List Byte) (s : St) (h : inflate ((St.new wrap).setInput comp) = .ok s) (h0 : remaining s = 0) :
    inflate s = .error .ub := by
  obtain ⟨h1, _, _, _, h5, _, _, h8⟩ := final h
  have hi : s.idx = comp.length := by
    unfold remaining at h0
    rw [h1] at h0
    omega
  have hh : header { s with out := [] } = .ok { s with out := [] } := by
    unfold header
    rw [if_neg]
    rintro ⟨c1, c2⟩
    have c1 : s.totalIn = 0 := c1
    have c2 : s.wrap = false := c2
    have := ok_long h (by rw [← h8]; exact c2)
    omega
  have hn : nextBit { s with out := [] } = .error .ub := by
    unfold nextBit
    have : rd s.comp s.idx = .error .ub := by
      unfold rd
      rw [h1, hi, List.getElem?_eq_none (Nat.le_refl _)]
    show (rd s.comp s.idx >>= _) = _
    rw [this]
    rfl
  unfold inflate
  rw [hh]
  show inflateLoop (limit _) { s with out := [] } = _
  unfold limit inflateLoop oneBlock
  rw [hn]
  rfl

/-- the data and the end of two streams read by one object without `Reset` -/
def twice (a b : List Byte) : Option (List Byte × List Byte × Bool) :=
  match inflate ((St.new true).setInput a) with
  | .ok s =>
    match inflate (s.setInput b) with
    | .ok t => some (s.out, t.out, finished t)
    | .error _ => none
  | .error _ => none

/-- C130: without `Reset` a second stream is read up to the end of its first block only, and reported as finished -/
theorem second_stream_cut :
    twice [1, 1, 0, 0xFE, 0xFF, 65] [0, 1, 0, 0xFE, 0xFF, 66, 1, 1, 0, 0xFE, 0xFF, 67] = some ([65], [66], true) ∧
      (inflateAll true [0, 1, 0, 0xFE, 0xFF, 66, 1, 1, 0, 0xFE, 0xFF, 67]).toOption.map (·.data) = some [66, 67] := by
  decide +kernel

/-! ### examples -/

/-- a run: a stored block and two more bytes -/
example : (inflateAll true [1, 1, 0, 0xFE, 0xFF, 65, 7, 8]).toOption = some ⟨[65], true, false, 2, 6, 1⟩ := by decide +kernel
/-- a block with fixed codes ends inside a byte, which counts as remaining -/
example : (inflateAll true [0x4B, 0x04, 0x00]).toOption.map (fun r => (r.data, r.totalIn, r.remaining)) = some ([97], 2, 1) := by decide +kernel
/-- zlib data: the checksum and the last byte remain -/
example : (inflateAll false [120, 156, 75, 4, 0, 0, 98, 0, 98]).toOption.map (fun r => (r.data, r.totalIn, r.remaining)) = some ([97], 4, 5) := by decide +kernel
example : inflateAll true [1, 1, 0] = .error .ub :=
  cut_input_ub true [1, 1, 0] [0xFE, 0xFF, 65] ⟨[65], true, false, 0, 6, 1⟩ rfl (fun e => Bool.noConfusion e) (by decide)
example : inflateAll true [7, 0] = .error .thrown ∨ inflateAll true ([1, 1, 0, 0xFF, 0xFF, 65] ++ [9]) = .error .thrown :=
  Or.inr (rejected_stays true [1, 1, 0, 0xFF, 0xFF, 65] [9] (fun e => Bool.noConfusion e) rfl)

end Verif.Inflate.Count.Props
