import Verif.Str.Spec
set_option linter.unusedVariables false
set_option linter.unusedSimpArgs false
/-
Property C10: substring, trim, reverse, case change, character replacement, count.
-/
namespace Verif.Str.PartProps
open Verif Verif.Str

/-! ### Specifications on sequences -/

/-- positions `b … e-1`, clamped to the sequence -/
def sub (l : List Ch) (b e : Int) : List Ch := (l.take e.toNat).drop b.toNat

/-- `r` is `l` without its leading and trailing white space. -/
def IsTrim (l r : List Ch) : Prop := ∃ p q, l = p ++ r ++ q ∧ (∀ c ∈ p, isWhitespace c) ∧ (∀ c ∈ q, isWhitespace c) ∧
  (∀ c, r.head? = some c → isWhitespace c = false) ∧ (∀ c, r.getLast? = some c → isWhitespace c = false)

/-! ### Lemmas -/

theorem takeRange_ok {s : Str} (hs : WF s) {b n : Int} (hb : 0 ≤ b) (hn : b + n ≤ s.len) :
    ∃ r, takeRange s b n = .ok r ∧ WF r ∧ chars r = ((chars s).drop b.toNat).take n.toNat ∧ r.hash = 0 := by
  unfold takeRange
  split
  · obtain ⟨r, e, rl, rh, rc, _⟩ := checkCapacity_ok empty_wf n.toNat
    have h0 : r.len = 0 := rl
    unfold WF at hs
    simp only [e, bind, Except.bind, pure, Except.pure]
    rw [memcpy_ok (by omega) (by omega)]
    refine ⟨_, rfl, ?_, ?_, rh⟩
    · simp [WF]; omega
    · simp only [chars, List.take_zero, List.nil_append]
      rw [List.take_append_of_le_length (by simp; omega), List.take_take, Nat.min_self]
      rw [List.drop_take, List.take_take, Nat.min_eq_left (by omega)]
  · refine ⟨empty, rfl, empty_wf, ?_, rfl⟩
    rw [show n.toNat = 0 by omega]; rfl

theorem substring_ok {s : Str} (hs : WF s) (b e : Int) :
    ∃ r, substring s b e = .ok r ∧ WF r ∧ chars r = sub (chars s) b e ∧ r.hash = 0 := by
  unfold substring
  dsimp only
  have hl := chars_length hs
  generalize hb : (if b < 0 then 0 else b) = b'
  have hb0 : 0 ≤ b' := by split at hb <;> omega
  have hbn : b'.toNat = b.toNat := by split at hb <;> omega
  generalize he : (if e < b' then b' else e) = e'
  generalize he2 : (if e' > s.len then (s.len : Int) else e') = e''
  have h3 : e'' ≤ s.len := by split at he2 <;> omega
  obtain ⟨r, a1, a2, a3, a4⟩ := takeRange_ok hs hb0 (n := e'' - b') (by omega)
  refine ⟨r, a1, a2, ?_, a4⟩
  rw [a3, sub, hbn, List.drop_take]
  split at he <;> split at he2
  · rw [show (e'' - b').toNat = 0 by omega, show e.toNat - b.toNat = 0 by omega]
  · rw [show (e'' - b').toNat = 0 by omega, show e.toNat - b.toNat = 0 by omega]
  · rw [List.take_of_length_le (by simp; omega), List.take_of_length_le (by simp; omega)]
  · congr 1; omega

theorem mapLoop_ok (f : Ch → Ch) (n a : Nat) (v : List Ch) (hn : n ≤ v.length) :
    ∃ w, mapLoop f n a v = .ok w ∧ w.length = v.length ∧
      ∀ i, w[i]? = if a ≤ i ∧ i < n then v[i]?.map f else v[i]? := by
  fun_induction mapLoop f n a v with
  | case1 a v h ih =>
    rw [rd_ok (by omega)]
    simp only [bind, Except.bind]
    rw [wr_ok (by omega)]
    simp only
    obtain ⟨w, e, wl, hw⟩ := ih (v.set a (f v[a])) (by simpa using hn)
    refine ⟨w, e, by simp [wl], ?_⟩
    intro i
    rw [hw]
    by_cases h1 : a + 1 ≤ i ∧ i < n
    · rw [if_pos h1, if_pos (by omega), List.getElem?_set_ne (by omega)]
    · rw [if_neg h1]
      by_cases h2 : i = a
      · subst h2
        rw [if_pos (by omega)]
        simp [List.getElem?_set, show i < v.length by omega]
      · rw [if_neg (by omega), List.getElem?_set_ne (by omega)]
  | case2 a v h =>
    refine ⟨v, rfl, rfl, ?_⟩
    intro i; rw [if_neg (by omega)]

theorem mapped_ok {s : Str} (hs : WF s) (f : Ch → Ch) :
    ∃ r, (do let r ← copyCtor s; let v ← mapLoop f s.len 0 r.buf; return { r with buf := v } : Res Str) = .ok r ∧
      WF r ∧ chars r = (chars s).map f := by
  obtain ⟨r, e, wr, cr, _, rl, rb⟩ := copyCtor_ok hs
  unfold WF at hs wr
  obtain ⟨w, e2, wl, hw⟩ := mapLoop_ok f s.len 0 r.buf (by omega)
  simp only [e, e2, bind, Except.bind, pure, Except.pure]
  refine ⟨_, rfl, by simp [WF]; omega, ?_⟩
  apply chars_eq
  · rw [List.length_map, chars_length hs]; exact rl.symm
  · simp only
    intro i hi
    rw [hw, if_pos (by omega), List.getElem?_map, ← cr, chars_get?, if_pos hi]

theorem revLoop_ok (n a last : Nat) (v : List Ch) (hn : n ≤ v.length) (hl : a ≤ n / 2) (hlast : n = 0 ∨ last + a + 1 = n) :
    ∃ w, revLoop (n / 2) a last v = .ok w ∧ w.length = v.length ∧
      ∀ i, w[i]? = if a ≤ i ∧ i + a < n then v[n - 1 - i]? else v[i]? := by
  fun_induction revLoop (n / 2) a last v with
  | case1 a last v h ih =>
    rw [rd_ok (by omega), rd_ok (b := v) (i := last) (by omega)]
    simp only [bind, Except.bind]
    rw [wr_ok (by omega)]
    simp only
    rw [wr_ok (by simp; omega)]
    simp only
    obtain ⟨w, e, wl, hw⟩ := ih ((v.set a v[last]).set last v[a]) (by simpa using hn) (by omega) (by omega)
    refine ⟨w, e, by simp [wl], ?_⟩
    intro i
    rw [hw]
    by_cases h1 : a + 1 ≤ i ∧ i + (a + 1) < n
    · rw [if_pos h1, if_pos (by omega), List.getElem?_set_ne (by omega), List.getElem?_set_ne (by omega)]
    · rw [if_neg h1]
      by_cases h2 : i = last
      · subst h2
        rw [if_pos (by omega), show n - 1 - i = a by omega]
        simp [List.getElem?_set, show i < v.length by omega, show a < v.length by omega]
      · rw [List.getElem?_set_ne (by omega)]
        by_cases h3 : i = a
        · subst h3
          rw [if_pos (by omega), show n - 1 - i = last by omega]
          simp [List.getElem?_set, show i < v.length by omega, show last < v.length by omega]
        · rw [List.getElem?_set_ne (by omega), if_neg (by omega)]
  | case2 a last v h =>
    refine ⟨v, rfl, rfl, ?_⟩
    intro i
    split
    · rename_i hc
      congr 1; omega
    · rfl

theorem trimLeft_ok {s : Str} (hs : WF s) (b : Nat) (hb : b ≤ s.len) :
    ∃ e, trimLeft s b = .ok e ∧ b ≤ e ∧ e ≤ s.len ∧ (∀ i, b ≤ i → i < e → ∀ c, (chars s)[i]? = some c → isWhitespace c) ∧
      (∀ c, (chars s)[e]? = some c → isWhitespace c = false) := by
  fun_induction trimLeft s b with
  | case1 b h ih =>
    rw [rd_chars hs h]
    simp only [bind, Except.bind, pure, Except.pure]
    have hg : (chars s)[b]? = some ((chars s)[b]'(by rw [chars_length hs]; exact h)) := by simp
    split
    · rename_i hw
      obtain ⟨e, x, y, z, u, v⟩ := ih (by omega)
      refine ⟨e, x, by omega, z, ?_, v⟩
      intro i h1 h2 c hc
      by_cases hi : i = b
      · subst hi; rw [hg] at hc; cases hc; exact hw
      · exact u i (by omega) h2 c hc
    · rename_i hw
      refine ⟨b, rfl, Nat.le_refl _, hb, fun i h1 h2 => by omega, ?_⟩
      intro c hc
      rw [hg] at hc; cases hc; simpa using hw
  | case2 b h =>
    refine ⟨b, rfl, Nat.le_refl _, hb, fun i h1 h2 => by omega, ?_⟩
    intro c hc
    rw [List.getElem?_eq_none (by rw [chars_length hs]; omega)] at hc; cases hc

theorem trimRight_ok {s : Str} (hs : WF s) (n : Nat) (hn : n ≤ s.len) :
    ∃ e, trimRight s n = .ok e ∧ e ≤ n ∧ (∀ i, e ≤ i → i < n → ∀ c, (chars s)[i]? = some c → isWhitespace c) ∧
      (0 < e → ∀ c, (chars s)[e - 1]? = some c → isWhitespace c = false) := by
  induction n with
  | zero => exact ⟨0, rfl, Nat.le_refl _, fun i h1 h2 => by omega, fun h => by omega⟩
  | succ n ih =>
    unfold trimRight
    rw [rd_chars hs (by omega)]
    simp only [bind, Except.bind, pure, Except.pure]
    have hg : (chars s)[n]? = some ((chars s)[n]'(by rw [chars_length hs]; omega)) := by simp
    split
    · rename_i hw
      obtain ⟨e, x, y, u, v⟩ := ih (by omega)
      refine ⟨e, x, by omega, ?_, v⟩
      intro i h1 h2 c hc
      by_cases hi : i = n
      · subst hi; rw [hg] at hc; cases hc; exact hw
      · exact u i h1 (by omega) c hc
    · rename_i hw
      refine ⟨n + 1, rfl, Nat.le_refl _, fun i h1 h2 => by omega, ?_⟩
      intro _ c hc
      rw [Nat.add_sub_cancel, hg] at hc; cases hc; simpa using hw

/-! ### Properties -/

/-- **C10 (substring).** `substring(b, e)` is the sequence of the characters at the positions
`b ≤ i < e` that exist, for all integers `b`, `e`. -/
theorem substring_spec {s : Str} (hs : WF s) (b e : Int) :
    ∃ r, substring s b e = .ok r ∧ WF r ∧ chars r = sub (chars s) b e ∧
      ∀ k : Nat, (chars r)[k]? = if (b.toNat + k : Nat) < e.toNat then (chars s)[b.toNat + k]? else none := by
  obtain ⟨r, x, y, z, _⟩ := substring_ok hs b e
  refine ⟨r, x, y, z, ?_⟩
  intro k
  rw [z, sub, List.getElem?_drop, List.getElem?_take]

/-- **C10 (substring, one argument).** -/
theorem substringFrom_spec {s : Str} (hs : WF s) (b : Int) :
    ∃ r, substringFrom s b = .ok r ∧ WF r ∧ chars r = (chars s).drop b.toNat := by
  obtain ⟨r, x, y, z, _⟩ := substring_ok hs b s.len
  refine ⟨r, x, y, ?_⟩
  rw [z, sub, Int.toNat_natCast, List.take_of_length_le (by rw [chars_length hs]; omega)]

theorem all_of_range {l : List Ch} {a b : Nat} (h : ∀ i, a ≤ i → i < b → ∀ c, l[i]? = some c → isWhitespace c) :
    ∀ c ∈ (l.take b).drop a, isWhitespace c := by
  intro c hc
  obtain ⟨i, hi⟩ := List.mem_iff_getElem?.1 hc
  rw [List.getElem?_drop, List.getElem?_take] at hi
  split at hi
  · exact h (a + i) (by omega) ‹_› c hi
  · cases hi

/-- **C10 (trim).** `trim` removes exactly the leading and trailing white space. -/
theorem trim_spec {s : Str} (hs : WF s) :
    ∃ r, trim s = .ok r ∧ WF r ∧ IsTrim (chars s) (chars r) := by
  have hlen := chars_length hs
  unfold trim
  split
  · rename_i h
    refine ⟨empty, rfl, empty_wf, [], [], ?_, by simp, by simp, by simp [empty_chars], by simp [empty_chars]⟩
    have : (chars s).length = 0 := by omega
    rw [List.eq_nil_of_length_eq_zero this]; rfl
  · obtain ⟨b, e1, hb0, hb1, hb2, hb3⟩ := trimLeft_ok hs 0 (by omega)
    obtain ⟨e, e2, he1, he2, he3⟩ := trimRight_ok hs s.len (Nat.le_refl _)
    simp only [e1, e2, bind, Except.bind, pure, Except.pure]
    split
    · rename_i hle
      refine ⟨empty, rfl, empty_wf, chars s, [], by simp [empty_chars], ?_, by simp, by simp [empty_chars], by simp [empty_chars]⟩
      intro c hc
      obtain ⟨i, hi⟩ := List.mem_iff_getElem?.1 hc
      by_cases h1 : i < b
      · exact hb2 i (by omega) h1 c hi
      · have : i < (chars s).length := by
          by_cases h2 : i < (chars s).length
          · exact h2
          · rw [List.getElem?_eq_none (by omega)] at hi; cases hi
        exact he2 i (by omega) (by omega) c hi
    · rename_i hle
      obtain ⟨r, x, y, z, _⟩ := substring_ok hs b e
      refine ⟨r, x, y, ?_⟩
      rw [z]
      unfold sub
      rw [Int.toNat_natCast, Int.toNat_natCast]
      refine ⟨(chars s).take b, (chars s).drop e, ?_, ?_, ?_, ?_, ?_⟩
      · have h1 : (chars s).take b = ((chars s).take e).take b := by
          rw [List.take_take, Nat.min_eq_left (by omega)]
        rw [h1, List.take_append_drop, List.take_append_drop]
      · have := all_of_range (l := chars s) (a := 0) (b := b) (fun i a b c hc => hb2 i a b c hc)
        simpa using this
      · intro c hc
        have := all_of_range (l := chars s) (a := e) (b := s.len) he2 c
        rw [List.take_of_length_le (by omega)] at this
        exact this hc
      · intro c hc
        rw [List.head?_eq_getElem?, List.getElem?_drop, List.getElem?_take, if_pos (by omega)] at hc
        exact hb3 c hc
      · intro c hc
        rw [List.getLast?_eq_getElem?, List.getElem?_drop, List.getElem?_take] at hc
        simp only [List.length_drop, List.length_take, hlen] at hc
        rw [if_pos (by omega), show b + (min e s.len - b - 1) = e - 1 by omega] at hc
        exact he3 (by omega) c hc

/-- The result of trimming is unique: the specification determines it. -/
theorem isTrim_unique {l r r' : List Ch} (h : IsTrim l r) (h' : IsTrim l r') : r = r' := by
  obtain ⟨p, q, e, hp, hq, hh, hl⟩ := h
  obtain ⟨p', q', e', hp', hq', hh', hl'⟩ := h'
  have key : ∀ {p q p' q' r r' : List Ch}, p ++ r ++ q = p' ++ r' ++ q' → (∀ c ∈ p', isWhitespace c) → (∀ c ∈ q', isWhitespace c) →
      (∀ c, r.head? = some c → isWhitespace c = false) → r ≠ [] → p'.length ≤ p.length := by
    intro p q p' q' r r' e hp' hq' hh hne
    apply Decidable.byContradiction
    intro hn
    cases r with
    | nil => exact hne rfl
    | cons c r =>
      have h1 : (p ++ (c :: r) ++ q)[p.length]? = some c := by simp
      rw [e, List.append_assoc, List.getElem?_append_left (by omega)] at h1
      have := hp' c (List.mem_of_getElem? h1)
      rw [hh c rfl] at this; cases this
  have nil_case : ∀ {p q p' q' r r' : List Ch}, p ++ r ++ q = p' ++ r' ++ q' → (∀ c ∈ p', isWhitespace c) → (∀ c ∈ q', isWhitespace c) →
      (∀ c, r.head? = some c → isWhitespace c = false) → r' = [] → r = [] := by
    intro p q p' q' r r' e hp' hq' hh hr'
    cases r with
    | nil => rfl
    | cons c r =>
      have : c ∈ p' ++ r' ++ q' := by rw [← e]; simp
      rw [hr'] at this
      simp at this
      have hw : isWhitespace c = true := this.elim (hp' c) (hq' c)
      rw [hh c rfl] at hw; cases hw
  by_cases hr : r = []
  · rw [hr, nil_case (e'.symm.trans e) hp hq hh' hr]
  · by_cases hr' : r' = []
    · exact absurd (nil_case (e.symm.trans e') hp' hq' hh hr') hr
    · have l1 := key (e.symm.trans e') hp' hq' hh hr
      have l2 := key (e'.symm.trans e) hp hq hh' hr'
      have rev : ∀ {p q r : List Ch}, (p ++ r ++ q).reverse = q.reverse ++ r.reverse ++ p.reverse := by
        intro p q r; simp [List.append_assoc]
      have er : q.reverse ++ r.reverse ++ p.reverse = q'.reverse ++ r'.reverse ++ p'.reverse := by
        rw [← rev, ← rev, ← e, ← e']
      have m1 := key er (by simpa using hq') (by simpa using hp') (by simpa using hl) (by simpa using hr)
      have m2 := key er.symm (by simpa using hq) (by simpa using hp) (by simpa using hl') (by simpa using hr')
      have hpl : p.length = p'.length := by omega
      have hql : q.length = q'.length := by simp at m1 m2; omega
      have ee := e.symm.trans e'
      have := List.append_inj' ee hql
      exact (List.append_inj this.1 hpl).2

/-- **C10 (trim is idempotent).** -/
theorem trim_idempotent {s : Str} (hs : WF s) :
    ∃ r r', trim s = .ok r ∧ trim r = .ok r' ∧ chars r' = chars r := by
  obtain ⟨r, e, w, t⟩ := trim_spec hs
  obtain ⟨r', e', _, t'⟩ := trim_spec w
  refine ⟨r, r', e, e', ?_⟩
  obtain ⟨_, _, _, _, _, h1, h2⟩ := t
  exact isTrim_unique t' ⟨[], [], by simp, by simp, by simp, h1, h2⟩

/-- **C10 (reverse).** -/
theorem reverse_spec {s : Str} (hs : WF s) : ∃ r, reverse s = .ok r ∧ WF r ∧ chars r = (chars s).reverse := by
  unfold reverse
  obtain ⟨r, e, wr, cr, _, rl, rb⟩ := copyCtor_ok hs
  have hlen := chars_length hs
  unfold WF at wr
  obtain ⟨w, e2, wl, hw⟩ := revLoop_ok s.len 0 (s.len - 1) r.buf (by omega) (by omega) (by omega)
  simp only [e, e2, bind, Except.bind, pure, Except.pure]
  refine ⟨_, rfl, by simp [WF]; omega, ?_⟩
  apply chars_eq
  · simp [hlen, rl]
  · simp only
    intro i hi
    rw [hw, if_pos (by omega), List.getElem?_reverse (by omega), ← cr, chars_get?, if_pos (by rw [cr]; omega), cr, hlen]

/-- **C10 (reverse is an involution).** -/
theorem reverse_reverse {s : Str} (hs : WF s) :
    ∃ r r', reverse s = .ok r ∧ reverse r = .ok r' ∧ chars r' = chars s := by
  obtain ⟨r, e, w, t⟩ := reverse_spec hs
  obtain ⟨r', e', _, t'⟩ := reverse_spec w
  exact ⟨r, r', e, e', by rw [t', t, List.reverse_reverse]⟩

/-- **C10 (case, character replacement).** These change each character independently. -/
theorem toLowerCase_spec {s : Str} (hs : WF s) : ∃ r, toLowerCase s = .ok r ∧ WF r ∧ chars r = (chars s).map toLowerCh :=
  mapped_ok hs _
theorem toUpperCase_spec {s : Str} (hs : WF s) : ∃ r, toUpperCase s = .ok r ∧ WF r ∧ chars r = (chars s).map toUpperCh :=
  mapped_ok hs _
theorem replaceChar_spec {s : Str} (hs : WF s) (a b : Ch) :
    ∃ r, replaceChar s a b = .ok r ∧ WF r ∧ chars r = (chars s).map (fun c => if c = a then b else c) :=
  mapped_ok hs _

theorem lower_toNat (c : Ch) : (toLowerCh c).toNat = if 0x41 ≤ c.toNat ∧ c.toNat ≤ 0x5a then c.toNat + 0x20
    else if c.toNat = 0xC4 then 0xE4 else if c.toNat = 0xD6 then 0xF6 else if c.toNat = 0xDC then 0xFC else c.toNat := by
  unfold toLowerCh
  simp only [← BitVec.toNat_inj, BitVec.toNat_ofNat]
  repeat' split
  all_goals simp_all [BitVec.toNat_add]
  all_goals omega

theorem upper_toNat (c : Ch) : (toUpperCh c).toNat = if 0x61 ≤ c.toNat ∧ c.toNat ≤ 0x7a then c.toNat - 0x20
    else if c.toNat = 0xE4 then 0xC4 else if c.toNat = 0xF6 then 0xD6 else if c.toNat = 0xFC then 0xDC else c.toNat := by
  unfold toUpperCh
  simp only [← BitVec.toNat_inj, BitVec.toNat_ofNat]
  repeat' split
  all_goals simp_all [BitVec.toNat_sub]
  all_goals omega

/-- Case change is idempotent and leaves a string the case-insensitive comparison identifies. -/
theorem lower_upper_char (c : Ch) : toLowerCh (toLowerCh c) = toLowerCh c ∧ toUpperCh (toUpperCh c) = toUpperCh c ∧
    toLowerCh (toUpperCh c) = toLowerCh c ∧ toUpperCh (toLowerCh c) = toUpperCh c := by
  have hl := lower_toNat
  have hu := upper_toNat
  refine ⟨?_, ?_, ?_, ?_⟩ <;> apply BitVec.eq_of_toNat_eq <;> simp only [hl, hu] <;> (repeat' split) <;> omega

/-- **C10 (count).** -/
theorem count_spec {s : Str} (hs : WF s) (c : Ch) : count s c = .ok ((chars s).count c) := by
  have key : ∀ i n, i ≤ s.len → countLoop s c i n = .ok (n + ((chars s).drop i).count c) := by
    intro i n hi
    fun_induction countLoop s c i n with
    | case1 i n h ih =>
      rw [rd_chars hs h]
      simp only [bind, Except.bind]
      have hi' : i < (chars s).length := by rw [chars_length hs]; exact h
      have ih := ih (chars s)[i] (by omega)
      rw [List.drop_eq_getElem_cons (i := i) hi', List.count_cons]
      rw [dite_eq_ite] at ih
      rw [ih]
      by_cases hx : (chars s)[i] = c
      · simp [hx]; omega
      · simp [hx]
    | case2 i n h => rw [List.drop_eq_nil_of_le (by rw [chars_length hs]; omega)]; rfl
  unfold count
  rw [key 0 0 (by omega)]; simp

/-- Non-vacuity: " ab c " trims to "ab c". -/
example : (do let s ← ofChars [0x20, 0x61, 0x62, 0x20, 0x63, 0x09]; let r ← trim s; return chars r) =
    .ok [0x61, 0x62, 0x20, 0x63] := by decide +kernel

end Verif.Str.PartProps
