import Verif.Prefs.StrLemmas
import Verif.Str.PartProps
set_option linter.unusedVariables false
set_option linter.unusedSimpArgs false
/-
Preferences: what happens to one line of a file.
-/
namespace Verif.Prefs.Lemmas
open Verif Verif.Str Verif.Prefs Verif.Prefs.Spec Verif.Str.SearchProps Verif.Str.SafeProps Verif.Str.PartProps

/-- the copy made by `substring` is terminated unless it fills whole blocks -/
theorem takeRange_zero {s r : Str} (hs : WF s) {b n : Int} (hb : 0 ≤ b) (hn : b + n ≤ s.len)
    (e : takeRange s b n = .ok r) (h : r.len % 16 ≠ 0) : r.buf[r.len]? = some 0 := by
  unfold takeRange at e
  split at e
  · obtain ⟨k, rfl⟩ := Int.eq_ofNat_of_zero_le (show 0 ≤ n by omega)
    unfold WF at hs
    simp only [checkCapacity, Int.toNat_natCast] at e
    split at e
    · simp only [bind, Except.bind, pure, Except.pure] at e
      rename_i hk
      have hk' : k < 16 := by simpa [Verif.Str.empty, newBuf] using hk
      rw [memcpy_ok (by simp [Verif.Str.empty, newBuf]; omega) (by omega)] at e
      injection e with e
      subst e
      simp only [List.take_zero, List.nil_append]
      have hl : ((s.buf.drop b.toNat).take k).length = k := by simp; omega
      rw [List.getElem?_append_right (by omega), hl]
      simp only [Verif.Str.empty, newBuf, List.drop_replicate, Nat.zero_add, Nat.sub_self]
      rw [List.getElem?_replicate, if_pos (by omega)]
    · have h0 : Verif.Str.empty.len = 0 := rfl
      rw [memcpy0 (by rw [h0]; omega) (by simp [h0])] at e
      simp only [bind, Except.bind, pure, Except.pure, h0, List.take_zero, List.nil_append, Nat.sub_zero, Nat.zero_add] at e
      rw [memcpy_ok (by simp [newBuf]; exact round16_ge _) (by omega)] at e
      injection e with e
      subst e
      simp only [List.take_zero, List.nil_append] at h ⊢
      have hl : ((s.buf.drop b.toNat).take k).length = k := by simp; omega
      rw [List.getElem?_append_right (by omega), hl]
      have : k < round16 k := by
        have : k % 16 ≠ 0 := h
        rw [round16, if_pos this]
        omega
      simp only [newBuf, List.drop_replicate, Nat.zero_add, Nat.sub_self]
      rw [List.getElem?_replicate, if_pos (by omega)]
  · injection e with e
    subst e
    simp [Verif.Str.empty] at h

theorem substring_zero {s r : Str} (hs : WF s) {b e : Int} (h : substring s b e = .ok r) (hr : r.len % 16 ≠ 0) :
    r.buf[r.len]? = some 0 := by
  unfold substring at h
  dsimp only at h
  refine takeRange_zero hs ?_ ?_ h hr
  · split <;> omega
  · generalize (if b < 0 then 0 else b) = b'
    generalize (if e < b' then b' else e) = e'
    split <;> omega

theorem trim_zero {s r : Str} (hs : WF s) (h : trim s = .ok r) (hr : r.len % 16 ≠ 0) : r.buf[r.len]? = some 0 := by
  unfold trim at h
  split at h
  · injection h with h; subst h; simp [Verif.Str.empty] at hr
  · obtain ⟨b, e1, _⟩ := trimLeft_ok hs 0 (by omega)
    obtain ⟨e, e2, _⟩ := trimRight_ok hs s.len (Nat.le_refl _)
    simp only [e1, e2, bind, Except.bind, pure, Except.pure] at h
    split at h
    · injection h with h; subst h; simp [Verif.Str.empty] at hr
    · exact substring_zero hs h hr

/-- text without outer white space is left alone by `trim` -/
theorem trim_id {s : Str} (hs : WF s) (h1 : ∀ c, (chars s).head? = some c → isWhitespace c = false)
    (h2 : ∀ c, (chars s).getLast? = some c → isWhitespace c = false) :
    ∃ r, trim s = .ok r ∧ WF r ∧ chars r = chars s := by
  obtain ⟨r, e, w, t⟩ := trim_spec hs
  exact ⟨r, e, w, isTrim_unique t ⟨[], [], by simp, by simp, by simp, h1, h2⟩⟩

/-- without the pair `\n` the loop which makes line breaks does nothing -/
theorem breaksLoop_id {s : Str} (hs : WF s) (h : ∀ a b, chars s ≠ a ++ cBackslash :: cN :: b)
    (hl : (chars s).getLast? = some cBackslash → s.buf[s.len]? = some 0) (fuel : Nat) :
    breaksLoop (fuel + 1) s = .ok s := by
  obtain ⟨p, e, w, c⟩ := EditProps.constructed [cBackslash, cN]
  have hsafe : Safe s p := by
    by_cases hb : (chars s).getLast? = some cBackslash
    · exact safe_of_zero hs w (hl hb) (by rw [c]; decide)
    · exact safe_of_noOverhang hs w (by rw [c]; exact noOverhang_pair hb)
  obtain ⟨r, e2, f⟩ := indexOfStr_safe hs hsafe 0
  unfold breaksLoop
  simp only [e, e2, bind, Except.bind, pure, Except.pure]
  have hr : ¬ r > 0 := by
    rcases f with ⟨f, _⟩ | ⟨a, rfl, _, ⟨_, f⟩, _⟩
    · omega
    · exfalso
      rw [c] at f
      obtain ⟨t, ht⟩ := f
      refine h ((chars s).take a) t ?_
      conv => lhs; rw [← List.take_append_drop a (chars s), ← ht]
      simp
  rw [if_neg hr]

/-! ### the escaped form of plain values -/

theorem escape_eq_nil {v : List Ch} (h : escape v = []) : v = [] := by
  cases v with
  | nil => rfl
  | cons c l => simp only [escape] at h; split at h <;> (try split at h) <;> cases h

theorem escape_head {v : List Ch} (h : ∀ c, v.head? = some c → isWhitespace c = true → c = 9) :
    ∀ c, (escape v).head? = some c → isWhitespace c = false := by
  cases v with
  | nil => simp [escape]
  | cons d l =>
    intro c hc
    simp only [escape] at hc
    split at hc
    · simp at hc; subst hc; decide
    · split at hc
      · simp at hc; subst hc; decide
      · simp at hc; subst hc
        cases hw : isWhitespace d with
        | false => rfl
        | true => exact absurd (h d rfl hw) ‹_›

theorem escape_append (a b : List Ch) : escape (a ++ b) = escape a ++ escape b := by
  induction a with
  | nil => rfl
  | cons c a ih =>
    simp only [List.cons_append, escape, ih]
    split
    · rfl
    · split <;> rfl

theorem escape_last {v : List Ch} (h : ∀ c, v.getLast? = some c → isWhitespace c = true → c = 9) :
    ∀ c, (escape v).getLast? = some c → isWhitespace c = false := by
  rcases List.eq_nil_or_concat v with rfl | ⟨l, d, rfl⟩
  · simp [escape]
  · intro c hc
    rw [List.concat_eq_append] at *
    rw [escape_append] at hc
    simp only [escape] at hc
    split at hc
    · simp at hc; subst hc; decide
    · split at hc
      · simp at hc; subst hc; decide
      · simp at hc; subst hc
        cases hw : isWhitespace d with
        | false => rfl
        | true => exact absurd (h d (by simp) hw) ‹_›

theorem escape_last_backslash {v : List Ch} (h : (escape v).getLast? = some cBackslash) : v.getLast? = some cBackslash := by
  rcases List.eq_nil_or_concat v with rfl | ⟨l, d, rfl⟩
  · simp [escape] at h
  · rw [List.concat_eq_append] at *
    rw [escape_append] at h
    simp only [escape] at h
    split at h
    · rename_i e; subst e; simp [cBackslash]
    · split at h
      · simp [cBackslash] at h
      · simpa using h

/-- the pair `\n` appears in the escaped form only if it appears in the value -/
theorem escape_pair {v : List Ch} (h : ∃ a b, escape v = a ++ cBackslash :: cN :: b) : ∃ a b, v = a ++ cBackslash :: cN :: b := by
  induction v with
  | nil => obtain ⟨a, b, e⟩ := h; simp [escape] at e
  | cons c l ih =>
    obtain ⟨a, b, e⟩ := h
    simp only [escape] at e
    have rest : ∀ a', escape l = a' ++ cBackslash :: cN :: b → ∃ a b, c :: l = a ++ cBackslash :: cN :: b := by
      intro a' e'
      obtain ⟨x, y, z⟩ := ih ⟨a', b, e'⟩
      exact ⟨c :: x, y, by rw [z]; rfl⟩
    split at e
    · rename_i hc
      match a, e with
      | [], e => simp [cN] at e
      | [_], e =>
        simp at e
        obtain ⟨_, _, e⟩ := e
        cases l with
        | nil => simp [escape] at e
        | cons d l =>
          simp only [escape] at e
          split at e
          · simp [cN] at e
          · split at e
            · simp [cN] at e
            · simp at e
              exact ⟨[], l, by rw [hc, e.1]; rfl⟩
      | _ :: _ :: a, e => simp at e; exact rest a e.2.2
    · split at e
      · match a, e with
        | [], e => simp [cN] at e
        | [_], e => simp [cBackslash] at e
        | _ :: _ :: a, e => simp at e; exact rest a e.2.2
      · match a, e with
        | [], e => simp at e; exact absurd e.1 (by simpa [cBackslash] using ‹¬ c = 0x5C›)
        | _ :: a, e => simp at e; exact rest a e.2

/-- reading back the value part of a line -/
theorem lineValue_ok {line : Str} (hs : WF line) {k v : List Ch} (hl : chars line = k ++ cEquals :: escape v) (hv : PlainValue v) :
    ∃ r, lineValue line k.length = .ok r ∧ WF r ∧ chars r = v := by
  obtain ⟨h1, h2, h3, h4, h5, h6, h7⟩ := hv
  obtain ⟨a, e1, w1, c1⟩ := substringFrom_spec hs ((k.length : Int) + 1)
  have c1' : chars a = escape v := by
    rw [c1, hl, show ((k.length : Int) + 1).toNat = k.length + 1 by omega]; simp
  obtain ⟨t, e2, w2, c2⟩ := trim_id w1 (by rw [c1']; exact escape_head h5) (by rw [c1']; exact escape_last h6)
  have hlen := chars_length w2
  rw [c1'] at c2
  have e3 := breaksLoop_id w2 (fun x y e => h4 (escape_pair ⟨x, y, by rw [← c2]; exact e⟩)) (by
    intro hb
    refine trim_zero w1 e2 ?_
    rw [← hlen, c2]
    rw [c2] at hb
    exact h7 (escape_last_backslash hb)) t.len
  obtain ⟨r, e4, w4, c4⟩ := unescapeLoop_ok _ (escape v) (t.len + 1) [] t rfl w2 (by rw [c2]; rfl) (by rw [← c2, hlen]; omega)
  refine ⟨r, ?_, w4, by rw [c4, unesc_escape]; rfl⟩
  simp only [lineValue, e1, e2, e3, bind, Except.bind]
  exact e4

end Verif.Prefs.Lemmas
