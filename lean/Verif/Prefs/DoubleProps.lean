import Verif.Prefs.Props
import Verif.DoubleText.Props
set_option linter.unusedVariables false
/-
C66: doubles in Preferences.
-/
namespace Verif.Prefs

/-- Preferences.cpp:210-213 `setValue(String, double)` -/
def setDouble (h : List Str.Ch → BitVec 64) (p : Prefs) (key : List Str.Ch) (x : Fp.F64) : Res Prefs := do
  let s ← Str.ofChars (DoubleText.valueOf x)
  setValue h p key s

/-- Preferences.cpp:251-266 `valueDouble`: `toDouble` does not throw -/
def valueDouble (h : List Str.Ch → BitVec 64) (p : Prefs) (key : List Str.Ch) (default : Fp.F64) : Res Fp.F64 := do
  let r ← value h p key
  if r.len = 0 then return default else return DoubleText.toDouble (Str.chars r)

end Verif.Prefs

namespace Verif.Prefs.Props
open Verif Verif.Str Verif.Prefs Verif.Prefs.Spec Verif.Prefs.Lemmas Verif.DoubleText Verif.DoubleText.Spec

attribute [local irreducible] Fp.one Fp.lit Fp.val Fp.units DoubleText.valueOf DoubleText.toDouble

/-- a character that needs no treatment -/
def PlainCh (c : Ch) : Prop := c ≠ 0x0D ∧ c ≠ 0x0A ∧ c ≠ 0 ∧ c ≠ 0x5C ∧ isWhitespace c = false

theorem plain_chars {l : List Ch} (hl : ∀ c ∈ l, PlainCh c) : PlainValue l := by
  refine ⟨fun x => (hl _ x).1 rfl, fun x => (hl _ x).2.1 rfl, fun x => (hl _ x).2.2.1 rfl, ?_, ?_, ?_, ?_⟩
  · rintro ⟨a, b, rfl⟩
    exact (hl 0x5C (by simp)).2.2.2.1 rfl
  · intro c hh hw
    rw [(hl c (List.mem_of_mem_head? hh)).2.2.2.2] at hw; cases hw
  · intro c hh hw
    rw [(hl c (List.mem_of_getLast? hh)).2.2.2.2] at hw; cases hw
  · intro hh
    exact absurd rfl (hl _ (List.mem_of_getLast? hh)).2.2.2.1

/-- the texts of numbers are plain values and not empty -/
theorem numeral_plain (n : Numeral) (hv : n.Valid) : PlainValue n.text ∧ n.text ≠ [] := by
  have hd : ∀ l : List Ch, (∀ c ∈ l, isDigit c = true) → ∀ c ∈ l, PlainCh c := fun l hl c hc => plain_digit (.inl (hl c hc))
  have hs : ∀ (s : Sign), ∀ c ∈ s.text, PlainCh c := by
    intro s c hc
    cases s with
    | none => simp [Sign.text] at hc
    | plus => rw [show c = 0x2b by simpa [Sign.text] using hc]; unfold PlainCh; decide
    | minus => rw [show c = 0x2d by simpa [Sign.text] using hc]; unfold PlainCh; decide
  refine ⟨plain_chars ?_, ?_⟩
  · intro c hc
    unfold Numeral.text at hc
    simp only [List.mem_append] at hc
    rcases hc with ((hc | hc) | hc) | hc
    · exact hs _ c hc
    · exact hd _ hv.whole c hc
    · have hf := hv.frac
      unfold Numeral.fracDigits at hf
      cases hfr : n.frac with
      | none => rw [hfr] at hc; simp [fracText] at hc
      | some f =>
        rw [hfr] at hc hf
        rcases List.mem_cons.1 hc with hc | hc
        · rw [hc]; unfold PlainCh; decide
        · exact hd _ hf c hc
    · cases he : n.exp with
      | none => rw [he] at hc; simp [expoText] at hc
      | some e =>
        obtain ⟨up, s, ds⟩ := e
        rw [he] at hc
        simp only [expoText, List.mem_cons, List.mem_append] at hc
        rcases hc with hc | hc | hc
        · rw [hc]; unfold PlainCh; cases up <;> decide
        · exact hs s c hc
        · exact hd _ (hv.exp _ he).2 c hc
  · intro h
    have h1 := hv.digits
    unfold Numeral.text at h
    simp only [List.append_eq_nil_iff] at h
    obtain ⟨⟨⟨-, hw⟩, hf⟩, -⟩ := h
    apply h1
    rw [hw]
    unfold Numeral.fracDigits
    cases hfr : n.frac with
    | none => rfl
    | some f => rw [hfr] at hf; simp [fracText] at hf

/-- **C66 (doubles, partial).** After `setValue(key, double)`, for every finite double and every history before,
`valueDouble` of this key yields a double that differs by at most a billionth, whatever the default, and exactly the
stored one if it is the nearest double to a number with at most ten significant digits.  Other keys keep their value;
the stored text can be saved and loaded. -/
theorem double_roundtrip_partial {h : List Ch → BitVec 64} {p : Prefs} {m : Map} (r : Reached h p m) (k : List Ch) (x : Fp.F64)
    (hx : Fp.Finite x) :
    ∃ q t y, setDouble h p k x = .ok q ∧ PlainValue t ∧ Reached h q (fun x => if x = k then some t else m x) ∧
      (∀ d, valueDouble h q k d = .ok y) ∧ Fp.Finite y ∧ |Fp.val y - Fp.val x| ≤ |Fp.val x| / 10 ^ 9 ∧
      ∀ v, Fp.Rounds x v → Normal v → Ten v → y = x := by
  obtain ⟨n, hv, ht, -, -, -⟩ := valueOf_ten x hx
  obtain ⟨hpl, hne⟩ := numeral_plain n hv
  obtain ⟨hf, hclose⟩ := roundtrip_close x hx
  have hret : ∀ v, Fp.Rounds x v → Normal v → Ten v → toDouble (valueOf x) = x :=
    fun v h1 h2 h3 => (ten_returns hx h1 h2 h3).2
  rw [← ht] at hpl hne
  generalize hT : DoubleText.valueOf x = t at *
  obtain ⟨s, e2, w2, c2⟩ := EditProps.constructed t
  have hcr : (chars s).getLast? ≠ some 0x0D := by
    rw [c2]; intro hx; exact hpl.1 (List.mem_of_getLast? hx)
  obtain ⟨q, e3, J⟩ := setValue_ok (reached_inv r) k w2 hcr
  have R := reached_step r w2 hcr e3
  simp only [step, c2, oneLine_id (l := t) hpl.1 hpl.2.1] at R
  refine ⟨q, t, toDouble t, by simp only [setDouble, hT, e2, bind, Except.bind]; exact e3, hpl, R, ?_, hf, hclose, hret⟩
  intro d
  obtain ⟨v, e4, w4, c4⟩ := value_ok (reached_inv R) k
  simp only [if_true, Option.getD_some] at c4
  have hlen := chars_length w4
  have hpos := List.length_pos_iff.2 hne
  simp only [valueDouble, e4, bind, Except.bind, pure, Except.pure]
  rw [if_neg (by rw [← hlen, c4]; omega), c4]

/-- `valueDouble` of a missing key or an empty value yields the default. -/
theorem double_default {h : List Ch → BitVec 64} {p : Prefs} {m : Map} (r : Reached h p m) (k : List Ch)
    (hk : m k = none ∨ m k = some []) (d : Fp.F64) : valueDouble h p k d = .ok d := by
  obtain ⟨v, e, w, c⟩ := value_ok (reached_inv r) k
  have hlen := chars_length w
  have h0 : v.len = 0 := by
    rw [← hlen, c]
    rcases hk with hk | hk <;> rw [hk] <;> rfl
  simp only [valueDouble, e, bind, Except.bind, if_pos h0, pure, Except.pure]

/-- Unlike `valueInt` it does not yield the default for text that is no number, but 0. -/
theorem double_of_text {h : List Ch → BitVec 64} {p : Prefs} {m : Map} (r : Reached h p m) (k t : List Ch) (hne : t ≠ [])
    (ht : ∀ c, (takeSign (t.dropWhile isSpace)).2.head? = some c → isDigit c = false ∧ c ≠ 0x2e) (hk : m k = some t) (d : Fp.F64) :
    valueDouble h p k d = .ok Fp.zero := by
  obtain ⟨v, e, w, c⟩ := value_ok (reached_inv r) k
  rw [hk, Option.getD_some] at c
  have hlen := chars_length w
  have hpos := List.length_pos_iff.2 hne
  simp only [valueDouble, e, bind, Except.bind, pure, Except.pure]
  rw [if_neg (by rw [← hlen, c]; omega), c, toDouble_no_number t ht]

-- the hypotheses are met
example : Fp.Finite (Fp.lit 1 10) ∧ Ten (1 / 10) ∧ ∀ h : List Ch → BitVec 64, Reached h Prefs.new (fun _ => none) := by
  refine ⟨by decide +kernel, ⟨1, -1, by decide, by norm_num⟩, fun h => ⟨[], [], by simp, rfl, rfl⟩⟩
example : ∀ c, (takeSign ((txt " on").dropWhile isSpace)).2.head? = some c → isDigit c = false ∧ c ≠ 0x2e := by
  intro c hc
  have : c = 0x6f := by
    have h : (takeSign ((txt " on").dropWhile isSpace)).2.head? = some 0x6f := by decide
    rw [h] at hc; exact (Option.some.inj hc).symm
  rw [this]; decide

end Verif.Prefs.Props
