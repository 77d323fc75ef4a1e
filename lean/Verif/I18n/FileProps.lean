import Verif.I18n.Model
import Verif.I18n.Spec
import Verif.Str.SearchProps
import Verif.Str.PartProps
/-
C87: the choice of the translation file.
-/
namespace Verif.I18n
open Verif Verif.Str Verif.Str.SearchProps Verif.Str.PartProps Verif.I18n.Spec

theorem plus_ok {s t : Str} (hs : WF s) (ht : WF t) : ∃ r, plus s t = .ok r ∧ WF r ∧ chars r = chars s ++ chars t := by
  obtain ⟨c, e, wc, cc, _⟩ := copyCtor_ok hs
  obtain ⟨r, e2, wr, cr, _⟩ := append_ok wc ht
  exact ⟨r, by simp only [plus, e, bind, Except.bind, e2], wr, by rw [cr, cc]⟩

theorem lit_units (s : String) : lit s = units s := rfl

theorem withName_ok {d f l : Str} (hd : WF d) (hf : WF f) (hl : WF l) :
    ∃ r, withName d f l = .ok r ∧ WF r ∧ chars r = chars d ++ chars f ++ units "." ++ chars l ++ units ".mo" := by
  obtain ⟨a, e1, w1, c1⟩ := plus_ok hd hf
  obtain ⟨dot, e2, w2, c2, _⟩ := ofChars_ok (lit ".")
  obtain ⟨b, e3, w3, c3⟩ := plus_ok w1 w2
  obtain ⟨c, e4, w4, c4⟩ := plus_ok w3 hl
  obtain ⟨mo, e5, w5, c5, _⟩ := ofChars_ok (lit ".mo")
  obtain ⟨r, e6, w6, c6⟩ := plus_ok w4 w5
  exact ⟨r, by simp only [withName, e1, e2, e3, e4, e5, e6, bind, Except.bind], w6, by rw [c6, c5, c4, c3, c2, c1, lit_units, lit_units]⟩

theorem withoutName_ok {d l : Str} (hd : WF d) (hl : WF l) :
    ∃ r, withoutName d l = .ok r ∧ WF r ∧ chars r = chars d ++ chars l ++ units ".mo" := by
  obtain ⟨a, e1, w1, c1⟩ := plus_ok hd hl
  obtain ⟨mo, e5, w5, c5, _⟩ := ofChars_ok (lit ".mo")
  obtain ⟨r, e6, w6, c6⟩ := plus_ok w1 w5
  exact ⟨r, by simp only [withoutName, e1, e5, e6, bind, Except.bind], w6, by rw [c6, c5, c1, lit_units]⟩

theorem translationsDir_ok : ∃ r, translationsDir = .ok r ∧ WF r ∧ chars r = units "translations/" := by
  obtain ⟨d, e1, w1, c1, _⟩ := ofChars_ok (lit "translations")
  obtain ⟨r, e2, w2, c2, _⟩ := appendChar_ok w1 (BitVec.ofNat 16 '/'.toNat)
  exact ⟨r, by simp only [translationsDir, e1, e2, bind, Except.bind], w2, by rw [c2, c1]; decide +kernel⟩

theorem takeWhile_first (u : Ch) : ∀ (l : List Ch) (a : Nat), l[a]? = some u → (∀ b, b < a → l[b]? ≠ some u) →
    l.takeWhile (fun x => x ≠ u) = l.take a
  | [], a, h, _ => by simp at h
  | x :: l, 0, h, _ => by
    simp only [List.getElem?_cons_zero, Option.some.injEq] at h
    rw [List.takeWhile_cons_of_neg (by simp [h]), List.take_zero]
  | x :: l, a + 1, h, hb => by
    have hx : x ≠ u := fun e => hb 0 (by omega) (by rw [List.getElem?_cons_zero, e])
    rw [List.takeWhile_cons_of_pos (by simpa using hx), List.take_succ_cons,
      takeWhile_first u l a (by simpa using h) (fun b hl => by have := hb (b + 1) (by omega); simpa using this)]

theorem takeWhile_all {p : Ch → Bool} : ∀ (l : List Ch), (∀ x ∈ l, p x = true) → l.takeWhile p = l
  | [], _ => rfl
  | x :: l, h => by
    rw [List.takeWhile_cons_of_pos (h x (by simp)), takeWhile_all l (fun y hy => h y (by simp [hy]))]

theorem takeWhile_sat {p : Ch → Bool} : ∀ (l : List Ch), ∀ x ∈ l.takeWhile p, p x = true
  | [], x, h => by simp at h
  | y :: l, x, h => by
    rw [List.takeWhile_cons] at h
    split at h
    · rcases List.mem_cons.1 h with rfl | h
      · assumption
      · exact takeWhile_sat l x h
    · simp at h

theorem takeWhile_none (u : Ch) (l : List Ch) (h : ∀ a : Nat, l[a]? ≠ some u) : l.takeWhile (fun x => x ≠ u) = l := by
  apply takeWhile_all
  intro x hx
  obtain ⟨i, hi, e⟩ := List.getElem_of_mem hx
  have := h i
  rw [List.getElem?_eq_getElem hi, e] at this
  simpa using this

theorem dropRegion_ok {s : Str} (hs : WF s) : ∃ r, dropRegion s = .ok r ∧ WF r ∧ chars r = withoutRegion (chars s) := by
  obtain ⟨i, e, hi⟩ := indexOfChar_spec hs (BitVec.ofNat 16 '_'.toNat) 0
  simp only [dropRegion, e, bind, Except.bind]
  rcases hi with ⟨rfl, hn⟩ | ⟨a, rfl, _, hp, hf⟩
  · rw [if_neg (by omega)]
    refine ⟨s, rfl, hs, ?_⟩
    have hn' : ∀ a, (chars s)[a]? ≠ some (BitVec.ofNat 16 '_'.toNat) := fun a => hn a (by simp)
    rw [withoutRegion, takeWhile_none _ _ hn', ite_self]
  · by_cases h0 : a = 0
    · subst h0
      rw [if_neg (by omega)]
      refine ⟨s, rfl, hs, ?_⟩
      rw [withoutRegion, if_pos (by rw [List.head?_eq_getElem?]; exact hp)]
    · rw [if_pos (by omega)]
      obtain ⟨r, er, wr, cr, _⟩ := substring_spec hs 0 a
      refine ⟨r, er, wr, ?_⟩
      have hf' : ∀ b, b < a → (chars s)[b]? ≠ some (BitVec.ofNat 16 '_'.toNat) := fun b hb => hf b (by simp) hb
      rw [cr, withoutRegion, if_neg (by rw [List.head?_eq_getElem?]; exact hf' 0 (by omega)), takeWhile_first _ _ a hp hf', sub]
      simp

theorem withoutRegion_twice (l : List Ch) : withoutRegion (withoutRegion l) = withoutRegion l := by
  by_cases h : l.head? = some (BitVec.ofNat 16 '_'.toNat)
  · have : withoutRegion l = l := by rw [withoutRegion, if_pos h]
    rw [this, this]
  · have e : withoutRegion l = l.takeWhile (fun x => x ≠ BitVec.ofNat 16 '_'.toNat) := by rw [withoutRegion, if_neg h]
    have hn : ∀ x ∈ withoutRegion l, x ≠ BitVec.ofNat 16 '_'.toNat := by
      intro x hx; rw [e] at hx; simpa using takeWhile_sat _ _ hx
    have e2 : (withoutRegion l).takeWhile (fun x => x ≠ BitVec.ofNat 16 '_'.toNat) = withoutRegion l := by
      apply takeWhile_all; intro x hx; simpa using hn x hx
    conv_lhs => rw [withoutRegion, e2, ite_self]

/-- **C87.** The first of the candidates that exists is taken; if none of them does, the last one. -/
theorem transFile_spec (exist : List Ch → Bool) {sys name lang : Str} (hs : WF sys) (hn : WF name) (hl : WF lang) :
    ∃ r, transFile exist sys name lang = .ok r ∧
      let cs := candidates (chars name) (asked (chars sys) (chars lang))
      chars r = ((cs.find? exist).getD (cs.getLastD [])) := by
  have hz : (lang.len = 0) = (chars lang = []) := by
    have : (chars lang).length = lang.len := by
      have := hl; unfold WF at this; simp [chars]; omega
    rw [← this, List.length_eq_zero_iff]
  obtain ⟨lg, el, wl, cl⟩ : ∃ r, underscored sys lang = .ok r ∧ WF r ∧ chars r = asked (chars sys) (chars lang) := by
    by_cases h : lang.len = 0
    · obtain ⟨r, e, w, c⟩ := replaceChar_spec hs (BitVec.ofNat 16 '-'.toNat) (BitVec.ofNat 16 '_'.toNat)
      exact ⟨r, by rw [underscored, if_pos h, e], w, by rw [c, asked, if_pos (hz ▸ h)]⟩
    · obtain ⟨r, e, w, c⟩ := replaceChar_spec hl (BitVec.ofNat 16 '-'.toNat) (BitVec.ofNat 16 '_'.toNat)
      exact ⟨r, by rw [underscored, if_neg h, e], w, by rw [c, asked, if_neg (hz ▸ h)]⟩
  obtain ⟨d, ed, wd, cd⟩ := translationsDir_ok
  obtain ⟨f1, e1, w1, c1⟩ := withName_ok wd hn wl
  obtain ⟨f2, e2, w2, c2⟩ := withoutName_ok wd wl
  obtain ⟨l3, e3, w3, c3⟩ := dropRegion_ok wl
  obtain ⟨f3, e4, w4, c4⟩ := withName_ok wd hn w3
  obtain ⟨l4, e5, w5, c5⟩ := dropRegion_ok w3
  obtain ⟨f4, e6, w6, c6⟩ := withoutName_ok wd w5
  rw [c3, withoutRegion_twice, cl] at c5
  rw [cd, cl] at c1 c2
  rw [cd, c3, cl] at c4
  rw [cd, c5] at c6
  simp only [transFile, try3, try4, el, ed, e1, bind, Except.bind]
  have step : ∀ (b : Bool), b = false ∨ b = true := by intro b; cases b <;> simp
  generalize asked (chars sys) (chars lang) = L at *
  rcases step (exist (chars f1)) with h1 | h1
  · rw [if_pos h1]
    simp only [e2]
    rcases step (exist (chars f2)) with h2 | h2
    · rw [if_pos h2]
      simp only [e3, e4]
      rcases step (exist (chars f3)) with h3 | h3
      · rw [if_pos h3]
        simp only [e5, e6]
        refine ⟨f4, rfl, ?_⟩
        simp only [candidates, List.find?_cons]
        rw [← c1, ← c2, ← c4, ← c6, h1, h2, h3]
        cases exist (chars f4) <;> rfl
      · rw [if_neg (by simp [h3])]
        refine ⟨f3, rfl, ?_⟩
        simp only [candidates, List.find?_cons]
        rw [← c1, ← c2, ← c4, h1, h2, h3]; rfl
    · rw [if_neg (by simp [h2])]
      refine ⟨f2, rfl, ?_⟩
      simp only [candidates, List.find?_cons]
      rw [← c1, ← c2, h1, h2]; rfl
  · rw [if_neg (by simp [h1])]
    refine ⟨f1, rfl, ?_⟩
    simp only [candidates, List.find?_cons]
    rw [← c1, h1]; rfl

/-- The candidates for the program `App` and the language `de-DE`. -/
theorem transFile_sample : candidates (units "App") (asked [] (units "de-DE")) =
    [units "translations/App.de_DE.mo", units "translations/de_DE.mo", units "translations/App.de.mo", units "translations/de.mo"] := by
  decide +kernel

/-- If only the file of the language without the region exists, that is the one. -/
theorem fallback_sample {sys name lang : Str} (hs : WF sys) (hn : WF name) (hl : WF lang) (h1 : chars name = units "App") (h2 : chars lang = units "de-AT") :
    ∃ r, transFile (fun p => p == units "translations/de.mo") sys name lang = .ok r ∧ chars r = units "translations/de.mo" := by
  obtain ⟨r, e, c⟩ := transFile_spec (fun p => p == units "translations/de.mo") hs hn hl
  refine ⟨r, e, c.trans ?_⟩
  rw [h1, h2]
  have : asked (chars sys) (units "de-AT") = units "de_AT" := by
    rw [asked, if_neg (by decide +kernel)]; decide +kernel
  simp only [this]
  decide +kernel

end Verif.I18n
