import Verif.Prefs.Lemmas
set_option linter.unusedVariables false
set_option linter.unusedSimpArgs false
/-
Preferences: save and load.
-/
namespace Verif.Prefs.Lemmas
open Verif Verif.Str Verif.Prefs Verif.Prefs.Spec Verif.Str.SearchProps Verif.Str.PartProps
open Verif.Lists.TokenizerProps (toks)

/-- the line for a key, without its line break -/
def lineText (m : Map) (k : List Ch) : List Ch := k ++ cEquals :: escape ((m k).getD [])

theorem lineOf_ok {h : List Ch → BitVec 64} {p : Prefs} {m : Map} (I : Inv h p m) (k : List Ch) :
    lineOf h p k = .ok (lineText m k ++ [cLF]) := by
  obtain ⟨v, e, w, c⟩ := value_ok I k
  have hl := chars_length w
  obtain ⟨r, e2, w2, c2⟩ := escapeLoop_ok (chars v) (v.len + 1) [] v w rfl (by omega)
  have e2' : escapeLoop (v.len + 1) 0 v = .ok r := e2
  simp only [lineOf, e, e2', bind, Except.bind, pure, Except.pure, c2, c, lineText]
  simp

theorem entries_ok {h : List Ch → BitVec 64} {p : Prefs} {m : Map} (I : Inv h p m) (ks : List (List Ch)) :
    ∀ (l : Lists.SList), Lists.StringListProps.WF l → ∃ l', entries h p ks l = .ok l' ∧ Lists.StringListProps.WF l' ∧
      Lists.StringListProps.elems l' = Lists.StringListProps.elems l ++ ks.map (fun k => lineText m k ++ [cLF]) := by
  induction ks with
  | nil => intro l hl; exact ⟨l, rfl, hl, by simp⟩
  | cons k ks ih =>
    intro l hl
    obtain ⟨b, l1, h1, _⟩ := Lists.StringListProps.checkSize_ok l 1 hl
    obtain ⟨l2, e2, w2, c2⟩ := Lists.StringListProps.append_eq l (.ext (lineText m k ++ [cLF])) _ hl b l1 h1 rfl
    obtain ⟨l3, e3, w3, c3⟩ := ih l2 w2
    refine ⟨l3, ?_, w3, by rw [c3, c2]; simp⟩
    simp only [entries, lineOf_ok I, e2, bind, Except.bind]
    exact e3

theorem writeLines_ok (ls : List (List Ch)) : writeLines ls = .ok (ls.flatten.flatMap Charset.enc1) := by
  induction ls with
  | nil => rfl
  | cons l ls ih =>
    simp only [writeLines, ih, Charset.utf8Encode_eq, bind, Except.bind, pure, Except.pure]
    simp

/-- what `save` writes: a permutation of the lines, encoded -/
theorem save_ok {h : List Ch → BitVec 64} {p : Prefs} {m : Map} (I : Inv h p m) :
    ∃ ks : List (List Ch), ks.Nodup ∧ (∀ k, k ∈ ks ↔ m k ≠ none) ∧
      save h p = .ok ((ks.map (fun k => lineText m k ++ [cLF])).flatten.flatMap Charset.enc1) := by
  obtain ⟨ks, e, nd, hk⟩ := keys_ok I
  have hnew : Lists.StringListProps.WF Lists.SList.new := Nat.zero_le _
  obtain ⟨l, e2, w2, c2⟩ := entries_ok I ks Lists.SList.new hnew
  obtain ⟨l', e3, w3, p3, _⟩ := Lists.StringListProps.sort_ok l w2
  have hel : Lists.StringListProps.elems Lists.SList.new = [] := by decide
  rw [c2, hel, List.nil_append] at p3
  obtain ⟨ks', hp, hm⟩ : ∃ ks' : List (List Ch), ks'.Perm ks ∧ ks'.map (fun k => lineText m k ++ [cLF]) = Lists.StringListProps.elems l' := by
    have : ∀ (a : List (List Ch)) (f : List Ch → List Ch) (b : List (List Ch)), b.Perm (a.map f) → ∃ a' : List (List Ch), a'.Perm a ∧ a'.map f = b := by
      intro a f b hb
      have h2 : ∀ x ∈ b, x ∈ a.map f := fun x hx => hb.mem_iff.1 hx
      generalize hc : a.map f = c at hb
      induction hb generalizing a with
      | nil =>
        exact ⟨a, List.Perm.refl _, hc⟩
      | @cons x l1 l2 p ih =>
        cases a with
        | nil => cases hc
        | cons y a =>
          injection hc with h1 h3
          obtain ⟨a', pa, ea⟩ := ih a (by intro z hz; rw [h3]; exact p.mem_iff.1 hz) h3
          exact ⟨y :: a', pa.cons y, by rw [List.map_cons, ea, h1]⟩
      | swap x y l =>
        match a, hc with
        | u :: v :: a, hc =>
          injection hc with h1 h3
          injection h3 with h3 h4
          exact ⟨v :: u :: a, List.Perm.swap _ _ _, by rw [List.map_cons, List.map_cons, h1, h3, h4]⟩
      | trans p1 p2 ih1 ih2 =>
        obtain ⟨a2, pa2, ea2⟩ := ih2 a (by intro z hz; rw [hc]; exact p2.mem_iff.1 hz) hc
        obtain ⟨a1, pa1, ea1⟩ := ih1 a2 (by intro z hz; rw [ea2]; exact p1.mem_iff.1 hz) ea2
        exact ⟨a1, pa1.trans pa2, ea1⟩
    exact this ks _ _ p3
  refine ⟨ks', hp.nodup_iff.2 nd, fun k => by rw [hp.mem_iff, hk], ?_⟩
  simp only [save, e, e2, e3, bind, Except.bind, writeLines_ok]
  rw [hm]; rfl

/-! ### load -/

theorem indexOf_equals {s : Str} (hs : WF s) {k t : List Ch} (hc : chars s = k ++ cEquals :: t) (hk : cEquals ∉ k) :
    indexOfChar s cEquals 0 = .ok (k.length : Int) := by
  obtain ⟨r, e, f⟩ := indexOfChar_spec hs cEquals 0
  rw [e]
  congr 1
  rcases f with ⟨_, f⟩ | ⟨a, ra, _, fa, fb⟩
  · exact absurd (f k.length (by simp) ) (by simp [CharAt, hc])
  · rw [ra]
    congr 1
    rcases Nat.lt_trichotomy a k.length with ha | ha | ha
    · exfalso
      simp only [CharAt, hc] at fa
      rw [List.getElem?_append_left ha] at fa
      exact hk (List.mem_iff_getElem?.2 ⟨a, fa⟩)
    · exact ha
    · exact absurd (by simp [CharAt, hc]) (fb k.length (by simp) ha)

theorem loadLine_ok {h : List Ch → BitVec 64} {p : Prefs} {m : Map} (I : Inv h p m) {k v : List Ch} (hk : PlainKey k) (hv : PlainValue v) :
    ∃ q, loadLine h p (k ++ cEquals :: escape v) = .ok q ∧ Inv h q (fun x => if x = k then some v else m x) := by
  obtain ⟨line, e1, w1, c1⟩ := EditProps.constructed (k ++ cEquals :: escape v)
  obtain ⟨hne, k1, k2, k3, k4, k5, k6, k7⟩ := hk
  have e2 := indexOf_equals w1 c1 k1
  have hpos : 0 < k.length := List.length_pos_iff.2 hne
  obtain ⟨a, e3, w3, c3, _⟩ := substring_spec w1 0 k.length
  have c3' : chars a = k := by rw [c3, sub, c1]; simp
  obtain ⟨b, e4, w4, c4⟩ := trim_id w3 (by rw [c3']; exact k6) (by rw [c3']; exact k7)
  obtain ⟨r, e5, w5, c5⟩ := lineValue_ok w1 c1 hv
  obtain ⟨q, e6, J⟩ := setValue_ok I k w5 (by
    rw [c5]; intro hl
    exact hv.1 (List.mem_of_getLast? hl))
  refine ⟨q, ?_, ?_⟩
  · simp only [loadLine, e1, e2, bind, Except.bind]
    rw [if_pos (by omega)]
    simp only [e3, e4, e5, c4, c3', e6]
  · simp only [step, c5, oneLine_id hv.1 hv.2.1] at J
    exact J

/-- the map with the entries of `m` for the keys `ks` on top -/
def overlay (m : Map) (ks : List (List Ch)) (m0 : Map) : Map := fun x => if x ∈ ks then some ((m x).getD []) else m0 x

theorem loadLines_ok {h : List Ch → BitVec 64} {m : Map} (ks : List (List Ch)) (hk : ∀ k ∈ ks, PlainKey k)
    (hv : ∀ k ∈ ks, PlainValue ((m k).getD [])) : ∀ {p : Prefs} {m0 : Map}, Inv h p m0 →
    ∃ q, loadLines h (ks.map (lineText m)) p = .ok q ∧ Inv h q (overlay m ks m0) := by
  induction ks with
  | nil => intro p m0 I; exact ⟨p, rfl, by rw [show overlay m [] m0 = m0 from by funext x; simp [overlay]]; exact I⟩
  | cons k ks ih =>
    intro p m0 I
    obtain ⟨q, e, J⟩ := loadLine_ok I (hk k (by simp)) (hv k (by simp))
    obtain ⟨q', e', J'⟩ := ih (fun x hx => hk x (by simp [hx])) (fun x hx => hv x (by simp [hx])) J
    refine ⟨q', ?_, ?_⟩
    · simp only [List.map_cons, loadLines, lineText, e, bind, Except.bind]; exact e'
    · have : overlay m ks (fun x => if x = k then some ((m k).getD []) else m0 x) = overlay m (k :: ks) m0 := by
        funext x
        simp only [overlay, List.mem_cons]
        by_cases h1 : x ∈ ks
        · simp [h1]
        · by_cases h2 : x = k
          · simp [h1, h2]
          · simp [h1, h2]
      rw [← this]; exact J'

theorem toks_lines (D : Ch → Bool) (hD : D cLF = true) (ls : List (List Ch)) (h : ∀ l ∈ ls, l ≠ [] ∧ ∀ c ∈ l, D c = false) :
    toks false D (ls.map (fun l => l ++ [cLF])).flatten = ls := by
  induction ls with
  | nil => rw [List.map_nil, List.flatten_nil, toks]
  | cons l ls ih =>
    obtain ⟨h1, h2⟩ := h l (by simp)
    cases l with
    | nil => exact absurd rfl h1
    | cons c l =>
      have ih' := ih (fun x hx => h x (by simp [hx]))
      rw [List.map_cons, List.flatten_cons, List.cons_append, List.cons_append, toks, if_neg (by rw [h2 c (by simp)]; simp)]
      generalize ht : (ls.map (fun l => l ++ [cLF])).flatten = t at ih'
      have hfree : ∀ x ∈ l, (!D x) = true := by intro x hx; rw [h2 x (by simp [hx])]; rfl
      have e1 : (l ++ [cLF] ++ t).takeWhile (fun c => !D c) = l := by
        rw [List.append_assoc, List.takeWhile_append_of_pos hfree]; simp [hD]
      have e2 : (l ++ [cLF] ++ t).dropWhile (fun c => !D c) = cLF :: t := by
        rw [List.append_assoc, List.dropWhile_append_of_pos hfree]; simp [hD]
      rw [e1, e2, toks, if_pos hD]
      simp [ih']

theorem enc1_ne_nil (c : Ch) : Charset.enc1 c ≠ [] := by
  unfold Charset.enc1; split
  · simp
  · split <;> simp

theorem escape_mem {v : List Ch} {c : Ch} (h : c ∈ escape v) : c ∈ v ∨ c = cBackslash ∨ c = cT := by
  induction v with
  | nil => simp [escape] at h
  | cons d l ih =>
    simp only [escape] at h
    split at h
    · simp at h
      rcases h with h | h
      · exact .inr (.inl h)
      · rcases ih h with x | x
        · exact .inl (by simp [x])
        · exact .inr x
    · split at h
      · simp at h
        rcases h with h | h | h
        · exact .inr (.inl h)
        · exact .inr (.inr h)
        · rcases ih h with x | x
          · exact .inl (by simp [x])
          · exact .inr x
      · simp at h
        rcases h with h | h
        · exact .inl (by simp [h])
        · rcases ih h with x | x
          · exact .inl (by simp [x])
          · exact .inr x

theorem load_ok {h : List Ch → BitVec 64} {m : Map} (ks : List (List Ch)) (hk : ∀ k ∈ ks, PlainKey k)
    (hv : ∀ k ∈ ks, PlainValue ((m k).getD [])) {p : Prefs} {m0 : Map} (I : Inv h p m0) :
    ∃ q, load h p ((ks.map (fun k => lineText m k ++ [cLF])).flatten.flatMap Charset.enc1) = .ok q ∧ Inv h q (overlay m ks m0) := by
  have hmem : ∀ k ∈ ks, ∀ c ∈ lineText m k, c ≠ cCR ∧ c ≠ cLF ∧ c ≠ 0 := by
    intro k hk' c hc
    obtain ⟨_, _, a1, a2, a3, _⟩ := hk k hk'
    obtain ⟨b1, b2, b3, _⟩ := hv k hk'
    simp only [lineText, List.mem_append, List.mem_cons] at hc
    rcases hc with hc | hc | hc
    · exact ⟨fun e => a1 (by subst e; exact hc), fun e => a2 (by subst e; exact hc), fun e => a3 (by subst e; exact hc)⟩
    · subst hc; decide
    · rcases escape_mem hc with hc | hc | hc
      · exact ⟨fun e => b1 (by subst e; exact hc), fun e => b2 (by subst e; exact hc), fun e => b3 (by subst e; exact hc)⟩
      · subst hc; decide
      · subst hc; decide
  obtain ⟨text, ht⟩ : ∃ t, t = (ks.map (fun k => lineText m k ++ [cLF])).flatten := ⟨_, rfl⟩
  have hdec : decodeFile (text.flatMap Charset.enc1) = .ok text := by
    unfold decodeFile
    split
    · refine Charset.utf8Decode_ok text [] ?_ ?_
      · rw [ht]; intro hc
        obtain ⟨l, hl, hc⟩ := List.mem_flatten.1 hc
        obtain ⟨k, hk', rfl⟩ := List.mem_map.1 hl
        rcases List.mem_append.1 hc with hc | hc
        · exact (hmem k hk' _ hc).2.2 rfl
        · revert hc; decide
      · rw [ht]
        cases ks with
        | nil => simp
        | cons k ks =>
          obtain ⟨hne, _, _, _, _, hb, _⟩ := hk k (by simp)
          cases k with
          | nil => exact absurd rfl hne
          | cons c k => simpa [lineText] using hb
    · rename_i h0
      cases text with
      | nil => rfl
      | cons c t =>
        exfalso; apply h0
        rw [List.flatMap_cons, List.length_append]
        have := List.length_pos_iff.2 (enc1_ne_nil c)
        omega
  have hsplit := Lists.TokenizerProps.splitLoop_ok (text.length + 1) _ _ [] (Lists.TokenizerProps.abs_new text [cCR, cLF] false)
    (Nat.lt_succ_of_le (Lists.TokenizerProps.toks_length _ _ _))
  have htoks : toks false (fun c => decide (c ∈ [cCR, cLF])) text = ks.map (lineText m) := by
    have := toks_lines (fun c => decide (c ∈ [cCR, cLF])) (by decide) (ks.map (lineText m)) (by
      intro l hl
      obtain ⟨k, hk', rfl⟩ := List.mem_map.1 hl
      refine ⟨by simp [lineText], ?_⟩
      intro c hc
      obtain ⟨a, b, _⟩ := hmem k hk' c hc
      simp [a, b])
    rw [List.map_map] at this
    rw [ht]; exact this
  obtain ⟨q, e, J⟩ := loadLines_ok ks hk hv I
  refine ⟨q, ?_, J⟩
  rw [← ht]
  simp only [load, hdec, hsplit, htoks, bind, Except.bind, List.nil_append]
  exact e

end Verif.Prefs.Lemmas
