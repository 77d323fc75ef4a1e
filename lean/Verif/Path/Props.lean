import Verif.Path.Lemmas
import Verif.Path.Model
import Verif.Path.Spec
import Verif.Str.SearchProps
import Verif.Str.EditProps
set_option linter.unusedVariables false
set_option linter.unusedSimpArgs false
/-
Property C43 (path strings), C63 (order of files), C64 (readFully), C65 (modification time).
-/
namespace Verif.Path
open Verif Verif.Str Verif.Path.Spec Verif.Path.Lemmas

/-! ### Lemmas on sequences -/

/-- no separator follows a separator; `b`: a separator stands before the list -/
def noDD : Bool → List Ch → Prop
  | _, [] => True
  | b, c :: l => ¬ (b = true ∧ c = slash) ∧ noDD (decide (c = slash)) l

theorem noDD_false_iff (l : List Ch) : noDD false l ↔ ¬ ∃ a b, l = a ++ slash :: slash :: b := by
  induction l with
  | nil => simp [noDD]
  | cons c l ih =>
    simp only [noDD]
    constructor
    · rintro ⟨-, h⟩ ⟨a, b, e⟩
      cases a with
      | nil =>
        simp only [List.nil_append, List.cons.injEq] at e
        obtain ⟨rfl, rfl⟩ := e
        simp [noDD] at h
      | cons x a =>
        simp only [List.cons_append, List.cons.injEq] at e
        obtain ⟨rfl, rfl⟩ := e
        by_cases hc : c = slash
        · subst hc
          have : noDD false (a ++ slash :: slash :: b) := by
            revert h
            cases a with
            | nil => simp [noDD]
            | cons y a => simp only [List.cons_append, noDD]; exact fun h => ⟨by simp, h.2⟩
          exact ih.1 this ⟨a, b, rfl⟩
        · rw [decide_eq_false hc] at h
          exact ih.1 h ⟨a, b, rfl⟩
    · intro h
      refine ⟨by simp, ?_⟩
      have h1 : noDD false l := ih.2 (fun ⟨a, b, e⟩ => h ⟨c :: a, b, by rw [e]; rfl⟩)
      by_cases hc : c = slash
      · subst hc
        cases l with
        | nil => simp [noDD]
        | cons d l =>
          refine ⟨?_, h1.2⟩
          rintro ⟨-, rfl⟩
          exact h ⟨[], l, rfl⟩
      · rw [decide_eq_false hc]; exact h1

theorem dd_noDD (b : Bool) (l : List Ch) : noDD b (dd b l) := by
  induction l generalizing b with
  | nil => simp [dd, noDD]
  | cons c l ih =>
    simp only [dd]
    split
    · rename_i h
      split
      · rename_i hb; subst hb; exact ih true
      · rename_i hb
        exact ⟨fun x => hb x.1, ih true⟩
    · rename_i h
      exact ⟨fun x => h x.2, by rw [decide_eq_false h]; exact ih false⟩

theorem noDD_dd {b : Bool} {l : List Ch} (h : noDD b l) : dd b l = l := by
  induction l generalizing b with
  | nil => rfl
  | cons c l ih =>
    simp only [dd]
    obtain ⟨h1, h2⟩ := h
    split
    · rename_i hc
      rw [if_neg (fun hb => h1 ⟨hb, hc⟩)]
      rw [decide_eq_true hc] at h2
      rw [ih h2, hc]
    · rename_i hc
      rw [decide_eq_false hc] at h2
      rw [ih h2]

theorem noDD_prefix {b : Bool} {l m : List Ch} (h : noDD b (l ++ m)) : noDD b l := by
  induction l generalizing b with
  | nil => trivial
  | cons c l ih => exact ⟨h.1, ih h.2⟩

theorem split_append (a b : List Ch) : split (a ++ slash :: b) = split a ++ split b := by
  induction a with
  | nil => simp [split]
  | cons c a ih =>
    simp only [List.cons_append, split, ih]
    split
    · rfl
    · cases h : split a with
      | nil => exact absurd h (split_ne a)
      | cons x xs => rfl

theorem comps_append (a b : List Ch) : comps (a ++ slash :: b) = comps a ++ comps b := by
  simp only [comps, split_append, List.filter_append]

theorem comps_nil : comps [] = [] := rfl

theorem comps_slash (l : List Ch) : comps (slash :: l) = comps l := comps_append [] l

theorem split_plain {s : List Ch} (h : slash ∉ s) : split s = [s] := by
  induction s with
  | nil => rfl
  | cons c s ih =>
    simp only [List.mem_cons, not_or] at h
    simp only [split, if_neg (Ne.symm h.1), ih h.2]

theorem comps_plain {s : List Ch} (h : slash ∉ s) (hne : s ≠ []) : comps s = [s] := by
  simp [comps, split_plain h, hne]

theorem split_mem {l s : List Ch} (h : s ∈ split l) : slash ∉ s := by
  induction l generalizing s with
  | nil => simp [split] at h; subst h; simp
  | cons c l ih =>
    simp only [split] at h
    split at h
    · rcases List.mem_cons.1 h with rfl | h
      · simp
      · exact ih h
    · rename_i hc
      cases hs : split l with
      | nil => exact absurd hs (split_ne l)
      | cons x xs =>
        rw [hs] at h ih
        rcases List.mem_cons.1 h with rfl | h
        · simp only [List.mem_cons, not_or]
          exact ⟨Ne.symm hc, ih (by simp)⟩
        · exact ih (List.mem_cons_of_mem _ h)

theorem comps_mem {l s : List Ch} (h : s ∈ comps l) : s ≠ [] ∧ slash ∉ s := by
  simp only [comps, List.mem_filter] at h
  exact ⟨by have := h.2; simpa using this, split_mem h.1⟩

theorem comps_join {cs : List (List Ch)} (h : ∀ s ∈ cs, s ≠ [] ∧ slash ∉ s) : comps (join cs) = cs := by
  induction cs with
  | nil => rfl
  | cons x r ih =>
    obtain ⟨h1, h2⟩ := h x (by simp)
    cases r with
    | nil => exact comps_plain h2 h1
    | cons y r =>
      show comps (x ++ slash :: join (y :: r)) = _
      rw [comps_append, comps_plain h2 h1, ih (fun s hs => h s (List.mem_cons_of_mem _ hs))]
      rfl

theorem join_head {cs : List (List Ch)} (h : ∀ s ∈ cs, s ≠ [] ∧ slash ∉ s) : ¬ Absolute (join cs) := by
  unfold Absolute
  cases cs with
  | nil => simp [join]
  | cons x r =>
    obtain ⟨h1, h2⟩ := h x (by simp)
    cases x with
    | nil => exact absurd rfl h1
    | cons c x =>
      simp only [List.mem_cons, not_or] at h2
      cases r with
      | nil => simpa [join] using Ne.symm h2.1
      | cons y r => simpa [join] using Ne.symm h2.1

theorem comps_canonical (l : List Ch) : comps (canonical l) = comps l := by
  have := comps_join (fun s hs => comps_mem (l := l) hs)
  unfold canonical
  split
  · exact (comps_slash _).trans this
  · exact this

theorem absolute_canonical (l : List Ch) : Absolute (canonical l) ↔ Absolute l := by
  unfold canonical
  split
  · rename_i h; exact ⟨fun _ => h, fun _ => rfl⟩
  · rename_i h
    exact ⟨fun x => absurd x (join_head (fun s hs => comps_mem hs)), fun x => absurd x h⟩

theorem canonical_eq_nil {l : List Ch} : canonical l = [] ↔ l = [] := by
  constructor
  · intro h
    rw [← canonical_dd] at h
    cases l with
    | nil => rfl
    | cons c l =>
      exfalso
      have hd : dd false (c :: l) = c :: dd (decide (c = slash)) l := by
        simp only [dd]
        split
        · rename_i hc; simp [hc]
        · rename_i hc; rw [decide_eq_false hc]
      rw [hd] at h
      split at h
      · rename_i hh
        have := congrArg List.length h
        simp only [List.length_dropLast, List.length_nil] at this
        omega
      · simp at h
  · rintro rfl; rfl

theorem normal_canonical (l : List Ch) : Normal (canonical l) := by
  have hdd := dd_noDD false l
  rw [← canonical_dd]
  split
  · rename_i h
    have hne : dd false l ≠ [] := by intro e; rw [e] at h; simp at h
    have e := List.dropLast_append_getLast? _ h.1
    constructor
    · rw [← noDD_false_iff]; rw [← e] at hdd; exact noDD_prefix hdd
    · intro hl
      exfalso
      have e2 := List.dropLast_append_getLast? _ hl
      rw [← e, ← e2, List.append_assoc] at hdd
      exact (noDD_false_iff _).1 hdd ⟨_, [], rfl⟩
  · rename_i h
    refine ⟨(noDD_false_iff _).1 hdd, fun hl => ?_⟩
    have hlen : (dd false l).length ≤ 1 := by
      apply Classical.byContradiction; intro x; exact h ⟨hl, by omega⟩
    match hm : dd false l, hlen with
    | [], _ => rw [hm] at hl; simp at hl
    | [c], _ => rw [hm] at hl; simpa using hl

theorem canonical_of_normal {l : List Ch} (h : Normal l) : canonical l = l := by
  rw [← canonical_dd, noDD_dd ((noDD_false_iff l).2 h.1), if_neg]
  rintro ⟨h1, h2⟩
  rw [h.2 h1] at h2
  simp at h2

/-! ### C43: normalisation -/

/-- **C43 (normalize).** The path of `File(s)` has the components of `s`, is absolute exactly when `s` is, and is the
only such path without doubled or trailing separators. -/
theorem normalize_spec {s : Str} (hs : WF s) : ∃ r, file s = .ok r ∧ WF r ∧ Normal (chars r) ∧
    comps (chars r) = comps (chars s) ∧ (Absolute (chars r) ↔ Absolute (chars s)) ∧
    ∀ l, Normal l → comps l = comps (chars s) → (Absolute l ↔ Absolute (chars s)) → l = chars r := by
  obtain ⟨r, e, w, c⟩ := normalize_ok hs
  refine ⟨r, e, w, ?_, ?_, ?_, ?_⟩
  · rw [c]; exact normal_canonical _
  · rw [c]; exact comps_canonical _
  · rw [c]; exact absolute_canonical _
  · intro l hl h1 h2
    rw [c, ← canonical_of_normal hl]
    unfold canonical
    rw [h1]
    by_cases h : Absolute (chars s)
    · rw [if_pos h, if_pos (h2.2 h)]
    · rw [if_neg h, if_neg (fun x => h (h2.1 x))]

/-- **C43 (normalize, idempotent).** A path without doubled or trailing separators is kept. -/
theorem normalize_normal {s : Str} (hs : WF s) (h : Normal (chars s)) : ∃ r, file s = .ok r ∧ WF r ∧ chars r = chars s := by
  obtain ⟨r, e, w, c⟩ := normalize_ok hs
  exact ⟨r, e, w, by rw [c, canonical_of_normal h]⟩

example : ∃ s : Str, WF s ∧ chars s = [slash, slash, 0x61, slash, slash, 0x62, slash] ∧ ¬ Normal (chars s) ∧
    Spec.comps (chars s) = [[0x61], [0x62]] ∧ Absolute (chars s) := by
  obtain ⟨s, _, w, c⟩ := Verif.Str.EditProps.constructed [slash, slash, 0x61, slash, slash, 0x62, slash]
  refine ⟨s, w, c, ?_, ?_, ?_⟩
  · rw [c]; exact fun h => h.1 ⟨[], _, rfl⟩
  · rw [c]; decide
  · rw [c]; decide

/-! ### C43: parent and name -/

/-- the part before the last separator and the part after it -/
theorem lastSep {p : List Ch} {c : Ch} {n : Nat} (hn : n = p.length) {r : Int} (h : SearchProps.IsLast (SearchProps.CharAt p c) ((n : Int) - 1) r) :
    (r = -1 ∧ c ∉ p) ∨ ∃ a : Nat, r = a ∧ a < p.length ∧ p = p.take a ++ c :: p.drop (a + 1) ∧ c ∉ p.drop (a + 1) := by
  rcases h with ⟨h, hh⟩ | ⟨a, h, h1, h2, h3⟩
  · left
    refine ⟨h, fun hm => ?_⟩
    obtain ⟨i, hi, e⟩ := List.mem_iff_getElem.1 hm
    exact hh i (by omega) (by rw [SearchProps.CharAt, List.getElem?_eq_getElem hi, e])
  · right
    have ha : a < p.length := by omega
    refine ⟨a, h, ha, ?_, ?_⟩
    · rw [SearchProps.CharAt, List.getElem?_eq_getElem ha] at h2
      have e : p[a] = c := by simpa using h2
      rw [← e, List.getElem_cons_drop, List.take_append_drop]
    · intro hm
      obtain ⟨i, hi, e⟩ := List.mem_iff_getElem.1 hm
      rw [List.length_drop] at hi
      rw [List.getElem_drop] at e
      exact h3 (a + 1 + i) (by omega) (by omega) (by rw [SearchProps.CharAt, List.getElem?_eq_getElem (by omega), e])

/-- **C43 (parent, name).** For every path string: without a separator the parent is empty and the name is everything;
with one, the path is parent, separator, name, and the name contains no separator. -/
theorem parent_name_spec {p : Str} (hp : WF p) : ∃ d n, parent p = .ok d ∧ name p = .ok n ∧ WF d ∧ WF n ∧
    slash ∉ chars n ∧ (slash ∉ chars p → chars d = [] ∧ chars n = chars p) ∧
    (slash ∈ chars p → chars p = chars d ++ slash :: chars n) := by
  obtain ⟨r, e, h⟩ := SearchProps.lastIndexOfChar_spec hp sep
  obtain ⟨d, e1, w1, c1, _⟩ := PartProps.substring_spec hp 0 (if r < 0 then 0 else r)
  obtain ⟨n, e2, w2, c2⟩ := PartProps.substringFrom_spec hp (r + 1)
  refine ⟨d, n, ?_, ?_, w1, w2, ?_⟩
  · simp only [parent, e, bind, Except.bind, e1]
  · simp only [name, e, bind, Except.bind, e2]
  rcases lastSep (chars_length hp).symm h with ⟨rfl, hc⟩ | ⟨a, rfl, hlt, hc, hn⟩
  · have en : chars n = chars p := by rw [c2]; rfl
    have ed : chars d = [] := by rw [c1]; rfl
    exact ⟨by rw [en]; exact hc, fun _ => ⟨ed, en⟩, fun x => absurd x hc⟩
  · have en : chars n = (chars p).drop (a + 1) := by
      rw [c2]; congr 1
    have ed : chars d = (chars p).take a := by
      rw [c1, if_neg (by omega), PartProps.sub]; simp
    refine ⟨by rw [en]; exact hn, fun x => absurd ?_ x, fun _ => by rw [en, ed]; exact hc⟩
    rw [hc, sep_slash]; simp

/-- a non-empty relative or absolute path without trailing separator ends in a component -/
theorem normal_name {d n : List Ch} (h : Normal (d ++ slash :: n)) (hs : d ++ slash :: n ≠ [slash]) : n ≠ [] := by
  rintro rfl
  exact hs (h.2 (by simp))

/-- **C43 (name).** The name of a file is the last component of its path, and its parent has the remaining ones. -/
theorem name_last_component {p : Str} (hp : WF p) (hn : Normal (chars p)) : ∃ d n, parent p = .ok d ∧ name p = .ok n ∧
    Spec.comps (chars p) = Spec.comps (chars d) ++ (if chars p = [] ∨ chars p = [slash] then [] else [chars n]) := by
  obtain ⟨d, n, e1, e2, w1, w2, h0, h1, h2⟩ := parent_name_spec hp
  refine ⟨d, n, e1, e2, ?_⟩
  by_cases hm : slash ∈ chars p
  · have e := h2 hm
    have hne : chars p ≠ [] := by rw [e]; simp
    by_cases hr : chars p = [slash]
    · rw [if_pos (.inr hr)]
      have : chars d = [] := by
        rw [hr] at e
        cases hd : chars d with
        | nil => rfl
        | cons x xs => rw [hd] at e; simp at e
      rw [hr, this]; rfl
    · rw [if_neg (by simp [hne, hr]), e, comps_append, comps_plain h0]
      exact normal_name (by rw [← e]; exact hn) (by rw [← e]; exact hr)
  · obtain ⟨ed, en⟩ := h1 hm
    by_cases he : chars p = []
    · rw [if_pos (.inl he), ed, he]; rfl
    · have hr : chars p ≠ [slash] := by intro x; rw [x] at hm; simp at hm
      rw [if_neg (by simp [he, hr]), ed, en, comps_plain hm he]; rfl

/-! ### C43: a child in a directory -/

theorem plus_ok {l r : Str} (hl : WF l) (hr : WF r) : ∃ t, plus l r = .ok t ∧ WF t ∧ chars t = chars l ++ chars r := by
  obtain ⟨s, e, w, c, _⟩ := copyCtor_ok hl
  obtain ⟨t, e2, w2, c2, _⟩ := append_ok w hr
  exact ⟨t, by simp only [plus, e, bind, Except.bind, e2], w2, by rw [c2, c]⟩

/-- what `resolve` returns -/
def resolved (p c : List Ch) : List Ch :=
  if c.head? = some slash then (if p = [slash] then c else p ++ c)
  else if p = [slash] then p ++ c else p ++ slash :: c

theorem resolve_ok {p c : Str} (hp : WF p) (hc : WF c) (hne : chars c ≠ []) :
    ∃ r, resolve p c = .ok r ∧ WF r ∧ chars r = resolved (chars p) (chars c) := by
  obtain ⟨s, es, ws, cs, _⟩ := appendChar_ok empty_wf sep
  rw [empty_chars, List.nil_append, sep_slash] at cs
  have hl := chars_length hc
  have hpos : 0 < c.len := by
    rw [← hl]; exact List.length_pos_iff.2 hne
  unfold resolve
  simp only [es, bind, Except.bind]
  rw [if_neg (by omega)]
  unfold resolve2
  have hc0 : charAt c 0 = .ok ((chars c)[0]'(by omega)) := charAt_ok hc hpos
  rw [hc0, CmpProps.equals_iff hp ws, cs]
  simp only [bind, Except.bind, sep_slash, decide_eq_true_eq]
  have hh : (chars c).head? = some ((chars c)[0]'(by omega)) := by
    rw [List.head?_eq_getElem?, List.getElem?_eq_getElem]
  unfold resolved
  rw [hh]
  generalize (chars c)[0]'(by omega) = x
  by_cases h1 : x = slash
  · subst h1
    rw [if_pos rfl, if_pos (c := some slash = some slash) rfl]
    by_cases h2 : chars p = [slash]
    · rw [if_pos h2, if_pos h2]
      obtain ⟨t, e, w, ct, _⟩ := copyCtor_ok hc
      exact ⟨t, e, w, ct⟩
    · rw [if_neg h2, if_neg h2]
      exact plus_ok hp hc
  · rw [if_neg h1, if_neg (fun x => h1 (Option.some.inj x))]
    by_cases h2 : chars p = [slash]
    · rw [if_pos h2, if_pos h2]
      exact plus_ok hp hc
    · rw [if_neg h2, if_neg h2]
      obtain ⟨t, e, w, ct⟩ := plus_ok hp ws
      obtain ⟨u, e2, w2, c2⟩ := plus_ok w hc
      rw [e]
      exact ⟨u, e2, w2, by rw [c2, ct, cs]; simp⟩

theorem comps_resolved {p c : List Ch} : Spec.comps (resolved p c) = Spec.comps p ++ Spec.comps c := by
  unfold resolved
  split
  · rename_i h
    obtain ⟨c', rfl⟩ : ∃ c', c = slash :: c' := by
      cases c with
      | nil => simp at h
      | cons x c' => simp at h; exact ⟨c', by rw [h]⟩
    split
    · rename_i hp; rw [hp]; simp [comps_slash, comps_nil]
    · rw [comps_append, comps_slash]
  · split
    · rename_i hp; rw [hp]; simp [comps_slash, comps_nil]
    · rw [comps_append]

theorem absolute_resolved {p c : List Ch} : Absolute (resolved p c) ↔ p = [] ∨ Absolute p := by
  unfold resolved Absolute
  cases p with
  | nil => 
    split
    · rename_i h; simp [h]
    · simp
  | cons x p =>
    split
    · rename_i h
      split
      · rename_i hp; simp only [List.cons.injEq] at hp; simp [h, hp.1]
      · simp
    · split <;> simp

theorem noDD_append_slash {b : Bool} {p c : List Ch} (hp : noDD b p) (hl : p.getLast? ≠ some slash) (hb : p = [] → b = false)
    (hc : noDD true c) : noDD b (p ++ slash :: c) := by
  induction p generalizing b with
  | nil => exact ⟨by rw [hb rfl]; simp, by rw [decide_eq_true rfl]; exact hc⟩
  | cons x p ih =>
    refine ⟨hp.1, ?_⟩
    cases p with
    | nil =>
      have : x ≠ slash := by simpa using hl
      rw [decide_eq_false this]
      exact ⟨by simp, by rw [decide_eq_true rfl]; exact hc⟩
    | cons y p =>
      exact ih hp.2 (by rwa [List.getLast?_cons_cons] at hl) (by simp)

theorem noDD_true_of {c : List Ch} (h : noDD false c) (hh : c.head? ≠ some slash) : noDD true c := by
  cases c with
  | nil => trivial
  | cons x c => exact ⟨fun y => hh (by simp [y.2]), h.2⟩

theorem normal_resolved {p c : List Ch} (hp : Normal p) (hc : Normal c) (hne : Spec.comps c ≠ []) : Normal (resolved p c) := by
  have hcne : c ≠ [] := by rintro rfl; exact hne rfl
  have hcs : c ≠ [slash] := by rintro rfl; exact hne rfl
  have hcl : c.getLast? ≠ some slash := fun x => hcs (hc.2 x)
  have nc := (noDD_false_iff _).2 hc.1
  have np := (noDD_false_iff _).2 hp.1
  obtain ⟨x, c', rfl⟩ : ∃ x c', c = x :: c' := by
    cases c with
    | nil => exact absurd rfl hcne
    | cons x c' => exact ⟨x, c', rfl⟩
  unfold resolved
  by_cases h : (x :: c').head? = some slash
  · rw [if_pos h]
    have hx : x = slash := by simpa using h
    subst hx
    by_cases h2 : p = [slash]
    · rw [if_pos h2]; exact hc
    · rw [if_neg h2]
      have hpl : p.getLast? ≠ some slash := fun y => h2 (hp.2 y)
      refine ⟨(noDD_false_iff _).1 (noDD_append_slash np hpl (fun _ => rfl) ?_), fun y => ?_⟩
      · have := nc.2; rwa [decide_eq_true rfl] at this
      · rw [List.getLast?_append, List.getLast?_cons] at y
        simp only [Option.some_or, ] at y
        rw [← List.getLast?_cons] at y
        exact absurd y hcl
  · rw [if_neg h]
    by_cases h2 : p = [slash]
    · rw [if_pos h2, h2]
      refine ⟨(noDD_false_iff _).1 ⟨by simp, by rw [decide_eq_true rfl]; exact noDD_true_of nc h⟩, fun y => ?_⟩
      rw [List.singleton_append, List.getLast?_cons_cons] at y
      exact absurd y hcl
    · rw [if_neg h2]
      have hpl : p.getLast? ≠ some slash := fun y => h2 (hp.2 y)
      refine ⟨(noDD_false_iff _).1 (noDD_append_slash np hpl (fun _ => rfl) (noDD_true_of nc h)), fun y => ?_⟩
      rw [List.getLast?_append, List.getLast?_cons_cons, List.getLast?_cons] at y
      simp only [Option.some_or] at y
      rw [← List.getLast?_cons] at y
      exact absurd y hcl

/-- the path made of an absolute flag and components -/
theorem canonical_eq {l : List Ch} (h : Normal l) : l = (if Absolute l then [slash] else []) ++ join (Spec.comps l) :=
  (canonical_of_normal h).symm

theorem resolved_eq {p c : List Ch} (hp : Normal p) (hc : Normal c) (hne : Spec.comps c ≠ []) : resolved p c =
    (if p = [] ∨ Absolute p then [slash] else []) ++ join (Spec.comps p ++ Spec.comps c) := by
  rw [canonical_eq (normal_resolved hp hc hne), comps_resolved]
  by_cases h : p = [] ∨ Absolute p
  · rw [if_pos h, if_pos (absolute_resolved.2 h)]
  · rw [if_neg h, if_neg (fun x => h (absolute_resolved.1 x))]

/-- **C43 (`File(parent, child)`).** For every parent and every child which has a component, the path is the components
of the parent followed by those of the child, separated by single separators; it is absolute exactly when the parent is
empty or absolute. -/
theorem fileIn_partial {p c : Str} (hp : WF p) (hc : WF c) (hne : Spec.comps (chars c) ≠ []) :
    ∃ r, fileIn p c = .ok r ∧ WF r ∧ Normal (chars r) ∧
      chars r = (if chars p = [] ∨ Absolute (chars p) then [slash] else []) ++ join (Spec.comps (chars p) ++ Spec.comps (chars c)) ∧
      Spec.comps (chars r) = Spec.comps (chars p) ++ Spec.comps (chars c) ∧
      (Absolute (chars r) ↔ chars p = [] ∨ Absolute (chars p)) := by
  obtain ⟨p', e1, w1, c1⟩ := normalize_ok hp
  obtain ⟨c', e2, w2, c2⟩ := normalize_ok hc
  have hcne : chars c ≠ [] := by intro x; rw [x] at hne; exact hne rfl
  have hc' : chars c' ≠ [] := by rw [c2]; exact fun x => hcne (canonical_eq_nil.1 x)
  obtain ⟨r, e, w, cr⟩ := resolve_ok w1 w2 hc'
  have hpos : ¬ c.len < 1 := by
    have := List.length_pos_iff.2 hcne
    rw [chars_length hc] at this; omega
  have hn1 : Normal (chars p') := by rw [c1]; exact normal_canonical _
  have hn2 : Normal (chars c') := by rw [c2]; exact normal_canonical _
  have hk : Spec.comps (chars c') ≠ [] := by rw [c2, comps_canonical]; exact hne
  refine ⟨r, ?_, w, ?_, ?_, ?_, ?_⟩
  · unfold fileIn; rw [if_neg hpos]; simp only [e1, e2, bind, Except.bind, e]
  · rw [cr]; exact normal_resolved hn1 hn2 hk
  · rw [cr, resolved_eq hn1 hn2 hk, c1, c2, comps_canonical, comps_canonical]
    simp only [canonical_eq_nil, absolute_canonical]
  · rw [cr, comps_resolved, c1, c2, comps_canonical, comps_canonical]
  · rw [cr, absolute_resolved, c1, canonical_eq_nil, absolute_canonical]

/-- **C43 (`File(file, child)`).** The same for a parent given as a file (whose path is normal). -/
theorem fileOf_partial {p c : Str} (hp : WF p) (hn : Normal (chars p)) (hc : WF c) (hne : Spec.comps (chars c) ≠ []) :
    ∃ r, fileOf p c = .ok r ∧ WF r ∧ Normal (chars r) ∧
      chars r = (if chars p = [] ∨ Absolute (chars p) then [slash] else []) ++ join (Spec.comps (chars p) ++ Spec.comps (chars c)) ∧
      Spec.comps (chars r) = Spec.comps (chars p) ++ Spec.comps (chars c) ∧
      (Absolute (chars r) ↔ chars p = [] ∨ Absolute (chars p)) := by
  obtain ⟨c', e2, w2, c2⟩ := normalize_ok hc
  have hcne : chars c ≠ [] := by intro x; rw [x] at hne; exact hne rfl
  have hc' : chars c' ≠ [] := by rw [c2]; exact fun x => hcne (canonical_eq_nil.1 x)
  obtain ⟨r, e, w, cr⟩ := resolve_ok hp w2 hc'
  have hpos : ¬ c.len < 1 := by
    have := List.length_pos_iff.2 hcne
    rw [chars_length hc] at this; omega
  have hn2 : Normal (chars c') := by rw [c2]; exact normal_canonical _
  have hk : Spec.comps (chars c') ≠ [] := by rw [c2, comps_canonical]; exact hne
  refine ⟨r, ?_, w, ?_, ?_, ?_, ?_⟩
  · unfold fileOf; rw [if_neg hpos]; simp only [e2, bind, Except.bind, e]
  · rw [cr]; exact normal_resolved hn hn2 hk
  · rw [cr, resolved_eq hn hn2 hk, c2, comps_canonical]
  · rw [cr, comps_resolved, c2, comps_canonical]
  · rw [cr, absolute_resolved]

/-- **C43 (parent and name recompose).** For a file whose path contains a separator and is not "/",
`File(parent(), name())` is the same path. -/
theorem recompose_partial {p : Str} (hp : WF p) (hn : Normal (chars p)) (hs : slash ∈ chars p) (hr : chars p ≠ [slash]) :
    ∃ d n q, parent p = .ok d ∧ name p = .ok n ∧ fileIn d n = .ok q ∧ chars q = chars p := by
  obtain ⟨d, n, e1, e2, w1, w2, h0, h1, h2⟩ := parent_name_spec hp
  have e := h2 hs
  have hne : chars n ≠ [] := normal_name (by rw [← e]; exact hn) (by rw [← e]; exact hr)
  obtain ⟨q, e3, w3, hq, hf, _⟩ := fileIn_partial w1 w2 (by rw [comps_plain h0 hne]; simp)
  refine ⟨d, n, q, e1, e2, e3, ?_⟩
  rw [hf, canonical_eq hn, e, comps_append]
  congr 1
  have : (chars d = [] ∨ Absolute (chars d)) ↔ Absolute (chars d ++ slash :: chars n) := by
    unfold Absolute
    cases hd : chars d with
    | nil => simp
    | cons x xs => simp
  by_cases h : chars d = [] ∨ Absolute (chars d)
  · rw [if_pos h, if_pos (this.1 h)]
  · rw [if_neg h, if_neg (fun x => h (this.2 x))]

example : ∃ p : Str, WF p ∧ chars p = [slash, 0x61, slash, 0x62] ∧ Normal (chars p) ∧ slash ∈ chars p ∧ chars p ≠ [slash] := by
  obtain ⟨s, _, w, c⟩ := Verif.Str.EditProps.constructed [slash, 0x61, slash, 0x62]
  refine ⟨s, w, c, ?_, ?_, ?_⟩
  · rw [c]
    have : canonical [slash, 0x61, slash, 0x62] = [slash, 0x61, slash, 0x62] := by decide
    rw [← this]; exact normal_canonical _
  · rw [c]; decide
  · rw [c]; decide

/-- build a path string, apply a function, and look at the characters -/
def onChars (f : Str → Res Str) (l : List Ch) : Res (List Ch) := do
  let s ← ofChars l
  let r ← f s
  return chars r

/-- the same for two strings -/
def onChars2 (f : Str → Str → Res Str) (l m : List Ch) : Res (List Ch) := do
  let s ← ofChars l
  let t ← ofChars m
  let r ← f s t
  return chars r

/-- Violation: `File("a", "/")` is "a/", not a normal path. -/
theorem fileIn_trailing : onChars2 fileIn [0x61] [slash] = .ok [0x61, slash] := by decide +kernel

/-- Violation: a relative file without directory: `File(parent(), name())` of "x" is "/x". -/
theorem recompose_relative :
    (do let p ← ofChars [0x78]; let f ← file p; let d ← parent f; let n ← name f; let q ← fileIn d n; return chars q) =
      .ok [slash, 0x78] := by decide +kernel

/-- Violation: for the root the composition throws. -/
theorem recompose_root :
    (do let p ← ofChars [slash]; let f ← file p; let d ← parent f; let n ← name f; let q ← fileIn d n; return chars q) =
      .error .thrown := by decide +kernel

/-- Violation: the parent of "/x" is the empty path, not "/". -/
theorem parent_of_root_child : onChars parent [slash, 0x78] = .ok [] := by decide +kernel

/-! ### C43: extension -/

/-- **C43 (extension).** For a file whose name contains a dot the extension is what follows the last dot of the name. -/
theorem extension_partial {p : Str} (hp : WF p) : ∃ n x, name p = .ok n ∧ extension p = .ok x ∧ WF x ∧
    (0x2E ∈ chars n → ∃ base, chars n = base ++ 0x2E :: chars x ∧ 0x2E ∉ chars x) := by
  obtain ⟨d, n, e1, e2, w1, w2, h0, h1, h2⟩ := parent_name_spec hp
  obtain ⟨r, e, h⟩ := SearchProps.lastIndexOfChar_spec hp 0x2E
  obtain ⟨x, e3, w3, c3⟩ := PartProps.substringFrom_spec hp (r + 1)
  refine ⟨n, x, e2, ?_, w3, ?_⟩
  · simp only [extension, e, bind, Except.bind, e3]
  intro hdot
  obtain ⟨pre, epre⟩ : ∃ pre, chars p = pre ++ chars n := by
    by_cases hm : slash ∈ chars p
    · exact ⟨chars d ++ [slash], by rw [h2 hm]; simp⟩
    · exact ⟨[], by rw [(h1 hm).2]; rfl⟩
  rcases lastSep (chars_length hp).symm h with ⟨rfl, hc⟩ | ⟨a, rfl, hlt, hc, hn⟩
  · exact absurd (by rw [epre]; exact List.mem_append_right _ hdot) hc
  · have ex : chars x = (chars p).drop (a + 1) := by rw [c3]; congr 1
    rw [← ex] at hc hn
    have hlen : chars x = chars x := rfl
    -- the last dot lies in the name
    rw [epre] at hc
    rcases List.append_eq_append_iff.1 hc with ⟨t, h3, h4⟩ | ⟨t, h3, h4⟩
    · cases t with
      | nil => exact ⟨[], by simpa using h4, hn⟩
      | cons y t => exact ⟨y :: t, by simpa using h4, hn⟩
    · cases t with
      | nil => exact ⟨[], by simpa using h4.symm, hn⟩
      | cons y t =>
        exfalso
        simp only [List.cons_append, List.cons.injEq] at h4
        exact hn (by rw [h4.2]; exact List.mem_append_right _ hdot)

/-- Violation: without a dot the "extension" is the whole path. -/
theorem extension_no_dot : onChars extension [slash, 0x61] = .ok [slash, 0x61] := by decide +kernel

/-- Violation: the dot of a directory is taken for the one of the name: "/a.b/c" has the extension "b/c". -/
theorem extension_dir_dot : onChars extension [slash, 0x61, 0x2E, 0x62, slash, 0x63] = .ok [0x62, slash, 0x63] := by
  decide +kernel

/-! ### C63: order of files -/

/-- the specification: directories before other files, then by path -/
def Before (dir : List Ch → Bool) (p q : List Ch) : Prop :=
  (dir p = true ∧ dir q = false) ∨ (dir p = dir q ∧ CmpProps.LexLt p q)

/-- **C63.** Whatever is a directory: `compareTo` is negative, zero or positive exactly as the order "directories first,
then by path" says. -/
theorem compareTo_before (dir : List Ch → Bool) {a b : Str} (ha : WF a) (hb : WF b) : ∃ r, compareTo dir a b = .ok r ∧
    (r = -1 ∨ r = 0 ∨ r = 1) ∧ (r = -1 ↔ Before dir (chars a) (chars b)) ∧ (r = 0 ↔ chars a = chars b) ∧
    (r = 1 ↔ Before dir (chars b) (chars a)) := by
  obtain ⟨r, e, h0, h1, h2, h3⟩ := CmpProps.compareTo_spec ha hb
  unfold compareTo Before
  dsimp only
  by_cases hd : dir (chars a) = dir (chars b)
  · rw [if_neg (by simp [hd])]
    refine ⟨r, e, h0, ?_, h2, ?_⟩
    · rw [h1]; rw [hd]; simp
    · rw [h3]; rw [hd]; simp
  · rw [if_pos hd]
    have hne : chars a ≠ chars b := fun x => hd (by rw [x])
    cases h : dir (chars a) <;> cases h' : dir (chars b) <;> rw [h, h'] at hd <;> first | exact absurd rfl hd | skip
    · exact ⟨1, rfl, by simp, by simp, by simp [hne], by simp⟩
    · exact ⟨-1, rfl, by simp, by simp, by simp [hne], by simp⟩

/-- **C63 (total order).** -/
theorem compareTo_order (dir : List Ch → Bool) {a b c : Str} (ha : WF a) (hb : WF b) (hc : WF c) :
    ∃ ab ba bc ac, compareTo dir a b = .ok ab ∧ compareTo dir b a = .ok ba ∧ compareTo dir b c = .ok bc ∧
      compareTo dir a c = .ok ac ∧ ba = -ab ∧ (ab ≤ 0 → bc ≤ 0 → ac ≤ 0) ∧ (ab < 0 → bc ≤ 0 → ac < 0) ∧
      (ab ≤ 0 → bc < 0 → ac < 0) := by
  obtain ⟨st, ts, tu, su, e1, e2, e3, e4, h1, h2, h3, h4⟩ := CmpProps.compareTo_total_order ha hb hc
  unfold compareTo
  dsimp only
  cases dir (chars a) <;> cases dir (chars b) <;> cases dir (chars c) <;>
    first
    | exact ⟨_, _, _, _, e1, e2, e3, e4, h1, h2, h3, h4⟩
    | (refine ⟨_, _, _, _, rfl, rfl, e3, rfl, ?_⟩; simp)
    | (refine ⟨_, _, _, _, rfl, rfl, rfl, e4, ?_⟩; simp)
    | (refine ⟨_, _, _, _, e1, e2, rfl, rfl, ?_⟩; simp [h1])

/-! ### C64: readFully -/

/-- what a reader hopes to get: the bytes delivered until the stream reports its end (an empty answer), cut at the
requested length -/
def delivered : List (List Byte) → List Byte
  | [] => []
  | a :: as => if a = [] then [] else a ++ delivered as

theorem store_ok (bs : List Byte) : ∀ (buf : List Byte) (i : Nat), i + bs.length ≤ buf.length →
    store buf i bs = .ok (buf.take i ++ bs ++ buf.drop (i + bs.length)) := by
  induction bs with
  | nil => intro buf i h; simp [store]
  | cons b bs ih =>
    intro buf i h
    simp only [List.length_cons] at h
    unfold store
    rw [wr_ok (by omega)]
    simp only [bind, Except.bind]
    rw [ih _ _ (by rw [List.length_set]; omega)]
    congr 1
    rw [List.take_set, List.drop_set_of_lt (by omega)]
    simp only [List.length_cons]
    rw [List.take_add_one, List.getElem?_eq_getElem (by omega)]
    have : ((List.take i buf ++ (some buf[i]).toList).set i b) = List.take i buf ++ [b] := by
      rw [List.set_append_right _ _ (by rw [List.length_take]; omega), List.length_take]
      have : i - min i buf.length = 0 := by omega
      rw [this]; rfl
    rw [this]
    have e : i + 1 + bs.length = i + (bs.length + 1) := by omega
    rw [e]; simp

theorem readLoop_ok (answers : List (List Byte)) : ∀ (buf : List Byte) (count rest : Nat), count + rest ≤ buf.length →
    ∃ got, got = (delivered answers).take rest ∧
      readLoop answers buf count rest = .ok (buf.take count ++ got ++ buf.drop (count + got.length), count + got.length) := by
  induction answers with
  | nil => intro buf count rest h; exact ⟨[], by simp [delivered], by simp [readLoop]⟩
  | cons a as ih =>
    intro buf count rest h
    unfold readLoop
    by_cases hr : rest > 0
    · rw [if_pos hr]
      by_cases ha : a = []
      · subst ha
        refine ⟨[], by simp [delivered], ?_⟩
        simp [fread]
      · have hlen : 0 < (fread rest a).length := by
          have := List.length_pos_iff.2 ha
          unfold fread; rw [List.length_take]; omega
        have hle : (fread rest a).length ≤ rest := by unfold fread; rw [List.length_take]; omega
        rw [if_pos hlen, store_ok _ _ _ (by omega)]
        simp only [bind, Except.bind]
        obtain ⟨got, hg, e⟩ := ih (buf.take count ++ fread rest a ++ buf.drop (count + (fread rest a).length))
          (count + (fread rest a).length) (rest - (fread rest a).length) (by
            simp only [List.length_append, List.length_take, List.length_drop]; omega)
        rw [e]
        refine ⟨fread rest a ++ got, ?_, ?_⟩
        · rw [hg, delivered, if_neg ha, List.take_append]
          unfold fread
          rw [List.length_take]
          by_cases hc : rest ≤ a.length
          · rw [Nat.min_eq_left hc, Nat.sub_self, Nat.sub_eq_zero_of_le hc]
          · rw [Nat.min_eq_right (by omega)]
        · have hgl : got.length ≤ rest - (fread rest a).length := by rw [hg, List.length_take]; omega
          have hl : (buf.take count ++ fread rest a).length = count + (fread rest a).length := by
            rw [List.length_append, List.length_take]; omega
          rw [List.take_append_of_le_length (by omega), List.take_of_length_le (by omega), List.drop_append,
            List.drop_eq_nil_of_le (by omega), hl, List.drop_drop]
          simp only [List.length_append, List.nil_append, List.append_assoc]
          have e1 : count + (fread rest a).length + (count + (fread rest a).length + got.length - (count + (fread rest a).length)) =
            count + ((fread rest a).length + got.length) := by omega
          rw [e1]
          congr 2
          omega
    · rw [if_neg hr]
      have : rest = 0 := by omega
      subst this
      exact ⟨[], by simp, by simp⟩

/-- **C64.** For every way the system splits the data into short reads: `readFully` returns the number of bytes it got,
which are the first `length` bytes delivered before the end of the stream; they stand at the beginning of the buffer and
the rest of the buffer is unchanged. The buffer must have room for `length` bytes. -/
theorem readFully_spec (answers : List (List Byte)) (buf : List Byte) (length : Nat) (h : length ≤ buf.length) :
    ∃ got, got = (delivered answers).take length ∧
      readFully answers buf length = .ok (got ++ buf.drop got.length, got.length) := by
  obtain ⟨got, hg, e⟩ := readLoop_ok answers buf 0 length (by omega)
  refine ⟨got, hg, ?_⟩
  unfold readFully
  rw [e]; simp

/-- **C64 (independence of the schedule).** Two schedules which deliver the same bytes give the same result. -/
theorem readFully_schedule (as bs : List (List Byte)) (buf : List Byte) (length : Nat) (h : length ≤ buf.length)
    (hs : delivered as = delivered bs) : readFully as buf length = readFully bs buf length := by
  obtain ⟨g1, h1, e1⟩ := readFully_spec as buf length h
  obtain ⟨g2, h2, e2⟩ := readFully_spec bs buf length h
  rw [e1, e2, h1, h2, hs]

example : delivered [[1, 2], [3], [], [4]] = delivered [[1], [2, 3]] ∧
    readFully [[1, 2], [3], [], [4]] [9, 9, 9, 9, 9] 4 = .ok ([1, 2, 3, 9, 9], 3) := by decide +kernel

/-- Violation: nothing compares `length` with the size of the buffer: reading three bytes into a buffer of two writes
outside of it. -/
theorem readFully_overrun : readFully [[1, 2, 3]] [0, 0] 3 = .error .ub := by decide +kernel

/-! ### C65: modification time -/

/-- The specification: `t` is the number of whole milliseconds in `sec` seconds and `nsec` nanoseconds. -/
def IsMillis (sec nsec t : Int) : Prop := t * 1000000 ≤ sec * 1000000000 + nsec ∧ sec * 1000000000 + nsec < (t + 1) * 1000000

/-- **C65.** The reported time is right when the nanoseconds are less than a microsecond (so for time stamps of whole
seconds). Missing: every other fraction, see `lastModified_wrong`. -/
theorem lastModified_partial (sec nsec : Int) (h0 : 0 ≤ nsec) (h : nsec < 1000) : IsMillis sec nsec (lastModified sec nsec) := by
  unfold IsMillis lastModified
  rw [Int.tdiv_eq_ediv_of_nonneg h0]
  omega

/-- Violation: from one microsecond on, the reported time is wrong: the nanoseconds are converted to microseconds and
added to the milliseconds (so it is up to 999 seconds late). -/
theorem lastModified_wrong (sec nsec : Int) (h0 : 1000 ≤ nsec) (h : nsec < 1000000000) :
    ¬ IsMillis sec nsec (lastModified sec nsec) := by
  unfold IsMillis lastModified
  rw [Int.tdiv_eq_ediv_of_nonneg (by omega)]
  omega

/-- A file of time 0.999999999 s is reported as 999.999 s. -/
theorem lastModified_example : lastModified 0 999999999 = 999999 := by decide

/-- Consequently a file changed later may be reported as changed earlier. -/
theorem lastModified_not_monotone : ∃ s1 n1 s2 n2 : Int, 0 ≤ n1 ∧ n1 < 1000000000 ∧ 0 ≤ n2 ∧ n2 < 1000000000 ∧
    s1 * 1000000000 + n1 < s2 * 1000000000 + n2 ∧ lastModified s1 n1 > lastModified s2 n2 :=
  ⟨0, 999999999, 1, 0, by decide, by decide, by decide, by decide, by decide, by decide⟩

end Verif.Path
