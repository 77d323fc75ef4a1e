import Verif.Sys.Model
import Verif.Home.Props
import Verif.I18n.FileProps
/-
C125: the language of the system.
-/
namespace Verif.Sys.Props
open Verif Verif.Str Verif.Sys Verif.Path.Spec
open Verif.I18n.Spec (units withoutRegion candidates asked)
open Verif.I18n (takeWhile_first takeWhile_none)
open Verif.Str.PartProps (substring_spec sub)
open Verif.Str.SearchProps
open Verif.Home.Props (bytes ofCString_bytes ofCString_none)
open Verif.Home (ofCString getenv)
open Verif.Charset hiding Ch

/-! ### specification -/

abbrev Text := List Ch

/-- no NUL, no byte order mark in front -/
def Clean (t : Text) : Prop := (0 : Ch) ∉ t ∧ t.head? ≠ some 0xFEFF

/-- the environment variables of the user, as texts -/
abbrev Vars := String → Option Text

def CleanVars (u : Vars) : Prop := ∀ k t, u k = some t → Clean t

/-- their bytes (UTF-8) -/
def envOf (u : Vars) : Env := fun k => (u k).map bytes

/-- a variable counts if it is set and not empty -/
def given (u : Vars) (k : String) : Option Text := (u k).filter (· ≠ [])

/-- POSIX: `LC_ALL` decides, then the variable of the category, then `LANG`, and `C` if none of them is given -/
def choice (u : Vars) (cat : String) : Text :=
  let t := (((given u "LC_ALL").or (given u cat)).or (given u "LANG")).getD (units "C")
  if t = units "POSIX" then units "C" else t

/-- the language in which the user wants to read messages -/
def messages (u : Vars) : Text := choice u "LC_MESSAGES"

/-- the locale the user wants, in the order of the categories -/
def wanted (u : Vars) : List Text := cats.map (choice u)

/-- the locales that exist on the computer -/
def Installed (inst : List Byte → Bool) (l : List Text) : Prop := ∀ t ∈ l, t = units "C" ∨ inst (bytes t) = true

/-- how locales are named: language, region, character set and variant; the last two may be missing (empty) -/
def written (ll cc cs md : Text) : Text :=
  ll ++ units "_" ++ cc ++ (if cs = [] then [] else units "." ++ cs) ++ (if md = [] then [] else units "@" ++ md)

/-- the form the documentation promises: `de-DE` -/
def promised (ll cc : Text) : Text := ll ++ units "-" ++ cc

/-- language and region consist of letters -/
def Letters (t : Text) : Prop := t ≠ [] ∧ ∀ c ∈ t, (0x41 ≤ c.toNat ∧ c.toNat ≤ 0x5A) ∨ (0x61 ≤ c.toNat ∧ c.toNat ≤ 0x7A)

/-- up to the first full stop, unless the text begins with it -/
def cut (t : Text) : Text := if t.head? = some 0x2E then t else t.takeWhile (fun x => x ≠ 0x2E)

/-- the pairs category=name, separated by semicolons -/
def pairs : List String → List Text → Text
  | [], _ => []
  | _, [] => []
  | [c], n :: _ => units c ++ units "=" ++ n
  | c :: cs, n :: ns => units c ++ units "=" ++ n ++ units ";" ++ pairs cs ns

/-- the name of a locale as a whole -/
def wholeName (l : List Text) : Text :=
  match l with
  | [] => []
  | n :: ns => if (∀ m ∈ ns, m = n) then n else pairs cats (n :: ns)

/-! ### bytes -/

theorem bytes_append (a b : Text) : bytes (a ++ b) = bytes a ++ bytes b := by simp [bytes]

theorem bytes_nil_iff (t : Text) : bytes t = [] ↔ t = [] := by
  constructor
  · intro h
    by_cases ht : t = []
    · exact ht
    · have := Verif.Home.Props.bytes_ne ht
      rw [h] at this; simp at this
  · rintro rfl; rfl

theorem bytes_inj {a b : Text} (ha : Clean a) (hb : Clean b) (h : bytes a = bytes b) : a = b := by
  have h1 := Utf8Props.roundtrip_partial a (bytes a) [] ha.1 ha.2 (utf8Encode_eq a)
  have h2 := Utf8Props.roundtrip_partial b (bytes b) [] hb.1 hb.2 (utf8Encode_eq b)
  rw [h, h2] at h1
  exact (Except.ok.inj h1).symm

theorem bytes_C : bytes (units "C") = asc "C" := by decide +kernel
theorem bytes_POSIX : bytes (units "POSIX") = asc "POSIX" := by decide +kernel
theorem clean_C : Clean (units "C") := by constructor <;> decide +kernel
theorem clean_POSIX : Clean (units "POSIX") := by constructor <;> decide +kernel

theorem given_clean {u : Vars} (hu : CleanVars u) {k : String} {t : Text} (h : given u k = some t) : Clean t := by
  rw [given, Option.filter_eq_some_iff] at h
  exact hu k t h.1

theorem setVar_eq (u : Vars) (k : String) : setVar (envOf u) k = (given u k).map bytes := by
  unfold setVar given envOf
  cases hu : u k with
  | none => rfl
  | some t =>
    by_cases ht : t = []
    · subst ht; rfl
    · have hb : bytes t ≠ [] := fun h => ht ((bytes_nil_iff t).1 h)
      obtain ⟨b, l, e⟩ := List.exists_cons_of_ne_nil hb
      simp [Option.filter, ht, e]

/-- the text before `POSIX` is replaced -/
def raw (u : Vars) (cat : String) : Text := (((given u "LC_ALL").or (given u cat)).or (given u "LANG")).getD (units "C")

theorem raw_clean {u : Vars} (hu : CleanVars u) (c : String) : Clean (raw u c) := by
  unfold raw
  cases h1 : given u "LC_ALL" with
  | some t => exact given_clean hu h1
  | none =>
    cases h2 : given u c with
    | some t => exact given_clean hu h2
    | none =>
      cases h3 : given u "LANG" with
      | some t => exact given_clean hu h3
      | none => exact clean_C

theorem resolve_eq (u : Vars) (c : String) : resolve (envOf u) c = bytes (raw u c) := by
  simp only [resolve, raw, setVar_eq]
  cases given u "LC_ALL" with
  | some t => rfl
  | none =>
    cases given u c with
    | some t => rfl
    | none =>
      cases given u "LANG" with
      | some t => rfl
      | none => exact bytes_C.symm

theorem choice_clean {u : Vars} (hu : CleanVars u) (c : String) : Clean (choice u c) := by
  show Clean (if raw u c = units "POSIX" then units "C" else raw u c)
  split
  · exact clean_C
  · exact raw_clean hu c

theorem canon_eq {u : Vars} (hu : CleanVars u) (c : String) : canon (resolve (envOf u) c) = bytes (choice u c) := by
  rw [resolve_eq]
  show _ = bytes (if raw u c = units "POSIX" then units "C" else raw u c)
  unfold canon
  by_cases h : raw u c = units "POSIX"
  · rw [h, if_pos bytes_POSIX, if_pos rfl, bytes_C]
  · rw [if_neg h, if_neg]
    intro e
    rw [← bytes_POSIX] at e
    exact h (bytes_inj (raw_clean hu c) clean_POSIX e)

theorem envLocale_eq {u : Vars} (hu : CleanVars u) : envLocale (envOf u) = (wanted u).map bytes := by
  unfold envLocale wanted
  rw [List.map_map]
  exact List.map_congr_left fun c _ => canon_eq hu c

theorem wanted_clean {u : Vars} (hu : CleanVars u) : ∀ t ∈ wanted u, Clean t := by
  intro t ht
  obtain ⟨c, _, rfl⟩ := List.mem_map.1 ht
  exact choice_clean hu c

theorem ascii_cats : ∀ c ∈ cats, bytes (units c) = asc c ∧ Clean (units c) ∧ units c ≠ [] := by
  intro c hc
  have h : cats.all (fun c => bytes (units c) == asc c && !(units c).contains 0 && (units c).head? != some 0xFEFF && units c != []) = true := by
    decide +kernel
  have := List.all_eq_true.1 h c hc
  simp only [Bool.and_eq_true, beq_iff_eq, bne_iff_ne, ne_eq, Bool.not_eq_true', List.contains_eq_mem, decide_eq_false_iff_not] at this
  exact ⟨this.1.1.1, ⟨this.1.1.2, this.1.2⟩, this.2⟩

theorem bytes_eq1 : bytes (units "=") = asc "=" := by decide +kernel
theorem bytes_semi : bytes (units ";") = asc ";" := by decide +kernel

theorem composite_eq : ∀ (cs : List String) (l : List Text), (∀ c ∈ cs, bytes (units c) = asc c) →
    composite cs (l.map bytes) = bytes (pairs cs l)
  | [], _, _ => rfl
  | c :: cs, [], _ => by cases cs <;> rfl
  | [c], n :: _, h => by
    simp only [List.map_cons, composite, pairs, bytes_append, h c (List.mem_singleton.2 rfl), bytes_eq1]
  | c :: d :: cs, n :: ns, h => by
    have ih := composite_eq (d :: cs) ns (fun x hx => h x (List.mem_cons_of_mem _ hx))
    simp only [List.map_cons, composite, pairs, bytes_append, h c List.mem_cons_self, bytes_eq1, bytes_semi, ih]

theorem localeName_eq {l : List Text} (hl : ∀ t ∈ l, Clean t) : localeName (l.map bytes) = bytes (wholeName l) := by
  cases l with
  | nil => rfl
  | cons n ns =>
    simp only [List.map_cons, localeName, wholeName]
    by_cases h : ∀ m ∈ ns, m = n
    · rw [if_pos h, if_pos]
      rw [List.all_eq_true]
      intro b hb
      obtain ⟨m, hm, rfl⟩ := List.mem_map.1 hb
      simp [h m hm]
    · rw [if_neg h, if_neg]
      · exact composite_eq cats (n :: ns) fun c hc => (ascii_cats c hc).1
      · intro hall
        apply h
        intro m hm
        have := List.all_eq_true.1 hall (bytes m) (List.mem_map_of_mem hm)
        exact bytes_inj (hl m (List.mem_cons_of_mem _ hm)) (hl n List.mem_cons_self) (by simpa using this)

theorem pairs_clean {l : List Text} (hl : ∀ t ∈ l, Clean t) : ∀ (cs : List String) (k : List Text), (∀ t ∈ k, (0 : Ch) ∉ t) →
    (∀ c ∈ cs, Clean (units c) ∧ units c ≠ []) → (0 : Ch) ∉ pairs cs k ∧ (pairs cs k).head? ≠ some 0xFEFF
  | [], _, _, _ => by simp [pairs]
  | c :: cs, [], _, _ => by cases cs <;> simp [pairs]
  | [c], n :: ns, hk, hc => by
    have h1 := (hc c (List.mem_singleton.2 rfl)).1
    have h2 := (hc c (List.mem_singleton.2 rfl)).2
    obtain ⟨x, y, e⟩ := List.exists_cons_of_ne_nil h2
    have h3 := hk n List.mem_cons_self
    have h4 : (0 : Ch) ∉ units "=" := by decide +kernel
    refine ⟨?_, ?_⟩
    · simp only [pairs, List.mem_append, not_or]; exact ⟨⟨h1.1, h4⟩, h3⟩
    · have := h1.2
      simp only [pairs]; rw [e] at this ⊢; simpa using this
  | c :: d :: cs, n :: ns, hk, hc => by
    have ih := pairs_clean hl (d :: cs) ns (fun x hx => hk x (List.mem_cons_of_mem _ hx)) (fun x hx => hc x (List.mem_cons_of_mem _ hx))
    have h1 := (hc c List.mem_cons_self).1
    have h2 := (hc c List.mem_cons_self).2
    obtain ⟨x, y, e⟩ := List.exists_cons_of_ne_nil h2
    have h3 := hk n List.mem_cons_self
    have h4 : (0 : Ch) ∉ units "=" := by decide +kernel
    have h5 : (0 : Ch) ∉ units ";" := by decide +kernel
    refine ⟨?_, ?_⟩
    · simp only [pairs, List.mem_append, not_or]; exact ⟨⟨⟨⟨h1.1, h4⟩, h3⟩, h5⟩, ih.1⟩
    · have := h1.2
      simp only [pairs]; rw [e] at this ⊢; simpa using this

theorem wholeName_clean {l : List Text} (hl : ∀ t ∈ l, Clean t) : Clean (wholeName l) := by
  cases l with
  | nil => simp [wholeName, Clean]
  | cons n ns =>
    simp only [wholeName]
    split
    · exact hl n List.mem_cons_self
    · exact pairs_clean hl cats (n :: ns) (fun t ht => (hl t ht).1) fun c hc => (ascii_cats c hc).2

theorem cutDot_ok {s : Str} (hs : WF s) : ∃ r, cutDot s = .ok r ∧ WF r ∧ chars r = cut (chars s) := by
  obtain ⟨i, e, hi⟩ := indexOfChar_spec hs (0x2E : Ch) 0
  simp only [cutDot, e, bind, Except.bind]
  rcases hi with ⟨rfl, hn⟩ | ⟨a, rfl, _, hp, hf⟩
  · rw [if_neg (by omega)]
    refine ⟨s, rfl, hs, ?_⟩
    have hn' : ∀ a, (chars s)[a]? ≠ some (0x2E : Ch) := fun a => hn a (by simp)
    rw [cut, takeWhile_none _ _ hn', ite_self]
  · by_cases h0 : a = 0
    · subst h0
      rw [if_neg (by omega)]
      refine ⟨s, rfl, hs, ?_⟩
      rw [cut, if_pos (by rw [List.head?_eq_getElem?]; exact hp)]
    · rw [if_pos (by omega)]
      obtain ⟨r, er, wr, cr, _⟩ := substring_spec hs 0 a
      refine ⟨r, er, wr, ?_⟩
      have hf' : ∀ b, b < a → (chars s)[b]? ≠ some (0x2E : Ch) := fun b hb => hf b (by simp) hb
      rw [cr, cut, if_neg (by rw [List.head?_eq_getElem?]; exact hf' 0 (by omega)), takeWhile_first _ _ a hp hf', sub]
      simp

theorem language_of {inst : List Byte → Bool} {env : Env} {cur : Locale} {l : List Text} (hl : ∀ t ∈ l, Clean t)
    (h : setEnvLocale inst env cur = l.map bytes) :
    ∃ r, language inst env cur = .ok (r, l.map bytes) ∧ WF r ∧ chars r = cut (wholeName l) := by
  have hc := wholeName_clean hl
  obtain ⟨s, e, w, c⟩ := ofCString_bytes (wholeName l) hc.1 hc.2
  obtain ⟨r, er, wr, cr⟩ := cutDot_ok w
  refine ⟨r, ?_, wr, by rw [cr, c]⟩
  simp only [language, h, localeName_eq hl, e, er, bind, Except.bind, pure, Except.pure]

theorem set_installed {u : Vars} (hu : CleanVars u) {inst : List Byte → Bool} (cur : Locale) (h : Installed inst (wanted u)) :
    setEnvLocale inst (envOf u) cur = (wanted u).map bytes := by
  rw [setEnvLocale, envLocale_eq hu, if_pos]
  rw [List.all_eq_true]
  intro b hb
  obtain ⟨t, ht, rfl⟩ := List.mem_map.1 hb
  rcases h t ht with rfl | e
  · simp [bytes_C]
  · simp [e]

theorem set_missing {u : Vars} (hu : CleanVars u) {inst : List Byte → Bool} (cur : Locale) (h : ¬ Installed inst (wanted u)) :
    setEnvLocale inst (envOf u) cur = cur := by
  rw [setEnvLocale, envLocale_eq hu, if_neg]
  intro hall
  apply h
  intro t ht
  have := List.all_eq_true.1 hall (bytes t) (List.mem_map_of_mem ht)
  rcases (Bool.or_eq_true _ _).mp this with e | e
  · left; exact bytes_inj (wanted_clean hu t ht) clean_C (by rw [bytes_C]; simpa using e)
  · right; exact e

/-! ### exact behaviour -/

/-- **C125, exact.** If all locales the user wants are installed, the result is the name of the locale up to the first full stop, and the process
has that locale afterwards, whatever it was before. -/
theorem language_exact {u : Vars} (hu : CleanVars u) {inst : List Byte → Bool} (cur : Locale) (h : Installed inst (wanted u)) :
    ∃ r, language inst (envOf u) cur = .ok (r, (wanted u).map bytes) ∧ WF r ∧ chars r = cut (wholeName (wanted u)) :=
  language_of (wanted_clean hu) (set_installed hu cur h)

/-- Otherwise the wishes of the user do not matter at all: the result is that of the locale the process already has. -/
theorem language_missing {u : Vars} (hu : CleanVars u) {inst : List Byte → Bool} {cur : List Text} (hc : ∀ t ∈ cur, Clean t)
    (h : ¬ Installed inst (wanted u)) :
    ∃ r, language inst (envOf u) (cur.map bytes) = .ok (r, cur.map bytes) ∧ WF r ∧ chars r = cut (wholeName cur) :=
  language_of hc (set_missing hu _ h)

/-! ### one locale for everything -/

theorem all_ne {l : Text} (h : l.all (fun x => x != (0x2E : Ch) && x != (0x2D : Ch)) = true) : ∀ x ∈ l, x ≠ (0x2E : Ch) ∧ x ≠ (0x2D : Ch) := by
  intro x hx
  simpa using List.all_eq_true.1 h x hx

theorem letters_of {l : Text} (h0 : (l == []) = false)
    (h : l.all (fun c => (decide (0x41 ≤ c.toNat) && decide (c.toNat ≤ 0x5A)) || (decide (0x61 ≤ c.toNat) && decide (c.toNat ≤ 0x7A))) = true) : Letters l := by
  refine ⟨by simpa using h0, ?_⟩
  intro x hx
  simpa using List.all_eq_true.1 h x hx

theorem letters_dot {t : Text} (h : Letters t) : ∀ x ∈ t, x ≠ (0x2E : Ch) ∧ x ≠ (0x2D : Ch) ∧ x ≠ (0x5F : Ch) ∧ x ≠ (0x3D : Ch) := by
  intro x hx
  have := h.2 x hx
  refine ⟨?_, ?_, ?_, ?_⟩ <;> (rintro rfl; revert this; decide)

theorem wholeName_same {u : Vars} {n : Text} (h : ∀ c ∈ cats, choice u c = n) : wholeName (wanted u) = n := by
  have e : wanted u = cats.map fun _ => n := List.map_congr_left h
  rw [e]
  simp [wholeName, cats]

theorem takeWhile_stop {a b : Text} (h : ∀ x ∈ a, x ≠ (0x2E : Ch)) : (a ++ units "." ++ b).takeWhile (fun x => x ≠ (0x2E : Ch)) = a := by
  rw [List.append_assoc, List.takeWhile_append_of_pos]
  · have : units "." = [(0x2E : Ch)] := by decide +kernel
    rw [this]; simp
  · intro x hx; simpa using h x hx

theorem head_ne {a b : Text} (ha : a ≠ []) (h : ∀ x ∈ a, x ≠ (0x2E : Ch)) : (a ++ b).head? ≠ some (0x2E : Ch) := by
  obtain ⟨x, l, rfl⟩ := List.exists_cons_of_ne_nil ha
  have := h x List.mem_cons_self
  simpa using this

theorem cut_stop {a b : Text} (ha : a ≠ []) (h : ∀ x ∈ a, x ≠ (0x2E : Ch)) : cut (a ++ units "." ++ b) = a := by
  rw [cut, if_neg (by rw [List.append_assoc]; exact head_ne ha h), takeWhile_stop h]

theorem cut_none {a : Text} (h : ∀ x ∈ a, x ≠ (0x2E : Ch)) : cut a = a := by
  rw [cut, takeWhile_none, ite_self]
  intro k e
  exact h _ (List.mem_of_getElem? e) rfl

theorem ll_cc {ll cc : Text} (h1 : Letters ll) (h2 : Letters cc) : (∀ x ∈ ll ++ units "_" ++ cc, x ≠ (0x2E : Ch) ∧ x ≠ (0x2D : Ch)) ∧ ll ++ units "_" ++ cc ≠ [] := by
  refine ⟨?_, by simp [h1.1]⟩
  intro x hx
  have hs : ∀ x ∈ units "_", x ≠ (0x2E : Ch) ∧ x ≠ (0x2D : Ch) := all_ne (by decide +kernel)
  simp only [List.mem_append] at hx
  rcases hx with (hx | hx) | hx
  · exact ⟨(letters_dot h1 x hx).1, (letters_dot h1 x hx).2.1⟩
  · exact hs x hx
  · exact ⟨(letters_dot h2 x hx).1, (letters_dot h2 x hx).2.1⟩

/-- **C125, the part that holds.** If every category has the same locale, which is installed and has a character set, language and region are those of
the user — separated by an underscore. -/
theorem language_partial {u : Vars} (hu : CleanVars u) {inst : List Byte → Bool} (cur : Locale) {ll cc cs md : Text} (h1 : Letters ll) (h2 : Letters cc)
    (hcs : cs ≠ []) (h : ∀ c ∈ cats, choice u c = written ll cc cs md) (hi : inst (bytes (written ll cc cs md)) = true) :
    ∃ r l, language inst (envOf u) cur = .ok (r, l) ∧ WF r ∧ chars r = ll ++ units "_" ++ cc := by
  have hin : Installed inst (wanted u) := by
    intro t ht
    obtain ⟨c, hc, rfl⟩ := List.mem_map.1 ht
    right; rw [h c hc]; exact hi
  obtain ⟨r, e, w, c⟩ := language_exact hu cur hin
  refine ⟨r, _, e, w, ?_⟩
  rw [c, wholeName_same h, written, if_neg hcs]
  have := ll_cc h1 h2
  have hx : ∀ z : Text, ll ++ units "_" ++ cc ++ (units "." ++ cs) ++ z = ll ++ units "_" ++ cc ++ units "." ++ (cs ++ z) := by
    intro z; simp only [List.append_assoc]
  rw [hx]
  exact cut_stop this.2 fun x hx => (this.1 x hx).1

/-- Violation: it never has the form `de-DE`, because there is no hyphen in it. -/
theorem never_promised {u : Vars} (hu : CleanVars u) {inst : List Byte → Bool} (cur : Locale) {ll cc cs md : Text} (h1 : Letters ll) (h2 : Letters cc)
    (hcs : cs ≠ []) (h : ∀ c ∈ cats, choice u c = written ll cc cs md) (hi : inst (bytes (written ll cc cs md)) = true) (a b : Text) :
    ∃ r l, language inst (envOf u) cur = .ok (r, l) ∧ chars r ≠ promised a b := by
  obtain ⟨r, l, e, _, c⟩ := language_partial hu cur h1 h2 hcs h hi
  refine ⟨r, l, e, ?_⟩
  rw [c]
  intro he
  have hm : (0x2D : Ch) ∈ promised a b := by
    have : units "-" = [(0x2D : Ch)] := by decide +kernel
    simp [promised, this]
  rw [← he] at hm
  exact (ll_cc h1 h2).1 _ hm |>.2 rfl

/-- Violation: without a character set the variant stays in the result (`de_DE@euro`). -/
theorem variant_stays {u : Vars} (hu : CleanVars u) {inst : List Byte → Bool} (cur : Locale) {ll cc md : Text} (h1 : Letters ll) (h2 : Letters cc)
    (h3 : Letters md) (h : ∀ c ∈ cats, choice u c = written ll cc [] md) (hi : inst (bytes (written ll cc [] md)) = true) :
    ∃ r l, language inst (envOf u) cur = .ok (r, l) ∧ WF r ∧ chars r = ll ++ units "_" ++ cc ++ units "@" ++ md := by
  have hin : Installed inst (wanted u) := by
    intro t ht
    obtain ⟨c, hc, rfl⟩ := List.mem_map.1 ht
    right; rw [h c hc]; exact hi
  obtain ⟨r, e, w, c⟩ := language_exact hu cur hin
  refine ⟨r, _, e, w, ?_⟩
  rw [c, wholeName_same h, written, if_pos rfl, if_neg h3.1, List.append_nil, ← List.append_assoc]
  apply cut_none
  intro x hx
  have hs : ∀ x ∈ units "@", x ≠ (0x2E : Ch) := fun x hx => (all_ne (by decide +kernel) x hx).1
  rw [List.mem_append, List.mem_append] at hx
  rcases hx with (hx | hx) | hx
  · exact ((ll_cc h1 h2).1 x hx).1
  · exact hs x hx
  · exact (letters_dot h3 x hx).1

/-! ### different locales for different categories -/

theorem wholeName_mixed {u : Vars} {c : String} (hc : c ∈ cats) (hd : choice u c ≠ choice u "LC_CTYPE") :
    ∃ rest, wholeName (wanted u) = units "LC_CTYPE=" ++ choice u "LC_CTYPE" ++ rest := by
  have hl : units "LC_CTYPE=" = units "LC_CTYPE" ++ units "=" := by decide +kernel
  have e : wanted u = choice u "LC_CTYPE" :: (cats.tail.map (choice u)) := rfl
  rw [e, wholeName, if_neg, hl]
  · exact ⟨_, by rw [show cats = "LC_CTYPE" :: "LC_NUMERIC" :: cats.tail.tail from rfl, List.tail_cons, List.map_cons]; simp only [pairs]; rw [List.append_assoc (_ ++ choice u "LC_CTYPE")]⟩
  · intro hall
    rw [show cats = "LC_CTYPE" :: cats.tail from rfl] at hc
    rcases List.mem_cons.1 hc with rfl | hc
    · exact hd rfl
    · exact hd (hall _ (List.mem_map_of_mem hc))

/-- Violation: if the user wants another locale for any category (dates, paper, messages, …) than for `LC_CTYPE`, the result is not a language at all. -/
theorem mixed {u : Vars} (hu : CleanVars u) {inst : List Byte → Bool} (cur : Locale) (h : Installed inst (wanted u)) {ll cc cs md : Text} (h1 : Letters ll)
    (h2 : Letters cc) (hcs : cs ≠ []) (ht : choice u "LC_CTYPE" = written ll cc cs md) {c : String} (hc : c ∈ cats) (hd : choice u c ≠ choice u "LC_CTYPE") :
    ∃ r l, language inst (envOf u) cur = .ok (r, l) ∧ WF r ∧ chars r = units "LC_CTYPE=" ++ ll ++ units "_" ++ cc := by
  obtain ⟨r, e, w, cr⟩ := language_exact hu cur h
  obtain ⟨rest, en⟩ := wholeName_mixed hc hd
  refine ⟨r, _, e, w, ?_⟩
  rw [cr, en, ht, written, if_neg hcs]
  have hx : ∀ z : Text, units "LC_CTYPE=" ++ (ll ++ units "_" ++ cc ++ (units "." ++ cs) ++ z) ++ rest =
      (units "LC_CTYPE=" ++ ll ++ units "_" ++ cc) ++ units "." ++ (cs ++ z ++ rest) := by
    intro z; simp only [List.append_assoc]
  rw [hx]
  have hs : ∀ x ∈ units "LC_CTYPE=", x ≠ (0x2E : Ch) := fun x hx => (all_ne (by decide +kernel) x hx).1
  apply cut_stop
  · have : units "LC_CTYPE=" ≠ [] := by decide +kernel
    simp [this]
  · intro x hx
    have := (ll_cc h1 h2).1 x
    simp only [List.mem_append] at hx this
    rcases hx with ((hx | hx) | hx) | hx
    · exact hs x hx
    · exact (this (Or.inl (Or.inl hx))).1
    · exact (this (Or.inl (Or.inr hx))).1
    · exact (this (Or.inr hx)).1

/-- Violation: two users whose messages are in different languages get the same answer. -/
theorem messages_ignored {u v : Vars} (hu : CleanVars u) (hv : CleanVars v) {inst : List Byte → Bool} (cur : Locale) (h : Installed inst (wanted u))
    (g : Installed inst (wanted v)) {ll cc cs md : Text} (h1 : Letters ll) (h2 : Letters cc) (hcs : cs ≠ []) (hu' : choice u "LC_CTYPE" = written ll cc cs md)
    (hv' : choice v "LC_CTYPE" = written ll cc cs md) (hd : messages u ≠ choice u "LC_CTYPE") (gd : messages v ≠ choice v "LC_CTYPE") :
    ∃ r s l m, language inst (envOf u) cur = .ok (r, l) ∧ language inst (envOf v) cur = .ok (s, m) ∧ chars r = chars s := by
  obtain ⟨r, l, e, _, c⟩ := mixed hu cur h h1 h2 hcs hu' (c := "LC_MESSAGES") (by decide) hd
  obtain ⟨s, m, f, _, d⟩ := mixed hv cur g h1 h2 hcs hv' (c := "LC_MESSAGES") (by decide) gd
  exact ⟨r, s, l, m, e, f, c.trans d.symm⟩

/-! ### missing locales, history, side effects -/

theorem initial_eq : initial = (cats.map fun _ => units "C").map bytes := by decide +kernel

/-- Violation: if one of the locales is not installed, the language is `C`, even if the one for messages is installed. -/
theorem not_installed {u : Vars} (hu : CleanVars u) {inst : List Byte → Bool} (h : ¬ Installed inst (wanted u)) :
    ∃ r, language inst (envOf u) initial = .ok (r, initial) ∧ WF r ∧ chars r = units "C" := by
  have hc : ∀ t ∈ cats.map fun _ => units "C", Clean t := by
    intro t ht; obtain ⟨_, _, rfl⟩ := List.mem_map.1 ht; exact clean_C
  obtain ⟨r, e, w, c⟩ := language_missing hu hc h
  rw [initial_eq]
  exact ⟨r, e, w, c.trans (by decide +kernel)⟩

/-- Asking again gives the same answer and changes nothing any more. -/
theorem again {u : Vars} (hu : CleanVars u) {inst : List Byte → Bool} {cur : List Text} (hc : ∀ t ∈ cur, Clean t) :
    ∃ r s l, language inst (envOf u) (cur.map bytes) = .ok (r, l) ∧ language inst (envOf u) l = .ok (s, l) ∧ chars r = chars s := by
  by_cases h : Installed inst (wanted u)
  · obtain ⟨r, e, _, c⟩ := language_exact hu (cur.map bytes) h
    obtain ⟨s, f, _, d⟩ := language_exact hu ((wanted u).map bytes) h
    exact ⟨r, s, _, e, f, c.trans d.symm⟩
  · obtain ⟨r, e, _, c⟩ := language_missing hu hc h
    obtain ⟨s, f, _, d⟩ := language_missing hu hc h
    exact ⟨r, s, _, e, f, c.trans d.symm⟩

/-- Violation: asking for the language changes the locale of the whole process, for instance the one for numbers. -/
theorem changes_locale {u : Vars} (hu : CleanVars u) {inst : List Byte → Bool} {cur : List Text} (hc : ∀ t ∈ cur, Clean t) (h : Installed inst (wanted u))
    (hd : wanted u ≠ cur) : ∃ r l, language inst (envOf u) (cur.map bytes) = .ok (r, l) ∧ l ≠ cur.map bytes := by
  obtain ⟨r, e, _⟩ := language_exact hu (cur.map bytes) h
  refine ⟨r, _, e, ?_⟩
  intro he
  apply hd
  have hw := wanted_clean hu
  clear * - he hw hc
  generalize wanted u = a at *
  induction a generalizing cur with
  | nil => cases cur <;> simp_all
  | cons x a ih =>
    cases cur with
    | nil => simp at he
    | cons y cur =>
      simp only [List.map_cons, List.cons.injEq] at he
      rw [bytes_inj (hw x List.mem_cons_self) (hc y List.mem_cons_self) he.1,
        ih (fun t ht => hc t (List.mem_cons_of_mem _ ht)) he.2 (fun t ht => hw t (List.mem_cons_of_mem _ ht))]

/-! ### which translation is loaded (with C87) -/

/-- With one locale for everything, the file of the user's language is found. -/
theorem translation_found {u : Vars} (hu : CleanVars u) {inst : List Byte → Bool} (cur : Locale) {cs md : Text} {name : Str} (hn : WF name)
    (hcs : cs ≠ []) (h : ∀ c ∈ cats, choice u c = written (units "de") (units "DE") cs md)
    (hi : inst (bytes (written (units "de") (units "DE") cs md)) = true) {none' : Str} (h0 : WF none') (h0' : chars none' = []) :
    ∃ r l, language inst (envOf u) cur = .ok (r, l) ∧
      ∃ f, Verif.I18n.transFile (fun p => p == units "translations/" ++ chars name ++ units ".de.mo") r name none' = .ok f ∧
        chars f = units "translations/" ++ chars name ++ units ".de.mo" := by
  obtain ⟨r, l, e, w, c⟩ := language_partial hu cur (letters_of (by decide +kernel) (by decide +kernel)) (letters_of (by decide +kernel) (by decide +kernel)) hcs h hi
  refine ⟨r, l, e, ?_⟩
  obtain ⟨f, ef, cf⟩ := Verif.I18n.transFile_spec (fun p => p == units "translations/" ++ chars name ++ units ".de.mo") w hn h0
  refine ⟨f, ef, cf.trans ?_⟩
  rw [h0', c]
  have h2 : asked (units "de" ++ units "_" ++ units "DE") [] = units "de_DE" := by decide +kernel
  have h3 : withoutRegion (units "de_DE") = units "de" := by decide +kernel
  have h4 : units ".de.mo" = units "." ++ units "de" ++ units ".mo" := by decide +kernel
  have hlen : ∀ s : String, (units s).length = s.length := fun s => by simp [units, String.length_toList]
  simp only [h2, candidates, h3, List.find?_cons, List.find?_nil]
  have n1 : (units "translations/" ++ chars name ++ units "." ++ units "de_DE" ++ units ".mo" == units "translations/" ++ chars name ++ units ".de.mo") = false := by
    rw [beq_eq_false_iff_ne, h4]
    intro he
    have := congrArg List.length he
    simp only [List.length_append, hlen] at this
    revert this
    have a1 : "de_DE".length = 5 := by decide
    have a2 : "de".length = 2 := by decide
    rw [a1, a2]; omega
  rw [n1]
  have n3 : (units "translations/" ++ chars name ++ units "." ++ units "de" ++ units ".mo" == units "translations/" ++ chars name ++ units ".de.mo") = true := by
    rw [beq_iff_eq, h4]; simp only [List.append_assoc]
  rw [n3]
  by_cases n2 : (units "translations/" ++ units "de_DE" ++ units ".mo" == units "translations/" ++ chars name ++ units ".de.mo") = true
  · rw [n2]; simpa using n2
  · rw [Bool.not_eq_true] at n2
    rw [n2]
    simpa using n3

/-- Violation: with different locales, only files with strange names are looked for; the language of the messages plays no role. -/
theorem translation_lost {u : Vars} (hu : CleanVars u) {inst : List Byte → Bool} (cur : Locale) (h : Installed inst (wanted u)) {ll cc cs md : Text}
    (h1 : Letters ll) (h2 : Letters cc) (hcs : cs ≠ []) (ht : choice u "LC_CTYPE" = written ll cc cs md) {k : String} (hk : k ∈ cats)
    (hd : choice u k ≠ choice u "LC_CTYPE") {name none' : Str} (hn : WF name) (h0 : WF none') (h0' : chars none' = []) (exist : Text → Bool) :
    ∃ r l, language inst (envOf u) cur = .ok (r, l) ∧ ∃ f, Verif.I18n.transFile exist r name none' = .ok f ∧
      chars f ∈ [units "translations/" ++ chars name ++ units "." ++ (units "LC_CTYPE=" ++ ll ++ units "_" ++ cc) ++ units ".mo",
        units "translations/" ++ (units "LC_CTYPE=" ++ ll ++ units "_" ++ cc) ++ units ".mo",
        units "translations/" ++ chars name ++ units "." ++ units "LC" ++ units ".mo", units "translations/" ++ units "LC" ++ units ".mo"] := by
  obtain ⟨r, l, e, w, c⟩ := mixed hu cur h h1 h2 hcs ht hk hd
  refine ⟨r, l, e, ?_⟩
  obtain ⟨f, ef, cf⟩ := Verif.I18n.transFile_spec exist w hn h0
  refine ⟨f, ef, ?_⟩
  have hno : ∀ x ∈ units "LC_CTYPE=" ++ ll ++ units "_" ++ cc, x ≠ (0x2D : Ch) := by
    intro x hx
    have hs : ∀ x ∈ units "LC_CTYPE=", x ≠ (0x2D : Ch) := fun x hx => (all_ne (by decide +kernel) x hx).2
    have := (ll_cc h1 h2).1 x
    simp only [List.mem_append] at hx this
    rcases hx with ((hx | hx) | hx) | hx
    · exact hs x hx
    · exact (this (Or.inl (Or.inl hx))).2
    · exact (this (Or.inl (Or.inr hx))).2
    · exact (this (Or.inr hx)).2
  have ha : asked (units "LC_CTYPE=" ++ ll ++ units "_" ++ cc) [] = units "LC_CTYPE=" ++ ll ++ units "_" ++ cc := by
    rw [asked, if_pos rfl]
    conv_rhs => rw [← List.map_id (units "LC_CTYPE=" ++ ll ++ units "_" ++ cc)]
    apply List.map_congr_left
    intro x hx
    have := hno x hx
    rw [if_neg]
    · rfl
    · exact this
  have hw : withoutRegion (units "LC_CTYPE=" ++ ll ++ units "_" ++ cc) = units "LC" := by
    have hh : units "LC_CTYPE=" = 0x4C :: 0x43 :: 0x5F :: units "CTYPE=" := by decide +kernel
    have hl : units "LC" = [0x4C, 0x43] := by decide +kernel
    rw [withoutRegion, hh, hl]
    simp
  have hm : ∀ (l : List Text) (p : Text → Bool), l ≠ [] → (l.find? p).getD (l.getLastD []) ∈ l := by
    intro l p hl
    cases hf : l.find? p with
    | some x => exact List.mem_of_find?_eq_some hf
    | none =>
      rw [Option.getD_none, List.getLastD_eq_getLast?, List.getLast?_eq_some_getLast hl, Option.getD_some]
      exact List.getLast_mem hl
  simp only [h0', c, ha] at cf
  rw [cf]
  have := hm (candidates (chars name) (units "LC_CTYPE=" ++ ll ++ units "_" ++ cc)) exist (by simp [candidates])
  simpa only [candidates, hw] using this

/-! ### cases -/

/-- a user in Germany -/
def german : Vars := fun k => if k = "LANG" then some (units "de_DE.UTF-8") else none

/-- a user in Germany with English messages -/
def germanEnglish : Vars := fun k => if k = "LANG" then some (units "de_DE.UTF-8") else if k = "LC_MESSAGES" then some (units "en_US.UTF-8") else none

theorem german_clean : CleanVars german := by
  intro k t h
  unfold german at h
  split at h
  · cases h; constructor <;> decide +kernel
  · cases h

theorem germanEnglish_clean : CleanVars germanEnglish := by
  intro k t h
  unfold germanEnglish at h
  split at h
  · cases h; constructor <;> decide +kernel
  · split at h
    · cases h; constructor <;> decide +kernel
    · cases h

theorem german_all : ∀ c ∈ cats, choice german c = written (units "de") (units "DE") (units "UTF-8") [] := by decide +kernel

example (cur : Locale) := language_partial german_clean (inst := fun _ => true) cur (ll := units "de") (cc := units "DE") (cs := units "UTF-8") (md := [])
  (letters_of (by decide +kernel) (by decide +kernel)) (letters_of (by decide +kernel) (by decide +kernel)) (by decide +kernel) german_all rfl

example (cur : Locale) := mixed germanEnglish_clean (inst := fun _ => true) cur (fun _ _ => Or.inr rfl) (ll := units "de") (cc := units "DE") (cs := units "UTF-8") (md := [])
  (letters_of (by decide +kernel) (by decide +kernel)) (letters_of (by decide +kernel) (by decide +kernel)) (by decide +kernel) (by decide +kernel)
  (c := "LC_MESSAGES") (by decide) (by decide +kernel)

/-- the locale of the messages is installed, that of the rest is not -/
example := not_installed germanEnglish_clean (inst := fun b => b == bytes (units "en_US.UTF-8")) (fun h => by
  rcases h (units "de_DE.UTF-8") (by decide +kernel) with e | e <;> revert e <;> decide +kernel)

example := changes_locale german_clean (inst := fun _ => true) (cur := cats.map fun _ => units "C")
  (fun t ht => by obtain ⟨_, _, rfl⟩ := List.mem_map.1 ht; exact clean_C) (fun _ _ => Or.inr rfl) (by decide +kernel)

/-- the old name with the currency -/
def euro : Vars := fun k => if k = "LANG" then some (units "de_DE@euro") else none

theorem euro_clean : CleanVars euro := by
  intro k t h
  unfold euro at h
  split at h
  · cases h; constructor <;> decide +kernel
  · cases h

example (cur : Locale) := variant_stays euro_clean (inst := fun _ => true) cur (ll := units "de") (cc := units "DE") (md := units "euro")
  (letters_of (by decide +kernel) (by decide +kernel)) (letters_of (by decide +kernel) (by decide +kernel)) (letters_of (by decide +kernel) (by decide +kernel))
  (by decide +kernel) rfl

/-- another one, with French messages -/
def germanFrench : Vars := fun k => if k = "LANG" then some (units "de_DE.UTF-8") else if k = "LC_MESSAGES" then some (units "fr_FR.UTF-8") else none

theorem germanFrench_clean : CleanVars germanFrench := by
  intro k t h
  unfold germanFrench at h
  split at h
  · cases h; constructor <;> decide +kernel
  · split at h
    · cases h; constructor <;> decide +kernel
    · cases h

example (cur : Locale) := messages_ignored germanEnglish_clean germanFrench_clean (inst := fun _ => true) cur (fun _ _ => Or.inr rfl) (fun _ _ => Or.inr rfl)
  (ll := units "de") (cc := units "DE") (cs := units "UTF-8") (md := []) (letters_of (by decide +kernel) (by decide +kernel))
  (letters_of (by decide +kernel) (by decide +kernel)) (by decide +kernel) (by decide +kernel) (by decide +kernel) (by decide +kernel) (by decide +kernel)

end Verif.Sys.Props
