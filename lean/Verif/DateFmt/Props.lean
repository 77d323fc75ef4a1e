import Verif.DateFmt.Lemmas
/-
Property C85: DateFormatter.
-/
set_option linter.unusedSimpArgs false
set_option linter.unusedVariables false
namespace Verif.DateFmt
open Verif Verif.Str Verif.Num Verif.DateFmt.Spec
open Verif.Date.Props (InRange dateParts timeParts)

/-! ### Reading a pattern -/

/-- Every pattern text is written in exactly the form the specification describes: a sequence of valid parts,
possibly followed by an apostrophe that is not closed. -/
theorem decompose (p : List Ch) :
    ∃ items, Spec.Valid items ∧ (p = src items ∨ ∃ s, (0x27 : Ch) ∉ s ∧ p = src items ++ 0x27 :: s) := by
  obtain ⟨n, hn⟩ : ∃ n, n = p.length := ⟨_, rfl⟩
  induction n using Nat.strongRecOn generalizing p with
  | ind n ih =>
    cases p with
    | nil => exact ⟨[], trivial, Or.inl rfl⟩
    | cons c rest =>
      simp only [List.length_cons] at hn
      by_cases hc : c = 0x27
      · subst hc
        by_cases hq : (0x27 : Ch) ∈ rest
        · obtain ⟨s, r, e, hs⟩ := List.eq_append_cons_of_mem hq
          subst e
          simp only [List.length_append, List.length_cons] at hn
          obtain ⟨items, hv, h⟩ := ih r.length (by omega) r rfl
          refine ⟨.quoted s :: items, ?_, ?_⟩
          · cases items with
            | nil => exact hs
            | cons j l => exact ⟨hs, trivial, hv⟩
          · rcases h with rfl | ⟨q, hq2, rfl⟩
            · left; simp [src, Item.src]
            · right; exact ⟨q, hq2, by simp [src, Item.src]⟩
        · exact ⟨[], trivial, Or.inr ⟨rest, hq, rfl⟩⟩
      · obtain ⟨items, hv, h⟩ := ih rest.length (by omega) rest rfl
        -- add the character to the first run, or start a run
        have key : ∃ items', Spec.Valid items' ∧ src items' = c :: src items := by
          cases items with
          | nil => exact ⟨[.run c 1], ⟨hc, by omega⟩, rfl⟩
          | cons j l =>
            cases j with
            | quoted s => exact ⟨.run c 1 :: .quoted s :: l, ⟨⟨hc, by omega⟩, trivial, hv⟩, rfl⟩
            | run d m =>
              by_cases hd : c = d
              · subst hd
                refine ⟨.run c (m + 1) :: l, ?_, by simp [src, Item.src, List.replicate_succ]⟩
                cases l with
                | nil => exact ⟨hc, by omega⟩
                | cons j l =>
                  refine ⟨⟨hc, by omega⟩, ?_, hv.2.2⟩
                  have := hv.2.1
                  cases j with
                  | quoted s => trivial
                  | run e k => exact this
              · exact ⟨.run c 1 :: .run d m :: l, ⟨⟨hc, by omega⟩, hd, hv⟩, rfl⟩
        obtain ⟨items', hv', e⟩ := key
        refine ⟨items', hv', ?_⟩
        rcases h with rfl | ⟨q, hq, rfl⟩
        · left; exact e.symm
        · right; exact ⟨q, hq, by rw [e]; rfl⟩

/-! ### The text -/

/-- what a run gives in the code: the number of letters is kept modulo 256 -/
def runText (tr : List Ch → List Ch) (k : Clock) (c : Ch) (n : Nat) : List Ch :=
  if c ∈ letters then field codeMonths tr k c (n % 256) else List.replicate n c

/-- what the code makes of the parts: a run directly before a text in apostrophes is taken as text -/
def actual (tr : List Ch → List Ch) (k : Clock) : List Item → List Ch
  | [] => []
  | .run c n :: .quoted s :: l => List.replicate n c ++ s ++ actual tr k l
  | .run c n :: l => runText tr k c n ++ actual tr k l
  | .quoted s :: l => s ++ actual tr k l

/-- the text of a token that is left -/
def tokText (tr : List Ch → List Ch) (k : Clock) : List Ch → List Ch
  | [] => []
  | c :: l => if c ∈ letters then field codeMonths tr k c ((l.length + 1) % 256) else c :: l

theorem flush_text (tr : List Ch → List Ch) {t : Int} {k : Clock} (h : Shows t k) (h0 : -4 * 86400000 ≤ t) (tok v : List Ch) :
    formatLoop tr t (flush tok) v = .ok (v ++ tokText tr k tok) := by
  cases tok with
  | nil => simp [flush, formatLoop, tokText]
  | cons c l =>
    simp only [flush, formatLoop, appended_token tr h h0, bind, Except.bind, tokText]

theorem pat_text (tr : List Ch → List Ch) {t : Int} {k : Clock} (h : Shows t k) (h0 : -4 * 86400000 ≤ t) (c : Ch) (n : Nat) :
    appended tr (pat c n) t = .ok (runText tr k c n) := by
  unfold pat runText
  rw [appended_token tr h h0]

theorem formatLoop_append (tr : List Ch → List Ch) (t : Int) (ps qs : List Pattern) (v : List Ch) :
    formatLoop tr t (ps ++ qs) v = formatLoop tr t ps v >>= formatLoop tr t qs := by
  induction ps generalizing v with
  | nil => rfl
  | cons p ps ih =>
    simp only [List.cons_append, formatLoop, bind, Except.bind]
    cases appended tr p t with
    | error e => rfl
    | ok a => exact ih _

theorem items_text (tr : List Ch → List Ch) {t : Int} {k : Clock} (h : Shows t k) (h0 : -4 * 86400000 ≤ t) (items : List Item)
    (hv : Spec.Valid items) (v : List Ch) :
    formatLoop tr t (done items ++ flush (lastTok items)) v = .ok (v ++ actual tr k items) := by
  induction items using done.induct generalizing v with
  | case1 => simp [done, lastTok, flush, formatLoop, actual]
  | case2 c n =>
    obtain ⟨hc, hn⟩ := hv
    obtain ⟨m, rfl⟩ : ∃ m, n = m + 1 := ⟨n - 1, by omega⟩
    simp only [done, lastTok, List.nil_append, flush_text tr h h0, actual, List.append_nil]
    simp only [List.replicate_succ, tokText, runText, List.length_replicate]
  | case3 c n d m l ih =>
    simp only [done, List.cons_append, formatLoop, pat_text tr h h0, bind, Except.bind, lastTok, actual]
    rw [ih (Valid.tail hv), List.append_assoc]
  | case4 c n s l ih =>
    simp only [done, List.cons_append, formatLoop, mkText, appended, bind, Except.bind, lastTok, actual]
    rw [ih (Valid.tail (Valid.tail hv)), List.append_assoc]
  | case5 s l ih =>
    simp only [done, List.cons_append, formatLoop, mkText, appended, bind, Except.bind, lastTok, actual]
    rw [ih (Valid.tail hv), List.append_assoc]

/-- **C85 (what the code does).** For every pattern in which the apostrophes are closed. -/
theorem format_exact (tr : List Ch → List Ch) (t : Int) (k : Clock) (h : Shows t k) (h0 : -4 * 86400000 ≤ t) (items : List Item)
    (hv : Spec.Valid items) : format tr (src items) t = .ok (actual tr k items) := by
  unfold format
  rw [construct_items items hv]
  simp only [bind, Except.bind]
  rw [items_text tr h h0 items hv []]; rfl

theorem codeMonths_getD (m : Nat) (h : m ≠ 8) : codeMonths.getD m [] = months.getD m [] := by
  unfold codeMonths
  simp only [List.getD_eq_getElem?_getD, List.getElem?_set]
  rw [if_neg (by omega)]

theorem runText_field (tr : List Ch → List Ch) (k : Clock) (c : Ch) (n : Nat) (h1 : n < 256) (h2 : k.month = 8 → c = 0x4d → n ≤ 3) (h3 : 0 < n) :
    runText tr k c n = field months tr k c n := by
  unfold runText
  rw [Nat.mod_eq_of_lt h1]
  by_cases hc : c ∈ letters
  · rw [if_pos hc]
    by_cases hM : c = 0x4d
    · subst hM
      rw [field_M, field_M]
      by_cases h8 : k.month = 8
      · have := h2 h8 rfl
        by_cases e1 : n = 1
        · rw [if_pos e1, if_pos e1]
        · by_cases e2 : n = 2
          · rw [if_neg e1, if_pos e2, if_neg e1, if_pos e2]
          · have e3 : n = 3 := by omega
            rw [if_neg e1, if_neg e2, if_pos e3, if_neg e1, if_neg e2, if_pos e3]
      · rw [codeMonths_getD _ h8]
    · unfold field
      by_cases hy : c = 0x79
      · rw [if_pos hy, if_pos hy]
      · rw [if_neg hy, if_neg hy, if_neg hM, if_neg hM]
  · rw [if_neg hc]
    have hl : letters = [0x79, 0x4d, 0x64, 0x45, 0x48, 0x6d, 0x73, 0x53] := by decide +kernel
    rw [hl] at hc
    simp only [List.mem_cons, List.not_mem_nil, or_false, not_or] at hc
    obtain ⟨a1, a2, a3, a4, a5, a6, a7, a8⟩ := hc
    unfold field
    rw [if_neg a1, if_neg a2, if_neg a3, if_neg a4, if_neg a5, if_neg a6, if_neg a7, if_neg a8]

/-- **C85 (partial).** The text for a pattern is the text of its parts, one after the other: the parts of the
date for runs of the known letters, everything else unchanged.  Missing: runs directly before a text in
apostrophes (`run_before_text`), 256 or more letters (`long_run`), the long name of September (`september`),
apostrophes that are not closed (`open_quote`, `open_quote_run`), weekdays before 1970 (`weekday_missing`),
negative years. -/
theorem format_partial (tr : List Ch → List Ch) (t : Int) (k : Clock) (h : Shows t k) (h0 : -4 * 86400000 ≤ t) (items : List Item)
    (hv : Spec.Valid items) (hq : NoRunBeforeText items) (hn : ∀ c n, .run c n ∈ items → n < 256)
    (hs : k.month = 8 → ∀ n, .run 0x4d n ∈ items → n ≤ 3) :
    format tr (src items) t = .ok (items.flatMap (meaning months tr k)) := by
  rw [format_exact tr t k h h0 items hv]
  congr 1
  induction items using actual.induct with
  | case1 => rfl
  | case2 c n s l ih => exact hq.elim
  | case3 c n l hl ih =>
    have hvr : 0 < n := (Valid.head hv).2
    have hq' : NoRunBeforeText l := by
      cases l with
      | nil => trivial
      | cons j l =>
        cases j with
        | quoted s => exact (hl s l rfl).elim
        | run d m => exact hq
    rw [actual, ih (Valid.tail hv) hq' (fun c n hm => hn c n (List.mem_cons_of_mem _ hm)) (fun h8 n hm => hs h8 n (List.mem_cons_of_mem _ hm)),
      runText_field tr k c n (hn c n (by simp)) (fun h8 e => hs h8 n (by rw [e]; simp)) hvr]
    · rfl
    · exact hl
  | case4 s l ih =>
    rw [actual, ih (Valid.tail hv) hq (fun c n hm => hn c n (List.mem_cons_of_mem _ hm)) (fun h8 n hm => hs h8 n (List.mem_cons_of_mem _ hm))]
    rfl

/-- A text in apostrophes appears as it is written, whatever it contains. -/
theorem quoted_text (tr : List Ch → List Ch) (t : Int) (s : List Ch) (hs : (0x27 : Ch) ∉ s) : format tr (0x27 :: s ++ [0x27]) t = .ok s := by
  have e : src [.quoted s] = 0x27 :: s ++ [0x27] := by simp [src, Item.src]
  unfold format
  rw [← e, construct_items [.quoted s] hs]
  simp [done, lastTok, flush, mkText, formatLoop, appended, bind, Except.bind]

/-- **C85 fails** for a letter directly before a text in apostrophes: it is not replaced. -/
theorem run_before_text (tr : List Ch → List Ch) (t : Int) (c : Ch) (n : Nat) (s : List Ch) (hc : c ≠ 0x27) (hn : 0 < n) (hs : (0x27 : Ch) ∉ s) :
    format tr (src [.run c n, .quoted s]) t = .ok (List.replicate n c ++ s) := by
  unfold format
  rw [construct_items [.run c n, .quoted s] ⟨⟨hc, hn⟩, trivial, hs⟩]
  simp [done, lastTok, flush, mkText, formatLoop, appended, bind, Except.bind]

/-- The pattern of the ISO 8601 form leaves `dd` and `SSS` in the text, on every day. -/
theorem iso_pattern (tr : List Ch → List Ch) (t : Int) (k : Clock) (h : Shows t k) (h0 : -4 * 86400000 ≤ t) :
    format tr (txt "yyyy-MM-dd'T'HH:mm:ss.SSS'Z'") t = .ok (dec k.year ++ txt "-" ++ padded 2 (k.month + 1) ++ txt "-ddT" ++ padded 2 k.hour ++
      txt ":" ++ padded 2 k.minute ++ txt ":" ++ padded 2 k.second ++ txt ".SSSZ") := by
  have e : txt "yyyy-MM-dd'T'HH:mm:ss.SSS'Z'" = src [.run 0x79 4, .run 0x2d 1, .run 0x4d 2, .run 0x2d 1, .run 0x64 2, .quoted [0x54],
      .run 0x48 2, .run 0x3a 1, .run 0x6d 2, .run 0x3a 1, .run 0x73 2, .run 0x2e 1, .run 0x53 3, .quoted [0x5a]] := by decide +kernel
  rw [e, format_exact tr t k h h0]
  · congr 1
    have t1 : txt "-" = [0x2d] := by decide +kernel
    have t2 : txt "-ddT" = [0x2d, 0x64, 0x64, 0x54] := by decide +kernel
    have t3 : txt ":" = [0x3a] := by decide +kernel
    have t4 : txt ".SSSZ" = [0x2e, 0x53, 0x53, 0x53, 0x5a] := by decide +kernel
    have m1 : (0x79 : Ch) ∈ letters := by decide +kernel
    have m2 : (0x2d : Ch) ∉ letters := by decide +kernel
    have m3 : (0x4d : Ch) ∈ letters := by decide +kernel
    have m4 : (0x48 : Ch) ∈ letters := by decide +kernel
    have m5 : (0x3a : Ch) ∉ letters := by decide +kernel
    have m6 : (0x6d : Ch) ∈ letters := by decide +kernel
    have m7 : (0x73 : Ch) ∈ letters := by decide +kernel
    have m8 : (0x2e : Ch) ∉ letters := by decide +kernel
    simp only [actual, runText]
    rw [if_pos m1, if_neg m2, if_pos m3, if_pos m4, if_neg m5, if_pos m6, if_pos m7, if_neg m8, t1, t2, t3, t4]
    rw [show (4 : Nat) % 256 = 4 by rfl, show (2 : Nat) % 256 = 2 by rfl, field_y, field_M, field_H, field_m, field_s]
    simp [List.replicate]
  · simp only [Spec.Valid, Item.Valid, Apart]; decide +kernel

/-- **C85 fails** for 258 letters: they count as two.  More generally only the number modulo 256 counts. -/
theorem long_run (tr : List Ch → List Ch) (t : Int) (k : Clock) (h : Shows t k) (h0 : -4 * 86400000 ≤ t) (c : Ch) (hc : c ∈ letters) (n : Nat) (hn : 0 < n) :
    format tr (List.replicate n c) t = .ok (field codeMonths tr k c (n % 256)) := by
  have hq : c ≠ 0x27 := by
    intro e; subst e; revert hc; decide +kernel
  have e : src [.run c n] = List.replicate n c := by simp [src, Item.src]
  rw [← e, format_exact tr t k h h0 [.run c n] ⟨hq, hn⟩]
  simp only [actual, runText, List.append_nil]
  rw [if_pos hc]

/-- **C85 fails** for the long name of September: the key that is translated is misspelt. -/
theorem september (tr : List Ch → List Ch) (t : Int) (k : Clock) (h : Shows t k) (h0 : -4 * 86400000 ≤ t) (h8 : k.month = 8) :
    format tr (txt "MMMM") t = .ok (tr (txt "Septemper")) := by
  have e : txt "MMMM" = List.replicate 4 0x4d := by decide +kernel
  rw [e, long_run tr t k h h0 _ (by decide +kernel) 4 (by omega), show (4 : Nat) % 256 = 4 by rfl, field_M, h8]
  have : codeMonths.getD 8 [] = txt "Septemper" := by decide +kernel
  rw [this]; rfl

/-- An apostrophe that is not closed: the rest is taken as a run of its first character. -/
theorem open_quote (tr : List Ch → List Ch) (t : Int) (k : Clock) (h : Shows t k) (h0 : -4 * 86400000 ≤ t) (c : Ch) (s : List Ch)
    (hs : (0x27 : Ch) ∉ c :: s) :
    format tr (0x27 :: c :: s) t = .ok (if c ∈ letters then field codeMonths tr k c ((s.length + 1) % 256) else c :: s) := by
  have := construct_open [] trivial (c :: s) hs
  unfold format
  rw [show (0x27 : Ch) :: c :: s = src [] ++ 0x27 :: c :: s from rfl, this]
  simp only [done, lastTok, List.nil_append, bind, Except.bind, flush_text tr h h0]
  rfl

/-- ... and a run directly before it swallows the rest of the pattern. -/
theorem open_quote_run (tr : List Ch → List Ch) (t : Int) (k : Clock) (h : Shows t k) (h0 : -4 * 86400000 ≤ t) (items : List Item) (c : Ch) (n : Nat)
    (hv : Spec.Valid (items ++ [.run c n])) (hn : 0 < n) (s : List Ch) (hs : (0x27 : Ch) ∉ s) :
    format tr (src (items ++ [.run c n]) ++ 0x27 :: s) t =
      .ok (actual tr k items ++ (if c ∈ letters then field codeMonths tr k c ((n + s.length) % 256) else List.replicate n c ++ s)) := by
  have hvi : Spec.Valid items := by
    clear hn
    induction items with
    | nil => trivial
    | cons i l ih =>
      have := ih (Valid.tail hv)
      cases l with
      | nil => exact Valid.head hv
      | cons j l => exact ⟨hv.1, hv.2.1, this⟩
  obtain ⟨e1, e2⟩ := done_snoc items c n hv
  unfold format
  rw [construct_open _ hv s hs, e1, e2]
  simp only [bind, Except.bind]
  rw [formatLoop_append, items_text tr h h0 items hvi]
  simp only [bind, Except.bind, flush_text tr h h0, List.nil_append]
  obtain ⟨m, rfl⟩ : ∃ m, n = m + 1 := ⟨n - 1, by omega⟩
  simp only [List.replicate_succ, List.cons_append, tokText, List.length_append, List.length_replicate]
  rw [show m + s.length + 1 = m + 1 + s.length by omega]

/-- The other letters the documentation lists (w W D F a K h k z) are copied into the text. -/
theorem other_letters (tr : List Ch → List Ch) (t : Int) (k : Clock) (h : Shows t k) (h0 : -4 * 86400000 ≤ t) (c : Ch) (hc : c ∈ txt "wWDFaKhkz") (n : Nat)
    (hn : 0 < n) : format tr (List.replicate n c) t = .ok (List.replicate n c) := by
  have hl : ∀ c ∈ txt "wWDFaKhkz", c ∉ letters ∧ c ≠ 0x27 := by
    have : (txt "wWDFaKhkz").all (fun c => decide (c ∉ letters) && decide (c ≠ 0x27)) = true := by decide +kernel
    intro c hc
    have := List.all_eq_true.1 this c hc
    simpa using this
  obtain ⟨a, b⟩ := hl c hc
  have e : src [.run c n] = List.replicate n c := by simp [src, Item.src]
  rw [← e, format_exact tr t k h h0 [.run c n] ⟨b, hn⟩]
  simp only [actual, runText, List.append_nil]
  rw [if_neg a, e]

/-- **C85 fails** for the weekday before the last days of 1969: only Sundays have a name. -/
theorem weekday_missing (tr : List Ch → List Ch) (t : Int) (ht : InRange t) (h0 : t < -4 * 86400000) (hs : (t / 86400000 + 4) % 7 ≠ 0) (n : Nat)
    (hn : 0 < n) : format tr (List.replicate n 0x45) t = .ok [] := by
  obtain ⟨w, e, hw, _, hz⟩ := Date.Props.weekday_before_1970 t ht h0
  have hw0 : w ≠ 0 := fun e => hs (hz.1 e)
  have es : src [.run 0x45 n] = List.replicate n 0x45 := by simp [src, Item.src]
  unfold format
  rw [← es, construct_items [.run 0x45 n] ⟨by decide, hn⟩]
  obtain ⟨m, rfl⟩ : ∃ m, n = m + 1 := ⟨n - 1, by omega⟩
  simp only [done, lastTok, List.replicate_succ, flush, List.nil_append, bind, Except.bind, formatLoop]
  have hk : kind 0x45 = .dayInWeek := by decide
  simp only [appended, hk, fWeekday, e, bind, Except.bind, pure, Except.pure]
  have : ∀ j, dayName j w = [] := by
    intro j
    have h : ¬ w = 1 ∧ ¬ w = 2 ∧ ¬ w = 3 ∧ ¬ w = 4 ∧ ¬ w = 5 ∧ ¬ w = 6 := by omega
    simp [dayName, h, hw0]
  rw [this]

/-! ### Formatting always succeeds -/

theorem valueOf_ok (z : Int) (h1 : -10000000000 ≤ z) (h2 : z ≤ 10000000000) : ∃ l, valueOf z = .ok l := by
  obtain ⟨l, e, _⟩ := Num.Props.valueOf_partial z (by unfold minInt64; omega) (by unfold maxInt64; omega)
  exact ⟨l, e⟩

theorem two_ok (z : Int) (h1 : -10000000000 ≤ z) (h2 : z ≤ 10000000000) : ∃ l, two z = .ok l := by
  obtain ⟨l, e⟩ := valueOf_ok z h1 h2
  simp [two, e, bind, Except.bind, pure, Except.pure]

theorem three_ok (z : Int) (h1 : -10000000000 ≤ z) (h2 : z ≤ 10000000000) : ∃ l, three z = .ok l := by
  obtain ⟨l, e⟩ := valueOf_ok z h1 h2
  simp [three, e, bind, Except.bind, pure, Except.pure]

theorem getters_ok {t : Int} (ht : InRange t) :
    (∃ y, Date.yearFromTime t = .ok y ∧ -10000000000 ≤ y ∧ y ≤ 10000000000) ∧ (∃ m, Date.monthFromTime t = .ok m ∧ 0 ≤ m ∧ m ≤ 11) ∧
    (∃ d, Date.dateFromTime t = .ok d ∧ 1 ≤ d ∧ d ≤ 31) ∧ (∃ h, Date.hourFromTime t = .ok h ∧ 0 ≤ h ∧ h < 24) ∧
    (∃ h, Date.minuteFromTime t = .ok h ∧ 0 ≤ h ∧ h < 60) ∧ (∃ h, Date.secondFromTime t = .ok h ∧ 0 ≤ h ∧ h < 60) ∧
    (∃ h, Date.milliFromTime t = .ok h ∧ 0 ≤ h ∧ h < 1000) ∧ (∃ w, Date.weekDay t = .ok w) := by
  obtain ⟨y, m, d, e, b⟩ := date_bounds ht
  obtain ⟨a, b', c, f, e', b2⟩ := Date.Props.time_of_day t ht
  unfold Date.Props.dateParts at e
  obtain ⟨y', e1, e⟩ := except_bind_ok e
  obtain ⟨m', e2, e⟩ := except_bind_ok e
  obtain ⟨d', e3, e⟩ := except_bind_ok e
  simp only [pure, Except.pure, Except.ok.injEq, Prod.mk.injEq] at e
  unfold Date.Props.timeParts at e'
  obtain ⟨h1, f1, e'⟩ := except_bind_ok e'
  obtain ⟨h2, f2, e'⟩ := except_bind_ok e'
  obtain ⟨h3, f3, e'⟩ := except_bind_ok e'
  obtain ⟨h4, f4, e'⟩ := except_bind_ok e'
  simp only [pure, Except.pure, Except.ok.injEq, Prod.mk.injEq] at e'
  refine ⟨⟨y', e1, by omega, by omega⟩, ⟨m', e2, by omega, by omega⟩, ⟨d', e3, by omega, by omega⟩, ⟨h1, f1, by omega, by omega⟩,
    ⟨h2, f2, by omega, by omega⟩, ⟨h3, f3, by omega, by omega⟩, ⟨h4, f4, by omega, by omega⟩, ?_⟩
  refine ⟨(t / 86400000 + 4).tmod 7, ?_⟩
  simp only [Date.weekDay, Date.Props.day_ok (Date.Props.inRange_int64 ht), bind, Except.bind, pure, Except.pure]

theorem appended_ok (tr : List Ch → List Ch) {t : Int} (ht : InRange t) (p : Pattern) : ∃ l, appended tr p t = .ok l := by
  obtain ⟨⟨y, ey, y1, y2⟩, ⟨m, em, m1, m2⟩, ⟨d, ed, d1, d2⟩, ⟨h, eh, h1, h2⟩, ⟨mi, emi, mi1, mi2⟩, ⟨s, es, s1, s2⟩, ⟨ms, ems, ms1, ms2⟩, ⟨w, ew⟩⟩ :=
    getters_ok ht
  unfold appended
  cases p.type with
  | empty => exact ⟨_, rfl⟩
  | text => exact ⟨_, rfl⟩
  | year =>
    simp only [fYear, ey, bind, Except.bind]
    have hy : -100 < y.tmod 100 ∧ y.tmod 100 < 100 := ⟨Int.lt_tmod_of_pos y (by omega), Int.tmod_lt_of_pos y (by omega)⟩
    split
    · exact two_ok _ (by omega) (by omega)
    · exact valueOf_ok _ y1 y2
  | hour =>
    simp only [fHour, eh, bind, Except.bind]
    split
    · exact two_ok _ (by omega) (by omega)
    · exact valueOf_ok _ (by omega) (by omega)
  | minute =>
    simp only [fMinute, emi, bind, Except.bind]
    split
    · exact two_ok _ (by split <;> omega) (by split <;> omega)
    · exact valueOf_ok _ (by omega) (by omega)
  | second =>
    simp only [fSecond, es, bind, Except.bind]
    split
    · exact two_ok _ (by omega) (by omega)
    · exact valueOf_ok _ (by omega) (by omega)
  | milli =>
    simp only [fMilli, ems, bind, Except.bind]
    split
    · exact three_ok _ (by omega) (by omega)
    · exact valueOf_ok _ (by omega) (by omega)
  | dayInMonth =>
    simp only [fDate, ed, bind, Except.bind]
    split
    · exact two_ok _ (by split <;> omega) (by split <;> omega)
    · exact valueOf_ok _ (by omega) (by omega)
  | dayInWeek => simp only [fWeekday, ew, bind, Except.bind, pure, Except.pure]; exact ⟨_, rfl⟩
  | month =>
    simp only [fMonth, em, bind, Except.bind]
    split
    · exact valueOf_ok _ (by omega) (by omega)
    · split
      · exact two_ok _ (by omega) (by omega)
      · split <;> exact ⟨_, rfl⟩

/-- **C85 (no failure).** Formatting succeeds for every pattern text whatsoever and every time stamp in range. -/
theorem format_total (tr : List Ch → List Ch) (p : List Ch) (t : Int) (ht : InRange t) : ∃ l, format tr p t = .ok l := by
  have hl : ∀ (ps : List Pattern) (v : List Ch), ∃ l, formatLoop tr t ps v = .ok l := by
    intro ps
    induction ps with
    | nil => intro v; exact ⟨v, rfl⟩
    | cons p ps ih =>
      intro v
      obtain ⟨a, e⟩ := appended_ok tr ht p
      simp only [formatLoop, e, bind, Except.bind]
      exact ih _
  obtain ⟨items, hv, h⟩ := decompose p
  unfold format
  rcases h with rfl | ⟨s, hs, rfl⟩
  · rw [construct_items items hv]; exact hl _ _
  · rw [construct_open items hv s hs]; exact hl _ _

/-! ### The hypotheses are met -/

theorem shows_epoch : Shows 0 ⟨1970, 0, 1, 4, 0, 0, 0, 0⟩ := by
  refine ⟨by unfold InRange; omega, Date.Props.epoch, ?_, by decide⟩
  decide +kernel

/-- every time stamp of a year from 0 on shows some time -/
theorem shows_exists (t : Int) (ht : InRange t) (hy : ∃ y m d, dateParts t = .ok (y, m, d) ∧ 0 ≤ y) : ∃ k, Shows t k := by
  obtain ⟨y, m, d, e, hy⟩ := hy
  obtain ⟨y', m', d', e', b⟩ := date_bounds ht
  have h1 := e.symm.trans e'
  simp only [Except.ok.injEq, Prod.mk.injEq] at h1
  obtain ⟨a, b', c, f, e2, b2⟩ := Date.Props.time_of_day t ht
  refine ⟨⟨y.toNat, m.toNat, d.toNat, ((t / 86400000 + 4) % 7).toNat, a.toNat, b'.toNat, c.toNat, f.toNat⟩, ht, ?_, ?_, ?_⟩
  · rw [e]; simp only; congr 1; ext <;> simp only <;> omega
  · rw [e2]; simp only; congr 1; ext <;> simp only <;> omega
  · simp only; omega

example (tr : List Ch → List Ch) : format tr (txt "dd.MM.yy, EE") 0 = .ok (txt "01.01.70, Do") := by
  have e : txt "dd.MM.yy, EE" = src [.run 0x64 2, .run 0x2e 1, .run 0x4d 2, .run 0x2e 1, .run 0x79 2, .run 0x2c 1, .run 0x20 1, .run 0x45 2] := by
    decide +kernel
  rw [e, format_partial tr 0 _ shows_epoch (by omega)]
  · rfl
  · simp only [Spec.Valid, Item.Valid, Apart]; decide +kernel
  · simp [NoRunBeforeText]
  · intro c n h; simp at h; omega
  · intro h; simp at h

end Verif.DateFmt
