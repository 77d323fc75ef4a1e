import Verif.DateFmt.Model
import Verif.DateFmt.Spec
import Verif.Num.Props
import Verif.Date.Props
/-
Lemmas for C85.
-/
set_option linter.unusedSimpArgs false
set_option linter.unusedVariables false
namespace Verif.DateFmt
open Verif Verif.Str Verif.Num Verif.DateFmt.Spec
open Verif.Date.Props (InRange dateParts timeParts)

/-! ### numbers -/

theorem digits_dec (n : Nat) (h : 0 < n) : (digits n).reverse = dec n := by
  induction n using Nat.strongRecOn with
  | ind n ih =>
    rw [digits, if_pos h, dec, List.reverse_cons]
    by_cases hn : n < 10
    · rw [if_pos hn, show n / 10 = 0 by omega, show n % 10 = n by omega]
      have : digits 0 = [] := by rw [digits]; simp
      rw [this, Nat.add_comm]; rfl
    · rw [if_neg hn, ih (n / 10) (by omega) (by omega), Nat.add_comm]

theorem valueOf_dec (n : Nat) : valueOf (n : Int) = .ok (dec n) := by
  unfold valueOf
  have h : ¬ ((n : Int) < 0) := by omega
  simp only [h, if_false, decide_false, bind, Except.bind]
  rw [if_neg (by simp : ¬ (false = true)), Props.revLoop_reverse]
  congr 1
  by_cases h0 : n = 0
  · subst h0
    have : digits 0 = [] := by rw [digits]; simp
    simp [this, dec]
  · rw [if_neg (by omega), List.nil_append, show (n : Int).toNat = n by omega]
    exact digits_dec n (by omega)

theorem dec1 {n : Nat} (h : n < 10) : dec n = [BitVec.ofNat 16 (48 + n)] := by rw [dec, if_pos h]
theorem dec2 {n : Nat} (h : 10 ≤ n) : dec n = dec (n / 10) ++ [BitVec.ofNat 16 (48 + n % 10)] := by rw [dec, if_neg (by omega)]

theorem two_padded {n : Nat} (h : n < 100) : two (n : Int) = .ok (padded 2 n) := by
  unfold two
  simp only [valueOf_dec, bind, Except.bind, pure, Except.pure, padded, List.nil_append]
  by_cases h1 : n < 10
  · rw [if_pos (by omega), dec1 h1, show n / 10 = 0 by omega, show n % 10 = n by omega]; rfl
  · rw [if_neg (by omega), dec2 (by omega), dec1 (by omega), show n / 10 % 10 = n / 10 by omega]; rfl

theorem three_padded {n : Nat} (h : n < 1000) : three (n : Int) = .ok (padded 3 n) := by
  unfold three
  simp only [valueOf_dec, bind, Except.bind, pure, Except.pure, padded, List.nil_append]
  by_cases h1 : n < 10
  · rw [if_pos (by omega), if_pos (by omega), dec1 h1, show n / 10 = 0 by omega, show n % 10 = n by omega]; rfl
  · by_cases h2 : n < 100
    · rw [if_neg (by omega), if_pos (by omega), dec2 (by omega), dec1 (by omega), show n / 10 / 10 = 0 by omega, show n / 10 % 10 = n / 10 by omega]; rfl
    · rw [if_neg (by omega), if_neg (by omega), dec2 (by omega), dec2 (by omega), dec1 (by omega), show n / 10 / 10 % 10 = n / 10 / 10 by omega]; rfl

/-! ### reading the pattern -/

/-- the pattern object of a run -/
def pat (c : Ch) (n : Nat) : Pattern := ⟨kind c, n % 256, if kind c = .text then List.replicate n c else []⟩

theorem mkPat_cons (c : Ch) (l : List Ch) : mkPat (c :: l) = .ok ⟨kind c, (l.length + 1) % 256, if kind c = .text then c :: l else []⟩ := by
  simp [mkPat, rd, bind, Except.bind, pure, Except.pure]

theorem mkPat_run (c : Ch) (n : Nat) (h : 0 < n) : mkPat (List.replicate n c) = .ok (pat c n) := by
  obtain ⟨m, rfl⟩ : ∃ m, n = m + 1 := ⟨n - 1, by omega⟩
  rw [List.replicate_succ, mkPat_cons, List.length_replicate]; rfl

abbrev st (tok : List Ch) (P : List Pattern) : Scan := ⟨tok, false, false, P⟩

theorem scanPlain_same (c : Ch) (n : Nat) (P : List Pattern) :
    scanPlain (st (List.replicate n c) P) c = .ok (st (List.replicate (n + 1) c) P) := by
  have : firstOf (List.replicate n c) c = .ok c := by
    unfold firstOf
    cases n with
    | zero => simp
    | succ n => simp [rd]
  unfold scanPlain
  simp only [this, bind, Except.bind, ne_eq, not_true, if_false]
  rw [← List.replicate_append_replicate]; rfl

theorem scan_run (c : Ch) (hc : c ≠ 0x27) (n a : Nat) (P : List Pattern) (l : List Ch) :
    scan (st (List.replicate a c) P) (List.replicate n c ++ l) = scan (st (List.replicate (a + n) c) P) l := by
  induction n generalizing a with
  | zero => rfl
  | succ n ih =>
    rw [List.replicate_succ, List.cons_append, scan]
    have : scanStep (st (List.replicate a c) P) c = .ok (st (List.replicate (a + 1) c) P) := by
      unfold scanStep
      rw [if_neg hc]
      exact scanPlain_same c a P
    rw [this]
    simp only [bind, Except.bind]
    rw [ih, Nat.add_assoc, Nat.add_comm 1]

theorem scan_switch (c d : Ch) (hd : d ≠ 0x27) (h : c ≠ d) (n : Nat) (P : List Pattern) (l : List Ch) :
    scan (st (List.replicate (n + 1) c) P) (d :: l) = scan (st [d] (P ++ [pat c (n + 1)])) l := by
  rw [scan]
  have hf : firstOf (List.replicate (n + 1) c) d = .ok c := by simp [firstOf, rd]
  have : scanStep (st (List.replicate (n + 1) c) P) d = .ok (st [d] (P ++ [pat c (n + 1)])) := by
    unfold scanStep
    rw [if_neg hd]
    simp only [Bool.false_eq_true, if_false, scanPlain, hf, bind, Except.bind]
    rw [if_pos (Ne.symm h), mkPat_run c (n + 1) (by omega)]
  rw [this]; rfl

theorem scan_in (tok s l : List Ch) (b : Bool) (P : List Pattern) (hs : (0x27 : Ch) ∉ s) :
    scan ⟨tok, true, b, P⟩ (s ++ l) = scan ⟨tok ++ s, true, b, P⟩ l := by
  induction s generalizing tok with
  | nil => simp
  | cons c s ih =>
    simp only [List.mem_cons, not_or] at hs
    rw [List.cons_append, scan]
    have : scanStep ⟨tok, true, b, P⟩ c = .ok ⟨tok ++ [c], true, b, P⟩ := by
      unfold scanStep; rw [if_neg (Ne.symm hs.1)]; rfl
    rw [this]
    simp only [bind, Except.bind]
    rw [ih _ hs.2, List.append_assoc]; rfl

theorem scan_open (tok l : List Ch) (P : List Pattern) : scan (st tok P) (0x27 :: l) = scan ⟨tok, true, true, P⟩ l := by
  rw [scan]; rfl

theorem scan_quoted (tok s l : List Ch) (P : List Pattern) (hs : (0x27 : Ch) ∉ s) :
    scan (st tok P) (0x27 :: s ++ [0x27] ++ l) = scan (st [] (P ++ [mkText (tok ++ s)])) l := by
  rw [List.append_assoc, List.cons_append, scan_open, scan_in _ _ _ _ _ hs, List.cons_append, scan]; rfl

/-- the patterns finished after the items -/
def done : List Item → List Pattern
  | [] => []
  | [.run _ _] => []
  | .run c n :: .run d m :: l => pat c n :: done (.run d m :: l)
  | .run c n :: .quoted s :: l => mkText (List.replicate n c ++ s) :: done l
  | .quoted s :: l => mkText s :: done l

/-- the token left after the items -/
def lastTok : List Item → List Ch
  | [] => []
  | [.run c n] => List.replicate n c
  | .run _ _ :: .run d m :: l => lastTok (.run d m :: l)
  | .run _ _ :: .quoted _ :: l => lastTok l
  | .quoted _ :: l => lastTok l

theorem Valid.tail {i : Item} {l : List Item} (h : Spec.Valid (i :: l)) : Spec.Valid l := by
  cases l with
  | nil => trivial
  | cons j l => exact h.2.2

theorem Valid.head {i : Item} {l : List Item} (h : Spec.Valid (i :: l)) : i.Valid := by
  cases l with
  | nil => exact h
  | cons j l => exact h.1

theorem scan_items (items : List Item) (hv : Spec.Valid items) (P : List Pattern) (tail : List Ch) :
    scan (st [] P) (src items ++ tail) = scan (st (lastTok items) (P ++ done items)) tail := by
  induction items using done.induct generalizing P with
  | case1 => simp [src, lastTok, done]
  | case2 c n =>
    have h := scan_run c hv.1 n 0 P tail
    simp only [List.replicate_zero, Nat.zero_add] at h
    simp only [src, List.flatMap_cons, List.flatMap_nil, List.append_nil, Item.src, lastTok, done]
    exact h
  | case3 c n d m l ih =>
    obtain ⟨⟨hc, hn⟩, ha, hv'⟩ := hv
    obtain ⟨hd, hm⟩ := Valid.head hv'
    obtain ⟨n, rfl⟩ : ∃ k, n = k + 1 := ⟨n - 1, by omega⟩
    obtain ⟨m, rfl⟩ : ∃ k, m = k + 1 := ⟨m - 1, by omega⟩
    have ih := ih hv' (P ++ [pat c (n + 1)])
    simp only [src, List.flatMap_cons, Item.src, List.append_assoc] at ih ⊢
    have h := scan_run c hc (n + 1) 0 P (List.replicate (m + 1) d ++ (List.flatMap Item.src l ++ tail))
    simp only [List.replicate_zero, Nat.zero_add] at h
    rw [h, List.replicate_succ (n := m), List.cons_append, scan_switch c d hd ha]
    have h1 := scan_run d hd m 1 (P ++ [pat c (n + 1)]) (List.flatMap Item.src l ++ tail)
    have h2 := scan_run d hd (m + 1) 0 (P ++ [pat c (n + 1)]) (List.flatMap Item.src l ++ tail)
    simp only [List.replicate_one, List.replicate_zero, Nat.zero_add] at h1 h2
    rw [h1, Nat.add_comm, ← h2, ih, done, lastTok]
    simp
  | case4 c n s l ih =>
    obtain ⟨⟨hc, hn⟩, _, hv'⟩ := hv
    have hs : (0x27 : Ch) ∉ s := Valid.head hv'
    have ih := ih (Valid.tail hv') (P ++ [mkText (List.replicate n c ++ s)])
    have h := scan_run c hc n 0 P ((0x27 :: s ++ [0x27]) ++ (src l ++ tail))
    simp only [List.replicate_zero, Nat.zero_add] at h
    have e : src (.run c n :: .quoted s :: l) ++ tail = List.replicate n c ++ ((0x27 :: s ++ [0x27]) ++ (src l ++ tail)) := by
      simp [src, Item.src]
    rw [e, h, scan_quoted _ _ _ _ hs, ih, done, lastTok]
    simp
  | case5 s l ih =>
    have hs : (0x27 : Ch) ∉ s := Valid.head hv
    have ih := ih (Valid.tail hv) (P ++ [mkText s])
    have e : src (.quoted s :: l) ++ tail = (0x27 :: s ++ [0x27]) ++ (src l ++ tail) := by
      simp [src, Item.src]
    rw [e, scan_quoted _ _ _ _ hs, List.nil_append, ih, done, lastTok]
    simp

/-- the pattern of the token that is left -/
def flush : List Ch → List Pattern
  | [] => []
  | c :: l => [⟨kind c, (l.length + 1) % 256, if kind c = .text then c :: l else []⟩]

theorem finish_eq (s : Scan) : finish s = .ok (s.pats ++ flush s.token) := by
  unfold finish
  cases h : s.token with
  | nil => simp [flush]
  | cons c l => rw [if_pos (by simp), mkPat_cons]; rfl

theorem construct_items (items : List Item) (hv : Spec.Valid items) : construct (src items) = .ok (done items ++ flush (lastTok items)) := by
  have h := scan_items items hv [] []
  simp only [List.append_nil, List.nil_append] at h
  unfold construct
  rw [show (⟨[], false, false, []⟩ : Scan) = st [] [] from rfl, h]
  simp only [scan, bind, Except.bind, finish_eq]

theorem construct_open (items : List Item) (hv : Spec.Valid items) (s : List Ch) (hs : (0x27 : Ch) ∉ s) :
    construct (src items ++ 0x27 :: s) = .ok (done items ++ flush (lastTok items ++ s)) := by
  have h := scan_items items hv [] (0x27 :: s)
  simp only [List.nil_append] at h
  unfold construct
  rw [show (⟨[], false, false, []⟩ : Scan) = st [] [] from rfl, h, scan_open]
  have h2 := scan_in (lastTok items) s [] true (done items) hs
  rw [List.append_nil] at h2
  rw [h2]
  simp only [scan, bind, Except.bind, finish_eq]

theorem done_snoc (items : List Item) (c : Ch) (n : Nat) (hv : Spec.Valid (items ++ [.run c n])) :
    done (items ++ [.run c n]) = done items ++ flush (lastTok items) ∧ lastTok (items ++ [.run c n]) = List.replicate n c := by
  induction items using done.induct with
  | case1 => simp [done, lastTok, flush]
  | case2 d m =>
    obtain ⟨⟨hd, hm⟩, _⟩ := hv
    obtain ⟨m, rfl⟩ : ∃ k, m = k + 1 := ⟨m - 1, by omega⟩
    simp [done, lastTok, flush, List.replicate_succ, pat]
  | case3 d m e k l ih =>
    have := ih (Valid.tail hv)
    simp only [List.cons_append, done, lastTok] at this ⊢
    rw [this.1, this.2]; exact ⟨rfl, rfl⟩
  | case4 d m s l ih =>
    have := ih (Valid.tail (Valid.tail hv))
    simp only [List.cons_append, done, lastTok] at this ⊢
    rw [this.1, this.2]; exact ⟨rfl, rfl⟩
  | case5 s l ih =>
    have := ih (Valid.tail hv)
    simp only [List.cons_append, done, lastTok] at this ⊢
    rw [this.1, this.2]; exact ⟨rfl, rfl⟩

/-! ### writing -/

theorem formatLoop_ok (tr : List Ch → List Ch) (t : Int) (out : Pattern → List Ch) (ps : List Pattern)
    (h : ∀ p ∈ ps, appended tr p t = .ok (out p)) (v : List Ch) : formatLoop tr t ps v = .ok (v ++ ps.flatMap out) := by
  induction ps generalizing v with
  | nil => simp [formatLoop]
  | cons p ps ih =>
    simp only [formatLoop, h p (by simp), bind, Except.bind]
    rw [ih (fun q hq => h q (by simp [hq])), List.append_assoc]; rfl

theorem kind_cases (c : Ch) : (kind c = .text ∧ c ∉ letters) ∨ (kind c ≠ .text ∧ c ∈ letters) := by
  have hl : ∀ c, c ∈ letters ↔ (c = 0x79 ∨ c = 0x4d ∨ c = 0x64 ∨ c = 0x45 ∨ c = 0x48 ∨ c = 0x6d ∨ c = 0x73 ∨ c = 0x53) := by
    intro c
    have : letters = [0x79, 0x4d, 0x64, 0x45, 0x48, 0x6d, 0x73, 0x53] := by decide +kernel
    rw [this]; simp only [List.mem_cons, List.not_mem_nil, or_false]
  rw [hl]
  unfold kind
  repeat' split
  all_goals first
    | (right; refine ⟨by simp, ?_⟩; simp [*]; done)
    | (left; refine ⟨rfl, ?_⟩; simp only [not_or]; refine ⟨?_, ?_, ?_, ?_, ?_, ?_, ?_, ?_⟩ <;> assumption)

theorem kind_text {c : Ch} : kind c = .text ↔ c ∉ letters := by
  rcases kind_cases c with h | h
  · simp [h]
  · simp [h]

/-- the names in the code -/
def codeMonths : List (List Ch) := months.set 8 (txt "Septemper")

/-- The time stamp `t` shows the time `k`. -/
structure Shows (t : Int) (k : Clock) : Prop where
  range : InRange t
  date : dateParts t = .ok ((k.year : Int), (k.month : Int), (k.day : Int))
  time : timeParts t = .ok ((k.hour : Int), (k.minute : Int), (k.second : Int), (k.milli : Int))
  weekday : (k.weekday : Int) = (t / 86400000 + 4) % 7

theorem except_bind_ok {α β : Type} {a : Res α} {f : α → Res β} {r : β} (h : (a >>= f) = .ok r) : ∃ x, a = .ok x ∧ f x = .ok r := by
  cases a with
  | error e => simp [bind, Except.bind] at h
  | ok x => exact ⟨x, rfl, h⟩

theorem Shows.date_getters {t : Int} {k : Clock} (h : Shows t k) :
    Date.yearFromTime t = .ok (k.year : Int) ∧ Date.monthFromTime t = .ok (k.month : Int) ∧ Date.dateFromTime t = .ok (k.day : Int) := by
  have hd := h.date
  unfold Date.Props.dateParts at hd
  obtain ⟨y, e1, hd⟩ := except_bind_ok hd
  obtain ⟨m, e2, hd⟩ := except_bind_ok hd
  obtain ⟨d, e3, hd⟩ := except_bind_ok hd
  simp only [pure, Except.pure, Except.ok.injEq, Prod.mk.injEq] at hd
  rw [e1, e2, e3, hd.1, hd.2.1, hd.2.2]
  exact ⟨rfl, rfl, rfl⟩

theorem Shows.time_getters {t : Int} {k : Clock} (h : Shows t k) :
    Date.hourFromTime t = .ok (k.hour : Int) ∧ Date.minuteFromTime t = .ok (k.minute : Int) ∧ Date.secondFromTime t = .ok (k.second : Int) ∧
    Date.milliFromTime t = .ok (k.milli : Int) := by
  have hd := h.time
  unfold Date.Props.timeParts at hd
  obtain ⟨y, e1, hd⟩ := except_bind_ok hd
  obtain ⟨m, e2, hd⟩ := except_bind_ok hd
  obtain ⟨d, e3, hd⟩ := except_bind_ok hd
  obtain ⟨e, e4, hd⟩ := except_bind_ok hd
  simp only [pure, Except.pure, Except.ok.injEq, Prod.mk.injEq] at hd
  rw [e1, e2, e3, e4, hd.1, hd.2.1, hd.2.2.1, hd.2.2.2]
  exact ⟨rfl, rfl, rfl, rfl⟩

theorem date_bounds {t : Int} (ht : InRange t) : ∃ y m d, dateParts t = .ok (y, m, d) ∧ 0 ≤ m ∧ m ≤ 11 ∧ 1 ≤ d ∧ d ≤ 31 ∧
    -10000000000 ≤ y ∧ y ≤ 10000000000 := by
  obtain ⟨y, e1, e2, e3⟩ := Date.Props.yearFromTime_ok t ht
  obtain ⟨_, _, _, p⟩ := Date.Props.parts_ok t ht y e2 e3
  have hl := Date.Props.D_len y
  obtain ⟨v, _⟩ := Date.Props.md_step y (t / 86400000 - Date.Props.D y) (by omega) (by omega)
  obtain ⟨v1, v2, v3, v4⟩ := v
  rw [Date.Props.monthLen_eq] at v4
  have hyb : -10000000000 ≤ y ∧ y ≤ 10000000000 := by
    have : -106751991167 ≤ t / 86400000 ∧ t / 86400000 ≤ 106751991167 := by unfold Date.Props.InRange at ht; omega
    unfold Date.Props.D at e2 e3; omega
  refine ⟨y, (Date.Props.md y (t / 86400000 - Date.Props.D y)).1, (Date.Props.md y (t / 86400000 - Date.Props.D y)).2, p, v1, v2, v3, ?_, hyb.1, hyb.2⟩
  have hly : Date.Props.ly y ≤ 1 := by unfold Date.Props.ly; split <;> omega
  unfold Date.Props.len at v4
  split at v4
  · omega
  · split at v4 <;> omega

theorem Shows.bounds {t : Int} {k : Clock} (h : Shows t k) :
    k.month < 12 ∧ 1 ≤ k.day ∧ k.day ≤ 31 ∧ k.weekday < 7 ∧ k.hour < 24 ∧ k.minute < 60 ∧ k.second < 60 ∧ k.milli < 1000 := by
  obtain ⟨y, m, d, e, b⟩ := date_bounds h.range
  obtain ⟨a, b', c, f, e', b2⟩ := Date.Props.time_of_day t h.range
  have h1 := h.date.symm.trans e
  have h2 := h.time.symm.trans e'
  simp only [Except.ok.injEq, Prod.mk.injEq] at h1 h2
  have := h.weekday
  omega

theorem Shows.weekday_getter {t : Int} {k : Clock} (h : Shows t k) (h0 : -4 * 86400000 ≤ t) : Date.weekDay t = .ok (k.weekday : Int) := by
  obtain ⟨w, e, _, _, hw⟩ := Date.Props.weekday_partial t h.range h0
  rw [e, h.weekday, hw]

theorem dayName_ok (n w : Nat) (hw : w < 7) : dayName n (w : Int) =
    (if n = 1 then (days.getD w []).take 1 else if n = 2 then (days.getD w []).take 2 else days.getD w []) := by
  have h1 : ∀ w : Fin 7, dayName 1 (w.val : Int) = (days.getD w.val []).take 1 := by decide +kernel
  have h2 : ∀ w : Fin 7, dayName 2 (w.val : Int) = (days.getD w.val []).take 2 := by decide +kernel
  have h3 : ∀ w : Fin 7, dayName 3 (w.val : Int) = days.getD w.val [] := by decide +kernel
  by_cases e1 : n = 1
  · subst e1; rw [if_pos rfl]; exact h1 ⟨w, hw⟩
  · by_cases e2 : n = 2
    · subst e2; exact h2 ⟨w, hw⟩
    · rw [if_neg e1, if_neg e2, ← h3 ⟨w, hw⟩]
      simp only [dayName, e1, e2, if_false, show ¬ ((3 : Nat) = 1) by omega, show ¬ ((3 : Nat) = 2) by omega]

theorem shortMonth_ok (m : Nat) (h : m < 12) : shortMonth (m : Int) = shortMonths.getD m [] := by
  have : ∀ m : Fin 12, shortMonth (m.val : Int) = shortMonths.getD m.val [] := by decide +kernel
  exact this ⟨m, h⟩

theorem longMonth_ok (tr : List Ch → List Ch) (m : Nat) (h : m < 12) : longMonth tr (m : Int) = tr (codeMonths.getD m []) := by
  have : ∀ m : Fin 12, longMonth tr (m.val : Int) = tr (longMonth id m.val) := by
    intro m
    match m with
    | 0 | 1 | 2 | 3 | 4 | 5 | 6 | 7 | 8 | 9 | 10 | 11 => rfl
  have h2 : ∀ m : Fin 12, longMonth id (m.val : Int) = codeMonths.getD m.val [] := by decide +kernel
  rw [this ⟨m, h⟩]
  exact congrArg tr (h2 ⟨m, h⟩)

section
variable (names : List (List Ch)) (tr : List Ch → List Ch) (k : Clock) (n : Nat)
theorem field_y : field names tr k 0x79 n = (if n = 2 then padded 2 (k.year % 100) else dec k.year) := rfl
theorem field_M : field names tr k 0x4d n = (if n = 1 then dec (k.month + 1) else if n = 2 then padded 2 (k.month + 1) else
    if n = 3 then shortMonths.getD k.month [] else tr (names.getD k.month [])) := rfl
theorem field_d : field names tr k 0x64 n = (if n = 2 then padded 2 k.day else dec k.day) := rfl
theorem field_E : field names tr k 0x45 n = (if n = 1 then (days.getD k.weekday []).take 1 else
    if n = 2 then (days.getD k.weekday []).take 2 else days.getD k.weekday []) := rfl
theorem field_H : field names tr k 0x48 n = (if n = 2 then padded 2 k.hour else dec k.hour) := rfl
theorem field_m : field names tr k 0x6d n = (if n = 2 then padded 2 k.minute else dec k.minute) := rfl
theorem field_s : field names tr k 0x73 n = (if n = 2 then padded 2 k.second else dec k.second) := rfl
theorem field_S : field names tr k 0x53 n = (if n ≤ 1 then dec k.milli else padded 3 k.milli) := rfl
end

/-- what a pattern object of a token adds -/
theorem appended_token (tr : List Ch → List Ch) {t : Int} {k : Clock} (h : Shows t k) (h0 : -4 * 86400000 ≤ t) (c : Ch) (n : Nat) (l : List Ch) :
    appended tr ⟨kind c, n, if kind c = .text then l else []⟩ t = .ok (if c ∈ letters then field codeMonths tr k c n else l) := by
  obtain ⟨hm, hd1, hd2, hw, hh, hmi, hs, hms⟩ := h.bounds
  obtain ⟨ey, em, ed⟩ := h.date_getters
  obtain ⟨eh, emi, es, ems⟩ := h.time_getters
  have ew := h.weekday_getter h0
  have fm : appended tr ⟨kind 0x4d, n, if kind 0x4d = .text then l else []⟩ t = .ok (field codeMonths tr k 0x4d n) := by
    show fMonth tr n t = _
    rw [field_M]
    unfold fMonth
    simp only [em, bind, Except.bind]
    have : ((k.month : Int) + 1) = ((k.month + 1 : Nat) : Int) := by omega
    rw [this, valueOf_dec, two_padded (by omega), shortMonth_ok _ hm, longMonth_ok _ _ hm]
    repeat' split
    all_goals rfl
  have fy : appended tr ⟨kind 0x79, n, if kind 0x79 = .text then l else []⟩ t = .ok (field codeMonths tr k 0x79 n) := by
    show fYear n t = _
    rw [field_y]
    unfold fYear
    simp only [ey, bind, Except.bind]
    have : ((k.year : Int).tmod 100) = ((k.year % 100 : Nat) : Int) := by
      rw [Int.tmod_eq_emod_of_nonneg (by omega)]; rfl
    rw [this, valueOf_dec, two_padded (by omega)]
    split <;> rfl
  have fd : appended tr ⟨kind 0x64, n, if kind 0x64 = .text then l else []⟩ t = .ok (field codeMonths tr k 0x64 n) := by
    show fDate n t = _
    rw [field_d]
    unfold fDate
    simp only [ed, bind, Except.bind]
    rw [if_neg (show ¬ ((k.day : Int) < 0) by omega), valueOf_dec, two_padded (by omega)]
    split <;> rfl
  have fe : appended tr ⟨kind 0x45, n, if kind 0x45 = .text then l else []⟩ t = .ok (field codeMonths tr k 0x45 n) := by
    show fWeekday n t = _
    rw [field_E]
    unfold fWeekday
    simp only [ew, bind, Except.bind, pure, Except.pure]
    rw [dayName_ok _ _ hw]
  have fh : appended tr ⟨kind 0x48, n, if kind 0x48 = .text then l else []⟩ t = .ok (field codeMonths tr k 0x48 n) := by
    show fHour n t = _
    rw [field_H]
    unfold fHour
    simp only [eh, bind, Except.bind]
    rw [valueOf_dec, two_padded (by omega)]
    split <;> rfl
  have fmi : appended tr ⟨kind 0x6d, n, if kind 0x6d = .text then l else []⟩ t = .ok (field codeMonths tr k 0x6d n) := by
    show fMinute n t = _
    rw [field_m]
    unfold fMinute
    simp only [emi, bind, Except.bind]
    rw [if_neg (show ¬ ((k.minute : Int) < 0) by omega), valueOf_dec, two_padded (by omega)]
    split <;> rfl
  have fs : appended tr ⟨kind 0x73, n, if kind 0x73 = .text then l else []⟩ t = .ok (field codeMonths tr k 0x73 n) := by
    show fSecond n t = _
    rw [field_s]
    unfold fSecond
    simp only [es, bind, Except.bind]
    rw [valueOf_dec, two_padded (by omega)]
    split <;> rfl
  have fS : appended tr ⟨kind 0x53, n, if kind 0x53 = .text then l else []⟩ t = .ok (field codeMonths tr k 0x53 n) := by
    show fMilli n t = _
    rw [field_S]
    unfold fMilli
    simp only [ems, bind, Except.bind]
    rw [valueOf_dec, three_padded (by omega)]
    by_cases hn : n > 1
    · rw [if_pos hn, if_neg (by omega)]
    · rw [if_neg hn, if_pos (by omega)]
  by_cases hc : c ∈ letters
  · rw [if_pos hc]
    have hl : letters = [0x79, 0x4d, 0x64, 0x45, 0x48, 0x6d, 0x73, 0x53] := by decide +kernel
    rw [hl] at hc
    simp only [List.mem_cons, List.not_mem_nil, or_false] at hc
    rcases hc with rfl | rfl | rfl | rfl | rfl | rfl | rfl | rfl
    · exact fy
    · exact fm
    · exact fd
    · exact fe
    · exact fh
    · exact fmi
    · exact fs
    · exact fS
  · rw [if_neg hc, if_pos (kind_text.2 hc)]
    have := kind_text.2 hc
    simp only [appended, this]

end Verif.DateFmt
