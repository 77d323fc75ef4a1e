import Verif.Lists.Tokenizer
/-
C14: StringTokenizer; and String::split.
-/
namespace Verif.Lists.TokenizerProps
open Verif Verif.Str Verif.Lists

/-! ### Specification -/

inductive Call where
  | hasNext
  | next

inductive Out where
  | has (b : Bool)
  | token (x : List Ch)
  | noSuchElement
deriving DecidableEq

/-- The calls on the tokenizer, in order, with what the user sees. -/
def run : List Call → Tok → Res (List Out)
  | [], _ => .ok []
  | .hasNext :: cs, t => do
    let r ← t.hasNext
    let rest ← run cs r.2
    return .has r.1 :: rest
  | .next :: cs, t => do
    let r ← t.next
    let rest ← run cs r.2
    return (match r.1 with | some x => .token x | none => .noSuchElement) :: rest

/-- The same calls on a cursor over a list of tokens: `next` hands them out in order and throws at the end,
`hasNext` tells whether there is one. -/
def cursor : List Call → List (List Ch) → List Out
  | [], _ => []
  | .hasNext :: cs, l => .has (!l.isEmpty) :: cursor cs l
  | .next :: cs, [] => .noSuchElement :: cursor cs []
  | .next :: cs, x :: l => .token x :: cursor cs l

/-- Text of which no character is a delimiter. -/
def Free (delims x : List Ch) : Prop := ∀ c ∈ x, c ∉ delims

/-- The tokens with delimiters returned: they make up the text; each is one delimiter or a non-empty
delimiter-free piece, and no two pieces are adjacent (so pieces are maximal). -/
structure WithDelims (delims s : List Ch) (T : List (List Ch)) : Prop where
  concat : T.flatten = s
  each : ∀ x ∈ T, (∃ c ∈ delims, x = [c]) ∨ (x ≠ [] ∧ Free delims x)
  maximal : ∀ i x y, T[i]? = some x → T[i + 1]? = some y → ¬ (Free delims x ∧ Free delims y)

/-- The tokens without delimiters: the non-empty pieces between delimiters. -/
def words (delims s : List Ch) : List (List Ch) := (s.splitOnP (fun c => decide (c ∈ delims))).filter (fun x => !x.isEmpty)

/-! ### Proof -/

def toks (ret : Bool) (D : Ch → Bool) : List Ch → List (List Ch)
  | [] => []
  | c :: l =>
    if D c then (if ret then [c] :: toks ret D l else toks ret D l)
    else (c :: l.takeWhile (fun c => !D c)) :: toks ret D (l.dropWhile (fun c => !D c))
termination_by l => l.length
decreasing_by
  · simp
  · simp
  · have := (List.dropWhile_sublist (l := l) (p := fun c => !D c)).length_le
    simp; omega

abbrev dl (t : Tok) : Ch → Bool := fun c => decide (c ∈ t.delims)

theorem drop_cons {s : List Ch} {p : Nat} (h : p < s.length) : s.drop p = s[p] :: s.drop (p + 1) :=
  List.drop_eq_getElem_cons h

theorem isDelimiter_ok (t : Tok) (p : Nat) (h : p < t.str.length) : t.isDelimiter p = .ok (dl t t.str[p]) := by
  simp [Tok.isDelimiter, h, dl]

theorem findTokenEnd_ok (t : Tok) (p : Nat) (h : p ≤ t.str.length) :
    t.findTokenEnd p = .ok (p + ((t.str.drop p).takeWhile (fun c => !dl t c)).length) := by
  fun_induction Tok.findTokenEnd t p with
  | case1 p hp ih =>
    rw [isDelimiter_ok t p hp, drop_cons hp, List.takeWhile_cons]
    simp only [bind, Except.bind]
    cases hd : dl t t.str[p]
    · simp only [Bool.false_eq_true, if_false, Bool.not_false, if_true]
      rw [ih (by omega)]
      simp; omega
    · simp [pure, Except.pure]
  | case2 p hp => rw [List.drop_eq_nil_of_le (by omega)]; simp

theorem skip_ok (t : Tok) (p : Nat) (h : p ≤ t.str.length) :
    ∃ q, t.skip p = .ok q ∧ p ≤ q ∧ q ≤ t.str.length ∧ (∀ h : q < t.str.length, dl t t.str[q] = false) ∧
      toks false (dl t) (t.str.drop q) = toks false (dl t) (t.str.drop p) ∧
      (∀ h : p < t.str.length, dl t t.str[p] = false → q = p) := by
  fun_induction Tok.skip t p with
  | case1 p hp ih =>
    rw [isDelimiter_ok t p hp]
    simp only [bind, Except.bind]
    cases hd : dl t t.str[p]
    · refine ⟨p, by simp [pure, Except.pure], by omega, h, fun _ => hd, rfl, fun _ _ => rfl⟩
    · simp only [Bool.not_true, Bool.false_eq_true, if_false]
      obtain ⟨q, h1, h2, h3, h4, h5, _⟩ := ih (by omega)
      refine ⟨q, h1, by omega, h3, h4, ?_, ?_⟩
      · rw [h5, drop_cons hp, toks, if_pos hd, if_neg (by simp)]
      · intro _ hf; exact absurd (hd.symm.trans hf) (by simp)
  | case2 p hp => exact ⟨p, rfl, by omega, h, by intro h; omega, rfl, by intro h; omega⟩

/-- a position at which `next` can start reading a token -/
def Start (t : Tok) (q : Nat) : Prop := q ≤ t.str.length ∧ (t.retDelim = false → ∀ h : q < t.str.length, dl t t.str[q] = false)

theorem findDelimiterEnd_ok (t : Tok) (p : Nat) (h : p ≤ t.str.length) :
    ∃ q, t.findDelimiterEnd p = .ok q ∧ Start t q ∧
      toks t.retDelim (dl t) (t.str.drop q) = toks t.retDelim (dl t) (t.str.drop p) := by
  unfold Tok.findDelimiterEnd
  cases hr : t.retDelim
  · simp only [Bool.false_eq_true, false_and, if_false, bind, Except.bind]
    obtain ⟨q, h1, _, h3, h4, h5, _⟩ := skip_ok t p h
    exact ⟨q, h1, ⟨h3, fun _ => h4⟩, h5⟩
  · by_cases hp : p < t.str.length
    · rw [if_pos ⟨rfl, hp⟩, isDelimiter_ok t p hp]
      simp only [bind, Except.bind]
      cases hd : dl t t.str[p]
      · simp only [Bool.false_eq_true, if_false]
        obtain ⟨q, h1, _, h3, h4, h5, h6⟩ := skip_ok t p h
        have := h6 hp hd
        subst this
        exact ⟨q, h1, ⟨h3, fun hf => by rw [hr] at hf; cases hf⟩, rfl⟩
      · exact ⟨p, rfl, ⟨h, fun hf => by rw [hr] at hf; cases hf⟩, rfl⟩
    · rw [if_neg (by simp [hp])]
      simp only [bind, Except.bind, Bool.false_eq_true, if_false]
      refine ⟨p, by rw [Tok.skip, if_neg hp], ⟨h, fun hf => by rw [hr] at hf; cases hf⟩, rfl⟩

/-- the tokenizer stands before the tokens `T` -/
def Abs (t : Tok) (T : List (List Ch)) : Prop :=
  match t.newStart with
  | some n => Start t n ∧ toks t.retDelim (dl t) (t.str.drop n) = T
  | none => t.pos ≤ t.str.length ∧ toks t.retDelim (dl t) (t.str.drop t.pos) = T

theorem abs_start {t : Tok} {T : List (List Ch)} (h : Abs t T) :
    ∃ n, t.start = .ok n ∧ Start t n ∧
      toks t.retDelim (dl t) (t.str.drop n) = T := by
  unfold Abs at h
  unfold Tok.start
  cases hn : t.newStart with
  | some n => rw [hn] at h; exact ⟨n, rfl, h⟩
  | none =>
    rw [hn] at h
    obtain ⟨q, h1, h2, h3⟩ := findDelimiterEnd_ok t t.pos h.1
    exact ⟨q, h1, h2, h3.trans h.2⟩

theorem toks_empty_iff {t : Tok} {n : Nat} (h : Start t n) :
    (toks t.retDelim (dl t) (t.str.drop n)).isEmpty = !decide (n < t.str.length) := by
  by_cases hn : n < t.str.length
  · rw [drop_cons hn, toks]
    cases hr : t.retDelim
    · have := h.2 hr hn
      simp [this, hn]
    · by_cases hd : dl t t.str[n] <;> simp [hd, hn]
  · rw [List.drop_eq_nil_of_le (by omega), toks]; simp [hn]

theorem hasNext_ok {t : Tok} {T : List (List Ch)} (h : Abs t T) :
    ∃ t', t.hasNext = .ok (!T.isEmpty, t') ∧ Abs t' T ∧ t'.str = t.str := by
  obtain ⟨n, h1, h2, h3⟩ := abs_start h
  refine ⟨{ t with newStart := some n }, ?_, ⟨h2, h3⟩, rfl⟩
  unfold Tok.hasNext
  rw [h1]
  simp only [bind, Except.bind, pure, Except.pure]
  rw [← h3, toks_empty_iff h2]
  simp

theorem take_drop_slice (s : List Ch) (p k : Nat) : (s.take (p + k)).drop p = (s.drop p).take k := by
  rw [List.drop_take]; congr 1; omega

theorem takeWhile_eq_take (q : Ch → Bool) (l : List Ch) : l.take (l.takeWhile q).length = l.takeWhile q := by
  induction l with
  | nil => rfl
  | cons a l ih => by_cases h : q a <;> simp [List.takeWhile_cons, h, ih]

theorem dropWhile_eq_drop (q : Ch → Bool) (l : List Ch) : l.drop (l.takeWhile q).length = l.dropWhile q := by
  induction l with
  | nil => rfl
  | cons a l ih => by_cases h : q a <;> simp [List.takeWhile_cons, List.dropWhile_cons, h, ih]

theorem mem_takeWhile_imp {q : Ch → Bool} {l : List Ch} {x : Ch} (h : x ∈ l.takeWhile q) : q x = true := by
  have := List.all_takeWhile (p := q) (l := l)
  exact List.all_eq_true.1 this x h

theorem nextAt_ok {t : Tok} {n : Nat} (h : Start t n) :
    ∃ t', t.nextAt n = .ok ((toks t.retDelim (dl t) (t.str.drop n)).head?, t') ∧
      Abs t' (toks t.retDelim (dl t) (t.str.drop n)).tail ∧ t'.str = t.str ∧ t'.delims = t.delims ∧ t'.retDelim = t.retDelim := by
  unfold Tok.nextAt
  by_cases hn : n < t.str.length
  · rw [if_neg (by omega)]
    have hword : dl t t.str[n] = false →
        t.findTokenEnd n = .ok (n + ((t.str.drop n).takeWhile (fun c => !dl t c)).length) ∧
        n + ((t.str.drop n).takeWhile (fun c => !dl t c)).length ≤ t.str.length ∧
        toks t.retDelim (dl t) (t.str.drop n) =
          ((t.str.take (n + ((t.str.drop n).takeWhile (fun c => !dl t c)).length)).drop n) ::
            toks t.retDelim (dl t) (t.str.drop (n + ((t.str.drop n).takeWhile (fun c => !dl t c)).length)) := by
      intro hd
      refine ⟨findTokenEnd_ok t n (by omega), ?_, ?_⟩
      · have := (List.takeWhile_sublist (l := t.str.drop n) (p := fun c => !dl t c)).length_le
        simp at this ⊢; omega
      · rw [take_drop_slice, takeWhile_eq_take, ← List.drop_drop, dropWhile_eq_drop]
        rw [drop_cons hn, toks, if_neg (by simpa using hd), List.takeWhile_cons, List.dropWhile_cons, hd]
        simp
    by_cases hd : dl t t.str[n] = true
    · have hr : t.retDelim = true := by
        cases hr : t.retDelim
        · have := h.2 hr hn; rw [hd] at this; cases this
        · rfl
      have he : t.tokenEnd n = .ok (n + 1) := by
        simp only [Tok.tokenEnd, hr, if_true, isDelimiter_ok t n hn, hd]
      rw [he]
      have ht : toks t.retDelim (dl t) (t.str.drop n) = [t.str[n]] :: toks t.retDelim (dl t) (t.str.drop (n + 1)) := by
        rw [drop_cons hn, toks, if_pos hd, hr, if_pos rfl]
      rw [ht]
      refine ⟨{ t with pos := n + 1, newStart := none }, ?_, ⟨hn, rfl⟩, rfl, rfl, rfl⟩
      simp only [bind, Except.bind, pure, Except.pure]
      rw [take_drop_slice, drop_cons hn]; rfl
    · have hd : dl t t.str[n] = false := by simpa using hd
      obtain ⟨h1, h2, h3⟩ := hword hd
      have he : t.tokenEnd n = t.findTokenEnd n := by
        unfold Tok.tokenEnd
        split
        · rw [isDelimiter_ok t n hn, hd]
        · rfl
      rw [he, h1, h3]
      exact ⟨{ t with pos := _, newStart := none }, rfl, ⟨h2, rfl⟩, rfl, rfl, rfl⟩
  · rw [if_pos (by omega)]
    have ht : toks t.retDelim (dl t) (t.str.drop n) = [] := by
      rw [List.drop_eq_nil_of_le (by omega), toks]
    rw [ht]
    exact ⟨{ t with pos := n, newStart := none }, rfl, ⟨h.1, ht⟩, rfl, rfl, rfl⟩

theorem next_ok {t : Tok} {T : List (List Ch)} (h : Abs t T) :
    ∃ t', t.next = .ok (T.head?, t') ∧ Abs t' T.tail ∧ t'.str = t.str := by
  obtain ⟨n, h1, h2, h3⟩ := abs_start h
  obtain ⟨t', h4, h5, h6, _⟩ := nextAt_ok h2
  rw [h3] at h4 h5
  refine ⟨t', ?_, h5, h6⟩
  unfold Tok.next
  rw [h1]
  exact h4

theorem run_ok (cs : List Call) (t : Tok) (T : List (List Ch)) (h : Abs t T) : run cs t = .ok (cursor cs T) := by
  induction cs generalizing t T with
  | nil => rfl
  | cons c cs ih =>
    cases c with
    | hasNext =>
      obtain ⟨t', h1, h2, _⟩ := hasNext_ok h
      simp only [run, h1, bind, Except.bind, ih t' T h2, pure, Except.pure, cursor]
    | next =>
      obtain ⟨t', h1, h2, _⟩ := next_ok h
      simp only [run, h1, bind, Except.bind, ih t' _ h2, pure, Except.pure]
      cases T <;> rfl

theorem abs_new (s d : List Ch) (ret : Bool) : Abs (Tok.new s d ret) (toks ret (fun c => decide (c ∈ d)) s) :=
  ⟨Nat.zero_le _, by simp [Tok.new, dl]⟩

theorem splitOnP_word (D : Ch → Bool) (l : List Ch) :
    (l.splitOnP D).filter (fun x => !x.isEmpty) = toks false D l := by
  fun_induction toks false D l with
  | case1 => simp
  | case2 => simp_all
  | case3 c l hd _ ih => rw [List.splitOnP_cons_eq_if_modifyHead, if_pos hd, List.filter_cons]; simpa using ih
  | case4 c l hd ih =>
    rw [← ih]
    have hsp : (c :: l) = (c :: l.takeWhile (fun c => !D c)) ++ l.dropWhile (fun c => !D c) := by simp
    have hfree : ∀ x ∈ (c :: l.takeWhile (fun c => !D c)), D x = false := by
      intro x hx
      rcases List.mem_cons.1 hx with rfl | hx
      · simpa using hd
      · have := mem_takeWhile_imp hx; simpa using this
    rw [hsp]
    have hgen : ∀ (w r : List Ch), w ≠ [] → (∀ x ∈ w, D x = false) → (∀ x, r.head? = some x → D x = true) →
        ((w ++ r).splitOnP D).filter (fun x => !x.isEmpty) = w :: (r.splitOnP D).filter (fun x => !x.isEmpty) := by
      intro w r hw hf hr
      cases r with
      | nil => rw [List.append_nil, List.splitOnP_eq_singleton (by simpa using hf)]; simp [hw]
      | cons x r =>
        have hx := hr x rfl
        rw [List.splitOnP_append_cons _ _ hx, List.splitOnP_eq_singleton (by simpa using hf)]
        rw [List.splitOnP_cons_eq_if_modifyHead, if_pos hx]
        simp [hw]
    refine hgen _ _ (by simp) hfree ?_
    intro x hx
    have := List.head?_dropWhile_not (p := fun c => !D c) (l := l)
    rw [hx] at this
    simpa using this

theorem toks_withDelims (d s : List Ch) : WithDelims d s (toks true (fun c => decide (c ∈ d)) s) ∧
    (∀ c l, s = c :: l → ∃ T x, toks true (fun c => decide (c ∈ d)) s = (c :: x) :: T) := by
  generalize hD : (fun c => decide (c ∈ d)) = D
  have hD' : ∀ c, D c = true ↔ c ∈ d := by intro c; rw [← hD]; simp
  induction hn : s.length using Nat.strongRecOn generalizing s with
  | ind n ih =>
    cases s with
    | nil => exact ⟨⟨by simp [toks], by simp [toks], by simp [toks]⟩, by simp⟩
    | cons c l =>
      simp only [List.length_cons] at hn
      by_cases hd : D c = true
      · obtain ⟨⟨i1, i2, i3⟩, _⟩ := ih l.length (by omega) l rfl
        have ht : toks true D (c :: l) = [c] :: toks true D l := by rw [toks, if_pos hd, if_pos rfl]
        refine ⟨⟨?_, ?_, ?_⟩, ?_⟩
        · rw [ht]; simp [i1]
        · intro x hx
          rw [ht] at hx
          rcases List.mem_cons.1 hx with rfl | hx
          · exact .inl ⟨c, (hD' c).1 hd, rfl⟩
          · exact i2 x hx
        · intro i x y hx hy
          rw [ht] at hx hy
          cases i with
          | zero =>
            simp at hx; subst hx
            intro hh; exact hh.1 c (by simp) ((hD' c).1 hd)
          | succ i => exact i3 i x y hx hy
        · intro c' l' he; cases he; exact ⟨_, _, ht⟩
      · have hlen := (List.dropWhile_sublist (l := l) (p := fun c => !D c)).length_le
        obtain ⟨⟨i1, i2, i3⟩, i4⟩ := ih (l.dropWhile (fun c => !D c)).length (by omega) _ rfl
        have ht : toks true D (c :: l) = (c :: l.takeWhile (fun c => !D c)) :: toks true D (l.dropWhile (fun c => !D c)) := by
          rw [toks, if_neg hd]
        have hfree : Free d (c :: l.takeWhile (fun c => !D c)) := by
          intro x hx
          rcases List.mem_cons.1 hx with rfl | hx
          · exact fun h => hd ((hD' _).2 h)
          · have := mem_takeWhile_imp hx
            intro h
            rw [(hD' _).2 h] at this; simp at this
        refine ⟨⟨?_, ?_, ?_⟩, ?_⟩
        · rw [ht, List.flatten_cons, i1]; simp
        · intro x hx
          rw [ht] at hx
          rcases List.mem_cons.1 hx with rfl | hx
          · exact .inr ⟨by simp, hfree⟩
          · exact i2 x hx
        · intro i x y hx hy
          rw [ht] at hx hy
          cases i with
          | zero =>
            intro hh
            simp only [List.getElem?_cons_succ] at hy
            cases hr : l.dropWhile (fun c => !D c) with
            | nil => rw [hr] at hy; simp [toks] at hy
            | cons e r =>
              obtain ⟨T, w, hw⟩ := i4 e r hr
              rw [hw] at hy
              simp at hy
              have := List.head?_dropWhile_not (p := fun c => !D c) (l := l)
              rw [hr] at this
              simp at this
              exact hh.2 e (by rw [← hy]; simp) ((hD' _).1 this)
          | succ i => exact i3 i x y hx hy
        · intro c' l' he; cases he; exact ⟨_, _, ht⟩

theorem splitLoop_ok (fuel : Nat) (t : Tok) (T out : List (List Ch)) (h : Abs t T) (hf : T.length < fuel) :
    splitLoop fuel t out = .ok (out ++ T) := by
  induction fuel generalizing t T out with
  | zero => omega
  | succ fuel ih =>
    obtain ⟨t1, h1, h2, _⟩ := hasNext_ok h
    unfold splitLoop
    simp only [h1, bind, Except.bind]
    cases T with
    | nil => simp [pure, Except.pure]
    | cons x T =>
      obtain ⟨t2, h3, h4, _⟩ := next_ok h2
      simp only [List.isEmpty_cons, Bool.not_false, if_true, h3, List.head?_cons]
      rw [ih t2 T _ h4 (by simp at hf; omega)]
      simp

theorem toks_length (ret : Bool) (D : Ch → Bool) (l : List Ch) : (toks ret D l).length ≤ l.length := by
  fun_induction toks ret D l with
  | case1 => simp
  | case2 => simp; assumption
  | case3 => simp; omega
  | case4 c l hd ih =>
    have := (List.dropWhile_sublist (l := l) (p := fun c => !D c)).length_le
    simp; omega

/-! ### Theorems -/

/-- C14 without delimiters: for every text, delimiter set and sequence of `hasNext` and `next` calls, the
tokenizer behaves as a cursor over the non-empty pieces between delimiters; the exception past the end is
the only one and can be repeated. -/
theorem tokenizer_words (s d : List Ch) (cs : List Call) : run cs (Tok.new s d false) = .ok (cursor cs (words d s)) := by
  rw [words, splitOnP_word]
  exact run_ok cs _ _ (abs_new s d false)

/-- C14 with delimiters: the same over a decomposition of the whole text into single delimiters and maximal
pieces free of them. -/
theorem tokenizer_delims (s d : List Ch) :
    ∃ T, WithDelims d s T ∧ ∀ cs, run cs (Tok.new s d true) = .ok (cursor cs T) :=
  ⟨_, (toks_withDelims d s).1, fun cs => run_ok cs _ _ (abs_new s d true)⟩

/-- `WithDelims` leaves no choice: the decomposition is determined. -/
theorem delims_unique (d s : List Ch) (T T' : List (List Ch)) (h : WithDelims d s T) (h' : WithDelims d s T') : T = T' := by
  induction T generalizing s T' with
  | nil =>
    have hs : s = [] := by rw [← h.concat]; rfl
    cases T' with
    | nil => rfl
    | cons x T' =>
      have := h'.concat
      rw [hs] at this
      simp at this
      rcases h'.each x (by simp) with ⟨c, _, rfl⟩ | ⟨hx, _⟩
      · simp at this
      · exact absurd this.1 hx
  | cons x T ih =>
    cases T' with
    | nil =>
      have hs : s = [] := by rw [← h'.concat]; rfl
      have := h.concat
      rw [hs] at this
      simp at this
      rcases h.each x (by simp) with ⟨c, _, rfl⟩ | ⟨hx, _⟩
      · simp at this
      · exact absurd this.1 hx
    | cons y T' =>
      have hcat : x ++ T.flatten = y ++ T'.flatten := by
        have h1 := h.concat; have h2 := h'.concat
        simp at h1 h2; rw [h1, h2]
      have sub : ∀ {z : List Ch} {Z : List (List Ch)} {w : List Ch}, WithDelims d w (z :: Z) → WithDelims d Z.flatten Z := by
        intro z Z w hw
        exact ⟨rfl, fun q hq => hw.each q (by simp [hq]), fun i a b ha hb => hw.maximal (i + 1) a b (by simpa using ha) (by simpa using hb)⟩
      -- the text after a free piece starts with a delimiter
      have nxt : ∀ {z : List Ch} {Z : List (List Ch)} {w : List Ch}, WithDelims d w (z :: Z) → Free d z →
          ∀ c, Z.flatten.head? = some c → c ∈ d := by
        intro z Z w hw hz c hc
        cases Z with
        | nil => simp at hc
        | cons q Z =>
          rcases hw.each q (by simp) with ⟨e, he, rfl⟩ | ⟨hq, hqf⟩
          · simp at hc; rw [← hc]; exact he
          · exact absurd ⟨hz, hqf⟩ (hw.maximal 0 z q rfl rfl)
      have hxy : x = y := by
        have key : ∀ (x y A B : List Ch), x ++ A = y ++ B → Free d x → Free d y →
            (∀ c, A.head? = some c → c ∈ d) → (∀ c, B.head? = some c → c ∈ d) → x = y := by
          intro x
          induction x with
          | nil =>
            intro y A B he _ hy hA _
            cases y with
            | nil => rfl
            | cons e y =>
              simp at he
              exact absurd (hA e (by rw [he]; simp)) (hy e (by simp))
          | cons a x ihx =>
            intro y A B he hx hy hA hB
            cases y with
            | nil =>
              simp at he
              exact absurd (hB a (by rw [← he]; simp)) (hx a (by simp))
            | cons e y =>
              simp at he
              rw [he.1, ihx y A B he.2 (fun c hc => hx c (by simp [hc])) (fun c hc => hy c (by simp [hc])) hA hB]
        rcases h.each x (by simp) with ⟨c, hc, rfl⟩ | ⟨hx, hxf⟩
        · rcases h'.each y (by simp) with ⟨e, he, rfl⟩ | ⟨hy, hyf⟩
          · simp at hcat; rw [hcat.1]
          · cases y with
            | nil => exact absurd rfl hy
            | cons e y => simp at hcat; exact absurd (hcat.1 ▸ hc) (hyf e (by simp))
        · rcases h'.each y (by simp) with ⟨e, he, rfl⟩ | ⟨hy, hyf⟩
          · cases x with
            | nil => exact absurd rfl hx
            | cons a x => simp at hcat; exact absurd (hcat.1 ▸ he) (hxf a (by simp))
          · exact key x y _ _ hcat hxf hyf (nxt h hxf) (nxt h' hyf)
      subst hxy
      have hf : T.flatten = T'.flatten := by simpa using hcat
      rw [ih T.flatten T' (sub h) (hf ▸ sub h')]

/-- C14 / C52: `split` gives the non-empty pieces between occurrences of the character, and terminates. -/
theorem split_spec (s : List Ch) (c : Ch) : split s c = .ok (words [c] s) := by
  rw [words, splitOnP_word]
  unfold split
  rw [splitLoop_ok _ _ _ [] (abs_new s [c] false) (by have := toks_length false (fun x => decide (x ∈ [c])) s; omega)]
  rfl

example : words [32, 44] [44, 97, 98, 32, 32, 99] = [[97, 98], [99]] := by decide +kernel
example : WithDelims [32] [97, 98, 32, 32, 99] [[97, 98], [32], [32], [99]] := by
  refine ⟨rfl, by simp [Free], ?_⟩
  intro i x y hx hy
  match i with
  | 0 => simp at hx hy; subst hx hy; simp [Free]
  | 1 => simp at hx hy; subst hx hy; simp [Free]
  | 2 => simp at hx hy; subst hx hy; simp [Free]
  | n + 3 => simp at hy
example : run [.hasNext, .hasNext, .next, .next, .hasNext, .next] (Tok.new [97, 32, 98] [32] false) =
    .ok [.has true, .has true, .token [97], .token [98], .has false, .noSuchElement] := by decide +kernel

end Verif.Lists.TokenizerProps
