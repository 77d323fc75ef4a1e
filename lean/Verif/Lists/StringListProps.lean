import Verif.Lists.StringList
import Verif.Lists.TokenizerProps
import Verif.Sort.Props
import Verif.Str.CmpProps
/-
C52: StringList is a list; join and split agree.  C15 for StringList.
-/
namespace Verif.Lists.StringListProps
open Verif Verif.Str Verif.Str.CmpProps Verif.Lists Verif.Lists.TokenizerProps

/-! ### Specification -/

/-- The calls a user can make, with arguments that are not references into the list. -/
inductive Op where
  | append (s : List Ch)
  | remove (s : List Ch)
  | reserve (n : Int)
  | set (i : Int) (s : List Ch)
  | get (i : Int)
  | contains (s : List Ch)
  | size
  | clear
  | sort
  | join (c : Ch)
  | copyAssign

inductive Out where
  | unit
  | text (s : List Ch)
  | bool (b : Bool)
  | int (n : Int)
  | exception
deriving DecidableEq

/-- What the call does to a list of strings and what it reports.  Sorting is only described: `sorted`. -/
inductive Does : Op → List (List Ch) → List (List Ch) → Out → Prop
  | append s l : Does (.append s) l (l ++ [s]) .unit
  | remove s l : Does (.remove s) l (l.filter (fun x => x ≠ s)) .unit
  | reserve n l : Does (.reserve n) l l .unit
  | set (i : Nat) s l : i < l.length → Does (.set i s) l (l.set i s) .unit
  | setOut (i : Int) s l : (i < 0 ∨ (l.length : Int) ≤ i) → Does (.set i s) l l .exception
  | get (i : Nat) (l : List (List Ch)) (h : i < l.length) : Does (.get i) l l (.text l[i])
  | getOut (i : Int) l : (i < 0 ∨ (l.length : Int) ≤ i) → Does (.get i) l l .exception
  | contains s l : Does (.contains s) l l (.bool (decide (s ∈ l)))
  | size l : Does .size l l (.int l.length)
  | clear l : Does .clear l [] .unit
  | sort (l l' : List (List Ch)) : l'.Perm l → l'.Pairwise (fun a b => a = b ∨ LexLt a b) → Does .sort l l' .unit
  | join c l : Does (.join c) l l (.text ([c].intercalate l))
  | copyAssign l : Does .copyAssign l l .unit

/-- A history of calls on a list, with the reports. -/
inductive History : List (List Ch) → List (Op × Out) → List (List Ch) → Prop
  | nil l : History l [] l
  | cons o r l l' l'' h : Does o l l' r → History l' h l'' → History l ((o, r) :: h) l''

/-- One call on the modelled object; an exception leaves it as it was. -/
def step (l : SList) : Op → Res (SList × Out)
  | .append s => do let r ← l.append (.ext s); return (r, .unit)
  | .remove s => do let r ← l.remove (.ext s); return (r, .unit)
  | .reserve n => do let r ← l.reserve n; return (r, .unit)
  | .set i s => match l.set i (.ext s) with
    | .ok r => .ok (r, .unit)
    | .error .thrown => .ok (l, .exception)
    | .error .ub => .error .ub
  | .get i => match l.get i with
    | .ok r => .ok (l, .text r)
    | .error .thrown => .ok (l, .exception)
    | .error .ub => .error .ub
  | .contains s => do let b ← l.contains s; return (l, .bool b)
  | .size => .ok (l, .int l.size)
  | .clear => .ok (l.clear, .unit)
  | .sort => do let r ← l.sort; return (r, .unit)
  | .join c => do let r ← l.join c; return (l, .text r)
  | .copyAssign => do let r ← l.copy; return (r, .unit)

def run : List Op → SList → Res (SList × List Out)
  | [], l => .ok (l, [])
  | o :: os, l => do
    let r ← step l o
    let q ← run os r.1
    return (q.1, r.2 :: q.2)

/-- The elements a user can see. -/
def elems (l : SList) : List (List Ch) := l.data.take l.size

/-! ### Proof -/

def WF (l : SList) : Prop := l.size ≤ l.data.length

theorem growLen_ge (len need : Nat) : need ≤ growLen len need ∧ len ≤ growLen len need := by
  fun_induction growLen len need with
  | case1 len h ih => omega
  | case2 len h => omega

theorem copyFrom_ok (src : List (List Ch)) (n i : Nat) (dst : List (List Ch)) (hn : n ≤ src.length) (hd : n ≤ dst.length) (hi : i ≤ n)
    (hp : dst.take i = src.take i) :
    ∃ d, copyFrom src n i dst = .ok d ∧ d.length = dst.length ∧ d.take n = src.take n := by
  fun_induction copyFrom src n i dst with
  | case1 i dst h ih =>
    rw [rd_ok (by omega)]
    simp only [bind, Except.bind]
    rw [wr_ok (by omega)]
    simp only
    obtain ⟨d, h1, h2, h3⟩ := ih (dst.set i src[i]) (by simp; omega) (by omega) (by
      rw [List.take_add_one, List.take_add_one, List.take_set_of_le (by omega), hp]
      simp [show i < dst.length by omega, show i < src.length by omega])
    exact ⟨d, by simpa using h1, by simpa using h2, h3⟩
  | case2 i dst h =>
    have : i = n := by omega
    subst this
    exact ⟨dst, rfl, rfl, hp⟩

theorem checkSize_ok (l : SList) (n : Int) (h : WF l) :
    ∃ b l', l.checkSize n = .ok (b, l') ∧ WF l' ∧ elems l' = elems l ∧ l'.size = l.size ∧ (l.size : Int) + n ≤ l'.data.length ∧
      (b = false → l' = l) ∧ (b = true ↔ (l.data.length : Int) ≤ l.size + n) := by
  unfold SList.checkSize
  by_cases hc : (l.size : Int) + n < l.data.length
  · rw [if_pos hc]
    exact ⟨false, l, rfl, h, rfl, rfl, by omega, fun _ => rfl, by simp; omega⟩
  · rw [if_neg hc]
    have hg := growLen_ge l.data.length ((l.size : Int) + n).toNat
    have h' : l.size ≤ l.data.length := h
    obtain ⟨d, h1, h2, h3⟩ := copyFrom_ok l.data l.size 0 (List.replicate (growLen l.data.length ((l.size : Int) + n).toNat) []) h
      (by simp; omega) (by omega) (by simp)
    rw [h1]
    refine ⟨true, ⟨d, l.size⟩, rfl, ?_, h3, rfl, ?_, by simp, by simp; omega⟩
    · simp [WF, h2]; omega
    · simp [h2]; omega

theorem elems_length {l : SList} (h : WF l) : (elems l).length = l.size := by
  have : l.size ≤ l.data.length := h
  simp [elems]; omega

theorem append_eq (l : SList) (a : SArg) (s : List Ch) (h : WF l) (b : Bool) (l1 : SList) (hc : l.checkSize 1 = .ok (b, l1))
    (hs : l1.derefAfter b a = .ok s) : ∃ l', l.append a = .ok l' ∧ WF l' ∧ elems l' = elems l ++ [s] := by
  obtain ⟨b', l1', h1, h2, h3, h4, h5, _⟩ := checkSize_ok l 1 h
  rw [hc] at h1; cases h1
  refine ⟨⟨l1.data.set l1.size s, l1.size + 1⟩, ?_, ?_, ?_⟩
  · unfold SList.append
    simp only [hc, bind, Except.bind, hs, wr_ok (show l1.size < l1.data.length by omega), pure, Except.pure]
  · simp [WF]; omega
  · rw [← h3]
    simp only [elems]
    rw [List.take_add_one, List.take_set_of_le (by omega)]
    simp [show l1.size < l1.data.length by omega]

theorem shiftDown_get (size i : Nat) (d : List (List Ch)) (hi : 1 ≤ i) (hs : size ≤ d.length) (his : i ≤ size) :
    ∃ d', shiftDown size i d = .ok d' ∧ d'.length = d.length ∧
      ∀ j, d'[j]? = if i ≤ j + 1 ∧ j + 1 < size then d[j + 1]? else d[j]? := by
  fun_induction shiftDown size i d with
  | case1 i d h ih =>
    rw [rd_ok (by omega)]
    simp only [bind, Except.bind]
    rw [wr_ok (by omega)]
    simp only
    obtain ⟨d', h1, h2, h3⟩ := ih (d.set (i - 1) d[i]) (by omega) (by simp; omega) (by omega)
    refine ⟨d', h1, by simpa using h2, ?_⟩
    intro j
    rw [h3 j]
    by_cases hj : i = j + 1
    · subst hj
      rw [if_neg (by omega), if_pos (by omega)]
      simp [show j < d.length by omega]
    · by_cases hj2 : i + 1 ≤ j + 1 ∧ j + 1 < size
      · rw [if_pos hj2, if_pos (by omega), List.getElem?_set_ne (by omega)]
      · rw [if_neg hj2, if_neg (by omega), List.getElem?_set_ne (by omega)]
  | case2 i d h =>
    exact ⟨d, rfl, rfl, fun j => by rw [if_neg (by omega)]⟩

theorem shiftDown_ok (size i : Nat) (d : List (List Ch)) (hi : 1 ≤ i) (hs : size ≤ d.length) (his : i ≤ size) :
    ∃ d', shiftDown size i d = .ok d' ∧ d'.length = d.length ∧
      d'.take (size - 1) = (d.take size).take (i - 1) ++ (d.take size).drop i := by
  obtain ⟨d', h1, h2, h3⟩ := shiftDown_get size i d hi hs his
  refine ⟨d', h1, h2, ?_⟩
  apply List.ext_getElem?
  intro j
  rw [List.getElem?_append]
  simp only [List.getElem?_take, List.length_take, List.getElem?_drop, h3 j]
  by_cases h : j < size - 1
  · rw [if_pos h]
    by_cases h' : i ≤ j + 1
    · rw [if_pos (by omega), if_neg (by omega), if_pos (by omega)]
      congr 1; omega
    · rw [if_neg (by omega), if_pos (by omega), if_pos (by omega), if_pos (by omega)]
  · rw [if_neg h]
    by_cases h' : j < min (i - 1) (min size d.length)
    · omega
    · rw [if_neg h', if_neg (by omega)]

theorem removeLoop_ext (l : SList) (s : List Ch) (i : Nat) (h : WF l) (hi : i ≤ l.size) :
    ∃ l', l.removeLoop (.ext s) i = .ok l' ∧ WF l' ∧
      elems l' = (elems l).take i ++ ((elems l).drop i).filter (fun x => x ≠ s) := by
  generalize ha : SArg.ext s = a
  fun_induction SList.removeLoop l a i with
  | case1 l i hlt ih1 ih2 =>
    subst ha
    have hlen : l.size ≤ l.data.length := h
    rw [rd_ok (by omega)]
    simp only [bind, Except.bind, SList.deref]
    have hd : (elems l).drop i = l.data[i] :: (elems l).drop (i + 1) := by
      rw [List.drop_eq_getElem_cons (by simp [elems]; omega)]
      simp [elems]
    by_cases hx : l.data[i] = s
    · rw [if_pos hx]
      obtain ⟨d', e1, e2, e3⟩ := shiftDown_ok l.size (i + 1) l.data (by omega) hlen (by omega)
      rw [e1]
      simp only
      have hel : elems ⟨d', l.size - 1⟩ = (elems l).take i ++ (elems l).drop (i + 1) := by
        simpa [elems] using e3
      obtain ⟨l', h1, h2, h3⟩ := ih1 d' (by simp [WF]; omega) (by simp; omega)
      refine ⟨l', h1, h2, ?_⟩
      rw [h3, hel, hd, List.filter_cons_of_neg (by simpa using hx)]
      have hl : ((elems l).take i).length = i := by simp [elems]; omega
      rw [List.take_append_of_le_length (by omega), List.drop_append_of_le_length (by omega)]
      rw [List.take_of_length_le (by omega), List.drop_eq_nil_of_le (by omega)]
      simp
    · rw [if_neg hx]
      obtain ⟨l', h1, h2, h3⟩ := ih2 h (by omega)
      refine ⟨l', h1, h2, ?_⟩
      rw [h3, hd, List.filter_cons_of_pos (by simpa using hx)]
      rw [List.take_add_one]
      simp [elems, hlt, show i < l.data.length by omega]
  | case2 l i hlt =>
    have : i = l.size := by omega
    subst this
    refine ⟨l, rfl, h, ?_⟩
    have := elems_length h
    rw [List.drop_eq_nil_of_le (by omega), List.take_of_length_le (by omega)]
    simp

theorem containsFrom_ok (l : SList) (s : List Ch) (i : Nat) (h : WF l) :
    l.containsFrom s i = .ok (decide (s ∈ (elems l).drop i)) := by
  fun_induction SList.containsFrom l s i with
  | case1 i hi ih =>
    have hlen : l.size ≤ l.data.length := h
    rw [rd_ok (by omega)]
    simp only [bind, Except.bind]
    rw [List.drop_eq_getElem_cons (by simp [elems]; omega)]
    simp only [List.mem_cons]
    have he : (elems l)[i]'(by simp [elems]; omega) = l.data[i] := by simp [elems]
    rw [he]
    by_cases hx : l.data[i] = s
    · simp [hx, pure, Except.pure]
    · rw [if_neg hx, ih]
      simp [show ¬ s = l.data[i] from fun e => hx e.symm]
  | case2 i hi =>
    have := elems_length h
    rw [List.drop_eq_nil_of_le (by omega)]
    simp

theorem joinLoop_ok (l : SList) (c : Ch) (i : Nat) (r : List Ch) (h : WF l) (hi : i ≤ l.size) :
    l.joinLoop c i r = .ok (if i = 0 then r ++ [c].intercalate (elems l) else
      r ++ (((elems l).drop i).map (fun x => c :: x)).flatten) := by
  have inter : ∀ (x : List Ch) (L : List (List Ch)), [c].intercalate (x :: L) = x ++ (L.map (fun y => c :: y)).flatten := by
    intro x L
    induction L generalizing x with
    | nil => simp
    | cons y L ih => rw [List.intercalate_cons_cons, ih]; simp
  fun_induction SList.joinLoop l c i r with
  | case1 i r hlt ih =>
    have hlen : l.size ≤ l.data.length := h
    rw [rd_ok (by omega)]
    simp only [bind, Except.bind]
    rw [ih _ (by omega), if_neg (by omega)]
    simp only [joinStep]
    have he : (elems l)[i]'(by simp [elems]; omega) = l.data[i] := by simp [elems]
    by_cases h0 : i = 0
    · subst h0
      have hd : elems l = l.data[0] :: (elems l).drop 1 := by
        conv => lhs; rw [← List.drop_zero (l := elems l)]
        rw [List.drop_eq_getElem_cons (by simp [elems]; omega), he]
      rw [if_pos rfl, if_neg (by omega)]
      conv => rhs; rw [hd, inter]
      simp
    · rw [if_neg h0, if_pos (by omega)]
      conv => rhs; rw [List.drop_eq_getElem_cons (show i < (elems l).length by simp [elems]; omega), he]
      simp
  | case2 i r hlt =>
    have := elems_length h
    split
    · have : elems l = [] := List.eq_nil_of_length_eq_zero (by omega)
      rw [this]; simp
    · rw [List.drop_eq_nil_of_le (by omega)]; simp

theorem chCmp_spec (l m : List Ch) :
    (chCmp l m = -1 ∧ LexLt l m) ∨ (chCmp l m = 0 ∧ l = m) ∨ (chCmp l m = 1 ∧ LexLt m l) := by
  induction l generalizing m with
  | nil => cases m with
    | nil => exact .inr (.inl ⟨rfl, rfl⟩)
    | cons b m => exact .inl ⟨rfl, .nil⟩
  | cons a l ih => cases m with
    | nil => exact .inr (.inr ⟨rfl, .nil⟩)
    | cons b m =>
      unfold chCmp
      by_cases h1 : a.toNat < b.toNat
      · exact .inl ⟨if_pos h1, .rel h1⟩
      · by_cases h2 : b.toNat < a.toNat
        · exact .inr (.inr ⟨by rw [if_neg h1, if_pos h2], .rel h2⟩)
        · have : a = b := BitVec.eq_of_toNat_eq (by omega)
          subst this
          rw [if_neg h1, if_neg h1]
          rcases ih m with ⟨h, x⟩ | ⟨h, x⟩ | ⟨h, x⟩
          · exact .inl ⟨h, .cons x⟩
          · exact .inr (.inl ⟨h, by rw [x]⟩)
          · exact .inr (.inr ⟨h, .cons x⟩)

/-- the comparison used here is the one modelled and verified for String::compareTo -/
theorem chCmp_is_compareTo {s t : Str} (hs : Str.WF s) (ht : Str.WF t) : compareTo s t = .ok (chCmp (chars s) (chars t)) := by
  obtain ⟨r, h1, h2, h3, h4, h5⟩ := CmpProps.compareTo_spec hs ht
  rw [h1]
  rcases chCmp_spec (chars s) (chars t) with ⟨h, x⟩ | ⟨h, x⟩ | ⟨h, x⟩
  · rw [h, h3.2 x]
  · rw [h, h4.2 x]
  · rw [h, h5.2 x]

theorem chCmp_preorder : Sort.Props.Preorder (fun a b : List Ch => decide (chCmp a b > 0)) where
  total a b := by
    rcases chCmp_spec a b with ⟨e, x⟩ | ⟨e, x⟩ | ⟨e, x⟩
    · left; rw [e]; rfl
    · left; rw [e]; rfl
    · right
      rcases chCmp_spec b a with ⟨e', x'⟩ | ⟨e', x'⟩ | ⟨e', x'⟩
      · rw [e']; rfl
      · rw [e']; rfl
      · exact absurd x' (fun y => lex_asymm x y)
  trans a b c := by
    have key : ∀ a b : List Ch, decide (chCmp a b > 0) = false ↔ (LexLt a b ∨ a = b) := by
      intro a b
      rcases chCmp_spec a b with ⟨e, x⟩ | ⟨e, x⟩ | ⟨e, x⟩
      · rw [e]; exact ⟨fun _ => .inl x, fun _ => rfl⟩
      · rw [e]; exact ⟨fun _ => .inr x, fun _ => rfl⟩
      · rw [e]
        constructor
        · intro h; exact absurd h (by decide)
        · rintro (h | h)
          · exact absurd x (fun y => lex_asymm h y)
          · subst h; exact absurd x (lex_irrefl _)
    show decide _ = false → decide _ = false → decide _ = false
    rw [key, key, key]
    rintro (h1 | rfl) (h2 | rfl)
    · exact .inl (lex_trans h1 h2)
    · exact .inl h1
    · exact .inl h2
    · exact .inr rfl

theorem sort_ok (l : SList) (h : WF l) :
    ∃ l', l.sort = .ok l' ∧ WF l' ∧ (elems l').Perm (elems l) ∧ (elems l').Pairwise (fun a b => a = b ∨ LexLt a b) := by
  obtain ⟨w, h1, h2, h3, h4⟩ := Sort.Props.sort_sorts _ chCmp_preorder l.size l.data h
  have hlen := h2.length_eq
  have h' : l.size ≤ l.data.length := h
  refine ⟨⟨w, l.size⟩, ?_, ?_, h2, ?_⟩
  · unfold SList.sort; rw [h1]; rfl
  · simp at hlen; simp [WF]; omega
  · refine h3.imp ?_
    intro a b hab
    rcases chCmp_spec a b with ⟨e, x⟩ | ⟨e, x⟩ | ⟨e, x⟩
    · exact .inr x
    · exact .inl x
    · simp [e] at hab

theorem step_ok (l : SList) (o : Op) (h : WF l) : ∃ l' r, step l o = .ok (l', r) ∧ WF l' ∧ Does o (elems l) (elems l') r := by
  have hlen : l.size ≤ l.data.length := h
  have hel := elems_length h
  cases o with
  | append s =>
    obtain ⟨b, l1, h1, _⟩ := checkSize_ok l 1 h
    obtain ⟨l', h2, h3, h4⟩ := append_eq l (.ext s) s h b l1 h1 rfl
    refine ⟨l', .unit, by simp only [step, h2, bind, Except.bind, pure, Except.pure], h3, ?_⟩
    rw [h4]; exact .append s _
  | remove s =>
    obtain ⟨l', h1, h2, h3⟩ := removeLoop_ext l s 0 h (by omega)
    refine ⟨l', .unit, by simp only [step, SList.remove, h1, bind, Except.bind, pure, Except.pure], h2, ?_⟩
    rw [h3]; simpa using Does.remove s (elems l)
  | reserve n =>
    obtain ⟨b, l1, h1, h2, h3, _⟩ := checkSize_ok l n h
    refine ⟨l1, .unit, by simp only [step, SList.reserve, h1, bind, Except.bind, pure, Except.pure], h2, ?_⟩
    rw [h3]; exact .reserve n _
  | set i s =>
    by_cases hi : i < 0 ∨ i ≥ l.size
    · refine ⟨l, .exception, by simp [step, SList.set, if_pos hi], h, .setOut i s _ (by omega)⟩
    · obtain ⟨k, rfl⟩ : ∃ k : Nat, i = k := ⟨i.toNat, by omega⟩
      refine ⟨⟨l.data.set k s, l.size⟩, .unit, ?_, by simpa [WF] using h, ?_⟩
      · have : wr l.data k s = .ok (l.data.set k s) := wr_ok (by omega)
        simp only [step, SList.set, if_neg hi, SList.deref, bind, Except.bind, Int.toNat_natCast, this, pure, Except.pure]
      · have : elems ⟨l.data.set k s, l.size⟩ = (elems l).set k s := by simp [elems, List.take_set]
        rw [this]
        exact .set k s _ (by omega)
  | get i =>
    by_cases hi : i < 0 ∨ i ≥ l.size
    · refine ⟨l, .exception, by simp [step, SList.get, if_pos hi], h, .getOut i _ (by omega)⟩
    · obtain ⟨k, rfl⟩ : ∃ k : Nat, i = k := ⟨i.toNat, by omega⟩
      have hk : k < (elems l).length := by omega
      refine ⟨l, .text (elems l)[k], ?_, h, .get k _ hk⟩
      have : rd l.data k = .ok l.data[k] := rd_ok (by omega)
      simp only [step, SList.get, if_neg hi, Int.toNat_natCast, this]
      simp [elems]
  | contains s =>
    refine ⟨l, .bool (decide (s ∈ elems l)), ?_, h, .contains s _⟩
    have := containsFrom_ok l s 0 h
    simp only [step, SList.contains, this, bind, Except.bind, pure, Except.pure, List.drop_zero]
  | size =>
    refine ⟨l, .int l.size, rfl, h, ?_⟩
    rw [← hel]; exact .size _
  | clear => exact ⟨l.clear, .unit, rfl, Nat.zero_le _, by simpa [elems, SList.clear] using Does.clear (elems l)⟩
  | sort =>
    obtain ⟨l', h1, h2, h3, h4⟩ := sort_ok l h
    exact ⟨l', .unit, by simp only [step, h1, bind, Except.bind, pure, Except.pure], h2, .sort _ _ h3 h4⟩
  | join c =>
    refine ⟨l, .text ([c].intercalate (elems l)), ?_, h, .join c _⟩
    have := joinLoop_ok l c 0 [] h (by omega)
    simp only [step, SList.join, this, bind, Except.bind, pure, Except.pure, if_true, List.nil_append]
  | copyAssign =>
    obtain ⟨d, h1, h2, h3⟩ := copyFrom_ok l.data l.size 0 (List.replicate l.data.length []) h (by simpa using hlen) (by omega) (by simp)
    refine ⟨⟨d, l.size⟩, .unit, by simp only [step, SList.copy, h1, bind, Except.bind, pure, Except.pure], ?_, ?_⟩
    · simp [WF, h2, hlen]
    · have : elems ⟨d, l.size⟩ = elems l := h3
      rw [this]; exact .copyAssign _

theorem run_ok (os : List Op) (l : SList) (h : WF l) :
    ∃ l' outs, run os l = .ok (l', outs) ∧ WF l' ∧ outs.length = os.length ∧ History (elems l) (os.zip outs) (elems l') := by
  induction os generalizing l with
  | nil => exact ⟨l, [], rfl, h, rfl, .nil _⟩
  | cons o os ih =>
    obtain ⟨l1, r, h1, h2, h3⟩ := step_ok l o h
    obtain ⟨l2, outs, h4, h5, h6, h7⟩ := ih l1 h2
    exact ⟨l2, r :: outs, by simp only [run, h1, h4, bind, Except.bind, pure, Except.pure], h5, by simp [h6], .cons _ _ _ _ _ _ h3 h7⟩

/-! ### Theorems -/

/-- C52 (and C15 for StringList): every history of calls on a new list (or one of a given size) whose
arguments are not references into the list acts and reports as on a list of strings; nothing is read or
written outside the block. -/
theorem list_history_partial (os : List Op) :
    ∃ l' outs, run os SList.new = .ok (l', outs) ∧ outs.length = os.length ∧ History [] (os.zip outs) (elems l') := by
  obtain ⟨l', outs, h1, _, h3, h4⟩ := run_ok os SList.new (by simp [WF, SList.new])
  exact ⟨l', outs, h1, h3, by simpa [elems, SList.new] using h4⟩

theorem list_history_sized_partial (n : Nat) (os : List Op) :
    ∃ l' outs, run os (SList.ofSize n) = .ok (l', outs) ∧ outs.length = os.length ∧
      History (List.replicate n []) (os.zip outs) (elems l') := by
  obtain ⟨l', outs, h1, _, h3, h4⟩ := run_ok os (SList.ofSize n) (by simp [WF, SList.ofSize])
  exact ⟨l', outs, h1, h3, by simpa [elems, SList.ofSize] using h4⟩

/-- Lists a user can hold. -/
def Reachable (l : SList) : Prop := ∃ os outs, run os SList.new = .ok (l, outs)

theorem reachable_wf {l : SList} (h : Reachable l) : WF l := by
  obtain ⟨os, outs, h⟩ := h
  obtain ⟨l', outs', h1, h2, _⟩ := run_ok os SList.new (by simp [WF, SList.new])
  rw [h] at h1; cases h1; exact h2

/-- `list.append(list[i])` works while the block has two free slots and reads freed memory otherwise. -/
theorem append_own_element (l : SList) (h : Reachable l) (i : Nat) (hi : i < l.size) :
    (l.size + 1 < l.data.length → ∃ l', l.append (.own i) = .ok l' ∧ ∃ x, (elems l)[i]? = some x ∧ elems l' = elems l ++ [x]) ∧
    (l.data.length ≤ l.size + 1 → l.append (.own i) = .error .ub) := by
  have hw := reachable_wf h
  have hlen : l.size ≤ l.data.length := hw
  obtain ⟨b, l1, h1, h2, h3, h4, h5, h6, h7⟩ := checkSize_ok l 1 hw
  constructor
  · intro hf
    have hb : b = false := by
      cases b
      · rfl
      · have := h7.1 rfl; omega
    subst hb
    have := h6 rfl; subst this
    obtain ⟨l', e1, e2, e3⟩ := append_eq l1 (.own i) l1.data[i] hw _ _ h1 (by simp [SList.derefAfter, rd_ok (show i < l1.data.length by omega)])
    exact ⟨l', e1, _, by simp [elems, hi, show i < l1.data.length by omega], e3⟩
  · intro hf
    have hb : b = true := h7.2 (by omega)
    subst hb
    simp [SList.append, h1, bind, Except.bind, SList.derefAfter]

/-- A list of seven strings is enough. -/
theorem append_own_reads_freed : ∃ l, Reachable l ∧ elems l = List.replicate 7 [97] ∧ l.append (.own 0) = .error .ub := by
  refine ⟨⟨List.replicate 7 [97] ++ [[]], 7⟩, ⟨List.replicate 7 (.append [97]), List.replicate 7 .unit, by decide +kernel⟩, by decide +kernel, by decide +kernel⟩

/-- `list.remove(list[0])` removes every element, not only those equal to the first. -/
theorem remove_own_first (l : SList) (h : Reachable l) : ∃ l', l.remove (.own 0) = .ok l' ∧ elems l' = [] := by
  have hw := reachable_wf h
  clear h
  unfold SList.remove
  induction hn : l.size generalizing l with
  | zero => exact ⟨l, by rw [SList.removeLoop, dif_neg (by omega)], by simp [elems, hn]⟩
  | succ n ih =>
    have hlen : l.size ≤ l.data.length := hw
    rw [SList.removeLoop, dif_pos (by omega)]
    simp only [SList.deref, rd_ok (show 0 < l.data.length by omega), bind, Except.bind, if_true]
    obtain ⟨d', e1, e2, e3⟩ := shiftDown_ok l.size 1 l.data (by omega) hlen (by omega)
    rw [e1]
    simp only
    exact ih ⟨d', l.size - 1⟩ (by simp [WF]; omega) (by simp; omega)

/-- C52: joining parts free of the separator and splitting the result gives back the non-empty parts. -/
theorem split_join (l : SList) (h : Reachable l) (c : Ch) (hc : ∀ x ∈ elems l, c ∉ x) :
    ∃ s, l.join c = .ok s ∧ split s c = .ok ((elems l).filter (fun x => !x.isEmpty)) := by
  have hw := reachable_wf h
  refine ⟨[c].intercalate (elems l), ?_, ?_⟩
  · have := joinLoop_ok l c 0 [] hw (by omega)
    simpa [SList.join] using this
  · rw [split_spec]
    congr 1
    unfold words
    generalize elems l = L at *
    induction L with
    | nil => simp
    | cons x L ih =>
      have hx : ∀ y ∈ x, (fun y => decide (y ∈ [c])) y = false := by
        intro y hy; simp; intro e; subst e; exact hc x (by simp) hy
      have ih := ih (fun y hy => hc y (by simp [hy]))
      cases L with
      | nil =>
        rw [List.intercalate_singleton, List.splitOnP_eq_singleton hx]
      | cons y L =>
        rw [List.intercalate_cons_cons, List.append_assoc, List.singleton_append]
        rw [List.splitOnP_append_cons _ _ (by simp), List.splitOnP_eq_singleton hx]
        rw [List.singleton_append, List.filter_cons, ih]
        conv => rhs; rw [List.filter_cons]

/-- … and splitting a text and joining the parts gives the text without repeated, leading and trailing
separators: the parts are the same. -/
theorem split_parts_free (s : List Ch) (c : Ch) (L : List (List Ch)) (h : split s c = .ok L) : ∀ x ∈ L, x ≠ [] ∧ c ∉ x := by
  rw [split_spec] at h
  cases h
  rw [words, splitOnP_word]
  generalize hD : (fun y => decide (y ∈ [c])) = D
  have hD' : ∀ y, D y = true ↔ y = c := by intro y; rw [← hD]; simp
  fun_induction toks false D s with
  | case1 => simp
  | case2 => simp_all
  | case3 a l hd _ ih => exact ih
  | case4 a l hd ih =>
    intro x hx
    rcases List.mem_cons.1 hx with rfl | hx
    · refine ⟨by simp, ?_⟩
      intro hm
      rcases List.mem_cons.1 hm with h | h
      · exact hd ((hD' _).2 h.symm)
      · have := mem_takeWhile_imp h
        simp [(hD' c).2 rfl] at this
    · exact ih x hx

example : run [.append [98], .append [97], .append [98], .sort, .remove [98], .size, .get 3, .join 44] SList.new =
    .ok (⟨[[97], [98], [98], [], [], [], [], []], 1⟩, [.unit, .unit, .unit, .unit, .unit, .int 1, .exception, .text [97]]) := by
  decide +kernel

end Verif.Lists.StringListProps
