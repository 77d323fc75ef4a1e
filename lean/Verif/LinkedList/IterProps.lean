import Verif.LinkedList.IterStep
import Verif.LinkedList.Props
/-
C129: iterating over a list while it changes.
-/
namespace Verif.LinkedList.Iter
open Verif Verif.Undo Verif.LinkedList
open Verif.LinkedList.Spec (Op Out)

/-- the list and the iterators of the code are those of the specification -/
def Rel (um : Bool) (x : X) (st : St) : Prop :=
  ∃ ns, SInv x.s ns ∧ ns.map Prod.snd = st.xs ∧ x.s.um = um ∧ CurOk ns st.cur x.s.cur ∧ ∀ i, PosOk x.s ns (st.its i) (x.its i)

theorem rel_new (um : Bool) : Rel um (X.new um) St.new := ⟨[], sinv_new um, rfl, rfl, rfl, fun _ => rfl⟩

theorem seg_at {m : Mem Nat} {ns : List (Nat × Nat)} {p k a d : Nat} (h : Seg m p ns 0) (e : ns[k]? = some (a, d)) :
    m (a + 1) = headA (ns.drop (k + 1)) 0 ∧ m (a + 2) = d := by
  obtain ⟨hlt, e⟩ := List.getElem?_eq_some_iff.1 e
  have hd : ns = ns.take k ++ (a, d) :: ns.drop (k + 1) := by
    have h1 := List.take_append_drop k ns
    rw [List.drop_eq_getElem_cons hlt, e] at h1
    exact h1.symm
  rw [hd] at h
  have := (seg_append _ _ _ _ _).1 h
  exact ⟨this.2.2.1, this.2.2.2.1⟩

theorem curOk_norm (ns : List (Nat × Nat)) (k : Nat) : CurOk ns (norm ns.length k) (headA (ns.drop k) 0) := by
  unfold norm
  split
  · rename_i h
    refine ⟨ns[k].2, ?_⟩
    rw [List.drop_eq_getElem_cons h, List.getElem?_eq_getElem h]
    rfl
  · rw [List.drop_eq_nil_of_le (by omega)]; rfl

theorem posOk_posAt (s : S) (ns : List (Nat × Nat)) (k : Nat) : PosOk s ns (posAt ns.length k) (headA (ns.drop k) 0) := by
  have := curOk_norm ns k
  unfold norm at this
  unfold posAt
  split <;> rename_i h
  · rw [if_pos h] at this; exact this
  · rw [if_neg h] at this; exact this

theorem setIt_ok {s : S} {ns : List (Nat × Nat)} {its : Nat → Pos} {as : Nat → Nat} (h : ∀ i, PosOk s ns (its i) (as i)) (i : Nat) {p : Pos} {a : Nat}
    (hp : PosOk s ns p a) : ∀ j, PosOk s ns (setIt its i p j) (setA as i a j) := by
  intro j
  unfold setIt setA
  split
  · exact hp
  · exact h j

/-- reading at an iterator -/
theorem look_ok {s : S} {ns : List (Nat × Nat)} (i : SInv s ns) {p : Pos} {a : Nat} (h : PosOk s ns p a) :
    match look s.um (ns.map Prod.snd) p with
    | .ok d => LinkedList.itSeek s a = .ok d ∧ ∃ a', LinkedList.itNext s a = .ok (d, a') ∧ PosOk s ns (advance ns.length p) a'
    | .error e => LinkedList.itSeek s a = .error e ∧ LinkedList.itNext s a = .error e := by
  cases p with
  | fin =>
    have h0 : a = 0 := h
    subst h0
    exact ⟨rfl, 0, rfl, rfl⟩
  | before k =>
    obtain ⟨d, e⟩ := h
    have hal : Alive s a := i.alive (x := (a, d)) (List.mem_of_getElem? e)
    obtain ⟨h1, h2⟩ := seg_at i.rep.seg e
    have hd : (ns.map Prod.snd).getD k 0 = d := by rw [List.getD_eq_getElem?_getD, List.getElem?_map, e]; rfl
    simp only [look, hd]
    refine ⟨?_, headA (ns.drop (k + 1)) 0, ?_, posOk_posAt s ns (k + 1)⟩
    · unfold LinkedList.itSeek
      rw [if_pos hal.1, ldE_ok s a 2 hal, h2]
    · unfold LinkedList.itNext
      rw [if_neg hal.1, ldE_ok s a 2 hal, ldE_ok s a 1 hal, h1, h2]
      rfl
  | gone d =>
    obtain ⟨h8, h3, hb, hn, hm⟩ := h
    cases hu : s.um with
    | true =>
      obtain ⟨m1, m2⟩ := hm hu
      have hal : Alive s a := ⟨by omega, by omega, i.deadUm hu a⟩
      refine ⟨?_, 0, ?_, rfl⟩
      · unfold LinkedList.itSeek
        rw [if_pos hal.1, ldE_ok s a 2 hal, m2]
      · unfold LinkedList.itNext
        rw [if_neg hal.1, ldE_ok s a 2 hal, ldE_ok s a 1 hal, m1, m2]
        rfl
    | false =>
      have hdead : ¬ Alive s a := fun q => hn ((i.deadNo hu a h8 h3 (by omega)).1 q.2.2)
      have hld : ∀ f, ldE s a f = .error .ub := by
        intro f
        unfold ldE chk
        rw [if_neg (show ¬ (a ≠ 0 ∧ a < s.brk ∧ s.dead a = false) from hdead)]
        rfl
      refine ⟨?_, ?_⟩
      · unfold LinkedList.itSeek
        rw [if_pos (by omega), hld]
      · unfold LinkedList.itNext
        rw [if_neg (by omega), hld]
        rfl

theorem len_step (um : Bool) (xs : List Nat) (o : Op) : (Spec.step um xs o).1.length ≤ xs.length + 1 := by
  cases o with
  | add d => simp [Spec.step]
  | addBefore t d =>
    simp only [Spec.step]
    induction xs with
    | nil => simp [Spec.insertBefore]
    | cons x xs ih => simp only [Spec.insertBefore]; split <;> simp_all
  | remove d => 
    simp only [Spec.step]
    split
    · exact Nat.le_succ_of_le List.length_erase_le
    · exact Nat.le_succ _
  | swap a b => simp only [Spec.step, Spec.swapped]; split <;> (try split) <;> simp
  | clear => simp [Spec.step]
  | _ => simp [Spec.step]

theorem exec_ok {um : Bool} {x : X} {st : St} (h : Rel um x st) (hl : st.xs.length < 2 ^ 32) (a : Act) :
    match step um st a with
    | .ok (st', o) => ∃ x', exec x a = .ok (x', o) ∧ Rel um x' st' ∧ st'.xs.length ≤ st.xs.length + 1
    | .error e => exec x a = .error e := by
  obtain ⟨ns, i, hx, hum, hc, hi⟩ := h
  subst hum
  have hlen : st.xs.length = ns.length := by rw [← hx]; simp
  cases a with
  | op o =>
    obtain ⟨s', ns', h1, h2⟩ := did i (by omega) o
    rw [hx] at h1
    refine ⟨{ x with s := s' }, ?_, ⟨ns', h2.inv, ?_, h2.um, ?_, ?_⟩, len_step _ _ _⟩
    · simp only [exec, h1]; rfl
    · have := h2.xs; rw [hx] at this; exact this
    · have := h2.cur _ hc; rw [hx] at this; exact this
    · intro j; have := h2.its _ _ (hi j); rw [hx] at this; exact this
  | iter j =>
    refine ⟨_, rfl, ⟨ns, i, hx, rfl, hc, setIt_ok hi j ?_⟩, by simp⟩
    rw [hlen, show iterator x.s = headA ns 0 from i.rep.start]
    exact posOk_posAt x.s ns 0
  | copy j k => exact ⟨_, rfl, ⟨ns, i, hx, rfl, hc, setIt_ok hi j (hi k)⟩, by simp⟩
  | itHas j =>
    refine ⟨x, ?_, ⟨ns, i, hx, rfl, hc, hi⟩, by simp⟩
    have hj := hi j
    have : itHasNext (x.its j) = decide (st.its j ≠ .fin) := by
      cases hp : st.its j with
      | fin => rw [hp] at hj; have : x.its j = 0 := hj; rw [this]; rfl
      | before k =>
        rw [hp] at hj
        obtain ⟨d, e⟩ := hj
        have := (i.alive (x := (x.its j, d)) (List.mem_of_getElem? e)).1
        simpa [itHasNext] using this
      | gone d =>
        rw [hp] at hj
        have h8 := hj.1
        have : x.its j ≠ 0 := by omega
        simpa [itHasNext] using this
    simp only [exec, this]
  | itNext j =>
    have := look_ok i (hi j)
    rw [hx] at this
    simp only [step]
    cases hk : look x.s.um st.xs (st.its j) with
    | error e => rw [hk] at this; simp only [exec, this.2, bind, Except.bind]
    | ok d =>
      rw [hk] at this
      obtain ⟨_, a', h1, h2⟩ := this
      refine ⟨{ x with its := setA x.its j a' }, ?_, ⟨ns, i, hx, rfl, hc, setIt_ok hi j (hlen ▸ h2)⟩, by simp⟩
      simp only [exec, h1]; rfl
  | itSeek j =>
    have := look_ok i (hi j)
    rw [hx] at this
    simp only [step]
    cases hk : look x.s.um st.xs (st.its j) with
    | error e => rw [hk] at this; simp only [exec, this.1, bind, Except.bind]
    | ok d =>
      rw [hk] at this
      refine ⟨x, ?_, ⟨ns, i, hx, rfl, hc, hi⟩, by simp⟩
      simp only [exec, this.1]; rfl
  | rewind =>
    refine ⟨_, rfl, ⟨ns, i.cursor _, hx, rfl, ?_, hi⟩, by simp⟩
    show CurOk ns (norm st.xs.length 0) (x.s.u.mem aStart)
    rw [hlen, show x.s.u.mem aStart = headA ns 0 from i.rep.start]
    exact curOk_norm ns 0
  | has =>
    refine ⟨x, ?_, ⟨ns, i, hx, rfl, hc, hi⟩, by simp⟩
    have : hasNext x.s = st.cur.isSome := by
      cases hp : st.cur with
      | none => rw [hp] at hc; have : x.s.cur = 0 := hc; unfold hasNext; rw [this]; rfl
      | some k =>
        rw [hp] at hc
        obtain ⟨d, e⟩ := hc
        have := (i.alive (x := (x.s.cur, d)) (List.mem_of_getElem? e)).1
        simpa [hasNext] using this
    simp only [exec, this]
  | next =>
    simp only [step]
    cases hp : st.cur with
    | none =>
      rw [hp] at hc
      have h0 : x.s.cur = 0 := hc
      simp only [exec, LinkedList.next, ldE, chk, h0, ne_eq, not_true_eq_false, false_and, if_false, bind, Except.bind]
    | some k =>
      rw [hp] at hc
      obtain ⟨d, e⟩ := hc
      have hal := i.alive (x := (x.s.cur, d)) (List.mem_of_getElem? e)
      obtain ⟨h1, h2⟩ := seg_at i.rep.seg e
      have hd : st.xs.getD k 0 = d := by rw [← hx, List.getD_eq_getElem?_getD, List.getElem?_map, e]; rfl
      refine ⟨{ x with s := { x.s with cur := headA (ns.drop (k + 1)) 0 } }, ?_, ⟨ns, i.cursor _, hx, rfl, ?_, hi⟩, by simp⟩
      · simp only [exec, LinkedList.next, ldE_ok x.s x.s.cur _ hal, h1, h2, hd, bind, Except.bind, pure, Except.pure]
      · rw [hlen]; exact curOk_norm ns (k + 1)

theorem execActs_ok (um : Bool) : ∀ (as : List Act) (x : X) (st : St), Rel um x st → st.xs.length + as.length ≤ 2 ^ 32 → execActs as x = run um as st := by
  intro as
  induction as with
  | nil => intro x st _ _; rfl
  | cons a as ih =>
    intro x st h hl
    simp only [List.length_cons] at hl
    have := exec_ok h (by omega) a
    simp only [execActs, run]
    cases hs : step um st a with
    | error e => rw [hs] at this; simp only [this, bind, Except.bind]
    | ok r =>
      obtain ⟨st', o⟩ := r
      rw [hs] at this
      obtain ⟨x', h1, h2, h3⟩ := this
      simp only [h1, bind, Except.bind, ih x' st' h2 (by omega)]

namespace Props

/-- **All histories.**  Whatever is called in whatever order on a new list, any number of its iterators and its own cursor, the results are
those of positions in a sequence; and there is undefined behaviour exactly when one of these calls `next()` of the list at the end or
(without undo manager) uses an iterator whose upcoming object was removed meanwhile.  (Fewer than 2³² calls: sizes have 32 bits.) -/
theorem iteration (um : Bool) (as : List Act) (hl : as.length ≤ 2 ^ 32) : execActs as (X.new um) = run um as St.new :=
  execActs_ok um as _ _ (rel_new um) (by simpa [St.new] using hl)

/-- two iterators, removal of a delivered object and of one further on, insertion before the upcoming object, an append -/
example : execActs [.op (.add 5), .op (.add 6), .op (.add 7), .op (.add 8), .iter 0, .itNext 0, .copy 1 0, .op (.remove 5), .op (.remove 7), .itNext 1,
      .op (.addBefore 8 4), .itNext 1, .itNext 0, .itNext 0, .op (.add 9), .itNext 0, .itNext 0, .itHas 0, .itNext 0, .itNext 1] (X.new false) =
    .ok [.none, .none, .none, .none, .none, .obj 5, .none, .status eOK, .status eOK, .obj 6, .none, .obj 8, .obj 6, .obj 4, .none, .obj 8, .obj 9,
      .bool false, .obj 0, .obj 0] := by
  rw [iteration _ _ (by decide)]; rfl

/-- Without undo manager, removing the object an iterator delivers next makes its use undefined; -/
theorem upcoming_removed_ub (a b : Nat) : execActs [.op (.add a), .op (.add b), .iter 0, .op (.remove a), .itHas 0, .itNext 0] (X.new false) = .error .ub := by
  rw [iteration _ _ (by simp)]
  simp [run, step, St.new, Spec.step, moveIt, setIt, posAt, look, bind, Except.bind, moveCur]

/-- with an undo manager, the removed object is delivered all the same and the iteration ends there, although objects are left. -/
theorem upcoming_removed_ends (a b : Nat) :
    execActs [.op (.add a), .op (.add b), .iter 0, .op (.remove a), .itNext 0, .itHas 0, .op .size] (X.new true) =
      .ok [.none, .none, .none, .status eOK, .obj a, .bool false, .num 1] := by
  rw [iteration _ _ (by simp)]
  simp [run, step, St.new, Spec.step, moveIt, setIt, posAt, look, bind, Except.bind, pure, Except.pure, moveCur, advance]

/-- An iterator that has reached the end does not see what is added afterwards; one that has not does. -/
theorem added_at_end (a b : Nat) :
    execActs [.op (.add a), .iter 0, .iter 1, .itNext 0, .op (.add b), .itHas 0, .itNext 1, .itNext 1] (X.new false) =
      .ok [.none, .none, .none, .obj a, .none, .bool false, .obj a, .obj b] := by
  rw [iteration _ _ (by simp)]
  simp [run, step, St.new, Spec.step, moveIt, setIt, posAt, look, bind, Except.bind, pure, Except.pure, moveCur, advance]

/-- The list has one cursor only, and searching moves it: removing an object that is not in the list ends an iteration with it, and the
`next()` that follows is undefined. -/
theorem search_ends_iteration (um : Bool) (a b c : Nat) (h : c ≠ a ∧ c ≠ b) :
    execActs [.op (.add a), .op (.add b), .rewind, .next, .has, .op (.remove c), .has] (X.new um) =
      .ok [.none, .none, .none, .obj a, .bool true, .status eNotFound, .bool false] ∧
    execActs [.op (.add a), .op (.add b), .rewind, .next, .op (.remove c), .next] (X.new um) = .error .ub := by
  rw [iteration _ _ (by simp), iteration _ _ (by simp)]
  constructor <;> simp [run, step, St.new, Spec.step, bind, Except.bind, pure, Except.pure, moveCur, norm, h.1, h.2]

/-- Two searches of the cursor: an inner loop over the same list ends the outer one (nested iteration needs iterators). -/
theorem nested_cursor (um : Bool) (a b : Nat) :
    execActs [.op (.add a), .op (.add b), .rewind, .next, .op .nexts, .has] (X.new um) =
      .ok [.none, .none, .none, .obj a, .objs [a, b], .bool false] := by
  rw [iteration _ _ (by simp)]
  simp [run, step, St.new, Spec.step, bind, Except.bind, pure, Except.pure, moveCur, norm]

theorem run_app (um : Bool) : ∀ (pre : List Act) (st : St) (outs : List Out), run um pre st = .ok outs →
    ∃ st', ∀ post, run um (pre ++ post) st = (run um post st').map (outs ++ ·) := by
  intro pre
  induction pre with
  | nil =>
    intro st outs h
    cases h
    refine ⟨st, fun post => ?_⟩
    simp only [List.nil_append]
    cases run um post st <;> rfl
  | cons a pre ih =>
    intro st outs h
    simp only [run] at h
    obtain ⟨x, h1, h⟩ := bind_ok h
    obtain ⟨r, h2, h⟩ := bind_ok h
    cases h
    obtain ⟨st', h3⟩ := ih x.1 r h2
    refine ⟨st', fun post => ?_⟩
    simp only [List.cons_append, run, h1, bind, Except.bind, h3 post]
    cases run um post st' <;> rfl

/-- **The cursor of the list is never left at a freed element**: without iterators, the only undefined call is `next()` where `hasNext()`
returns false.  So a caller that asks `hasNext()` before every `next()` has no undefined behaviour at all. -/
theorem cursor_safe (um : Bool) (as : List Act) (hl : as.length ≤ 2 ^ 32)
    (hno : ∀ a ∈ as, ∀ i j, a ≠ .iter i ∧ a ≠ .copy i j ∧ a ≠ .itHas i ∧ a ≠ .itNext i ∧ a ≠ .itSeek i)
    (hask : ∀ pre post, as = pre ++ .next :: post → ∃ outs, execActs (pre ++ [.has]) (X.new um) = .ok (outs ++ [.bool true])) :
    ∃ outs, execActs as (X.new um) = .ok outs := by
  rw [iteration um as hl]
  have key : ∀ (post pre : List Act) (outs : List Out), as = pre ++ post → run um pre St.new = .ok outs → ∃ outs', run um as St.new = .ok outs' := by
    intro post
    induction post with
    | nil => intro pre outs h h1; rw [h, List.append_nil]; exact ⟨outs, h1⟩
    | cons a post ih =>
      intro pre outs h h1
      obtain ⟨st, h2⟩ := run_app um pre St.new outs h1
      have one : ∃ st' o, step um st a = .ok (st', o) := by
        have hn := hno a (by rw [h]; simp)
        cases a with
        | iter i => exact absurd rfl (hn i 0).1
        | copy j i => exact absurd rfl (hn j i).2.1
        | itHas i => exact absurd rfl (hn i 0).2.2.1
        | itNext i => exact absurd rfl (hn i 0).2.2.2.1
        | itSeek i => exact absurd rfl (hn i 0).2.2.2.2
        | op o => exact ⟨_, _, rfl⟩
        | rewind => exact ⟨_, _, rfl⟩
        | has => exact ⟨_, _, rfl⟩
        | next =>
          obtain ⟨o2, h3⟩ := hask pre post h
          rw [iteration um _ (by
            have := congrArg List.length h
            simp only [List.length_append, List.length_cons, List.length_nil] at this ⊢
            omega), h2] at h3
          simp only [run, step, bind, Except.bind, pure, Except.pure, Except.map, Except.ok.injEq] at h3
          have h4 := (List.append_inj' h3 rfl).2
          simp only [List.cons.injEq, and_true, Out.bool.injEq] at h4
          cases hc : st.cur with
          | none => rw [hc] at h4; cases h4
          | some k => exact ⟨_, _, by simp only [step, hc]; rfl⟩
      obtain ⟨st', o, h3⟩ := one
      refine ih (pre ++ [a]) (outs ++ [o]) (by rw [h]; simp) ?_
      rw [h2]
      simp only [run, h3, bind, Except.bind, pure, Except.pure, Except.map]
  exact key as [] [] rfl rfl

example : ∃ outs, execActs [.op (.add 5), .op (.add 6), .rewind, .has, .next, .op (.remove 5), .has, .next, .op .clear, .has] (X.new false) = .ok outs := by
  refine cursor_safe false _ (by decide) (by simp) ?_
  intro pre post h
  have : (pre = [.op (.add 5), .op (.add 6), .rewind, .has]) ∨ (pre = [.op (.add 5), .op (.add 6), .rewind, .has, .next, .op (.remove 5), .has]) := by
    rcases pre with _ | ⟨a, _ | ⟨b, _ | ⟨c, _ | ⟨d, _ | ⟨e, _ | ⟨f, _ | ⟨g, _ | ⟨i, _ | ⟨j, _ | ⟨k, pre⟩⟩⟩⟩⟩⟩⟩⟩⟩⟩ <;> simp_all <;> grind
  rcases this with rfl | rfl
  · exact ⟨[.none, .none, .none, .bool true], by rw [iteration _ _ (by decide)]; rfl⟩
  · exact ⟨[.none, .none, .none, .bool true, .obj 5, .status eOK, .bool true], by rw [iteration _ _ (by decide)]; rfl⟩

/-! ### Removing while iterating -/

/-- the loop of a caller: `while(it.hasNext()){ o = it.next(); if(p(o))list.remove(o); }` -/
def sieve (p : Nat → Bool) : Nat → S → Nat → Res S
  | 0, _, _ => .error .ub
  | fuel + 1, s, it =>
    if itHasNext it then do
      let x ← LinkedList.itNext s it
      let s ← if p x.1 then (do let r ← remove s x.1; return r.2) else .ok s
      sieve p fuel s x.2
    else .ok s

/-- the same with the cursor of the list: `while(list.hasNext()){ o = list.next(); if(p(o))list.remove(o); }` -/
def sieveCur (p : Nat → Bool) : Nat → S → Res S
  | 0, _ => .error .ub
  | fuel + 1, s =>
    if hasNext s then do
      let x ← LinkedList.next s
      let s ← if p x.1 then (do let r ← remove x.2 x.1; return r.2) else .ok x.2
      sieveCur p fuel s
    else .ok s

/-- removing the object just delivered removes the element just delivered, if none of those before it is equal -/
theorem remove_delivered {s : S} {A B : List (Nat × Nat)} {e d : Nat} (i : SInv s (A ++ (e, d) :: B)) (h : d ∉ A.map Prod.snd) :
    ∃ r s', remove s d = .ok (r, s') ∧ SInv s' (A ++ B) ∧ s'.cur = headA B 0 := by
  rcases find_cur i d with ⟨h1, _⟩ | ⟨A', t, B', hs, h2, h3⟩
  · exact absurd (by simp) h1
  · have hlen : A'.length = A.length := by rw [← idx_mid h2 (B := B') (t := t), ← hs, idx_mid h]
    obtain ⟨rfl, hs'⟩ := List.append_inj hs hlen.symm
    cases hs'
    obtain ⟨s', e1, e2, _⟩ := removeElem_ok (i.cursor (headA B 0))
    have hk : Keep (Out3 s (A ++ (e, d) :: B)) { s with cur := headA B 0 } s' :=
      removeElem_out (i.cursor _) e1 _ (fun a ha => out_low ha) (fun x hx f hf => out_mem hx f (by omega))
    refine ⟨eOK, s', ?_, e2, hk.1⟩
    unfold remove
    rw [h3]
    simp only [bind, Except.bind, e1]
    rfl

theorem sieve_ok (p : Nat → Bool) : ∀ (fuel : Nat) (s : S) (A B : List (Nat × Nat)), SInv s (A ++ B) → (∀ x ∈ A, p x.2 = false) → B.length < fuel →
    ∃ s' ns', sieve p fuel s (headA B 0) = .ok s' ∧ SInv s' ns' ∧ ns'.map Prod.snd = A.map Prod.snd ++ (B.map Prod.snd).filter (fun d => !p d) := by
  intro fuel
  induction fuel with
  | zero => intros; omega
  | succ fuel ih =>
    intro s A B i hA hf
    cases B with
    | nil => exact ⟨s, _, rfl, i, by simp⟩
    | cons x B =>
      obtain ⟨e, d⟩ := x
      simp only [List.length_cons] at hf
      have hal : Alive s e := i.alive (x := (e, d)) (by simp)
      have hne : itHasNext e = true := by simpa [itHasNext] using hal.1
      have hseg := (seg_append _ _ _ _ _).1 i.rep.seg
      have hnx : LinkedList.itNext s e = .ok (d, headA B 0) := by
        unfold LinkedList.itNext
        rw [if_neg hal.1, ldE_ok s e 2 hal, ldE_ok s e 1 hal, hseg.2.2.1, hseg.2.2.2.1]
        rfl
      show ∃ s' ns', sieve p (fuel + 1) s e = _ ∧ _
      simp only [sieve, hne, if_true, hnx, bind, Except.bind]
      cases hp : p d with
      | true =>
        obtain ⟨r, s1, h1, h2, _⟩ := remove_delivered i (by
          intro hm
          obtain ⟨x, hx, ex⟩ := List.mem_map.1 hm
          have := hA x hx
          rw [ex, hp] at this
          cases this)
        obtain ⟨s', ns', h3, h4, h5⟩ := ih s1 A B h2 hA (by omega)
        refine ⟨s', ns', ?_, h4, by rw [h5]; simp [hp]⟩
        simp only [if_true, h1, pure, Except.pure]
        exact h3
      | false =>
        obtain ⟨s', ns', h3, h4, h5⟩ := ih s (A ++ [(e, d)]) B (by simpa using i) (by
          intro x hx
          rcases List.mem_append.1 hx with hx | hx
          · exact hA x hx
          · rw [List.mem_singleton.1 hx]; exact hp) (by omega)
        refine ⟨s', ns', ?_, h4, by rw [h5]; simp [hp]⟩
        simp only [Bool.false_eq_true, if_false]
        exact h3

theorem sieveCur_ok (p : Nat → Bool) : ∀ (fuel : Nat) (s : S) (A B : List (Nat × Nat)), SInv s (A ++ B) → (∀ x ∈ A, p x.2 = false) → B.length < fuel →
    s.cur = headA B 0 →
    ∃ s' ns', sieveCur p fuel s = .ok s' ∧ SInv s' ns' ∧ ns'.map Prod.snd = A.map Prod.snd ++ (B.map Prod.snd).filter (fun d => !p d) := by
  intro fuel
  induction fuel with
  | zero => intros; omega
  | succ fuel ih =>
    intro s A B i hA hf hc
    cases B with
    | nil =>
      refine ⟨s, _, ?_, i, by simp⟩
      simp only [sieveCur, hasNext, hc, headA, bne_self_eq_false, Bool.false_eq_true, if_false]
    | cons x B =>
      obtain ⟨e, d⟩ := x
      simp only [List.length_cons] at hf
      have he : s.cur = e := hc
      have hal : Alive s e := i.alive (x := (e, d)) (by simp)
      have hne : hasNext s = true := by unfold hasNext; rw [he]; simpa using hal.1
      have hseg := (seg_append _ _ _ _ _).1 i.rep.seg
      have hnx : LinkedList.next s = .ok (d, { s with cur := headA B 0 }) := by
        unfold LinkedList.next
        rw [he, ldE_ok s e 2 hal, ldE_ok s e 1 hal, hseg.2.2.1, hseg.2.2.2.1]
        rfl
      simp only [sieveCur, hne, if_true, hnx, bind, Except.bind]
      cases hp : p d with
      | true =>
        obtain ⟨r, s1, h1, h2, h2c⟩ := remove_delivered (i.cursor (headA B 0)) (by
          intro hm
          obtain ⟨x, hx, ex⟩ := List.mem_map.1 hm
          have := hA x hx
          rw [ex, hp] at this
          cases this)
        obtain ⟨s', ns', h3, h4, h5⟩ := ih s1 A B h2 hA (by omega) h2c
        refine ⟨s', ns', ?_, h4, by rw [h5]; simp [hp]⟩
        simp only [if_true, h1, pure, Except.pure]
        exact h3
      | false =>
        obtain ⟨s', ns', h3, h4, h5⟩ := ih { s with cur := headA B 0 } (A ++ [(e, d)]) B (by simpa using i.cursor (headA B 0)) (by
          intro x hx
          rcases List.mem_append.1 hx with hx | hx
          · exact hA x hx
          · rw [List.mem_singleton.1 hx]; exact hp) (by omega) rfl
        refine ⟨s', ns', ?_, h4, by rw [h5]; simp [hp]⟩
        simp only [Bool.false_eq_true, if_false]
        exact h3

/-- **Removing the objects just delivered is safe**, with and without undo manager, also if objects occur several times: after any history,
`for each o: if p(o) remove(o)`, with an iterator or with the cursor of the list, leaves exactly the objects without `p`, in order. -/
theorem remove_while_iterating (um : Bool) (os : List Op) (hl : os.length < 2 ^ 32) (p : Nat → Bool) (s : S) (outs : List Out)
    (h : Spec.execOps os (S.new um) = .ok (s, outs)) :
    (∃ s', sieve p s.brk s (iterator s) = .ok s' ∧ itAll s'.brk s' (iterator s') = .ok ((Spec.run um os []).1.filter (fun d => !p d))) ∧
    (∃ s', sieveCur p s.brk (LinkedList.rewind s) = .ok s' ∧ itAll s'.brk s' (iterator s') = .ok ((Spec.run um os []).1.filter (fun d => !p d))) := by
  obtain ⟨s0, ns, h1, h2, h3, h4⟩ := execOps_ok os (S.new um) [] (sinv_new um) (by simp; omega)
  have e := h.symm.trans h1
  simp only [Except.ok.injEq, Prod.mk.injEq] at e
  obtain ⟨rfl, _⟩ := e
  have hum : (S.new um).um = um := rfl
  rw [hum, List.map_nil] at h3
  have all : ∀ {s' : S} {ns' : List (Nat × Nat)}, SInv s' ns' → itAll s'.brk s' (iterator s') = .ok (ns'.map Prod.snd) := by
    intro s' ns' i
    have := itAll_ok s'.brk s' ns' 0 i.rep.seg (fun x hx => i.alive hx) i.len
    rw [show iterator s' = headA ns' 0 from i.rep.start]
    exact this
  constructor
  · obtain ⟨s', ns', g1, g2, g3⟩ := sieve_ok p s.brk s [] ns h2 (by simp) h2.len
    refine ⟨s', ?_, ?_⟩
    · rw [show iterator s = headA ns 0 from h2.rep.start]; exact g1
    · rw [all g2, g3, h3]; rfl
  · obtain ⟨s', ns', g1, g2, g3⟩ := sieveCur_ok p s.brk (LinkedList.rewind s) [] ns (h2.cursor _) (by simp) h2.len h2.rep.start
    refine ⟨s', g1, ?_⟩
    rw [all g2, g3, h3]; rfl

/-- the even ones of 4, 5, 4, 6, 7 (one of them twice) -/
example (um : Bool) : ∃ s outs s', Spec.execOps [.add 4, .add 5, .add 4, .add 6, .add 7] (S.new um) = .ok (s, outs) ∧
    sieve (fun d => d % 2 == 0) s.brk s (iterator s) = .ok s' ∧ itAll s'.brk s' (iterator s') = .ok [5, 7] := by
  obtain ⟨s, ns, h1, _⟩ := execOps_ok [.add 4, .add 5, .add 4, .add 6, .add 7] (S.new um) [] (sinv_new um) (by decide)
  obtain ⟨⟨s', h2, h3⟩, _⟩ := remove_while_iterating um _ (by decide) (fun d => d % 2 == 0) s _ h1
  exact ⟨s, _, s', h1, h2, h3⟩

end Props
end Verif.LinkedList.Iter
