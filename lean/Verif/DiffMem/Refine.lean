import Verif.DiffMem.Steps
/-
Every history of calls in memory does what the calls do without memory.
-/
namespace Verif.DiffMem
open Verif Verif.Diff

variable {α : Type}

def absD (d : DD α) : ADist α := ⟨d.u, d.v, d.distance⟩

/-- `own r` are the addresses of the steps of the `r`-th result -/
structure Inv (w : World α) (a : Abs α) (own : List (List Nat)) : Prop where
  dists : w.dists.map (Option.map absD) = a.dists
  diag : ∀ (h : Nat) (d : DD α) (p : Nat), w.dists[h]? = some (some d) → d.diagonal = some p → ∃ x, w.diags[p]? = some (some x)
  diff : ∀ (h h' : Nat) (d d' : DD α) (p : Nat), w.dists[h]? = some (some d) → w.dists[h']? = some (some d') →
    d.diagonal = some p → d'.diagonal = some p → h = h'
  lenO : own.length = a.reports.length
  lenW : w.reports.length = a.reports.length
  chain : ∀ (r : Nat) (s : List (Step α)), a.reports[r]? = some (some s) →
    ∃ p ps, own[r]? = some (p :: ps) ∧ w.reports[r]? = some (some p) ∧ Chain w.steps (p :: ps) s
  dead : ∀ (r : Nat), a.reports[r]? = some none → own[r]? = some [] ∧ w.reports[r]? = some none
  nodup : ∀ (r : Nat) (l : List Nat), own[r]? = some l → l.Nodup
  disj : ∀ (r r' : Nat) (l l' : List Nat) (p : Nat), own[r]? = some l → own[r']? = some l' → p ∈ l → p ∈ l' → r = r'
  all : ∀ (p : Nat) (b : BT α), w.steps[p]? = some (some b) → ∃ (r : Nat) (l : List Nat), own[r]? = some l ∧ p ∈ l

theorem inv_init : Inv (World.init : World α) Abs.init [] :=
  ⟨rfl, by intro h d p e; simp [World.init] at e, by intro h h' d d' p e; simp [World.init] at e, rfl, rfl,
   by intro r s e; simp [Abs.init] at e, by intro r e; simp [Abs.init] at e, by intro r l e; simp at e, by intro r r' l l' p e; simp at e,
   by intro p b e; simp [World.init] at e⟩

theorem alive_ok {β : Type} {l : List (Option β)} {i : Nat} {x : β} (h : alive l i = .ok x) : l[i]? = some (some x) := by
  unfold alive at h
  split at h
  · rename_i y e; cases h; exact e
  · cases h

theorem alive_of {β : Type} {l : List (Option β)} {i : Nat} {x : β} (h : l[i]? = some (some x)) : alive l i = .ok x := by
  simp [alive, h]

theorem Inv.dist {w : World α} {a : Abs α} {own : List (List Nat)} (hi : Inv w a own) {h : Nat} {d : ADist α}
    (e : a.dists[h]? = some (some d)) : ∃ c : DD α, w.dists[h]? = some (some c) ∧ absD c = d := by
  rw [← hi.dists, List.getElem?_map] at e
  cases hc : w.dists[h]? with
  | none => rw [hc] at e; cases e
  | some o =>
    cases o with
    | none => rw [hc] at e; cases e
    | some c => rw [hc] at e; simp at e; exact ⟨c, rfl, e⟩

/-- changing the contents of one DiffDistance but not its diagonal -/
theorem Inv.setDist {w : World α} {a : Abs α} {own : List (List Nat)} (hi : Inv w a own) {h : Nat} {c c' : DD α}
    (e : w.dists[h]? = some (some c)) (hd : c'.diagonal = c.diagonal) :
    Inv { w with dists := w.dists.set h (some c') } { a with dists := a.dists.set h (some (absD c')) } own := by
  have hl := Heap.lt_of_live e
  refine ⟨by simp [← hi.dists, List.map_set], ?_, ?_, hi.lenO, hi.lenW, hi.chain, hi.dead, hi.nodup, hi.disj, hi.all⟩
  · intro j d p ej hp
    by_cases hj : j = h
    · subst hj
      rw [List.getElem?_set_self hl] at ej
      cases ej
      exact hi.diag j c p e (hd ▸ hp)
    · rw [List.getElem?_set_ne (Ne.symm hj)] at ej
      exact hi.diag j d p ej hp
  · have key : ∀ (j : Nat) (d : DD α) (p : Nat), (w.dists.set h (some c'))[j]? = some (some d) → d.diagonal = some p →
        ∃ d0, w.dists[j]? = some (some d0) ∧ d0.diagonal = some p := by
      intro j d p ej hp
      by_cases hj : j = h
      · subst hj
        rw [List.getElem?_set_self hl] at ej
        cases ej
        exact ⟨c, e, hd ▸ hp⟩
      · rw [List.getElem?_set_ne (Ne.symm hj)] at ej
        exact ⟨d, ej, hp⟩
    intro j j' d d' p e1 e2 h1 h2
    obtain ⟨d0, g1, g2⟩ := key j d p e1 h1
    obtain ⟨d1, g3, g4⟩ := key j' d' p e2 h2
    exact hi.diff j j' d0 d1 p g1 g3 g2 g4

theorem Inv.create {w : World α} {a : Abs α} {own : List (List Nat)} (hi : Inv w a own) :
    Inv { w with dists := (w.dists.alloc ⟨[], [], none, 0⟩).1 } { a with dists := a.dists ++ [some ⟨[], [], 0⟩] } own := by
  have key : ∀ (j : Nat) (d : DD α) (p : Nat), (w.dists ++ [some ⟨[], [], none, 0⟩])[j]? = some (some d) → d.diagonal = some p →
      w.dists[j]? = some (some d) := by
    intro j d p ej hp
    by_cases hj : j < w.dists.length
    · rwa [List.getElem?_append_left hj] at ej
    · rw [List.getElem?_append_right (by omega)] at ej
      rw [List.getElem?_singleton] at ej
      split at ej
      · cases ej; cases hp
      · cases ej
  refine ⟨by simp [← hi.dists, Heap.alloc, absD], ?_, ?_, hi.lenO, hi.lenW, hi.chain, hi.dead, hi.nodup, hi.disj, hi.all⟩
  · intro j d p ej hp
    exact hi.diag j d p (key j d p ej hp) hp
  · intro j j' d d' p e1 e2 h1 h2
    exact hi.diff j j' d d' p (key _ _ _ e1 h1) (key _ _ _ e2 h2) h1 h2

theorem clearH_ok {w : World α} {a : Abs α} {own : List (List Nat)} (hi : Inv w a own) {h : Nat} {c : DD α}
    (e : w.dists[h]? = some (some c)) :
    ∃ w', clearH w h = .ok w' ∧ Inv w' { a with dists := a.dists.set h (some ⟨[], [], 0⟩) } own ∧
      w'.dists = w.dists.set h (some ⟨[], [], none, 0⟩) ∧ w'.steps = w.steps ∧ w'.reports = w.reports ∧
      (∀ q, c.diagonal ≠ some q → w'.diags[q]? = w.diags[q]?) := by
  have hl := Heap.lt_of_live e
  have build : ∀ H : Heap Diag, (∀ q, c.diagonal ≠ some q → H[q]? = w.diags[q]?) →
      Inv { w with diags := H, dists := w.dists.set h (some ⟨[], [], none, 0⟩) } { a with dists := a.dists.set h (some ⟨[], [], 0⟩) } own := by
    intro H hH
    have key : ∀ (j : Nat) (d : DD α) (p : Nat), (w.dists.set h (some ⟨[], [], none, 0⟩))[j]? = some (some d) → d.diagonal = some p →
        w.dists[j]? = some (some d) ∧ j ≠ h := by
      intro j d p ej hp
      by_cases hj : j = h
      · subst hj
        rw [List.getElem?_set_self hl] at ej
        cases ej; cases hp
      · rw [List.getElem?_set_ne (Ne.symm hj)] at ej
        exact ⟨ej, hj⟩
    refine ⟨by simp [← hi.dists, List.map_set, absD], ?_, ?_, hi.lenO, hi.lenW, hi.chain, hi.dead, hi.nodup, hi.disj, hi.all⟩
    · intro j d p ej hp
      obtain ⟨g1, g2⟩ := key j d p ej hp
      obtain ⟨x, hx⟩ := hi.diag j d p g1 hp
      refine ⟨x, ?_⟩
      show H[p]? = _
      rw [hH p, hx]
      intro hc
      exact g2 (hi.diff j h d c p g1 e hp hc)
    · intro j j' d d' p e1 e2 h1 h2
      exact hi.diff j j' d d' p (key _ _ _ e1 h1).1 (key _ _ _ e2 h2).1 h1 h2
  unfold clearH
  rw [Heap.load_ok e]
  simp only [bind, Except.bind, pure, Except.pure]
  cases hc : c.diagonal with
  | none =>
    simp only
    rw [Heap.store_ok e]
    exact ⟨_, rfl, build w.diags (fun _ _ => rfl), rfl, rfl, rfl, fun _ _ => rfl⟩
  | some p =>
    obtain ⟨x, hx⟩ := hi.diag h c p e hc
    simp only
    rw [Heap.free_ok hx, Heap.store_ok e]
    have hH : ∀ q, c.diagonal ≠ some q → (w.diags.set p none)[q]? = w.diags[q]? := by
      intro q hq
      rw [List.getElem?_set_ne (by rintro rfl; exact hq hc)]
    refine ⟨_, rfl, build _ hH, rfl, rfl, rfl, fun q hq => hH q (by rw [hc]; exact hq)⟩

theorem deleteDist_ok {w : World α} {a : Abs α} {own : List (List Nat)} (hi : Inv w a own) {h : Nat} {c : DD α}
    (e : w.dists[h]? = some (some c)) :
    ∃ w', deleteDist w h = .ok w' ∧ Inv w' { a with dists := a.dists.set h none } own ∧
      w'.dists = w.dists.set h none ∧ (∀ q, c.diagonal ≠ some q → w'.diags[q]? = w.diags[q]?) := by
  obtain ⟨w1, g1, i1, d1, s1, r1, f1⟩ := clearH_ok hi e
  have hl := Heap.lt_of_live e
  have e1 : w1.dists[h]? = some (some ⟨[], [], none, 0⟩) := by rw [d1, List.getElem?_set_self hl]
  unfold deleteDist
  rw [g1]
  simp only [bind, Except.bind, pure, Except.pure]
  rw [Heap.free_ok e1]
  have key : ∀ (j : Nat) (d : DD α), (w1.dists.set h none)[j]? = some (some d) → w1.dists[j]? = some (some d) := by
    intro j d ej
    by_cases hj : j = h
    · subst hj
      rw [List.getElem?_set_self (Heap.lt_of_live e1)] at ej
      cases ej
    · rwa [List.getElem?_set_ne (Ne.symm hj)] at ej
  refine ⟨_, rfl, ⟨?_, fun j d p ej hp => i1.diag j d p (key j d ej) hp,
    fun j j' d d' p e1 e2 h1 h2 => i1.diff j j' d d' p (key _ _ e1) (key _ _ e2) h1 h2,
    i1.lenO, i1.lenW, i1.chain, i1.dead, i1.nodup, i1.disj, i1.all⟩, by rw [d1, List.set_set], f1⟩
  rw [List.map_set, i1.dists]
  simp only [List.set_set, Option.map_none]

theorem Chain.append {B : Heap (BT α)} {ps : List Nat} {l : List (Step α)} (h : Chain B ps l) (B' : Heap (BT α)) (hl : B.length ≤ B'.length)
    (hB : ∀ p, p < B.length → B'[p]? = B[p]?) : Chain B' ps l :=
  h.congr fun p hp => by obtain ⟨b, e⟩ := h.live p hp; exact hB p (Heap.lt_of_live e)

theorem solveH_ok (eqv : α → α → Bool) {w : World α} {a : Abs α} {own : List (List Nat)} (hi : Inv w a own) {h : Nat} {c : DD α}
    (e : w.dists[h]? = some (some c)) {n : Nat} {s : List (Step α)} (hs : Diff.solve ⟨c.u, c.v, eqv⟩ = .ok (n, s)) :
    ∃ w' own', solveH eqv w h = .ok w' ∧
      Inv w' ⟨a.dists.set h (some ⟨c.u, c.v, n⟩), a.reports ++ [some s]⟩ own' ∧
      (∀ q, q < w.diags.length → w'.diags[q]? = w.diags[q]?) ∧
      (∃ c' p, w'.dists = w.dists.set h (some c') ∧ c'.diagonal = some p ∧ w.diags.length ≤ p ∧
        (c.u.length ≠ c.v.length → ∃ q, w.diags.length ≤ q ∧ q ≠ p ∧ ∃ x, w'.diags[q]? = some (some x))) := by
  have hl := Heap.lt_of_live e
  unfold Diff.solve at hs
  obtain ⟨H1, a1, p, g1, r1, k1⟩ := findDiag_ok (⟨c.u, c.v, eqv⟩ : Ctx α) w.diags
  simp only at k1
  simp only [bind, Except.bind, pure, Except.pure] at hs
  cases e1 : entry (⟨c.u, c.v, eqv⟩ : Ctx α) (c.u.length + c.v.length + 1) tab0 (c.v.length - c.u.length) (min c.u.length c.v.length) with
  | error f => rw [e1] at hs; cases hs
  | ok d =>
  obtain ⟨m, t1⟩ := d
  rw [e1] at hs
  simp only at hs
  obtain ⟨H2, a2, g2, r2, l2⟩ := entryH_ok w.diags (⟨c.u, c.v, eqv⟩ : Ctx α) _ H1 a1 tab0 _ p _ m t1 r1 k1 e1
  cases e2 : backtrace (⟨c.u, c.v, eqv⟩ : Ctx α) (c.u.length + c.v.length + 1) (c.u.length + c.v.length + 1) t1 (c.v.length - c.u.length)
      (min c.u.length c.v.length) [] with
  | error f => rw [e2] at hs; cases hs
  | ok st =>
  rw [e2] at hs
  simp only [Except.ok.injEq, Prod.mk.injEq] at hs
  obtain ⟨rfl, rfl⟩ := hs
  have hp0 : Pile w.steps w.steps [] ([] : List (Step α)) := ⟨rfl, by simp⟩
  obtain ⟨H3, a3, t3, B3, ps, g3, r3, l3, hp3⟩ := backLoop_ok _ _ _ H2 a2 t1 w.steps _ p _ [] [] st r2 (l2 _ _ k1) hp0 e2
  obtain ⟨hloose, hnd, hmem, hold⟩ := hp3.loose
  have hne : st ≠ [] := by
    intro h0
    subst h0
    have : ∀ fuel t k i (stk : List (Step α)), backtrace (⟨c.u, c.v, eqv⟩ : Ctx α) (c.u.length + c.v.length + 1) fuel t k i stk ≠ .ok [] := by
      intro fuel
      induction fuel with
      | zero => intro t k i stk hh; cases hh
      | succ f ih =>
        intro t k i stk hh
        simp only [backtrace] at hh
        cases ea : opAt (⟨c.u, c.v, eqv⟩ : Ctx α) (c.u.length + c.v.length + 1) t k i with
        | error f => rw [ea] at hh; cases hh
        | ok o =>
        rw [ea] at hh
        simp only [bind, Except.bind] at hh
        cases eb : move (⟨c.u, c.v, eqv⟩ : Ctx α) k i o.1 with
        | error f => rw [eb] at hh; cases hh
        | ok mv =>
        rw [eb] at hh
        simp only at hh
        split at hh
        · cases hh
        · exact ih _ _ _ _ hh
    exact this _ _ _ _ _ e2
  obtain ⟨s0, sl, rfl⟩ : ∃ s0 sl, st = s0 :: sl := by
    cases st with
    | nil => exact absurd rfl hne
    | cons x l => exact ⟨x, l, rfl⟩
  obtain ⟨q, ps', rfl⟩ : ∃ q ps', ps = q :: ps' := by
    cases ps with
    | nil => exact absurd hloose.1 (by simp)
    | cons x l => exact ⟨x, l, rfl⟩
  obtain ⟨B4, g4, hc4, hlen4, hf4⟩ := link_ok ps' B3 q s0 sl hnd hloose
  have hBl : w.steps.length ≤ B3.length := by rw [hp3.all]; simp
  have hB4 : ∀ x, x < w.steps.length → B4[x]? = w.steps[x]? := by
    intro x hx
    rw [hf4 x (by rw [hmem]; omega), hold x hx]
  have hk3 := l3 _ _ (l2 _ _ k1)
  have hpge := r3.ge _ _ hk3
  have hdl : ∀ (j : Nat) (d : DD α) (x : Nat), w.dists[j]? = some (some d) → d.diagonal = some x → x < w.diags.length := by
    intro j d x ej hx
    obtain ⟨y, hy⟩ := hi.diag j d x ej hx
    exact Heap.lt_of_live hy
  refine ⟨⟨H3, B4, w.dists.set h (some { c with diagonal := some p, distance := m }), w.reports ++ [some q]⟩, own ++ [q :: ps'], ?_, ?_, ?_, ?_⟩
  · unfold solveH
    rw [Heap.load_ok e]
    simp only [bind, Except.bind, pure, Except.pure]
    rw [g1]
    simp only
    rw [g2]
    simp only
    rw [g3]
    simp only [finish, bind, Except.bind, pure, Except.pure]
    rw [g4]
    simp only
    rw [Heap.store_ok e]
  · have getD : ∀ (j : Nat) (d : DD α), (w.dists.set h (some { c with diagonal := some p, distance := m }))[j]? = some (some d) →
        (j = h ∧ d = { c with diagonal := some p, distance := m }) ∨ (j ≠ h ∧ w.dists[j]? = some (some d)) := by
      intro j d ej
      by_cases hj : j = h
      · subst hj
        rw [List.getElem?_set_self hl] at ej
        cases ej
        exact Or.inl ⟨rfl, rfl⟩
      · rw [List.getElem?_set_ne (Ne.symm hj)] at ej
        exact Or.inr ⟨hj, ej⟩
    have getO : ∀ (r : Nat) (l : List Nat), (own ++ [q :: ps'])[r]? = some l →
        (r < own.length ∧ own[r]? = some l) ∨ (r = own.length ∧ l = q :: ps') := by
      intro r l er
      by_cases hr : r < own.length
      · rw [List.getElem?_append_left hr] at er
        exact Or.inl ⟨hr, er⟩
      · rw [List.getElem?_append_right (by omega), List.getElem?_singleton] at er
        split at er
        · cases er; exact Or.inr ⟨by omega, rfl⟩
        · cases er
    have ownlt : ∀ (r : Nat) (l : List Nat) (x : Nat), own[r]? = some l → x ∈ l → x < w.steps.length := by
      intro r l x er hx
      have hr : r < a.reports.length := by rw [← hi.lenO]; exact (List.getElem?_eq_some_iff.1 er).1
      cases hrep : a.reports[r]? with
      | none => rw [List.getElem?_eq_none_iff] at hrep; omega
      | some o =>
        cases o with
        | none =>
          rw [(hi.dead r hrep).1] at er
          cases er
          simp at hx
        | some sr =>
          obtain ⟨p0, ps0, h1, h2, h3⟩ := hi.chain r sr hrep
          rw [h1] at er
          cases er
          obtain ⟨b, hb⟩ := h3.live x hx
          exact Heap.lt_of_live hb
    refine ⟨?_, ?_, ?_, ?_, ?_, ?_, ?_, ?_, ?_, ?_⟩
    · simp only [List.map_set, hi.dists]; rfl
    · intro j d x ej hx
      rcases getD j d ej with ⟨rfl, rfl⟩ | ⟨hj, ej⟩
      · simp only [Option.some.injEq] at hx
        subst hx
        exact ⟨_, r3.live _ _ hk3⟩
      · obtain ⟨y, hy⟩ := hi.diag j d x ej hx
        exact ⟨y, by show H3[x]? = _; rw [r3.old x (Heap.lt_of_live hy), hy]⟩
    · intro j j' d d' x ej ej' hx hx'
      rcases getD j d ej with ⟨rfl, rfl⟩ | ⟨hj, fj⟩ <;> rcases getD j' d' ej' with ⟨rfl, rfl⟩ | ⟨hj', fj'⟩
      · rfl
      · simp only [Option.some.injEq] at hx
        subst hx
        exact absurd (hdl _ _ _ fj' hx') (by omega)
      · simp only [Option.some.injEq] at hx'
        subst hx'
        exact absurd (hdl _ _ _ fj hx) (by omega)
      · exact hi.diff j j' d d' x fj fj' hx hx'
    · simp [hi.lenO]
    · simp [hi.lenW]
    · intro r sr er
      by_cases hr : r < a.reports.length
      · simp only at er
        rw [List.getElem?_append_left hr] at er
        obtain ⟨p0, ps0, h1, h2, h3⟩ := hi.chain r sr er
        refine ⟨p0, ps0, ?_, ?_, h3.append B4 (by omega) hB4⟩
        · rw [List.getElem?_append_left (by rw [hi.lenO]; exact hr), h1]
        · simp only
          rw [List.getElem?_append_left (by rw [hi.lenW]; exact hr), h2]
      · simp only at er
        rw [List.getElem?_append_right (by omega), List.getElem?_singleton] at er
        split at er
        · rename_i hr0
          simp only [Option.some.injEq] at er
          subst er
          have : r = a.reports.length := by omega
          subst this
          refine ⟨q, ps', ?_, ?_, hc4⟩
          · rw [← hi.lenO]; simp
          · simp only; rw [← hi.lenW]; simp
        · cases er
    · intro r er
      by_cases hr : r < a.reports.length
      · simp only at er
        rw [List.getElem?_append_left hr] at er
        obtain ⟨h1, h2⟩ := hi.dead r er
        refine ⟨?_, ?_⟩
        · rw [List.getElem?_append_left (by rw [hi.lenO]; exact hr), h1]
        · simp only
          rw [List.getElem?_append_left (by rw [hi.lenW]; exact hr), h2]
      · simp only at er
        rw [List.getElem?_append_right (by omega), List.getElem?_singleton] at er
        split at er <;> cases er
    · intro r l er
      rcases getO r l er with ⟨_, er⟩ | ⟨_, rfl⟩
      · exact hi.nodup r l er
      · exact hnd
    · intro r r' l l' x er er' hx hx'
      rcases getO r l er with ⟨_, er⟩ | ⟨hr, rfl⟩ <;> rcases getO r' l' er' with ⟨_, er'⟩ | ⟨hr', rfl⟩
      · exact hi.disj r r' l l' x er er' hx hx'
      · exact absurd (ownlt r l x er hx) (by have := (hmem x).1 hx'; omega)
      · exact absurd (ownlt r' l' x er' hx') (by have := (hmem x).1 hx; omega)
      · omega
    · intro x b hx
      by_cases hx0 : x < w.steps.length
      · simp only at hx
        rw [hB4 x hx0] at hx
        obtain ⟨r, l, h1, h2⟩ := hi.all x b hx
        exact ⟨r, l, by rw [List.getElem?_append_left (List.getElem?_eq_some_iff.1 h1).1, h1], h2⟩
      · have hx1 : x < B4.length := Heap.lt_of_live hx
        exact ⟨own.length, q :: ps', by simp, (hmem x).2 ⟨by omega, by omega⟩⟩
  · intro x hx
    exact r3.old x hx
  · refine ⟨_, p, rfl, rfl, hpge, ?_⟩
    intro hlen
    have hk0 : (c.v.length : Int) - c.u.length ≠ 0 := by omega
    obtain ⟨q0, hq0⟩ := r3.down _ _ hk0 hk3
    refine ⟨q0, r3.ge _ _ hq0, ?_, _, r3.live _ _ hq0⟩
    rintro rfl
    have := r3.inj _ _ _ hq0 hk3
    unfold below at this
    split at this
    · omega
    · omega

theorem call_ok (eqv : α → α → Bool) (sh : Show α) {w : World α} {a : Abs α} {own : List (List Nat)} (hi : Inv w a own) {c : Call α}
    {a' : Abs α} {o : Out} (he : acall eqv sh a c = .ok (a', o)) :
    ∃ w' own', call eqv sh w c = .ok (w', o) ∧ Inv w' a' own' := by
  cases c with
  | create =>
    simp only [acall, Except.ok.injEq, Prod.mk.injEq] at he
    obtain ⟨rfl, rfl⟩ := he
    exact ⟨_, own, rfl, hi.create⟩
  | addU h x =>
    simp only [acall] at he
    cases e1 : alive a.dists h with
    | error f => rw [e1] at he; cases he
    | ok d =>
    rw [e1] at he
    simp only [bind, Except.bind, pure, Except.pure, Except.ok.injEq, Prod.mk.injEq] at he
    obtain ⟨rfl, rfl⟩ := he
    obtain ⟨c, hc, rfl⟩ := hi.dist (alive_ok e1)
    refine ⟨_, own, ?_, hi.setDist (c' := { c with u := c.u ++ [x] }) hc rfl⟩
    simp only [call]
    rw [Heap.load_ok hc]
    simp only [bind, Except.bind, pure, Except.pure]
    rw [Heap.store_ok hc]
  | addV h x =>
    simp only [acall] at he
    cases e1 : alive a.dists h with
    | error f => rw [e1] at he; cases he
    | ok d =>
    rw [e1] at he
    simp only [bind, Except.bind, pure, Except.pure, Except.ok.injEq, Prod.mk.injEq] at he
    obtain ⟨rfl, rfl⟩ := he
    obtain ⟨c, hc, rfl⟩ := hi.dist (alive_ok e1)
    refine ⟨_, own, ?_, hi.setDist (c' := { c with v := c.v ++ [x] }) hc rfl⟩
    simp only [call]
    rw [Heap.load_ok hc]
    simp only [bind, Except.bind, pure, Except.pure]
    rw [Heap.store_ok hc]
  | solve h =>
    simp only [acall] at he
    cases e1 : alive a.dists h with
    | error f => rw [e1] at he; cases he
    | ok d =>
    rw [e1] at he
    simp only [bind, Except.bind, pure, Except.pure] at he
    obtain ⟨c, hc, rfl⟩ := hi.dist (alive_ok e1)
    cases e2 : Diff.solve ⟨(absD c).u, (absD c).v, eqv⟩ with
    | error f => rw [e2] at he; cases he
    | ok s =>
    rw [e2] at he
    simp only [Except.ok.injEq, Prod.mk.injEq] at he
    obtain ⟨rfl, rfl⟩ := he
    obtain ⟨n, s⟩ := s
    obtain ⟨w', own', g, i', _, _⟩ := solveH_ok eqv hi hc e2
    refine ⟨w', own', ?_, i'⟩
    simp only [call]
    rw [g]; rfl
  | distance h =>
    simp only [acall] at he
    cases e1 : alive a.dists h with
    | error f => rw [e1] at he; cases he
    | ok d =>
    rw [e1] at he
    simp only [bind, Except.bind, pure, Except.pure, Except.ok.injEq, Prod.mk.injEq] at he
    obtain ⟨rfl, rfl⟩ := he
    obtain ⟨c, hc, rfl⟩ := hi.dist (alive_ok e1)
    refine ⟨w, own, ?_, hi⟩
    simp only [call]
    rw [Heap.load_ok hc]
    rfl
  | clear h =>
    simp only [acall] at he
    cases e1 : alive a.dists h with
    | error f => rw [e1] at he; cases he
    | ok d =>
    rw [e1] at he
    simp only [bind, Except.bind, pure, Except.pure, Except.ok.injEq, Prod.mk.injEq] at he
    obtain ⟨rfl, rfl⟩ := he
    obtain ⟨c, hc, rfl⟩ := hi.dist (alive_ok e1)
    obtain ⟨w', g, i', _⟩ := clearH_ok hi hc
    exact ⟨w', own, by simp only [call]; rw [g]; rfl, i'⟩
  | destroy h =>
    simp only [acall] at he
    cases e1 : alive a.dists h with
    | error f => rw [e1] at he; cases he
    | ok d =>
    rw [e1] at he
    simp only [bind, Except.bind, pure, Except.pure, Except.ok.injEq, Prod.mk.injEq] at he
    obtain ⟨rfl, rfl⟩ := he
    obtain ⟨c, hc, rfl⟩ := hi.dist (alive_ok e1)
    obtain ⟨w', g, i', _⟩ := deleteDist_ok hi hc
    exact ⟨w', own, by simp only [call]; rw [g]; rfl, i'⟩
  | print r =>
    simp only [acall] at he
    cases e1 : alive a.reports r with
    | error f => rw [e1] at he; cases he
    | ok s =>
    rw [e1] at he
    simp only [bind, Except.bind, pure, Except.pure, Except.ok.injEq, Prod.mk.injEq] at he
    obtain ⟨rfl, rfl⟩ := he
    obtain ⟨p, ps, h1, h2, h3⟩ := hi.chain r s (alive_ok e1)
    have hlen := (hi.nodup r _ h1).length_le_of_subset (l₂ := List.range w.steps.length) fun x hx => by
      obtain ⟨b, hb⟩ := h3.live x hx
      exact List.mem_range.2 (Heap.lt_of_live hb)
    rw [List.length_cons, List.length_range] at hlen
    refine ⟨w, own, ?_, hi⟩
    simp only [call, held, h2, bind, Except.bind, pure, Except.pure]
    rw [printFrom_ok sh ps p s _ h3 (by omega)]
  | drop r =>
    simp only [acall] at he
    cases e1 : alive a.reports r with
    | error f => rw [e1] at he; cases he
    | ok s =>
    rw [e1] at he
    simp only [bind, Except.bind, pure, Except.pure, Except.ok.injEq, Prod.mk.injEq] at he
    obtain ⟨rfl, rfl⟩ := he
    have hr := alive_ok e1
    have hrl : r < a.reports.length := (List.getElem?_eq_some_iff.1 hr).1
    obtain ⟨p, ps, h1, h2, h3⟩ := hi.chain r s hr
    have hnd := hi.nodup r _ h1
    have hlen := hnd.length_le_of_subset (l₂ := List.range w.steps.length) fun x hx => by
      obtain ⟨b, hb⟩ := h3.live x hx
      exact List.mem_range.2 (Heap.lt_of_live hb)
    rw [List.length_cons, List.length_range] at hlen
    obtain ⟨B', g1, g2, g3, g4⟩ := deleteStep_ok ps p s w.steps (w.steps.length + 1) h3 hnd (by omega)
    refine ⟨{ w with steps := B', reports := w.reports.set r none }, own.set r [], ?_, ?_⟩
    · simp only [call, held, h2, bind, Except.bind, pure, Except.pure]
      rw [g1]
    · have getO : ∀ (j : Nat) (l : List Nat), (own.set r [])[j]? = some l → (j = r ∧ l = []) ∨ (j ≠ r ∧ own[j]? = some l) := by
        intro j l ej
        by_cases hj : j = r
        · subst hj
          rw [List.getElem?_set_self (by rw [hi.lenO]; exact hrl)] at ej
          cases ej
          exact Or.inl ⟨rfl, rfl⟩
        · rw [List.getElem?_set_ne (Ne.symm hj)] at ej
          exact Or.inr ⟨hj, ej⟩
      refine ⟨hi.dists, hi.diag, hi.diff, by simp [hi.lenO], by simp [hi.lenW], ?_, ?_, ?_, ?_, ?_⟩
      · intro j sj ej
        have hj : j ≠ r := by
          rintro rfl
          simp only at ej
          rw [List.getElem?_set_self hrl] at ej
          cases ej
        simp only at ej
        rw [List.getElem?_set_ne (Ne.symm hj)] at ej
        obtain ⟨p0, ps0, k1, k2, k3⟩ := hi.chain j sj ej
        refine ⟨p0, ps0, by rw [List.getElem?_set_ne (Ne.symm hj), k1], by simp only; rw [List.getElem?_set_ne (Ne.symm hj), k2], ?_⟩
        refine k3.congr fun x hx => g4 x fun hx' => ?_
        exact hj (hi.disj j r _ _ x k1 h1 hx hx')
      · intro j ej
        by_cases hj : j = r
        · subst hj
          refine ⟨by rw [List.getElem?_set_self (by rw [hi.lenO]; exact hrl)], by simp only; rw [List.getElem?_set_self (by rw [hi.lenW]; exact hrl)]⟩
        · simp only at ej ⊢
          rw [List.getElem?_set_ne (Ne.symm hj)] at ej
          rw [List.getElem?_set_ne (Ne.symm hj), List.getElem?_set_ne (Ne.symm hj)]
          exact hi.dead j ej
      · intro j l ej
        rcases getO j l ej with ⟨_, rfl⟩ | ⟨_, ej⟩
        · exact List.nodup_nil
        · exact hi.nodup j l ej
      · intro j j' l l' x ej ej' hx hx'
        rcases getO j l ej with ⟨_, rfl⟩ | ⟨_, ej⟩
        · simp at hx
        · rcases getO j' l' ej' with ⟨_, rfl⟩ | ⟨_, ej'⟩
          · simp at hx'
          · exact hi.disj j j' l l' x ej ej' hx hx'
      · intro x b hx
        simp only at hx
        by_cases hxp : x ∈ p :: ps
        · rw [g3 x hxp] at hx; cases hx
        · rw [g4 x hxp] at hx
          obtain ⟨j, l, k1, k2⟩ := hi.all x b hx
          have hj : j ≠ r := by
            rintro rfl
            rw [h1] at k1; cases k1
            exact hxp k2
          exact ⟨j, l, by rw [List.getElem?_set_ne (Ne.symm hj), k1], k2⟩

theorem run_ok (eqv : α → α → Bool) (sh : Show α) : ∀ (cs : List (Call α)) (w : World α) (a : Abs α) (own : List (List Nat)) (a' : Abs α) (o : List Out),
    Inv w a own → arun eqv sh a cs = .ok (a', o) → ∃ w' own', run eqv sh w cs = .ok (w', o) ∧ Inv w' a' own' := by
  intro cs
  induction cs with
  | nil =>
    intro w a own a' o hi he
    simp only [arun, Except.ok.injEq, Prod.mk.injEq] at he
    obtain ⟨rfl, rfl⟩ := he
    exact ⟨w, own, rfl, hi⟩
  | cons c cs ih =>
    intro w a own a' o hi he
    simp only [arun] at he
    cases e1 : acall eqv sh a c with
    | error f => rw [e1] at he; cases he
    | ok r =>
    obtain ⟨a1, o1⟩ := r
    rw [e1] at he
    simp only [bind, Except.bind, pure, Except.pure] at he
    cases e2 : arun eqv sh a1 cs with
    | error f => rw [e2] at he; cases he
    | ok r =>
    obtain ⟨a2, o2⟩ := r
    rw [e2] at he
    simp only [Except.ok.injEq, Prod.mk.injEq] at he
    obtain ⟨rfl, rfl⟩ := he
    obtain ⟨w1, own1, g1, i1⟩ := call_ok eqv sh hi e1
    obtain ⟨w2, own2, g2, i2⟩ := ih w1 a1 own1 a2 o2 i1 e2
    refine ⟨w2, own2, ?_, i2⟩
    simp only [run, bind, Except.bind, pure, Except.pure]
    rw [g1]
    simp only
    rw [g2]

end Verif.DiffMem
