import Verif.UndoRef.ListSim
/-
Every action on lists follows the specification: inserting before an element, removing.
-/
namespace Verif.UndoRef
open Verif Verif.UndoRef.Spec

variable {w : ListSpec.World} {s : State} {h : Hist}

/-- what an element in the middle knows -/
theorem Sim.middle (i : Sim w s h) {l : Obj} (hl : w.isList l = true) {as bs : List Item} {y : Item} (hs : w.hist.now.seq l = as ++ y :: bs) :
    h.now.cells (prevCell y.1) = (ids as).getLast? ∧ h.now.cells (nextCell y.1) = (ids bs).head? ∧
    Seg h.now.cells none (ids as) (some y.1) ∧ Seg h.now.cells (some y.1) (ids bs) none ∧
    (ids as).Nodup ∧ (y.1 :: ids bs).Nodup ∧ (∀ e ∈ ids as, e ≠ y.1 ∧ e ∉ ids bs) ∧ (∀ e ∈ ids bs, e ≠ y.1) ∧
    (h.now.cells (startCell l) = some y.1 ↔ (ids as).getLast? = none) ∧ (h.now.cells (endCell l) = some y.1 ↔ (ids bs).head? = none) := by
  have hids : ids (w.hist.now.seq l) = ids as ++ y.1 :: ids bs := by rw [hs]; simp [ids]
  have hseg := i.rels.now.seg l
  have hnd := i.rels.now.nodup l
  have hstart := i.rels.now.start l hl
  have hlast := i.rels.now.last l hl
  rw [hids] at hseg hnd hstart hlast
  rw [Seg.append] at hseg
  obtain ⟨g1, g2, g3, g4⟩ := hseg
  obtain ⟨n1, n2, n3⟩ := List.nodup_append.1 hnd
  have n4 := List.nodup_cons.1 n2
  simp only [Option.or_none, List.head?_cons, Option.some_or] at g1 g2 g3
  have m1 : ∀ e ∈ ids as, e ≠ y.1 ∧ e ∉ ids bs := fun e he => ⟨fun e' => n3 e he y.1 (.head _) e', fun h' => n3 e he e (.tail _ h') rfl⟩
  have m2 : ∀ e ∈ ids bs, e ≠ y.1 := fun e he e' => n4.1 (e' ▸ he)
  refine ⟨g2, g3, g1, g4, n1, n2, m1, m2, ?_, ?_⟩
  · rw [hstart]
    cases has : ids as with
    | nil => simp
    | cons a b =>
      have := (m1 a (by rw [has]; exact .head _)).1
      simp [this]
  · rw [hlast]
    cases hbs : ids bs with
    | nil => simp
    | cons a b =>
      constructor
      · intro h1
        rw [List.getLast?_append, List.getLast?_cons_cons] at h1
        have h2 : (a :: b).getLast? = some y.1 := by
          cases h3 : (a :: b).getLast? with
          | none => simp at h3
          | some z => rw [h3] at h1; simpa using h1
        have h3 := List.mem_of_getLast? h2
        rw [← hbs] at h3
        exact absurd rfl (m2 _ h3)
      · intro h1; cases h1

theorem addBefore_sim (i : Sim w s h) {l : Obj} {d : Option Obj} (hl : w.isList l = true) (hd : ∀ v, d = some v → 1 ≤ w.hist.now.refs v ∧ w.isElem v = false)
    {as bs : List Item} {y : Item} (hs : w.hist.now.seq l = as ++ y :: bs) :
    ∃ s' h', (do let s ← registerRef (fresh1 s w.n) w.n (dataCell w.n)
                 let s := setCell s (dataCell w.n) d
                 let s ← registerAddBefore s l y.1 w.n
                 Except.ok (linkAddBefore s l y.1 w.n) : Res State) = .ok s' ∧ Sim (w.insert l (as ++ (w.n, d) :: y :: bs)) s' h' := by
  have hc := i.inv.cells
  have hids : ids (w.hist.now.seq l) = ids as ++ y.1 :: ids bs := by rw [hs]; simp [ids]
  obtain ⟨q1, q2, q3, q4, q5, q6, q7, q8, q9, q10⟩ := i.middle hl hs
  have hnl : w.n ≠ l := Nat.ne_of_gt (i.ok.listLt l hl)
  have hfr : ∀ k, h.now.cells (w.n, k) = none := fun k => i.rels.now.fresh _ (Nat.le_refl _)
  have hin : ∀ e, e ∈ ids as ∨ e = y.1 ∨ e ∈ ids bs → e ∈ ids (w.hist.now.seq l) := fun e he => by rw [hids]; simpa using he
  have hyin := hin y.1 (.inr (.inl rfl))
  have hyn := (i.elem hyin).2.1
  have hyl := i.notList hl hyin
  obtain ⟨a, ha⟩ : ∃ a, (ids as).getLast? = a := ⟨_, rfl⟩
  have ham : ∀ x, a = some x → x ∈ ids as := fun x e => List.mem_of_getLast? (ha.trans e)
  rw [ha] at q1 q9
  have han : a ≠ some w.n := fun e => (i.elem (hin _ (.inl (ham _ e)))).2.1 rfl
  have hdist : Distinct ((w.n, dataCell w.n, d) :: beforeWrites l y.1 w.n a) := by
    refine List.nodup_cons.2 ⟨?_, beforeWrites_distinct hnl (Ne.symm hyn) hyl han⟩
    cases a <;> simp [beforeWrites, dataCell, prevCell, nextCell, startCell, hnl]
  obtain ⟨bl, hexec⟩ := addBefore_exec (s := s) (list := l) (before := y.1) (n := w.n) d (a := a) (fun k => by rw [hc]; exact hfr k) hnl (Ne.symm hyn) hyl han
    (by rw [hc]; exact q1) (by rw [hc]; exact q9)
  obtain ⟨k1, k2, k3⟩ := i.insertElems (l := l) (d := d) (xs := as ++ (w.n, d) :: y :: bs) hd (fun x hx => by
    rw [hs]
    simp only [List.mem_append, List.mem_cons] at hx ⊢
    tauto)
  have hidx : ids (as ++ (w.n, d) :: y :: bs) = ids as ++ w.n :: y.1 :: ids bs := by simp [ids]
  have hmem : ∀ x : Write, x ∈ (w.n, dataCell w.n, d) :: beforeWrites l y.1 w.n a → writes h.now.cells ((w.n, dataCell w.n, d) :: beforeWrites l y.1 w.n a) x.2.1 = x.2.2 :=
    fun x hx => writes_mem hdist hx
  have hoth : ∀ c : Cell, c ≠ dataCell w.n → c ≠ prevCell w.n → c ≠ nextCell w.n → (a = none → c ≠ startCell l) → c ≠ prevCell y.1 → (∀ x, a = some x → c ≠ nextCell x) →
      writes h.now.cells ((w.n, dataCell w.n, d) :: beforeWrites l y.1 w.n a) c = h.now.cells c := fun c g1 g2 g3 g4 g5 g6 => by
    refine writes_other (fun x hx => ?_)
    rcases List.mem_cons.1 hx with rfl | hx
    · exact Ne.symm g1
    · cases a with
      | none =>
        simp only [beforeWrites, List.mem_cons, List.not_mem_nil, or_false] at hx
        rcases hx with rfl | rfl | rfl | rfl
        · exact Ne.symm g2
        · exact Ne.symm g3
        · exact Ne.symm (g4 rfl)
        · exact Ne.symm g5
      | some x =>
        simp only [beforeWrites, List.mem_cons, List.not_mem_nil, or_false] at hx
        rcases hx with rfl | rfl | rfl | rfl
        · exact Ne.symm g2
        · exact Ne.symm g3
        · exact Ne.symm g5
        · exact Ne.symm (g6 x rfl)
  have hnotin : w.n ∉ ids (w.hist.now.seq l) := fun h1 => (i.elem h1).2.1 rfl
  obtain ⟨s', bs', h', e1, i1⟩ := insert_sim i (xs := as ++ (w.n, d) :: y :: bs) (ws := (w.n, dataCell w.n, d) :: beforeWrites l y.1 w.n a) hl hdist (List.cons_ne_nil _ _)
    (fun x hx => by
      have hL := shift_pos w.n (i.rels.now.lists l hl)
      have hN := i.shift_new
      have hY := shift_pos w.n (i.elem hyin).2.2
      rcases List.mem_cons.1 hx with rfl | hx
      · exact ⟨hN, hN, (fun v hv => by rw [show h.now.cells (dataCell w.n) = none from hfr _] at hv; cases hv), fun v hv => shift_pos _ (hd v hv).1⟩
      · cases a with
        | none =>
          simp only [beforeWrites, List.mem_cons, List.not_mem_nil, or_false] at hx
          rcases hx with rfl | rfl | rfl | rfl
          · exact ⟨hN, hN, (fun v hv => by rw [show h.now.cells (prevCell w.n) = none from hfr _] at hv; cases hv), fun v hv => by cases hv⟩
          · exact ⟨hN, hN, (fun v hv => by rw [show h.now.cells (nextCell w.n) = none from hfr _] at hv; cases hv), fun v hv => by cases hv; exact hY⟩
          · exact ⟨hL, hL, (fun v hv => by rw [q9.2 rfl] at hv; cases hv; exact hY), fun v hv => by cases hv; exact hN⟩
          · exact ⟨hY, hY, (fun v hv => by rw [q1] at hv; cases hv), fun v hv => by cases hv; exact hN⟩
        | some x =>
          have hX := shift_pos w.n (i.elem (hin _ (.inl (ham x rfl)))).2.2
          simp only [beforeWrites, List.mem_cons, List.not_mem_nil, or_false] at hx
          rcases hx with rfl | rfl | rfl | rfl
          · exact ⟨hN, hN, (fun v hv => by rw [show h.now.cells (prevCell w.n) = none from hfr _] at hv; cases hv), fun v hv => by cases hv; exact hX⟩
          · exact ⟨hN, hN, (fun v hv => by rw [show h.now.cells (nextCell w.n) = none from hfr _] at hv; cases hv), fun v hv => by cases hv; exact hY⟩
          · exact ⟨hY, hY, (fun v hv => by rw [q1] at hv; cases hv; exact hX), fun v hv => by cases hv; exact hN⟩
          · refine ⟨hY, hX, fun v hv => ?_, fun v hv => by cases hv; exact hN⟩
            obtain ⟨as', has⟩ := List.getLast?_eq_some_iff.1 ha
            rw [has, Seg.append] at q3
            have := q3.2.2.1
            simp only [List.head?_nil, Option.none_or] at this
            rw [show (y.1, nextCell x, some w.n).2.1 = nextCell x from rfl, this] at hv
            cases hv; exact hY)
    (by
      rw [hidx]
      cases a with
      | none =>
        have he : ids as = [] := List.getLast?_eq_none_iff.1 ha
        rw [he]
        exact hmem (l, startCell l, some w.n) (by simp [beforeWrites])
      | some x =>
        rw [hoth _ (by simp [startCell, dataCell, Ne.symm hnl]) (by simp [startCell, prevCell]) (by simp [startCell, nextCell]) (fun e => by cases e)
          (by simp [startCell, prevCell]) (fun x _ => by simp [startCell, nextCell]), i.rels.now.start l hl, hids]
        have : ids as ≠ [] := fun e => by rw [e] at ha; cases ha
        cases h5 : ids as with
        | nil => exact absurd h5 this
        | cons p q => rfl)
    (by
      rw [hidx, hoth _ (by simp [endCell, dataCell]) (by simp [endCell, prevCell, Ne.symm hnl]) (by simp [endCell, nextCell]) (fun _ => by simp [startCell, endCell])
        (by simp [endCell, prevCell, Ne.symm hyl]) (fun x _ => by simp [endCell, nextCell]), i.rels.now.last l hl, hids]
      simp only [List.getLast?_append, List.getLast?_cons_cons])
    (by
      rw [hidx, Seg.append]
      have hpn : writes h.now.cells ((w.n, dataCell w.n, d) :: beforeWrites l y.1 w.n a) (prevCell w.n) = a := by
        cases a with
        | none => exact hmem (w.n, prevCell w.n, none) (by simp [beforeWrites])
        | some x => exact hmem (w.n, prevCell w.n, some x) (by simp [beforeWrites])
      have hnn : writes h.now.cells ((w.n, dataCell w.n, d) :: beforeWrites l y.1 w.n a) (nextCell w.n) = some y.1 :=
        hmem (w.n, nextCell w.n, some y.1) (by cases a <;> simp [beforeWrites])
      have hpy : writes h.now.cells ((w.n, dataCell w.n, d) :: beforeWrites l y.1 w.n a) (prevCell y.1) = some w.n :=
        hmem (y.1, prevCell y.1, some w.n) (by cases a <;> simp [beforeWrites])
      refine ⟨?_, by rw [ha, Option.or_none]; exact hpn, by rw [hnn]; rfl, ?_⟩
      · cases a with
        | none =>
          have he : ids as = [] := List.getLast?_eq_none_iff.1 ha
          rw [he]; trivial
        | some x =>
          obtain ⟨as', has⟩ := List.getLast?_eq_some_iff.1 ha
          have hxx : ∀ e ∈ ids as, e ≠ w.n ∧ e ≠ y.1 := fun e he => ⟨(i.elem (hin _ (.inl he))).2.1, (q7 e he).1⟩
          have q3' := q3
          have q5' := q5
          rw [has] at q3' q5' hxx ⊢
          refine q3'.setNext q5' (hmem (y.1, nextCell x, some w.n) (by simp [beforeWrites])) (fun e he => ?_)
          have g1 := hxx e he
          refine ⟨hoth _ (by simp [dataCell, prevCell]) (by simp [prevCell, g1.1]) (by simp [prevCell, nextCell]) (fun e => by cases e) (by simp [prevCell, g1.2])
            (fun x _ => by simp [prevCell, nextCell]), fun hey => hoth _ (by simp [dataCell, nextCell]) (by simp [prevCell, nextCell]) (by simp [nextCell, g1.1])
              (fun e => by cases e) (by simp [nextCell, prevCell]) (fun z hz => by cases hz; simp [nextCell, hey])⟩
      · have hb : Seg h.now.cells a (y.1 :: ids bs) none := ⟨q1, by rw [Option.or_none]; exact q2, q4⟩
        refine hb.setPrev q6 hpy (fun e he => ?_)
        have he' : e ∈ ids (w.hist.now.seq l) := hin e (by rcases List.mem_cons.1 he with h1 | h1; exact .inr (.inl h1); exact .inr (.inr h1))
        have g1 := (i.elem he').2.1
        refine ⟨hoth _ (by simp [dataCell, nextCell]) (by simp [prevCell, nextCell]) (by simp [nextCell, g1]) (fun _ => by simp [nextCell, startCell]) (by simp [nextCell, prevCell])
          (fun z hz => ?_), fun hey => hoth _ (by simp [dataCell, prevCell]) (by simp [prevCell, g1]) (by simp [prevCell, nextCell]) (fun _ => by simp [prevCell, startCell])
            (by simp [prevCell, hey]) (fun z _ => by simp [prevCell, nextCell])⟩
        have hz1 := q7 z (ham z hz)
        have : e ≠ z := fun e' => by
          rcases List.mem_cons.1 he with h1 | h1
          · exact hz1.1 (e'.symm.trans h1)
          · exact hz1.2 (e' ▸ h1)
        simp [nextCell, this])
    (fun x hx => by
      have hx' : x ∈ w.hist.now.seq l ∨ x = (w.n, d) := by
        rw [hs]
        simp only [List.mem_append, List.mem_cons] at hx ⊢
        tauto
      rcases hx' with h1 | h1
      · have h2 := i.elem (List.mem_map.2 ⟨x, h1, rfl⟩ : x.1 ∈ ids (w.hist.now.seq l))
        have h3 := i.notList hl (List.mem_map.2 ⟨x, h1, rfl⟩ : x.1 ∈ ids (w.hist.now.seq l))
        rw [hoth _ (by simp [dataCell, h2.2.1]) (by simp [dataCell, prevCell]) (by simp [dataCell, nextCell]) (fun _ => by simp [dataCell, startCell, h3]) (by simp [dataCell, prevCell])
          (fun x _ => by simp [dataCell, nextCell])]
        exact i.rels.now.data l x h1
      · rw [h1]
        exact hmem (w.n, dataCell w.n, d) (.head _))
    k1 k2
    (by
      rw [hidx]
      have hnd := i.rels.now.nodup l
      rw [hids] at hnd hnotin
      exact (List.perm_middle (a := w.n) (l₁ := ids as) (l₂ := y.1 :: ids bs)).nodup_iff.2 (List.nodup_cons.2 ⟨hnotin, hnd⟩))
    k3
    (fun c g1 g2 g3 => by
      rw [hidx] at g3
      rw [hids] at g2
      have g4 : c.1 ≠ w.n := fun e => g3 (by simp [e])
      have g5 : c.1 ≠ y.1 := fun e => g2 (by simp [e])
      exact hoth c (fun e => g4 (by rw [e]; rfl)) (fun e => g4 (by rw [e]; rfl)) (fun e => g4 (by rw [e]; rfl)) (fun _ e => g1 (by rw [e]; rfl)) (fun e => g5 (by rw [e]; rfl))
        (fun x hx e => g2 (by rw [e]; exact List.mem_append_left _ (ham x hx))))
  rw [hexec] at e1
  revert e1
  cases (do let s ← registerRef (fresh1 s w.n) w.n (dataCell w.n)
            let s := setCell s (dataCell w.n) d
            let s ← registerAddBefore s l y.1 w.n
            Except.ok (linkAddBefore s l y.1 w.n) : Res State) with
  | error e => intro e1; cases e1
  | ok t =>
    intro e1
    simp only [Except.map, Except.ok.injEq, Prod.mk.injEq] at e1
    exact ⟨s', h', by rw [e1.2.1], i1⟩

theorem remove_sim (i : Sim w s h) {l : Obj} (hl : w.isList l = true) {as bs : List Item} {y : Item} (hs : w.hist.now.seq l = as ++ y :: bs) :
    ∃ s' h', listRemove s l y.1 = .ok s' ∧ Sim (w.removeOne l y.1 (as ++ bs)) s' h' := by
  have hc := i.inv.cells
  have hr := i.rels.now.refs
  have hids : ids (w.hist.now.seq l) = ids as ++ y.1 :: ids bs := by rw [hs]; simp [ids]
  obtain ⟨q1, q2, q3, q4, q5, q6, q7, q8, q9, q10⟩ := i.middle hl hs
  have hin : ∀ e, e ∈ ids as ∨ e = y.1 ∨ e ∈ ids bs → e ∈ ids (w.hist.now.seq l) := fun e he => by rw [hids]; simpa using he
  have hyin := hin y.1 (.inr (.inl rfl))
  have hyl := i.notList hl hyin
  have hY := (i.elem hyin).2.2
  have hL := i.rels.now.lists l hl
  obtain ⟨p, hp⟩ : ∃ p, (ids as).getLast? = p := ⟨_, rfl⟩
  obtain ⟨q, hq⟩ : ∃ q, (ids bs).head? = q := ⟨_, rfl⟩
  have hpm : ∀ x, p = some x → x ∈ ids as := fun x e => List.mem_of_getLast? (hp.trans e)
  have hqm : ∀ x, q = some x → x ∈ ids bs := fun x e => List.mem_of_head? (hq.trans e)
  rw [hp] at q1 q9
  rw [hq] at q2 q10
  have hpe : p ≠ some y.1 := fun e => (q7 _ (hpm _ e)).1 rfl
  have hqe : q ≠ some y.1 := fun e => q8 _ (hqm _ e) rfl
  have hql : q ≠ some l := fun e => i.notList hl (hin _ (.inr (.inr (hqm _ e)))) rfl
  have hpl : p ≠ some l := fun e => i.notList hl (hin _ (.inl (hpm _ e))) rfl
  have hP : ∀ x, p = some x → 1 ≤ w.hist.now.refs x := fun x e => (i.elem (hin _ (.inl (hpm x e)))).2.2
  have hQ : ∀ x, q = some x → 1 ≤ w.hist.now.refs x := fun x e => (i.elem (hin _ (.inr (.inr (hqm x e))))).2.2
  have hpq : ∀ x z, p = some x → q = some z → x ≠ z := fun x z e1 e2 e => (q7 x (hpm x e1)).2 (e ▸ hqm z e2)
  have hdist : Distinct (removeWrites l y.1 p q) := removeWrites_distinct hyl hpe hqe
  obtain ⟨bl, hexec⟩ := remove_exec w.n (s := s) (list := l) (e := y.1) (p := p) (q := q) (by rw [hc]; exact q1) (by rw [hc]; exact q2) (by rw [hc]; exact q9)
    (by rw [hc]; exact q10) hyl hpe hqe hql (i.touch hY)
  obtain ⟨f, hf⟩ : ∃ f, writes h.now.cells (removeWrites l y.1 p q) = f := ⟨_, rfl⟩
  have hmem : ∀ x : Write, x ∈ removeWrites l y.1 p q → f x.2.1 = x.2.2 := fun x hx => by rw [← hf]; exact writes_mem hdist hx
  have hoth : ∀ c : Cell, c ≠ prevCell y.1 → c ≠ nextCell y.1 → (p = none → c ≠ startCell l) → (q = none → c ≠ endCell l) → (∀ x, p = some x → c ≠ nextCell x) →
      (∀ x, q = some x → c ≠ prevCell x) → f c = h.now.cells c := fun c g1 g2 g3 g4 g5 g6 => by
    rw [← hf]
    refine writes_other (fun x hx => ?_)
    cases p with
    | none =>
      cases q with
      | none =>
        simp only [removeWrites, List.mem_cons, List.not_mem_nil, or_false] at hx
        rcases hx with rfl | rfl | rfl | rfl
        exacts [Ne.symm (g3 rfl), Ne.symm (g4 rfl), Ne.symm g1, Ne.symm g2]
      | some q =>
        simp only [removeWrites, List.mem_cons, List.not_mem_nil, or_false] at hx
        rcases hx with rfl | rfl | rfl | rfl
        exacts [Ne.symm (g6 q rfl), Ne.symm (g3 rfl), Ne.symm g1, Ne.symm g2]
    | some p =>
      cases q with
      | none =>
        simp only [removeWrites, List.mem_cons, List.not_mem_nil, or_false] at hx
        rcases hx with rfl | rfl | rfl | rfl
        exacts [Ne.symm (g5 p rfl), Ne.symm (g4 rfl), Ne.symm g1, Ne.symm g2]
      | some q =>
        simp only [removeWrites, List.mem_cons, List.not_mem_nil, or_false] at hx
        rcases hx with rfl | rfl | rfl | rfl
        exacts [Ne.symm (g5 p rfl), Ne.symm (g6 q rfl), Ne.symm g1, Ne.symm g2]
  have hfine : ∀ x ∈ removeWrites l y.1 p q, Fine h.now.refs h.now.cells x := fun x hx => by
    rw [hr]
    have hPE : Fine w.hist.now.refs h.now.cells (y.1, prevCell y.1, none) := ⟨hY, hY, (fun v hv => hP v (q1.symm.trans hv)), fun v hv => by cases hv⟩
    have hNE : Fine w.hist.now.refs h.now.cells (y.1, nextCell y.1, none) := ⟨hY, hY, (fun v hv => hQ v (q2.symm.trans hv)), fun v hv => by cases hv⟩
    have hpn : ∀ x, p = some x → h.now.cells (nextCell x) = some y.1 := fun x e => by
      obtain ⟨as', has⟩ := List.getLast?_eq_some_iff.1 (hp.trans e)
      have q3' := q3
      rw [has, Seg.append] at q3'
      have := q3'.2.2.1
      simpa using this
    have hnp : ∀ x, q = some x → h.now.cells (prevCell x) = some y.1 := fun x e => by
      cases hb : ids bs with
      | nil => rw [hb] at hq; rw [← hq] at e; cases e
      | cons z zs =>
        rw [hb] at hq q4
        rw [← hq] at e
        cases e
        exact q4.1
    cases p with
    | none =>
      cases q with
      | none =>
        simp only [removeWrites, List.mem_cons, List.not_mem_nil, or_false] at hx
        rcases hx with rfl | rfl | rfl | rfl
        · exact ⟨hL, hL, (fun v hv => by rw [q9.2 rfl] at hv; cases hv; exact hY), fun v hv => by cases hv⟩
        · exact ⟨hL, hL, (fun v hv => by rw [q10.2 rfl] at hv; cases hv; exact hY), fun v hv => by cases hv⟩
        · exact hPE
        · exact hNE
      | some q =>
        simp only [removeWrites, List.mem_cons, List.not_mem_nil, or_false] at hx
        rcases hx with rfl | rfl | rfl | rfl
        · exact ⟨hQ q rfl, hQ q rfl, (fun v hv => by rw [hnp q rfl] at hv; cases hv; exact hY), fun v hv => by cases hv⟩
        · exact ⟨hL, hL, (fun v hv => by rw [q9.2 rfl] at hv; cases hv; exact hY), fun v hv => by cases hv; exact hQ q rfl⟩
        · exact hPE
        · exact hNE
    | some p =>
      cases q with
      | none =>
        simp only [removeWrites, List.mem_cons, List.not_mem_nil, or_false] at hx
        rcases hx with rfl | rfl | rfl | rfl
        · exact ⟨hP p rfl, hP p rfl, (fun v hv => by rw [hpn p rfl] at hv; cases hv; exact hY), fun v hv => by cases hv⟩
        · exact ⟨hL, hL, (fun v hv => by rw [q10.2 rfl] at hv; cases hv; exact hY), fun v hv => by cases hv; exact hP p rfl⟩
        · exact hPE
        · exact hNE
      | some q =>
        simp only [removeWrites, List.mem_cons, List.not_mem_nil, or_false] at hx
        rcases hx with rfl | rfl | rfl | rfl
        · exact ⟨hP p rfl, hP p rfl, (fun v hv => by rw [hpn p rfl] at hv; cases hv; exact hY), fun v hv => by cases hv; exact hQ q rfl⟩
        · exact ⟨hQ q rfl, hQ q rfl, (fun v hv => by rw [hnp q rfl] at hv; cases hv; exact hY), fun v hv => by cases hv; exact hP p rfl⟩
        · exact hPE
        · exact hNE
  have hne : removeWrites l y.1 p q ≠ [] := by cases p <;> cases q <;> exact List.cons_ne_nil _ _
  -- the history
  have hLeg : Legal (h.edit ⟨writes h.now.cells (removeWrites l y.1 p q), h.now.refs⟩) [.other l, .release y.1] := by
    refine ⟨?_, ?_, trivial⟩
    · show 1 ≤ ((h.edit _).base l : Int) + (h.edit _).now.refs l
      rw [edit_now]
      have : (0 : Int) ≤ ((h.edit ⟨writes h.now.cells (removeWrites l y.1 p q), h.now.refs⟩).base l : Int) := Int.natCast_nonneg _
      show 1 ≤ _ + h.now.refs l
      rw [hr]
      omega
    · show 1 ≤ ((h.edit _).edit (h.edit _).now).now.refs y.1
      rw [edit_now, edit_now]
      show 1 ≤ h.now.refs y.1
      rw [hr]; exact hY
  obtain ⟨hl1, hl2⟩ := legal_acts (ws := removeWrites l y.1 p q) (h := h) (as := [.other l, .release y.1]) hdist hfine hne hLeg
  obtain ⟨s', e1, i1⟩ := run_ok _ i.inv hl1
  have hrun : (h.run (acts (removeWrites l y.1 p q) ++ [.other l, .release y.1])).1 = h.edit ⟨f, upd w.hist.now.refs y.1 (w.hist.now.refs y.1 - 1)⟩ := by
    rw [hl2, hf]
    simp only [Hist.run, Hist.step, edit_now, edit_edit, hr]
  rw [hrun, (edit_base _ _).2, i.n] at e1
  rw [hrun] at i1
  -- the pointers
  have hidx : ids (as ++ bs) = ids as ++ ids bs := by simp [ids]
  have hsub : ∀ x ∈ as ++ bs, x ∈ w.hist.now.seq l := fun x hx => by
    rw [hs]
    simp only [List.mem_append, List.mem_cons] at hx ⊢
    tauto
  have hney : ∀ e ∈ ids (as ++ bs), e ≠ y.1 := fun e he => by
    rw [hidx] at he
    rcases List.mem_append.1 he with h1 | h1
    · exact (q7 e h1).1
    · exact q8 e h1
  have hR : R (roles w) ⟨upd w.hist.now.seq l (as ++ bs), upd w.hist.now.refs y.1 (w.hist.now.refs y.1 - 1)⟩ ⟨f, upd w.hist.now.refs y.1 (w.hist.now.refs y.1 - 1)⟩ := by
    refine i.rels.now.relist i.ok hl ?_ ?_ ?_ ?_ ?_ ?_ ?_ ?_ ?_ ?_
    · rw [hidx]
      cases p with
      | none =>
        have he : ids as = [] := List.getLast?_eq_none_iff.1 hp
        rw [he, List.nil_append, hq]
        cases q with
        | none => exact hmem (l, startCell l, none) (by simp [removeWrites])
        | some q => exact hmem (l, startCell l, some q) (by simp [removeWrites])
      | some x =>
        rw [hoth _ (by simp [startCell, prevCell]) (by simp [startCell, nextCell]) (fun e => by cases e) (fun _ => by simp [startCell, endCell]) (fun x _ => by simp [startCell, nextCell])
          (fun x _ => by simp [startCell, prevCell]), i.rels.now.start l hl, hids]
        have : ids as ≠ [] := fun e => by rw [e] at hp; cases hp
        cases h5 : ids as with
        | nil => exact absurd h5 this
        | cons a b => rfl
    · rw [hidx]
      cases q with
      | none =>
        have he : ids bs = [] := List.head?_eq_none_iff.1 hq
        rw [he, List.append_nil, hp]
        cases p with
        | none => exact hmem (l, endCell l, none) (by simp [removeWrites])
        | some p => exact hmem (l, endCell l, some p) (by simp [removeWrites])
      | some x =>
        have hxl : x ≠ l := fun e => hql (by rw [e])
        rw [hoth _ (by simp [endCell, prevCell, Ne.symm hyl]) (by simp [endCell, nextCell]) (fun _ => by simp [startCell, endCell]) (fun e => by cases e) (fun x _ => by simp [endCell, nextCell])
          (fun z hz => by cases hz; simp [endCell, prevCell, Ne.symm hxl]), i.rels.now.last l hl, hids]
        cases h5 : ids bs with
        | nil => rw [h5] at hq; cases hq
        | cons a b => simp only [List.getLast?_append, List.getLast?_cons_cons]
    · rw [hidx, Seg.append]
      constructor
      · rw [hq, Option.or_none]
        cases p with
        | none =>
          have he : ids as = [] := List.getLast?_eq_none_iff.1 hp
          rw [he]; trivial
        | some x =>
          obtain ⟨as', has⟩ := List.getLast?_eq_some_iff.1 hp
          have hxx : ∀ e ∈ ids as, e ≠ y.1 ∧ (∀ z, q = some z → e ≠ z) ∧ e ≠ l := fun e he =>
            ⟨(q7 e he).1, fun z hz e' => (q7 e he).2 (e' ▸ hqm z hz), i.notList hl (hin e (.inl he))⟩
          have q3' := q3
          have q5' := q5
          rw [has] at q3' q5' hxx ⊢
          refine q3'.setNext q5' ?_ (fun e he => ?_)
          · cases q with
            | none => exact hmem (x, nextCell x, none) (by simp [removeWrites])
            | some z => exact hmem (x, nextCell x, some z) (by simp [removeWrites])
          · obtain ⟨g1, g2, g3⟩ := hxx e he
            refine ⟨hoth _ (by simp [prevCell, g1]) (by simp [prevCell, nextCell]) (fun e => by cases e) (fun _ => by simp [prevCell, endCell, g3]) (fun x _ => by simp [prevCell, nextCell])
              (fun z hz => by simp [prevCell, g2 z hz]), fun hey => hoth _ (by simp [nextCell, prevCell]) (by simp [nextCell, g1]) (fun e => by cases e) (fun _ => by simp [nextCell, endCell])
                (fun z hz => by cases hz; simp [nextCell, hey]) (fun z _ => by simp [nextCell, prevCell])⟩
      · rw [hp, Option.or_none]
        cases hb : ids bs with
        | nil => trivial
        | cons z zs =>
          have hqz : q = some z := by rw [← hq, hb]; rfl
          have hxx : ∀ e ∈ ids bs, e ≠ y.1 ∧ (∀ z, p = some z → e ≠ z) ∧ e ≠ l := fun e he =>
            ⟨q8 e he, fun z hz e' => (q7 z (hpm z hz)).2 (e' ▸ he), i.notList hl (hin e (.inr (.inr he)))⟩
          have q4' := q4
          have q6' := (List.nodup_cons.1 q6).2
          rw [hb] at q4' q6' hxx
          refine q4'.setPrev q6' ?_ (fun e he => ?_)
          · rw [hqz] at hmem
            cases p with
            | none => exact hmem (z, prevCell z, none) (by simp [removeWrites])
            | some x => exact hmem (z, prevCell z, some x) (by simp [removeWrites])
          · obtain ⟨g1, g2, g3⟩ := hxx e he
            refine ⟨hoth _ (by simp [nextCell, prevCell]) (by simp [nextCell, g1]) (fun _ => by simp [nextCell, startCell]) (fun _ => by simp [nextCell, endCell])
              (fun x hx => by simp [nextCell, g2 x hx]) (fun x _ => by simp [nextCell, prevCell]),
              fun hey => hoth _ (by simp [prevCell, g1]) (by simp [prevCell, nextCell]) (fun _ => by simp [prevCell, startCell]) (fun _ => by simp [prevCell, endCell, g3])
                (fun x _ => by simp [prevCell, nextCell]) (fun x hx => by rw [hqz] at hx; cases hx; simp [prevCell, hey])⟩
    · intro x hx
      have h3 := i.notList hl (List.mem_map.2 ⟨x, hsub x hx, rfl⟩ : x.1 ∈ ids (w.hist.now.seq l))
      rw [hoth _ (by simp [dataCell, prevCell]) (by simp [dataCell, nextCell]) (fun _ => by simp [dataCell, startCell, h3]) (fun _ => by simp [dataCell, endCell])
        (fun x _ => by simp [dataCell, nextCell]) (fun x _ => by simp [dataCell, prevCell])]
      exact i.rels.now.data l x (hsub x hx)
    · intro x hx
      have h2 := hney x.1 (List.mem_map.2 ⟨x, hx, rfl⟩)
      rw [upd_other _ _ _ h2]
      exact i.rels.now.alive l x (hsub x hx)
    · exact fun x hx => i.rels.now.backed l x (hsub x hx)
    · rw [hidx]
      have hnd := i.rels.now.nodup l
      rw [hids] at hnd
      exact (List.nodup_cons.1 ((List.perm_middle (a := y.1) (l₁ := ids as) (l₂ := ids bs)).nodup_iff.1 hnd)).2
    · intro e he l' hne'
      obtain ⟨x, hx, rfl⟩ := List.mem_map.1 he
      exact i.rels.now.disj l l' (Ne.symm hne') _ (List.mem_map.2 ⟨x, hsub x hx, rfl⟩)
    · intro c g1 g2 _
      rw [hids] at g2
      have g5 : c.1 ≠ y.1 := fun e => g2 (by simp [e])
      exact hoth c (fun e => g5 (by rw [e]; rfl)) (fun e => g5 (by rw [e]; rfl)) (fun _ e => g1 (by rw [e]; rfl)) (fun _ e => g1 (by rw [e]; rfl))
        (fun x hx e => g2 (by rw [e]; exact List.mem_append_left _ (hpm x hx))) (fun x hx e => g2 (by rw [e]; exact List.mem_append_right _ (.tail _ (hqm x hx))))
    · intro o ho
      exact upd_other _ _ _ (fun e => ho (by rw [e]; exact hyin))
  rw [hexec] at e1
  cases h6 : listRemove s l y.1 with
  | error e => rw [h6] at e1; cases e1
  | ok t =>
    rw [h6] at e1
    simp only [Except.map, Except.ok.injEq, Prod.mk.injEq] at e1
    refine ⟨s', _, by rw [e1.2.1], i1, ?_, ?_, i.ok, i.rels.edit hR⟩
    · rw [(edit_base _ _).2]; exact i.n
    · rw [(edit_base _ _).1]; exact i.base

end Verif.UndoRef
