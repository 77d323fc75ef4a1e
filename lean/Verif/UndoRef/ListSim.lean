import Verif.UndoRef.ListOps
/-
Every action on lists follows the specification: the single operations.
-/
namespace Verif.UndoRef
open Verif Verif.UndoRef.Spec

/-! ### Pointers after several assignments -/

theorem writes_other {c : Cell} : ∀ {ws : List Write} {f : Cells}, (∀ w ∈ ws, w.2.1 ≠ c) → writes f ws c = f c
  | [], _, _ => rfl
  | w :: ws, f, h => by
    simp only [writes]
    rw [writes_other (fun x hx => h x (.tail _ hx)), upd_other _ _ _ (Ne.symm (h w (.head _)))]

theorem writes_mem {w : Write} : ∀ {ws : List Write} {f : Cells}, Distinct ws → w ∈ ws → writes f ws w.2.1 = w.2.2
  | [], _, _, h => by cases h
  | x :: ws, f, hd, h => by
    have hd := List.nodup_cons.1 hd
    simp only [writes]
    rcases List.mem_cons.1 h with rfl | h
    · rw [writes_other (fun y hy e => hd.1 (List.mem_map.2 ⟨y, hy, e⟩)), upd_same]
    · exact writes_mem hd.2 h

/-! ### Finding an element -/

theorem findData_ok {s : State} (d : Option Obj) : ∀ {xs : List Item} {p : Option Obj} {fuel : Nat}, Seg s.cells p (ids xs) none →
    (∀ x ∈ xs, s.cells (dataCell x.1) = x.2 ∧ touch s.cnt x.1 = .ok ()) → xs.length ≤ fuel →
    findData s d fuel (ids xs).head? = .ok ((xs.find? (fun x => decide (x.2 = d))).map (·.1))
  | [], _, fuel, _, _, _ => by cases fuel <;> rfl
  | x :: xs, p, fuel, ⟨_, h2, h3⟩, hx, hl => by
    obtain ⟨k, rfl⟩ : ∃ k, fuel = k + 1 := ⟨fuel - 1, by simp only [List.length_cons] at hl; omega⟩
    obtain ⟨g1, g2⟩ := hx x (.head _)
    simp only [ids, List.map_cons, List.head?_cons, findData, g2, bind, Except.bind, g1, pure, Except.pure, List.find?_cons]
    by_cases e : x.2 = d
    · simp [e]
    · simp only [e, if_false, decide_false]
      simp only [Option.or_none] at h2
      rw [h2]
      exact findData_ok d h3 (fun y hy => hx y (.tail _ hy)) (by simp only [List.length_cons] at hl; omega)

/-- the first element with this data -/
theorem find_split {d : Option Obj} : ∀ {xs : List Item} {y : Item}, xs.find? (fun x => decide (x.2 = d)) = some y →
    ∃ as bs, xs = as ++ y :: bs ∧ y.2 = d ∧ ∀ z, ListSpec.insertBefore d z xs = some (as ++ z :: y :: bs) ∧ ListSpec.takeOut d xs = some (y.1, as ++ bs)
  | [], _, h => by cases h
  | x :: xs, y, h => by
    rw [List.find?_cons] at h
    by_cases e : x.2 = d
    · simp only [e, decide_true] at h
      cases h
      exact ⟨[], xs, rfl, e, fun z => ⟨by simp [ListSpec.insertBefore, e], by simp [ListSpec.takeOut, e]⟩⟩
    · simp only [e, decide_false] at h
      obtain ⟨as, bs, h1, h2, h3⟩ := find_split h
      refine ⟨x :: as, bs, by rw [h1]; rfl, h2, fun z => ⟨?_, ?_⟩⟩
      · simp only [ListSpec.insertBefore, e, if_false, (h3 z).1, Option.map_some, List.cons_append]
      · simp only [ListSpec.takeOut, e, if_false, (h3 z).2, Option.map_some, List.cons_append]

theorem find_none {d : Option Obj} : ∀ {xs : List Item}, xs.find? (fun x => decide (x.2 = d)) = none →
    (∀ z, ListSpec.insertBefore d z xs = none) ∧ ListSpec.takeOut d xs = none
  | [], _ => ⟨fun _ => rfl, rfl⟩
  | x :: xs, h => by
    rw [List.find?_cons] at h
    by_cases e : x.2 = d
    · simp only [e, decide_true] at h; cases h
    · simp only [e, decide_false] at h
      have ih := find_none h
      exact ⟨fun z => by simp [ListSpec.insertBefore, e, ih.1 z], by simp [ListSpec.takeOut, e, ih.2]⟩

/-! ### The simulation -/

abbrev roles (w : ListSpec.World) : Roles := ⟨w.n, w.isList, w.isElem⟩

structure Sim (w : ListSpec.World) (s : State) (h : Hist) : Prop where
  inv : Inv s h
  n : h.fresh = w.n
  base : h.base = w.base
  ok : (roles w).Ok
  rels : Rels (R (roles w)) w.hist h

theorem Sim.touch {w : ListSpec.World} {s : State} {h : Hist} (i : Sim w s h) {o : Obj} (ho : 1 ≤ w.hist.now.refs o) : UndoRef.touch s.cnt o = .ok () :=
  touch_ok _ _ (by
    have h1 := i.inv.bal o
    rw [i.rels.now.refs] at h1
    simp only at h1
    omega)

theorem Sim.length {w : ListSpec.World} {s : State} {h : Hist} (i : Sim w s h) (l : Obj) : (w.hist.now.seq l).length ≤ w.n := by
  have h1 := (i.rels.now.nodup l)
  have h2 := h1.length_le_of_subset (l₂ := List.range w.n) (fun e he => by
    obtain ⟨x, hx, rfl⟩ := List.mem_map.1 he
    exact List.mem_range.2 (i.ok.elemLt _ (i.rels.now.alive l x hx).2))
  simpa using h2

theorem Sim.find {w : ListSpec.World} {s : State} {h : Hist} (i : Sim w s h) {l : Obj} (hl : w.isList l = true) (d : Option Obj) :
    findData s d w.n (s.cells (startCell l)) = .ok (((w.hist.now.seq l).find? (fun x => decide (x.2 = d))).map (·.1)) := by
  have hc := i.inv.cells
  rw [hc, i.rels.now.start l hl]
  exact findData_ok d (by rw [hc]; exact i.rels.now.seg l) (fun x hx => ⟨by rw [hc]; exact i.rels.now.data l x hx, i.touch (i.rels.now.alive l x hx).1⟩) (i.length l)

/-- a new element is linked into a list -/
theorem insert_sim {w : ListSpec.World} {s : State} {h : Hist} (i : Sim w s h) {l : Obj} (hl : w.isList l = true) {xs : List Item} {ws : List Write}
    (hd : Distinct ws) (hne : ws ≠ []) (hf : ∀ x ∈ ws, Fine (w.hist.now.shift w.n).refs h.now.cells x)
    (h1 : writes h.now.cells ws (startCell l) = (ids xs).head?) (h2 : writes h.now.cells ws (endCell l) = (ids xs).getLast?)
    (h3 : Seg (writes h.now.cells ws) none (ids xs) none) (h4 : ∀ x ∈ xs, writes h.now.cells ws (dataCell x.1) = x.2)
    (h5 : ∀ x ∈ xs, 1 ≤ (w.hist.now.shift w.n).refs x.1 ∧ upd w.isElem w.n true x.1 = true)
    (h6 : ∀ x ∈ xs, ∀ d, x.2 = some d → 1 ≤ (w.hist.now.shift w.n).refs d ∧ upd w.isElem w.n true d = false) (h7 : (ids xs).Nodup)
    (h8 : ∀ e ∈ ids xs, ∀ l', l' ≠ l → e ∉ ids (w.hist.now.seq l'))
    (h9 : ∀ c : Cell, c.1 ≠ l → c.1 ∉ ids (w.hist.now.seq l) → c.1 ∉ ids xs → writes h.now.cells ws c = h.now.cells c) :
    ∃ s' bs h', execAll w.n s (.create :: .adopt w.n :: (acts ws ++ [.other l])) = .ok (w.n + 1, s', bs) ∧ Sim (w.insert l xs) s' h' := by
  have hr := i.rels.now.refs
  have hll : l < w.n := i.ok.listLt l hl
  let h0 : Hist := { h with fresh := h.fresh + 1, base := upd h.base h.fresh 1 }
  let hA := h0.adopt w.n
  have eA : hA.now = h.now.shift w.n := rfl
  have erefs : (h.now.shift w.n).refs = (w.hist.now.shift w.n).refs := by simp only [App.shift, ListSpec.Lists.shift, hr]
  have hlr : 1 ≤ (h.now.shift w.n).refs l := by
    rw [erefs]
    simp only [ListSpec.Lists.shift, upd_other _ _ _ (Nat.ne_of_lt hll)]
    exact i.rels.now.lists l hl
  have hbase : hA.base = upd w.base w.n 0 := by
    show upd (upd h.base h.fresh 1) w.n (upd h.base h.fresh 1 w.n - 1) = _
    rw [i.n, upd_same, upd_upd, i.base]
  let a' : App := ⟨writes h.now.cells ws, (h.now.shift w.n).refs⟩
  have hother : Legal (hA.edit a') [.other l] := by
    refine ⟨?_, trivial⟩
    show 1 ≤ ((hA.edit a').base l : Int) + (hA.edit a').now.refs l
    rw [edit_now]
    have : (0 : Int) ≤ ((hA.edit a').base l : Int) := Int.natCast_nonneg _
    show 1 ≤ _ + (h.now.shift w.n).refs l
    omega
  have hleg := legal_acts (ws := ws) (h := hA) (as := [.other l]) hd (fun x hx => by rw [eA, erefs]; exact hf x hx) hne hother
  have hlegal : Legal h (.create :: .adopt w.n :: (acts ws ++ [.other l])) := by
    refine ⟨trivial, ?_, hleg.1⟩
    show 1 ≤ upd h.base h.fresh 1 w.n
    rw [i.n, upd_same]
  obtain ⟨s', e1, i1⟩ := run_ok _ i.inv hlegal
  have hrun : (h.run (.create :: .adopt w.n :: (acts ws ++ [.other l]))).1 = hA.edit a' := by
    show (hA.run (acts ws ++ [.other l])).1 = _
    rw [hleg.2]
    show (hA.edit a').edit (hA.edit a').now = _
    rw [edit_now, edit_edit]
  rw [hrun] at i1
  have hfr : (h.run (.create :: .adopt w.n :: (acts ws ++ [.other l]))).1.fresh = w.n + 1 := by
    rw [hrun, (edit_base _ _).2]
    show h.fresh + 1 = w.n + 1
    rw [i.n]
  rw [hfr, i.n] at e1
  refine ⟨s', _, hA.edit a', e1, i1, ?_, ?_, ?_, ?_⟩
  · rw [(edit_base _ _).2]
    show h.fresh + 1 = w.n + 1
    rw [i.n]
  · rw [(edit_base _ _).1, hbase]; rfl
  · refine ⟨fun o ho => Nat.lt_succ_of_lt (i.ok.listLt o ho), fun o ho => ?_, fun o ho => ?_⟩
    · by_cases e : o = w.n
      · rw [e]; exact Nat.lt_succ_self _
      · have ho' : upd w.isElem w.n true o = true := ho
        rw [upd_other _ _ _ e] at ho'
        exact Nat.lt_succ_of_lt (i.ok.elemLt o ho')
    · show upd w.isElem w.n true o = false
      rw [upd_other _ _ _ (Nat.ne_of_lt (i.ok.listLt o ho))]
      exact i.ok.apart o ho
  · have hR : Rels (R { roles w with n := w.n + 1, isElem := upd w.isElem w.n true }) (w.hist.map (ListSpec.Lists.shift w.n)) hA :=
      (i.rels.base (h.fresh + 1) (upd h.base h.fresh 1)).adopt (fun b a q => q.newElem)
    have hok : Roles.Ok { roles w with n := w.n + 1, isElem := upd w.isElem w.n true } := by
      refine ⟨fun o ho => Nat.lt_succ_of_lt (i.ok.listLt o ho), fun o ho => ?_, fun o ho => ?_⟩
      · by_cases e : o = w.n
        · rw [e]; exact Nat.lt_succ_self _
        · have ho' : upd w.isElem w.n true o = true := ho
          rw [upd_other _ _ _ e] at ho'
          exact Nat.lt_succ_of_lt (i.ok.elemLt o ho')
      · show upd w.isElem w.n true o = false
        rw [upd_other _ _ _ (Nat.ne_of_lt (i.ok.listLt o ho))]
        exact i.ok.apart o ho
    have hnow : R { roles w with n := w.n + 1, isElem := upd w.isElem w.n true } ⟨upd w.hist.now.seq l xs, (w.hist.now.shift w.n).refs⟩
        ⟨writes h.now.cells ws, (w.hist.now.shift w.n).refs⟩ :=
      (show R _ (w.hist.now.shift w.n) (h.now.shift w.n) from hR.now).relist hok hl h1 h2 h3 h4 h5 h6 h7 h8 h9 (fun _ _ => rfl)
    have := hR.edit hnow
    rw [← erefs] at this
    have e2 : (w.insert l xs).hist = (w.hist.map (ListSpec.Lists.shift w.n)).edit ⟨upd w.hist.now.seq l xs, (h.now.shift w.n).refs⟩ := by
      rw [erefs]; rfl
    rw [e2]
    exact this

section
variable {w : ListSpec.World} {s : State} {h : Hist}

theorem Sim.elem (i : Sim w s h) {l e : Obj} (he : e ∈ ids (w.hist.now.seq l)) : w.isElem e = true ∧ e ≠ w.n ∧ 1 ≤ w.hist.now.refs e := by
  obtain ⟨x, hx, rfl⟩ := List.mem_map.1 he
  have := i.rels.now.alive l x hx
  exact ⟨this.2, Nat.ne_of_lt (i.ok.elemLt _ this.2), this.1⟩

theorem Sim.notList (i : Sim w s h) {l l' e : Obj} (hl : w.isList l = true) (he : e ∈ ids (w.hist.now.seq l')) : e ≠ l := fun e' => by
  have h1 := (i.elem he).1
  rw [e'] at h1
  have h2 := i.ok.apart l hl
  rw [show (roles w).isElem l = w.isElem l from rfl, h1] at h2
  cases h2

theorem shift_pos {p : ListSpec.Lists} {o : Obj} (n : Obj) (h : 1 ≤ p.refs o) : 1 ≤ (p.shift n).refs o := by
  simp only [ListSpec.Lists.shift, upd]
  split
  · next e => rw [← e]; omega
  · exact h

theorem Sim.shift_new (i : Sim w s h) : 1 ≤ (w.hist.now.shift w.n).refs w.n := by
  have := i.rels.now.low w.n (Nat.le_refl _)
  simp only [ListSpec.Lists.shift, upd_same]
  omega

/-- the conditions on the members of a list with a new element -/
theorem Sim.insertElems (i : Sim w s h) {l : Obj} {d : Option Obj} {xs : List Item} (hd : ∀ v, d = some v → 1 ≤ w.hist.now.refs v ∧ w.isElem v = false)
    (hx : ∀ x ∈ xs, x ∈ w.hist.now.seq l ∨ x = (w.n, d)) :
    (∀ x ∈ xs, 1 ≤ (w.hist.now.shift w.n).refs x.1 ∧ upd w.isElem w.n true x.1 = true) ∧
    (∀ x ∈ xs, ∀ v, x.2 = some v → 1 ≤ (w.hist.now.shift w.n).refs v ∧ upd w.isElem w.n true v = false) ∧
    (∀ e ∈ ids xs, ∀ l', l' ≠ l → e ∉ ids (w.hist.now.seq l')) := by
  refine ⟨fun x hxx => ?_, fun x hxx v hv => ?_, fun e he l' hne => ?_⟩
  · rcases hx x hxx with h1 | rfl
    · have h2 := i.elem (List.mem_map.2 ⟨x, h1, rfl⟩ : x.1 ∈ ids (w.hist.now.seq l))
      exact ⟨shift_pos _ h2.2.2, by rw [upd_other _ _ _ h2.2.1]; exact h2.1⟩
    · exact ⟨i.shift_new, upd_same _ _ _⟩
  · have h2 : 1 ≤ w.hist.now.refs v ∧ w.isElem v = false := by
      rcases hx x hxx with h1 | rfl
      · exact i.rels.now.backed l x h1 v hv
      · exact hd v hv
    exact ⟨shift_pos _ h2.1, by rw [upd_other _ _ _ (Nat.ne_of_lt (i.rels.now.lt h2.1))]; exact h2.2⟩
  · obtain ⟨x, hxx, rfl⟩ := List.mem_map.1 he
    rcases hx x hxx with h1 | rfl
    · exact i.rels.now.disj l l' (Ne.symm hne) _ (List.mem_map.2 ⟨x, h1, rfl⟩)
    · exact fun h1 => (i.elem h1).2.1 rfl

theorem Sim.nil_of_last (i : Sim w s h) {l : Obj} (hl : w.isList l = true) :
    (h.now.cells (startCell l) = none ↔ (ids (w.hist.now.seq l)).getLast? = none) := by
  rw [i.rels.now.start l hl]
  cases ids (w.hist.now.seq l) <;> simp

theorem add_sim (i : Sim w s h) {l : Obj} {d : Option Obj} (hl : w.isList l = true) (hd : ∀ v, d = some v → 1 ≤ w.hist.now.refs v ∧ w.isElem v = false) :
    ∃ s' h', listAdd s l w.n d = .ok s' ∧ Sim (w.insert l (w.hist.now.seq l ++ [(w.n, d)])) s' h' := by
  have hc := i.inv.cells
  have hnl : w.n ≠ l := Nat.ne_of_gt (i.ok.listLt l hl)
  have hfr : ∀ k, h.now.cells (w.n, k) = none := fun k => i.rels.now.fresh _ (Nat.le_refl _)
  obtain ⟨last, hlast⟩ : ∃ last, (ids (w.hist.now.seq l)).getLast? = last := ⟨_, rfl⟩
  have hlm : ∀ x, last = some x → x ∈ ids (w.hist.now.seq l) := fun x e => List.mem_of_getLast? (hlast.trans e)
  have hll : last ≠ some l := fun e => i.notList hl (hlm l e) rfl
  have hdist : Distinct ((w.n, dataCell w.n, d) :: addWrites l w.n last) := by
    refine List.nodup_cons.2 ⟨?_, addWrites_distinct hnl⟩
    cases last <;> simp [addWrites, dataCell, prevCell, nextCell, startCell, endCell, hnl]
  obtain ⟨bs, hexec⟩ := add_exec (s := s) (list := l) (n := w.n) d (last := last) (fun k => by rw [hc]; exact hfr k) hnl hll
    (by rw [hc, i.rels.now.last l hl]; exact hlast) (by rw [hc, ← hlast]; exact i.nil_of_last hl)
  obtain ⟨k1, k2, k3⟩ := i.insertElems (l := l) (d := d) (xs := w.hist.now.seq l ++ [(w.n, d)]) hd (fun x hx => by
    rcases List.mem_append.1 hx with h1 | h1
    · exact .inl h1
    · exact .inr (List.mem_singleton.1 h1))
  have hids : ids (w.hist.now.seq l ++ [(w.n, d)]) = ids (w.hist.now.seq l) ++ [w.n] := by simp [ids]
  have hmem : ∀ x : Write, x ∈ (w.n, dataCell w.n, d) :: addWrites l w.n last → writes h.now.cells ((w.n, dataCell w.n, d) :: addWrites l w.n last) x.2.1 = x.2.2 :=
    fun x hx => writes_mem hdist hx
  have hoth : ∀ c : Cell, c ≠ dataCell w.n → c ≠ prevCell w.n → c ≠ startCell l → c ≠ endCell l → (∀ x, last = some x → c ≠ nextCell x) →
      writes h.now.cells ((w.n, dataCell w.n, d) :: addWrites l w.n last) c = h.now.cells c := fun c g1 g2 g3 g4 g5 => by
    refine writes_other (fun x hx => ?_)
    rcases List.mem_cons.1 hx with rfl | hx
    · exact Ne.symm g1
    · cases last with
      | none => simp only [addWrites, List.mem_cons, List.not_mem_nil, or_false] at hx; rcases hx with rfl | rfl | rfl <;> first | exact Ne.symm g2 | exact Ne.symm g3 | exact Ne.symm g4
      | some x => simp only [addWrites, List.mem_cons, List.not_mem_nil, or_false] at hx; rcases hx with rfl | rfl | rfl <;> first | exact Ne.symm g2 | exact Ne.symm (g5 x rfl) | exact Ne.symm g4
  have hnotin : w.n ∉ ids (w.hist.now.seq l) := fun h1 => (i.elem h1).2.1 rfl
  have hnew : writes h.now.cells ((w.n, dataCell w.n, d) :: addWrites l w.n last) (nextCell w.n) = none := by
    rw [hoth _ (by simp [nextCell, dataCell]) (by simp [nextCell, prevCell]) (by simp [nextCell, startCell]) (by simp [nextCell, endCell])
      (fun x e => by have := (i.elem (hlm x e)).2.1; simp [nextCell, Ne.symm this])]
    exact hfr _
  obtain ⟨s', bs', h', e1, i1⟩ := insert_sim i (xs := w.hist.now.seq l ++ [(w.n, d)]) (ws := (w.n, dataCell w.n, d) :: addWrites l w.n last) hl hdist (List.cons_ne_nil _ _)
    (fun x hx => by
      have hL := shift_pos w.n (i.rels.now.lists l hl)
      have hN := i.shift_new
      rcases List.mem_cons.1 hx with rfl | hx
      · exact ⟨hN, hN, (fun v hv => by rw [show h.now.cells (dataCell w.n) = none from hfr _] at hv; cases hv), fun v hv => shift_pos _ (hd v hv).1⟩
      · cases last with
        | none =>
          simp only [addWrites, List.mem_cons, List.not_mem_nil, or_false] at hx
          rcases hx with rfl | rfl | rfl
          · exact ⟨hN, hN, (fun v hv => by rw [show h.now.cells (prevCell w.n) = none from hfr _] at hv; cases hv), fun v hv => by cases hv⟩
          · exact ⟨hL, hL, (fun v hv => by rw [(i.nil_of_last hl).2 hlast] at hv; cases hv), fun v hv => by cases hv; exact hN⟩
          · refine ⟨hL, hL, fun v hv => ?_, fun v hv => by cases hv; exact hN⟩
            rw [i.rels.now.last l hl, hlast] at hv; cases hv
        | some y =>
          have hy := shift_pos w.n (i.elem (hlm y rfl)).2.2
          have hseg := i.rels.now.seg l
          simp only [addWrites, List.mem_cons, List.not_mem_nil, or_false] at hx
          rcases hx with rfl | rfl | rfl
          · exact ⟨hN, hN, (fun v hv => by rw [show h.now.cells (prevCell w.n) = none from hfr _] at hv; cases hv), fun v hv => by cases hv; exact hy⟩
          · refine ⟨hy, hy, fun v hv => ?_, fun v hv => by cases hv; exact hN⟩
            obtain ⟨as, ha⟩ := List.getLast?_eq_some_iff.1 hlast
            rw [ha, Seg.append] at hseg
            have := hseg.2.2.1
            simp only [List.head?_nil, Option.or_none] at this
            rw [show (y, nextCell y, some w.n).2.1 = nextCell y from rfl, this] at hv
            cases hv
          · refine ⟨hL, hL, fun v hv => ?_, fun v hv => by cases hv; exact hN⟩
            rw [show h.now.cells (l, endCell l, some w.n).2.1 = some y from (i.rels.now.last l hl).trans hlast] at hv
            cases hv; exact hy)
    (by
      rw [hids]
      cases last with
      | none =>
        have he : ids (w.hist.now.seq l) = [] := List.getLast?_eq_none_iff.1 hlast
        rw [he]
        exact hmem (l, startCell l, some w.n) (by simp [addWrites])
      | some y =>
        rw [writes_other (fun x hx => ?_)]
        · rw [i.rels.now.start l hl]
          have : ids (w.hist.now.seq l) ≠ [] := fun e => by rw [e] at hlast; cases hlast
          cases h5 : ids (w.hist.now.seq l) with
          | nil => exact absurd h5 this
          | cons a b => rfl
        · simp only [addWrites, List.mem_cons, List.not_mem_nil, or_false] at hx
          rcases hx with rfl | rfl | rfl | rfl <;> simp [dataCell, prevCell, nextCell, startCell, endCell, hnl])
    (by
      rw [hids, List.getLast?_append, List.getLast?_singleton, Option.some_or]
      exact hmem (l, endCell l, some w.n) (by cases last <;> simp [addWrites]))
    (by
      rw [hids, Seg.append]
      refine ⟨?_, ?_, ?_, trivial⟩
      · cases last with
        | none =>
          have he : ids (w.hist.now.seq l) = [] := List.getLast?_eq_none_iff.1 hlast
          rw [he]; trivial
        | some y =>
          obtain ⟨as, ha⟩ := List.getLast?_eq_some_iff.1 hlast
          have hseg := i.rels.now.seg l
          have hnd := i.rels.now.nodup l
          rw [ha] at hseg hnd ⊢
          refine hseg.setNext hnd (hmem (y, nextCell y, some w.n) (by simp [addWrites])) (fun e he => ?_)
          rw [← ha] at he
          have g1 := (i.elem he).2.1
          have g2 := i.notList hl he
          refine ⟨hoth _ (by simp [dataCell, prevCell]) (by simp [prevCell, g1]) (by simp [prevCell, startCell]) (by simp [prevCell, endCell, g2])
            (fun x _ => by simp [prevCell, nextCell]), fun hey => hoth _ (by simp [dataCell, nextCell]) (by simp [prevCell, nextCell]) (by simp [nextCell, startCell])
              (by simp [nextCell, endCell]) (fun x hx => by cases hx; simp [nextCell, hey])⟩
      · rw [hlast, Option.or_none]
        cases last with
        | none => exact hmem (w.n, prevCell w.n, none) (by simp [addWrites])
        | some y => exact hmem (w.n, prevCell w.n, some y) (by simp [addWrites])
      · rw [hnew]; rfl)
    (fun x hx => by
      rcases List.mem_append.1 hx with h1 | h1
      · have h2 := i.elem (List.mem_map.2 ⟨x, h1, rfl⟩ : x.1 ∈ ids (w.hist.now.seq l))
        have h3 := i.notList hl (List.mem_map.2 ⟨x, h1, rfl⟩ : x.1 ∈ ids (w.hist.now.seq l))
        rw [hoth _ (by simp [dataCell, h2.2.1]) (by simp [dataCell, prevCell]) (by simp [dataCell, startCell, h3]) (by simp [dataCell, endCell]) (fun x _ => by simp [dataCell, nextCell])]
        exact i.rels.now.data l x h1
      · rw [List.mem_singleton.1 h1]
        exact hmem (w.n, dataCell w.n, d) (.head _))
    k1 k2
    (by
      rw [hids]
      exact List.nodup_append.2 ⟨i.rels.now.nodup l, by simp, fun a ha b hb e => by
        rw [List.mem_singleton.1 hb] at e
        exact hnotin (e ▸ ha)⟩)
    k3
    (fun c g1 g2 g3 => by
      rw [hids] at g3
      have g4 : c.1 ≠ w.n := fun e => g3 (by simp [e])
      exact hoth c (fun e => g4 (by rw [e]; rfl)) (fun e => g4 (by rw [e]; rfl)) (fun e => g1 (by rw [e]; rfl)) (fun e => g1 (by rw [e]; rfl))
        (fun x hx e => g2 (by rw [e]; exact hlm x hx)))
  rw [hexec] at e1
  cases h6 : listAdd s l w.n d with
  | error e => rw [h6] at e1; cases e1
  | ok t =>
    rw [h6] at e1
    simp only [Except.map, Except.ok.injEq, Prod.mk.injEq] at e1
    exact ⟨s', h', by rw [e1.2.1], i1⟩

end

end Verif.UndoRef
