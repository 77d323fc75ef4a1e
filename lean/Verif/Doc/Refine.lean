import Verif.Doc.Spec
/- The heap model of documents and undo managers refines the specification. -/
namespace Verif.Doc
open Verif Verif.Doc.Spec
open Verif.Undo (Status eOK eInvalidInput eNotChanged)

/-- what holds of an undo manager between calls -/
structure MOk (m : Man) : Prop where
  open_iff : m.isOpen = decide (m.cur ≠ 0)
  trans_iff : m.level = 0 ↔ m.trans = none

/-- each undo manager has one reference, that of the document it points to -/
structure Inv (w : World) : Prop where
  own : ∀ (d : Nat) (doc : Doc) (p : Nat), w.docs[d]? = some (some doc) → doc.man = some p →
    ∃ m, w.mans[p]? = some (some m) ∧ m.rc = 1 ∧ m.doc = some d ∧ MOk m
  owned : ∀ (p : Nat) (m : Man), w.mans[p]? = some (some m) →
    ∃ d doc, m.doc = some d ∧ w.docs[d]? = some (some doc) ∧ doc.man = some p

theorem view_set {w w' : World} {d : Nat} {x : Option Doc} (hd : w'.docs = w.docs.set d x)
    (hm : ∀ (e : Nat) (doc : Doc), e ≠ d → w.docs[e]? = some (some doc) → viewDoc w'.mans doc = viewDoc w.mans doc) :
    (view w').docs = (view w).docs.set d (x.map (viewDoc w'.mans)) := by
  apply List.ext_getElem?
  intro i
  simp only [view, hd, List.getElem?_map, List.getElem?_set, List.length_map]
  by_cases e : d = i
  · simp only [e, if_true]
    split <;> rfl
  · simp only [e, if_false]
    cases h : w.docs[i]? with
    | none => rfl
    | some o =>
      cases o with
      | none => rfl
      | some doc =>
        simp only [Option.map_some]
        rw [hm i doc (fun he => e he.symm) h]

/-- another document does not look at manager `p` -/
theorem other {w : World} (i : Inv w) {d : Nat} {doc : Doc} {p : Nat} (hd : w.docs[d]? = some (some doc)) (hp : doc.man = some p)
    {e : Nat} {doc' : Doc} (he : e ≠ d) (h : w.docs[e]? = some (some doc')) : doc'.man ≠ some p := by
  intro hp'
  obtain ⟨m, h1, -, h2, -⟩ := i.own d doc p hd hp
  obtain ⟨m', h3, -, h4, -⟩ := i.own e doc' p h hp'
  rw [h1] at h3
  simp only [Option.some.injEq] at h3
  subst h3
  rw [h2] at h4
  simp only [Option.some.injEq] at h4
  exact he h4.symm

theorem look_set_ne (mans : Heap Man) (p : Nat) (x : Option Man) (doc : Doc) (h : doc.man ≠ some p) :
    viewDoc (mans.set p x) doc = viewDoc mans doc := by
  unfold viewDoc
  cases e : doc.man with
  | none => rfl
  | some q =>
    have : p ≠ q := by intro hq; rw [e, hq] at h; exact h rfl
    simp only [Option.bind_some, lookMan, List.getElem?_set, this, if_false]

/-- Changing a document and its manager in place. -/
theorem upd {w : World} (i : Inv w) {d p : Nat} {doc doc' : Doc} {m m' : Man} (hd : w.docs[d]? = some (some doc))
    (hp : doc.man = some p) (hm : w.mans[p]? = some (some m)) (h1 : m'.rc = 1) (h2 : m'.doc = some d) (h3 : MOk m')
    (h4 : doc'.man = some p) (l : Nat) :
    Inv ⟨w.docs.set d (some doc'), w.mans.set p (some m'), l⟩ ∧
    view ⟨w.docs.set d (some doc'), w.mans.set p (some m'), l⟩ =
      ⟨(view w).docs.set d (some ⟨some (viewMan m'), doc'.changed, doc'.regen⟩), l⟩ := by
  have ld := Heap.lt_of_live hd
  have lp := Heap.lt_of_live hm
  constructor
  · constructor
    · intro e de q he hq
      simp only [List.getElem?_set] at he
      by_cases hed : d = e
      · subst hed
        simp only [if_true, ld, Option.some.injEq] at he
        subst he
        rw [h4] at hq
        simp only [Option.some.injEq] at hq
        subst hq
        exact ⟨m', by simp [lp], h1, h2, h3⟩
      · simp only [hed, if_false] at he
        have := other i hd hp (fun h => hed h.symm) he
        have hpq : p ≠ q := by intro h; rw [hq, h] at this; exact this rfl
        obtain ⟨m2, g1, g2⟩ := i.own e de q he hq
        exact ⟨m2, by simp only [List.getElem?_set, hpq, if_false]; exact g1, g2⟩
    · intro q m2 hq
      simp only [List.getElem?_set] at hq
      by_cases hpq : p = q
      · subst hpq
        simp only [if_true, lp, Option.some.injEq] at hq
        subst hq
        exact ⟨d, doc', h2, by simp [ld], h4⟩
      · simp only [hpq, if_false] at hq
        obtain ⟨e, de, g1, g2, g3⟩ := i.owned q m2 hq
        have hed : d ≠ e := by
          intro h; subst h
          rw [hd] at g2
          simp only [Option.some.injEq] at g2
          subst g2
          rw [hp] at g3
          simp only [Option.some.injEq] at g3
          exact hpq g3
        exact ⟨e, de, g1, by simp only [List.getElem?_set, hed, if_false]; exact g2, g3⟩
  · have := view_set (w := w) (w' := ⟨w.docs.set d (some doc'), w.mans.set p (some m'), l⟩) (d := d) (x := some doc') rfl
      (fun e de he h => look_set_ne _ _ _ _ (other i hd hp he h))
    have e2 : viewDoc (w.mans.set p (some m')) doc' = ⟨some (viewMan m'), doc'.changed, doc'.regen⟩ := by
      simp [viewDoc, h4, lookMan, lp]
    show SWorld.mk _ _ = _
    simp only [Option.map_some, e2] at this
    rw [← this]
    rfl

/-- Changing only the flags of a document. -/
theorem updDoc {w : World} (i : Inv w) {d : Nat} {doc doc' : Doc} (hd : w.docs[d]? = some (some doc))
    (h4 : doc'.man = doc.man) :
    Inv ⟨w.docs.set d (some doc'), w.mans, w.leaked⟩ ∧
    view ⟨w.docs.set d (some doc'), w.mans, w.leaked⟩ =
      ⟨(view w).docs.set d (some ⟨(viewDoc w.mans doc).hist, doc'.changed, doc'.regen⟩), w.leaked⟩ := by
  have ld := Heap.lt_of_live hd
  constructor
  · constructor
    · intro e de q he hq
      simp only [List.getElem?_set] at he
      by_cases hed : d = e
      · subst hed
        simp only [if_true, ld, Option.some.injEq] at he
        subst he
        rw [h4] at hq
        exact i.own d doc q hd hq
      · simp only [hed, if_false] at he
        exact i.own e de q he hq
    · intro q m2 hq
      obtain ⟨e, de, g1, g2, g3⟩ := i.owned q m2 hq
      by_cases hed : d = e
      · subst hed
        rw [hd] at g2
        simp only [Option.some.injEq] at g2
        subst g2
        exact ⟨d, doc', g1, by simp [ld], by rw [h4]; exact g3⟩
      · exact ⟨e, de, g1, by simp only [List.getElem?_set, hed, if_false]; exact g2, g3⟩
  · have := view_set (w := w) (w' := ⟨w.docs.set d (some doc'), w.mans, w.leaked⟩) (d := d) (x := some doc') rfl
      (fun e de he h => rfl)
    have e2 : viewDoc w.mans doc' = ⟨(viewDoc w.mans doc).hist, doc'.changed, doc'.regen⟩ := by
      simp [viewDoc, h4]
    show SWorld.mk _ _ = _
    simp only [Option.map_some, e2] at this
    rw [← this]
    rfl

/-- The manager of a document is freed; the document loses it or is freed as well. -/
theorem rem {w : World} (i : Inv w) {d p : Nat} {doc : Doc} {x : Option Doc} (hd : w.docs[d]? = some (some doc))
    (hp : doc.man = some p) (hx : ∀ y, x = some y → y.man = none) (l : Nat) :
    Inv ⟨w.docs.set d x, w.mans.set p none, l⟩ ∧
    view ⟨w.docs.set d x, w.mans.set p none, l⟩ =
      ⟨(view w).docs.set d (x.map (fun y => ⟨none, y.changed, y.regen⟩)), l⟩ := by
  have ld := Heap.lt_of_live hd
  obtain ⟨m, hm, -⟩ := i.own d doc p hd hp
  have lp := Heap.lt_of_live hm
  constructor
  · constructor
    · intro e de q he hq
      simp only [List.getElem?_set] at he
      by_cases hed : d = e
      · subst hed
        simp only [if_true, ld, Option.some.injEq] at he
        rw [hx de he] at hq; cases hq
      · simp only [hed, if_false] at he
        have := other i hd hp (fun h => hed h.symm) he
        have hpq : p ≠ q := by intro h; rw [hq, h] at this; exact this rfl
        obtain ⟨m2, g1, g2⟩ := i.own e de q he hq
        exact ⟨m2, by simp only [List.getElem?_set, hpq, if_false]; exact g1, g2⟩
    · intro q m2 hq
      simp only [List.getElem?_set] at hq
      by_cases hpq : p = q
      · subst hpq
        simp [lp] at hq
      · simp only [hpq, if_false] at hq
        obtain ⟨e, de, g1, g2, g3⟩ := i.owned q m2 hq
        have hed : d ≠ e := by
          intro h; subst h
          rw [hd] at g2
          simp only [Option.some.injEq] at g2
          subst g2
          rw [hp] at g3
          simp only [Option.some.injEq] at g3
          exact hpq g3
        exact ⟨e, de, g1, by simp only [List.getElem?_set, hed, if_false]; exact g2, g3⟩
  · have := view_set (w := w) (w' := ⟨w.docs.set d x, w.mans.set p none, l⟩) (d := d) (x := x) rfl
      (fun e de he h => look_set_ne _ _ _ _ (other i hd hp he h))
    have e2 : x.map (viewDoc (w.mans.set p none)) = x.map (fun y => (⟨none, y.changed, y.regen⟩ : SDoc)) := by
      cases x with
      | none => rfl
      | some y => simp only [Option.map_some, viewDoc, hx y rfl, Option.bind_none]
    show SWorld.mk _ _ = _
    rw [e2] at this
    rw [← this]
    rfl

/-- A document without a manager is freed. -/
theorem remDoc {w : World} (i : Inv w) {d : Nat} {doc : Doc} (hd : w.docs[d]? = some (some doc)) (hp : doc.man = none) :
    Inv ⟨w.docs.set d none, w.mans, w.leaked⟩ ∧
    view ⟨w.docs.set d none, w.mans, w.leaked⟩ = ⟨(view w).docs.set d none, w.leaked⟩ := by
  constructor
  · constructor
    · intro e de q he hq
      simp only [List.getElem?_set] at he
      by_cases hed : d = e
      · subst hed; simp only [if_true] at he; split at he <;> cases he
      · simp only [hed, if_false] at he
        exact i.own e de q he hq
    · intro q m2 hq
      obtain ⟨e, de, g1, g2, g3⟩ := i.owned q m2 hq
      have hed : d ≠ e := by
        intro h; subst h
        rw [hd] at g2
        simp only [Option.some.injEq] at g2
        subst g2
        rw [hp] at g3; cases g3
      exact ⟨e, de, g1, by simp only [List.getElem?_set, hed, if_false]; exact g2, g3⟩
  · have := view_set (w := w) (w' := ⟨w.docs.set d none, w.mans, w.leaked⟩) (d := d) (x := none) rfl (fun e de he h => rfl)
    show SWorld.mk _ _ = _
    simp only [Option.map_none] at this
    rw [← this]
    rfl

/-- A new manager for a document without one. -/
theorem att {w : World} (i : Inv w) {d : Nat} {doc doc' : Doc} {m : Man} (hd : w.docs[d]? = some (some doc))
    (hp : doc.man = none) (h1 : m.rc = 1) (h2 : m.doc = some d) (h3 : MOk m) (h4 : doc'.man = some w.mans.length) :
    Inv ⟨w.docs.set d (some doc'), w.mans ++ [some m], w.leaked⟩ ∧
    view ⟨w.docs.set d (some doc'), w.mans ++ [some m], w.leaked⟩ =
      ⟨(view w).docs.set d (some ⟨some (viewMan m), doc'.changed, doc'.regen⟩), w.leaked⟩ := by
  have ld := Heap.lt_of_live hd
  have old : ∀ (e : Nat) (de : Doc) (q : Nat), w.docs[e]? = some (some de) → de.man = some q → q < w.mans.length := by
    intro e de q he hq
    obtain ⟨m, g, -⟩ := i.own e de q he hq
    exact Heap.lt_of_live g
  constructor
  · constructor
    · intro e de q he hq
      simp only [List.getElem?_set] at he
      by_cases hed : d = e
      · subst hed
        simp only [if_true, ld, Option.some.injEq] at he
        subst he
        rw [h4] at hq
        simp only [Option.some.injEq] at hq
        subst hq
        exact ⟨m, by simp, h1, h2, h3⟩
      · simp only [hed, if_false] at he
        obtain ⟨m2, g1, g2⟩ := i.own e de q he hq
        exact ⟨m2, by rw [List.getElem?_append_left (old e de q he hq)]; exact g1, g2⟩
    · intro q m2 hq
      by_cases hl : q < w.mans.length
      · rw [List.getElem?_append_left hl] at hq
        obtain ⟨e, de, g1, g2, g3⟩ := i.owned q m2 hq
        have hed : d ≠ e := by
          intro h; subst h
          rw [hd] at g2
          simp only [Option.some.injEq] at g2
          subst g2
          rw [hp] at g3; cases g3
        exact ⟨e, de, g1, by simp only [List.getElem?_set, hed, if_false]; exact g2, g3⟩
      · rw [List.getElem?_append_right (by omega)] at hq
        have hq0 : q - w.mans.length = 0 := by
          cases hk : q - w.mans.length with
          | zero => rfl
          | succ k => rw [hk] at hq; simp at hq
        rw [hq0] at hq
        simp only [List.getElem?_cons_zero, Option.some.injEq] at hq
        subst hq
        exact ⟨d, doc', h2, by simp [ld], by rw [h4]; congr 1; omega⟩
  · have := view_set (w := w) (w' := ⟨w.docs.set d (some doc'), w.mans ++ [some m], w.leaked⟩) (d := d) (x := some doc') rfl
      (fun e de he h => by
        unfold viewDoc
        cases hq : de.man with
        | none => rfl
        | some q => simp only [Option.bind_some, lookMan]; rw [List.getElem?_append_left (old e de q h hq)])
    have e2 : viewDoc (w.mans ++ [some m]) doc' = ⟨some (viewMan m), doc'.changed, doc'.regen⟩ := by
      simp [viewDoc, h4, lookMan]
    show SWorld.mk _ _ = _
    simp only [Option.map_some, e2] at this
    rw [← this]
    rfl

/-! ### The undo manager -/

theorem viewMan_tr_none {m : Man} (h : m.level = 0) : (viewMan m).tr = none := by simp [viewMan, h]

theorem viewMan_tr_some {m : Man} {n : Nat} (h : m.level ≠ 0) (ht : m.trans = some n) : (viewMan m).tr = some ⟨m.level, n⟩ := by
  simp [viewMan, h, ht]

theorem register_ok {m : Man} (k : MOk m) :
    ∃ m', m.register = .ok m' ∧ m'.rc = m.rc ∧ m'.doc = m.doc ∧ MOk m' ∧ viewMan m' = (viewMan m).edit ∧ m'.active = m.active ∧
      m'.level = m.level ∧ m'.tstatus = m.tstatus := by
  unfold Man.register
  cases ha : m.active with
  | false =>
    refine ⟨m, by simp, rfl, rfl, k, ?_, ha, rfl, rfl⟩
    unfold Hist.edit
    cases (viewMan m).tr with
    | none => simp [Hist.change, viewMan, ha]
    | some t => simp [viewMan, ha]
  | true =>
    simp only [Bool.not_true, Bool.false_eq_true, if_false]
    by_cases hl : m.level = 0
    · have ht := k.trans_iff.1 hl
      rw [if_neg (by omega)]
      refine ⟨_, rfl, rfl, rfl, ⟨by simp, by simpa using k.trans_iff⟩, ?_, by simp [ha], rfl, rfl⟩
      unfold Hist.edit
      rw [viewMan_tr_none hl]
      simp [Hist.change, viewMan, ha, hl]
    · cases ht : m.trans with
      | none => exact absurd (k.trans_iff.2 ht) hl
      | some n =>
        rw [if_pos (by omega)]
        refine ⟨_, rfl, rfl, rfl, ⟨k.open_iff, by simp [hl]⟩, ?_, by simp [ha], rfl, rfl⟩
        unfold Hist.edit
        rw [viewMan_tr_some hl ht]
        simp [viewMan, ha, hl]

theorem registerTimes_ok (n : Nat) (m : Man) (hl : m.level = 0) :
    Man.registerTimes n m = .ok (if m.active && n != 0 then { m with cur := m.cur + n, redo := [], isOpen := true } else m) := by
  induction n generalizing m with
  | zero => simp [Man.registerTimes]
  | succ n ih =>
    simp only [Man.registerTimes, Man.register]
    cases ha : m.active with
    | false =>
      simp only [Bool.not_false, if_true, bind, Except.bind]
      rw [ih m hl]
      simp [ha]
    | true =>
      simp only [Bool.not_true, Bool.false_eq_true, if_false, hl, gt_iff_lt, Nat.lt_irrefl, bind, Except.bind]
      rw [ih _ rfl]
      cases n with
      | zero => simp [ha]
      | succ n => simp [ha]; omega

theorem closeT_ok {m : Man} (k : MOk m) :
    ∃ m', m.closeTransaction = .ok (m.tstatus, m') ∧ m'.rc = m.rc ∧ m'.doc = m.doc ∧ MOk m' ∧ viewMan m' = (viewMan m).closeT := by
  unfold Man.closeTransaction
  by_cases hl : m.level = 0
  · refine ⟨m, ?_, rfl, rfl, k, ?_⟩
    · by_cases hs : m.tstatus = eOK <;> simp [hs, Man.commit, Man.rollback, hl, bind, Except.bind, pure, Except.pure]
    · unfold Hist.closeT; rw [viewMan_tr_none hl]
  · cases ht : m.trans with
    | none => exact absurd (k.trans_iff.2 ht) hl
    | some n =>
      by_cases h1 : m.level = 1
      · by_cases hs : m.tstatus = eOK
        · simp only [hs, if_true, Man.commit, h1, Nat.one_ne_zero, if_false, Nat.sub_self, ht]
          rw [registerTimes_ok n _ rfl]
          refine ⟨_, rfl, ?_, ?_, ⟨?_, ?_⟩, ?_⟩
          · split <;> rfl
          · split <;> rfl
          · split
            · rename_i hc; simp at hc ⊢; exact Or.inr hc.2
            · exact k.open_iff
          · split <;> simp
          · unfold Hist.closeT
            rw [viewMan_tr_some hl ht]
            have hst : (viewMan m).status = eOK := hs
            have hact : (viewMan m).active = m.active := rfl
            simp only [h1, if_true, hst, Hist.change, hact]
            cases hc : m.active && n != 0
            · simp [viewMan]
            · simp [viewMan]
        · simp only [hs, if_false, Man.rollback, h1, Nat.one_ne_zero, Nat.sub_self, if_true, ht]
          refine ⟨_, rfl, rfl, rfl, ⟨k.open_iff, by simp⟩, ?_⟩
          unfold Hist.closeT
          rw [viewMan_tr_some hl ht]
          have hst : (viewMan m).status = m.tstatus := rfl
          simp only [h1, if_true, hst, hs, if_false]
          simp [viewMan]
      · refine ⟨{ m with level := m.level - 1 }, ?_, rfl, rfl, ⟨k.open_iff, ?_⟩, ?_⟩
        · have : ¬ m.level - 1 = 0 := by omega
          by_cases hs : m.tstatus = eOK <;> simp [hs, Man.commit, Man.rollback, hl, this, bind, Except.bind, pure, Except.pure]
        · simp only [ht]; constructor
          · intro h; omega
          · intro h; cases h
        · unfold Hist.closeT
          rw [viewMan_tr_some hl ht]
          simp only [h1, if_false]
          have : ¬ m.level - 1 = 0 := by omega
          simp [viewMan, this, ht]

theorem openT_ok {m : Man} (k : MOk m) : MOk m.openTransaction ∧ m.openTransaction.rc = m.rc ∧ m.openTransaction.doc = m.doc ∧
    viewMan m.openTransaction = (viewMan m).openT := by
  unfold Man.openTransaction
  by_cases hl : m.level = 0
  · rw [if_pos hl]
    refine ⟨⟨k.open_iff, by simp⟩, rfl, rfl, ?_⟩
    unfold Hist.openT
    rw [viewMan_tr_none hl]
    simp [viewMan, hl]
  · rw [if_neg hl]
    cases ht : m.trans with
    | none => exact absurd (k.trans_iff.2 ht) hl
    | some n =>
      refine ⟨⟨k.open_iff, by simp [ht]⟩, rfl, rfl, ?_⟩
      unfold Hist.openT
      rw [viewMan_tr_some hl ht]
      simp [viewMan, ht]

theorem close_ok {m : Man} (k : MOk m) : MOk m.close.1 ∧ m.close.1.rc = m.rc ∧ m.close.1.doc = m.doc ∧ m.close.1.trans = m.trans ∧
    m.close.1.level = m.level ∧
    m.close.2 = decide (m.cur ≠ 0) ∧
    viewMan m.close.1 = (if m.cur = 0 then viewMan m else { viewMan m with pending := 0, undoable := m.undo.length + 1 }) := by
  unfold Man.close
  by_cases hc : m.cur = 0
  · simp only [hc, if_true]
    refine ⟨⟨by rw [k.open_iff], k.trans_iff⟩, trivial, trivial, trivial, trivial, by simp, trivial⟩
  · simp only [hc, if_false]
    exact ⟨⟨by simp, k.trans_iff⟩, trivial, trivial, trivial, trivial, by simp [hc], by simp [viewMan]⟩

/-! ### Calls -/

/-- what a step of the specification does to one document, for the model -/
def Good (w : World) (d : Nat) (s : SDoc) (a : DocOp) : Prop :=
  ∃ w', onDoc w d a = .ok (w', (s.call a).2.1) ∧ Inv w' ∧
    view w' = ⟨(view w).docs.set d (some (s.call a).1), w.leaked + (s.call a).2.2⟩

theorem set_same {α : Type} {l : List α} {d : Nat} {x : α} (h : l[d]? = some x) : l.set d x = l := by
  apply List.ext_getElem?
  intro i
  rw [List.getElem?_set]
  by_cases e : d = i
  · subst e; rw [if_pos rfl, if_pos (List.getElem?_eq_some_iff.1 h).1, h]
  · simp [e]

theorem view_get {w : World} {d : Nat} {s : SDoc} (h : (view w).docs[d]? = some (some s)) :
    ∃ doc, w.docs[d]? = some (some doc) ∧ s = viewDoc w.mans doc := by
  simp only [view, List.getElem?_map] at h
  cases hd : w.docs[d]? with
  | none => rw [hd] at h; cases h
  | some o =>
    cases o with
    | none => rw [hd] at h; simp at h
    | some doc => rw [hd] at h; simp at h; exact ⟨doc, rfl, h.symm⟩

/-- nothing happens -/
theorem good_same {w : World} {d : Nat} {s : SDoc} {a : DocOp} (i : Inv w) (h : (view w).docs[d]? = some (some s))
    (h1 : (s.call a).1 = s) (h2 : (s.call a).2.2 = 0) (h3 : onDoc w d a = .ok (w, (s.call a).2.1)) : Good w d s a := by
  refine ⟨w, h3, i, ?_⟩
  rw [h1, h2, set_same h]
  rfl

/-- a manager is changed and the document is perhaps marked -/
theorem good_man {w : World} {d p : Nat} {doc : Doc} {m m' : Man} {a : DocOp} {out : Out} (i : Inv w)
    (hd : w.docs[d]? = some (some doc)) (hp : doc.man = some p) (hm : w.mans[p]? = some (some m))
    (h1 : m'.rc = 1) (h2 : m'.doc = some d) (h3 : MOk m') (n : Bool)
    (hs : onDoc w d a = (do
      let w' ← notify { w with mans := w.mans.set p (some m') } (some d) n
      pure (w', out)))
    (hc : (viewDoc w.mans doc).call a = (⟨some (viewMan m'), doc.changed || n, doc.regen⟩, out, 0)) :
    Good w d (viewDoc w.mans doc) a := by
  have u := upd i (doc' := { doc with changed := doc.changed || n }) hd hp hm h1 h2 h3 hp w.leaked
  refine ⟨_, ?_, u.1, ?_⟩
  · rw [hs, hc]
    cases n with
    | false =>
      have : w.docs.set d (some { doc with changed := doc.changed || false }) = w.docs := by
        rw [Bool.or_false]; exact set_same hd
      rw [this]; rfl
    | true =>
      simp only [notify, setChanged, Heap.load_ok hd, Heap.store_ok hd, bind, Except.bind, pure, Except.pure, Bool.or_true]
  · rw [hc, u.2]; rfl

theorem lost_eq {m : Man} (k : MOk m) : lost m.trans = lostBy (some (viewMan m)) := by
  show (if m.trans.isSome = true then 1 else 0) = if (viewMan m).tr.isSome = true then 1 else 0
  by_cases hl : m.level = 0
  · rw [viewMan_tr_none hl, k.trans_iff.1 hl]
    rfl
  · cases ht : m.trans with
    | none => exact absurd (k.trans_iff.2 ht) hl
    | some n => rw [viewMan_tr_some hl ht]; rfl

/-- deleting the manager of a live document -/
theorem manDelete_ok {w : World} {d p : Nat} {doc : Doc} {m : Man} (hd : w.docs[d]? = some (some doc))
    (hm : w.mans[p]? = some (some m)) (h2 : m.doc = some d) (k : MOk m) :
    manDelete w p = .ok ⟨w.docs.set d (some { doc with changed := doc.changed || decide (m.cur ≠ 0) }), w.mans.set p none,
      w.leaked + lost m.trans⟩ := by
  have lp := Heap.lt_of_live hm
  obtain ⟨-, -, -, c4, -, c5, -⟩ := close_ok k
  have e1 : manClose w p = .ok ⟨w.docs.set d (some { doc with changed := doc.changed || decide (m.cur ≠ 0) }),
      w.mans.set p (some m.close.1), w.leaked⟩ := by
    simp only [manClose, Heap.load_ok hm, Heap.store_ok hm, bind, Except.bind, h2, c5]
    by_cases hc : m.cur = 0
    · simp only [hc, ne_eq, not_true, decide_false, notify, Bool.or_false]
      rw [set_same (x := some doc) hd]
    · simp only [hc, ne_eq, not_false_iff, decide_true, notify, setChanged, Heap.load_ok hd, Heap.store_ok hd, bind, Except.bind,
        pure, Except.pure, Bool.or_true]
  have e2 : (w.mans.set p (some m.close.1))[p]? = some (some m.close.1) := by simp [lp]
  simp only [manDelete, e1, bind, Except.bind, Heap.load_ok e2, Heap.free_ok e2, pure, Except.pure, List.set_set, c4]

theorem onDoc_ok {w : World} (i : Inv w) {d : Nat} {s : SDoc} (h : (view w).docs[d]? = some (some s)) (a : DocOp) : Good w d s a := by
  obtain ⟨doc, hd, rfl⟩ := view_get h
  -- documents without a manager
  cases hp : doc.man with
  | none =>
    have hh : (viewDoc w.mans doc).hist = none := by simp [viewDoc, hp]
    have wm : ∀ out f, withMan w d out f = .ok (w, out) := by
      intro out f
      simp only [withMan, Heap.load_ok hd, bind, Except.bind, hp]
      rfl
    have none_same : ∀ {x : SDoc}, x.hist = none → ({ x with hist := none } : SDoc) = x := by
      intro x hx; cases x; simp only at hx; subst hx; rfl
    cases a with
    | setUndo b =>
      cases b with
      | false =>
        refine good_same i h ?_ ?_ ?_
        · simp only [SDoc.call, hh, pendingOf, Bool.or_false]; exact none_same hh
        · simp only [SDoc.call, hh, lostBy]
        · simp only [onDoc, setUndoManager, Heap.load_ok hd, bind, Except.bind, hp]; rfl
      | true =>
        obtain ⟨u1, u2⟩ := att i (doc' := { doc with man := some w.mans.length }) (m := { Man.new with doc := some d, active := true })
          hd hp rfl rfl ⟨rfl, by simp [Man.new]⟩ rfl
        refine ⟨_, ?_, u1, ?_⟩
        · simp only [onDoc, setUndoManager, Heap.load_ok hd, bind, Except.bind, hp, attach, Heap.alloc, Heap.store_ok hd, pure, Except.pure]
          rfl
        · rw [u2]
          simp only [SDoc.call, hh, Option.getD_none]
          rfl
    | edit => exact good_same i h (by simp only [SDoc.call, hh, Option.map_none]; exact none_same hh) rfl (wm _ _)
    | badEdit => exact good_same i h (by simp only [SDoc.call, hh, Option.map_none]; exact none_same hh) rfl (wm _ _)
    | closeStep => exact good_same i h (by simp only [SDoc.call, hh]) (by simp only [SDoc.call, hh]) (by simp only [SDoc.call, hh]; exact wm _ _)
    | openT => exact good_same i h (by simp only [SDoc.call, hh, Option.map_none]; exact none_same hh) rfl (wm _ _)
    | closeT =>
      exact good_same i h (by simp only [SDoc.call, hh, Option.map_none]; exact none_same hh) rfl
        (by simp only [SDoc.call, hh]; exact wm _ _)
    | undo => exact good_same i h (by simp only [SDoc.call, hh]) (by simp only [SDoc.call, hh]) (by simp only [SDoc.call, hh]; exact wm _ _)
    | redo => exact good_same i h (by simp only [SDoc.call, hh]) (by simp only [SDoc.call, hh]) (by simp only [SDoc.call, hh]; exact wm _ _)
    | setActive b => exact good_same i h (by simp only [SDoc.call, hh, Option.map_none]; exact none_same hh) rfl (wm _ _)
    | setChanged b =>
      obtain ⟨u1, u2⟩ := updDoc i (doc' := { doc with changed := b }) hd rfl
      refine ⟨_, ?_, u1, ?_⟩
      · simp only [onDoc, setChanged, Heap.load_ok hd, Heap.store_ok hd, bind, Except.bind, pure, Except.pure]; rfl
      · rw [u2]; rfl
    | regenerate =>
      obtain ⟨u1, u2⟩ := updDoc i (doc' := { doc with regen := true }) hd rfl
      refine ⟨_, ?_, u1, ?_⟩
      · simp only [onDoc, Heap.load_ok hd, Heap.store_ok hd, bind, Except.bind, pure, Except.pure]; rfl
      · rw [u2]; rfl
    | regenerationDone =>
      obtain ⟨u1, u2⟩ := updDoc i (doc' := { doc with regen := false }) hd rfl
      refine ⟨_, ?_, u1, ?_⟩
      · simp only [onDoc, Heap.load_ok hd, Heap.store_ok hd, bind, Except.bind, pure, Except.pure]; rfl
      · rw [u2]; rfl
  | some p =>
    obtain ⟨m, hm, h1, h2, k⟩ := i.own d doc p hd hp
    have hh : (viewDoc w.mans doc).hist = some (viewMan m) := by simp [viewDoc, hp, lookMan, hm]
    have hc : (viewDoc w.mans doc).changed = doc.changed := rfl
    have hr : (viewDoc w.mans doc).regen = doc.regen := rfl
    have wm : ∀ out f, withMan w d out f = f p := by
      intro out f
      simp only [withMan, Heap.load_ok hd, bind, Except.bind, hp]
    cases a with
    | setUndo b =>
      cases b with
      | true =>
        refine good_same i h ?_ rfl ?_
        · simp only [SDoc.call, hh, Option.getD_some]
          rw [← hh]
        · simp only [onDoc, setUndoManager, Heap.load_ok hd, bind, Except.bind, hp]; rfl
      | false =>
        have lp := Heap.lt_of_live hm
        have ld := Heap.lt_of_live hd
        have e0 : (w.mans.set p (some { m with rc := m.rc - 1 }))[p]? = some (some { m with rc := m.rc - 1 }) := by simp [lp]
        have e1 := manDelete_ok (w := ⟨w.docs, w.mans.set p (some { m with rc := m.rc - 1 }), w.leaked⟩) (p := p) hd e0 h2
          ⟨k.open_iff, k.trans_iff⟩
        obtain ⟨u1, u2⟩ := rem i (x := some { doc with man := none, changed := doc.changed || decide (m.cur ≠ 0) }) hd hp
          (by intro y hy; cases hy; rfl) (w.leaked + lost m.trans)
        refine ⟨_, ?_, u1, ?_⟩
        · have e2 : (w.docs.set d (some { doc with changed := doc.changed || decide (m.cur ≠ 0) }))[d]? =
              some (some { doc with changed := doc.changed || decide (m.cur ≠ 0) }) := by simp [ld]
          simp only [onDoc, setUndoManager, Heap.load_ok hd, bind, Except.bind, hp, detach, manRelease, Heap.load_ok hm,
            Heap.store_ok hm, h1, Nat.sub_self, if_true]
          simp only [h1, Nat.sub_self] at e1
          simp only [e1, Heap.load_ok e2, Heap.store_ok e2, List.set_set]
          rfl
        · rw [u2]
          simp only [SDoc.call, hh, lost_eq k, Option.map_some, pendingOf, hc, hr]
          have : (decide (m.cur ≠ 0)) = ((viewMan m).pending != 0) := by
            simp only [viewMan]
            by_cases hz : m.cur = 0 <;> simp [hz]
          rw [this]
    | edit =>
      obtain ⟨m', r1, r2, r3, r4, r5, -⟩ := register_ok k
      refine good_man i hd hp hm (m' := m') (by rw [r2]; exact h1) (by rw [r3]; exact h2) r4 false (out := .status eOK) ?_ ?_
      · simp only [onDoc, wm, manRegister, Heap.load_ok hm, r1, Heap.store_ok hm, bind, Except.bind, pure, Except.pure, notify]
      · simp only [SDoc.call, hh, Option.map_some, r5, hc, hr, Bool.or_false]
    | badEdit =>
      refine good_man i hd hp hm (m' := m.registerStatus eInvalidInput) h1 h2 ⟨k.open_iff, k.trans_iff⟩ false
        (out := .status eInvalidInput) ?_ ?_
      · simp only [onDoc, wm, manStatus, Heap.load_ok hm, Heap.store_ok hm, bind, Except.bind, pure, Except.pure, notify]
      · simp only [SDoc.call, hh, Option.map_some, hc, hr, Bool.or_false]
        rfl
    | closeStep =>
      obtain ⟨c1, c2, c3, -, -, c5, c6⟩ := close_ok k
      refine good_man i hd hp hm (m' := m.close.1) (by rw [c2]; exact h1) (by rw [c3]; exact h2) c1 m.close.2 (out := .none) ?_ ?_
      · simp only [onDoc, wm, manClose, Heap.load_ok hm, Heap.store_ok hm, bind, Except.bind, pure, Except.pure, h2]
      · rw [c6, c5]
        simp only [SDoc.call, hh]
        by_cases hz : m.cur = 0
        · rw [if_pos (show (viewMan m).pending = 0 from hz)]
          simp only [hz, if_true, ne_eq, not_true, decide_false, Bool.or_false]
          rw [← hh]; rfl
        · rw [if_neg (show ¬ (viewMan m).pending = 0 from hz)]
          simp only [hz, if_false, ne_eq, not_false_iff, decide_true, Bool.or_true, hr]
          rfl
    | openT =>
      obtain ⟨c1, c2, c3, c4⟩ := openT_ok k
      refine good_man i hd hp hm (m' := m.openTransaction) (by rw [c2]; exact h1) (by rw [c3]; exact h2) c1 false (out := .status eOK) ?_ ?_
      · simp only [onDoc, wm, manOpen, Heap.load_ok hm, Heap.store_ok hm, bind, Except.bind, pure, Except.pure, notify]
      · simp only [SDoc.call, hh, Option.map_some, c4, hc, hr, Bool.or_false]
    | closeT =>
      obtain ⟨m', r1, r2, r3, r4, r5⟩ := closeT_ok k
      refine good_man i hd hp hm (m' := m') (by rw [r2]; exact h1) (by rw [r3]; exact h2) r4 false (out := .status m.tstatus) ?_ ?_
      · simp only [onDoc, wm, manCloseT, Heap.load_ok hm, r1, Heap.store_ok hm, bind, Except.bind, pure, Except.pure, notify]
      · simp only [SDoc.call, hh, Option.map_some, r5, hc, hr, Bool.or_false]
        rfl
    | undo =>
      refine good_man i hd hp hm (m' := m.undoStep.2.1) ?_ ?_ ?_ m.undoStep.2.2 (out := .bool m.undoStep.1) ?_ ?_
      · unfold Man.undoStep; cases m.isOpen <;> cases m.undo <;> exact h1
      · unfold Man.undoStep; cases m.isOpen <;> cases m.undo <;> exact h2
      · unfold Man.undoStep
        split
        · exact k
        · split
          · exact k
          · exact ⟨k.open_iff, k.trans_iff⟩
      · simp only [onDoc, wm, manUndo, Heap.load_ok hm, Heap.store_ok hm, bind, Except.bind, pure, Except.pure, h2]
        split <;> rename_i e <;> split at e <;> (try cases e) <;> rfl
      · have hk := k.open_iff
        simp only [SDoc.call, hh]
        cases ho : m.isOpen with
        | true =>
          have hz : ¬ m.cur = 0 := by rw [ho] at hk; simpa using hk.symm
          rw [if_neg (by rintro ⟨h, -⟩; exact hz h)]
          simp only [Man.undoStep, ho, if_true, Bool.or_false]
          rw [← hh]; rfl
        | false =>
          have hz : m.cur = 0 := by rw [ho] at hk; simpa using hk.symm
          cases hu : m.undo with
          | nil =>
            rw [if_neg (by rintro ⟨-, h⟩; simp [viewMan, hu] at h)]
            simp only [Man.undoStep, ho, hu, Bool.false_eq_true, if_false, Bool.or_false]
            rw [← hh]; rfl
          | cons c cs =>
            rw [if_pos ⟨hz, by simp [viewMan, hu]⟩]
            simp only [Man.undoStep, ho, hu, Bool.false_eq_true, if_false, Bool.or_true, hr]
            simp [viewMan, hu]
    | redo =>
      refine good_man i hd hp hm (m' := m.redoStep.2.1) ?_ ?_ ?_ m.redoStep.2.2 (out := .bool m.redoStep.1) ?_ ?_
      · unfold Man.redoStep; cases m.isOpen <;> cases m.redo <;> exact h1
      · unfold Man.redoStep; cases m.isOpen <;> cases m.redo <;> exact h2
      · unfold Man.redoStep
        split
        · exact k
        · split
          · exact k
          · exact ⟨k.open_iff, k.trans_iff⟩
      · simp only [onDoc, wm, manRedo, Heap.load_ok hm, Heap.store_ok hm, bind, Except.bind, pure, Except.pure, h2]
        split <;> rename_i e <;> split at e <;> (try cases e) <;> rfl
      · have hk := k.open_iff
        simp only [SDoc.call, hh]
        cases ho : m.isOpen with
        | true =>
          have hz : ¬ m.cur = 0 := by rw [ho] at hk; simpa using hk.symm
          rw [if_neg (by rintro ⟨h, -⟩; exact hz h)]
          simp only [Man.redoStep, ho, if_true, Bool.or_false]
          rw [← hh]; rfl
        | false =>
          have hz : m.cur = 0 := by rw [ho] at hk; simpa using hk.symm
          cases hu : m.redo with
          | nil =>
            rw [if_neg (by rintro ⟨-, h⟩; simp [viewMan, hu] at h)]
            simp only [Man.redoStep, ho, hu, Bool.false_eq_true, if_false, Bool.or_false]
            rw [← hh]; rfl
          | cons c cs =>
            rw [if_pos ⟨hz, by simp [viewMan, hu]⟩]
            simp only [Man.redoStep, ho, hu, Bool.false_eq_true, if_false, Bool.or_true, hr]
            simp [viewMan, hu]
    | setActive b =>
      refine good_man i hd hp hm (m' := { m with active := b }) h1 h2 ⟨k.open_iff, k.trans_iff⟩ false (out := .none) ?_ ?_
      · simp only [onDoc, wm, manActive, Heap.load_ok hm, Heap.store_ok hm, bind, Except.bind, pure, Except.pure, notify]
      · simp only [SDoc.call, hh, Option.map_some, hc, hr, Bool.or_false]
        rfl
    | setChanged b =>
      obtain ⟨u1, u2⟩ := updDoc i (doc' := { doc with changed := b }) hd rfl
      refine ⟨_, ?_, u1, ?_⟩
      · simp only [onDoc, setChanged, Heap.load_ok hd, Heap.store_ok hd, bind, Except.bind, pure, Except.pure]; rfl
      · rw [u2]; rfl
    | regenerate =>
      obtain ⟨u1, u2⟩ := updDoc i (doc' := { doc with regen := true }) hd rfl
      refine ⟨_, ?_, u1, ?_⟩
      · simp only [onDoc, Heap.load_ok hd, Heap.store_ok hd, bind, Except.bind, pure, Except.pure]; rfl
      · rw [u2]; rfl
    | regenerationDone =>
      obtain ⟨u1, u2⟩ := updDoc i (doc' := { doc with regen := false }) hd rfl
      refine ⟨_, ?_, u1, ?_⟩
      · simp only [onDoc, Heap.load_ok hd, Heap.store_ok hd, bind, Except.bind, pure, Except.pure]; rfl
      · rw [u2]; rfl

theorem newDoc_ok {w : World} (i : Inv w) :
    ∃ w', newDoc w = .ok w' ∧ Inv w' ∧ view w' = ⟨(view w).docs ++ [some ⟨some Hist.new, false, false⟩], w.leaked⟩ := by
  have i1 : Inv ⟨w.docs ++ [some ⟨none, false, false⟩], w.mans, w.leaked⟩ := by
    constructor
    · intro e de q he hq
      by_cases hl : e < w.docs.length
      · rw [List.getElem?_append_left hl] at he
        exact i.own e de q he hq
      · rw [List.getElem?_append_right (by omega)] at he
        cases hk : e - w.docs.length with
        | zero =>
          rw [hk] at he
          simp only [List.getElem?_cons_zero, Option.some.injEq] at he
          subst he; cases hq
        | succ n => rw [hk] at he; simp at he
    · intro q m hq
      obtain ⟨e, de, g1, g2, g3⟩ := i.owned q m hq
      exact ⟨e, de, g1, by rw [List.getElem?_append_left (Heap.lt_of_live g2)]; exact g2, g3⟩
  have hd : (w.docs ++ [some (⟨none, false, false⟩ : Doc)])[w.docs.length]? = some (some ⟨none, false, false⟩) := by simp
  obtain ⟨u1, u2⟩ := att i1 (doc' := ⟨some w.mans.length, false, false⟩) (m := { Man.new with doc := some w.docs.length, active := true })
    hd rfl rfl rfl ⟨rfl, by simp [Man.new]⟩ rfl
  refine ⟨_, ?_, u1, ?_⟩
  · simp only [newDoc, Heap.alloc, setUndoManager, bind, Except.bind]
    rw [Heap.load_ok hd]
    simp only [attach, Heap.alloc, bind, Except.bind]
    rw [Heap.store_ok hd]
    rfl
  · rw [u2]
    simp only [view, List.map_append, List.map_cons, List.map_nil]
    congr 1
    rw [List.set_append_right _ _ (by simp)]
    simp only [List.length_map, Nat.sub_self, List.set_cons_zero]
    rfl

theorem destroy_ok {w : World} (i : Inv w) {d : Nat} {s : SDoc} (h : (view w).docs[d]? = some (some s)) :
    ∃ w', destroy w d = .ok w' ∧ Inv w' ∧ view w' = ⟨(view w).docs.set d none, w.leaked + lostBy s.hist⟩ := by
  obtain ⟨doc, hd, rfl⟩ := view_get h
  cases hp : doc.man with
  | none =>
    obtain ⟨u1, u2⟩ := remDoc i hd hp
    refine ⟨_, ?_, u1, ?_⟩
    · simp only [destroy, Heap.load_ok hd, bind, Except.bind, hp, Heap.free_ok hd]; rfl
    · rw [u2]; simp only [viewDoc, hp, Option.bind_none, lostBy]; rfl
  | some p =>
    obtain ⟨m, hm, h1, h2, k⟩ := i.own d doc p hd hp
    have ld := Heap.lt_of_live hd
    obtain ⟨u1, u2⟩ := rem i (x := none) hd hp (by intro y hy; cases hy) (w.leaked + lost m.trans)
    refine ⟨_, ?_, u1, ?_⟩
    · have e2 : (w.docs.set d (some { doc with changed := doc.changed || decide (m.cur ≠ 0) }))[d]? =
          some (some { doc with changed := doc.changed || decide (m.cur ≠ 0) }) := by simp [ld]
      simp only [hp] at e2
      simp only [destroy, Heap.load_ok hd, bind, Except.bind, hp, manDelete_ok hd hm h2 k, Heap.free_ok e2, List.set_set]
      rfl
    · rw [u2]
      have hh : (viewDoc w.mans doc).hist = some (viewMan m) := by simp [viewDoc, hp, lookMan, hm]
      rw [hh, lost_eq k]
      rfl

theorem step_ok {w : World} (i : Inv w) {o : Op} {s' : SWorld} {out : Out} (h : (view w).step o = some (s', out)) :
    ∃ w', step w o = .ok (w', out) ∧ Inv w' ∧ view w' = s' := by
  cases o with
  | newDoc =>
    simp only [SWorld.step, Option.some.injEq, Prod.mk.injEq] at h
    obtain ⟨w', h1, h2, h3⟩ := newDoc_ok i
    refine ⟨w', ?_, h2, ?_⟩
    · simp only [step, h1, bind, Except.bind, ← h.2]; rfl
    · rw [h3, ← h.1]; rfl
  | on d a =>
    simp only [SWorld.step] at h
    split at h
    · rename_i s hs
      simp only [Option.some.injEq, Prod.mk.injEq] at h
      obtain ⟨w', h1, h2, h3⟩ := onDoc_ok i hs a
      refine ⟨w', ?_, h2, ?_⟩
      · simp only [step, h1, ← h.2]
      · rw [h3, ← h.1]; rfl
    · cases h
  | destroy d =>
    simp only [SWorld.step] at h
    split at h
    · rename_i s hs
      simp only [Option.some.injEq, Prod.mk.injEq] at h
      obtain ⟨w', h1, h2, h3⟩ := destroy_ok i hs
      refine ⟨w', ?_, h2, ?_⟩
      · simp only [step, h1, bind, Except.bind, ← h.2]; rfl
      · rw [h3, ← h.1]; rfl
    · cases h
  | keep p => cases h
  | drop p => cases h
  | useUndo p => cases h
  | useClose p => cases h

theorem run_ok (os : List Op) {w : World} (i : Inv w) {s' : SWorld} {outs : List Out} (h : SWorld.run os (view w) = some (s', outs)) :
    ∃ w', run os w = .ok (w', outs) ∧ Inv w' ∧ view w' = s' := by
  induction os generalizing w s' outs with
  | nil =>
    simp only [SWorld.run, Option.some.injEq, Prod.mk.injEq] at h
    exact ⟨w, by simp only [run, ← h.2], i, h.1⟩
  | cons o os ih =>
    simp only [SWorld.run] at h
    split at h
    · cases h
    · rename_i w1 out e1
      split at h
      · cases h
      · rename_i w2 outs' e2
        simp only [Option.some.injEq, Prod.mk.injEq] at h
        obtain ⟨w', a1, a2, a3⟩ := step_ok i e1
        rw [← a3] at e2
        obtain ⟨w'', b1, b2, b3⟩ := ih a2 e2
        refine ⟨w'', ?_, b2, by rw [b3, h.1]⟩
        simp only [run, a1, bind, Except.bind, b1, ← h.2]
        rfl

end Verif.Doc
