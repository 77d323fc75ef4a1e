import Verif.Doc.Refine
import Verif.Doc.Abs
import Verif.Doc.Changed
/-
C113: documents and their undo managers over the whole life of a program.
-/
namespace Verif.Doc.Props
open Verif Verif.Doc Verif.Doc.Spec
open Verif.Undo (Status eOK eInvalidInput eNotChanged)

theorem inv_empty : Inv World.empty := ⟨(by intro d doc p h; cases h), (by intro p m h; cases h)⟩

/-- Any history of creating, editing, switching undo on and off, undoing, transacting and destroying any number of
documents: no undefined behaviour, every call returns what a document on its own returns, the documents answer all
questions like documents on their own, each undo manager alive belongs to exactly one live document that holds its
only reference, and when all documents are destroyed no manager is left. -/
theorem documents (os : List Op) (s : SWorld) (outs : List Out) (h : SWorld.run os SWorld.empty = some (s, outs)) :
    ∃ w, run os World.empty = .ok (w, outs) ∧ view w = s ∧
      (∀ (p : Nat) (m : Man), w.mans[p]? = some (some m) →
        ∃ d doc, w.docs[d]? = some (some doc) ∧ doc.man = some p ∧ m.rc = 1 ∧ m.doc = some d ∧
          ∀ (e : Nat) (doc' : Doc), w.docs[e]? = some (some doc') → doc'.man = some p → e = d) ∧
      ((∀ c ∈ s.docs, c = none) → w.docs.AllFreed ∧ w.mans.AllFreed) := by
  obtain ⟨w, h1, i, h2⟩ := run_ok os inv_empty (s' := s) (outs := outs) h
  refine ⟨w, h1, h2, ?_, ?_⟩
  · intro p m hm
    obtain ⟨d, doc, g1, g2, g3⟩ := i.owned p m hm
    obtain ⟨m', k1, k2, k3, -⟩ := i.own d doc p g2 g3
    rw [hm] at k1
    simp only [Option.some.injEq] at k1
    subst k1
    refine ⟨d, doc, g2, g3, k2, g1, ?_⟩
    intro e doc' he hp
    apply Decidable.byContradiction
    intro hne
    exact other i g2 g3 hne he hp
  · intro hall
    have hd : w.docs.AllFreed := by
      intro c hc
      cases c with
      | none => rfl
      | some doc =>
        have := hall (some (viewDoc w.mans doc)) (by rw [← h2]; exact List.mem_map.2 ⟨some doc, hc, rfl⟩)
        cases this
    refine ⟨hd, ?_⟩
    intro c hc
    cases c with
    | none => rfl
    | some m =>
      obtain ⟨p, hp⟩ := List.mem_iff_getElem?.1 hc
      obtain ⟨d, doc, -, g2, -⟩ := i.owned p m hp
      have := hd _ (List.mem_of_getElem? g2)
      cases this

/-- two documents, one with undo switched off and on again, a failed and a committed transaction, both destroyed -/
def sample : List Op :=
  [.newDoc, .newDoc, .on 0 .edit, .on 1 .openT, .on 1 .edit, .on 0 .closeStep, .on 1 .badEdit, .on 1 .closeT, .on 0 .undo,
   .on 0 .redo, .on 1 .undo, .on 1 (.setUndo false), .on 1 .edit, .on 1 (.setUndo true), .on 1 .openT, .on 1 .edit, .on 1 .closeT,
   .on 0 (.setChanged false)]

example : SWorld.run sample SWorld.empty =
    some (⟨[some ⟨some ⟨true, 0, 1, 0, none, eOK⟩, false, false⟩, some ⟨some ⟨true, 1, 0, 0, none, eOK⟩, false, false⟩], 0⟩,
      [.none, .none, .status eOK, .status eOK, .status eOK, .none, .status eInvalidInput, .status eInvalidInput, .bool true, .bool true,
       .bool false, .none, .status eOK, .none, .status eOK, .status eOK, .status eOK, .none]) := by decide

example : ∃ s outs, SWorld.run (sample ++ [.destroy 1, .destroy 0]) SWorld.empty = some (s, outs) ∧ ∀ c ∈ s.docs, c = none :=
  ⟨⟨[none, none], 0⟩, _, rfl, by decide⟩

/-- a call that mentions document `e` -/
def mentions (e : Nat) : Op → Bool
  | .on d _ => d == e
  | .destroy d => d == e
  | _ => false

/-- Calls on other documents, new and destroyed ones included, change nothing about a document. -/
theorem documents_independent (os : List Op) (e : Nat) (he : ∀ o ∈ os, mentions e o = false) (w : World) (i : Inv w) (x : SDoc)
    (hx : (view w).docs[e]? = some (some x)) (s : SWorld) (outs : List Out) (h : SWorld.run os (view w) = some (s, outs)) :
    ∃ w', run os w = .ok (w', outs) ∧ (view w').docs[e]? = some (some x) := by
  obtain ⟨w', h1, -, h2⟩ := run_ok os i h
  refine ⟨w', h1, ?_⟩
  rw [h2]
  clear h1 h2 i
  generalize hv : view w = v at *
  clear hv
  induction os generalizing v outs with
  | nil => simp only [SWorld.run, Option.some.injEq, Prod.mk.injEq] at h; rw [← h.1]; exact hx
  | cons o os ih =>
    simp only [SWorld.run] at h
    split at h
    · cases h
    · rename_i v1 out e1
      split at h
      · cases h
      · rename_i v2 outs' e2
        simp only [Option.some.injEq, Prod.mk.injEq] at h
        rw [← h.1]
        have ho := he o (by simp)
        refine ih (outs := outs') (fun o h => he o (by simp [h])) v1 ?_ (by rw [e2, h.1]) |> fun g => by rw [h.1]; exact g
        cases o with
        | newDoc =>
          simp only [SWorld.step, Option.some.injEq, Prod.mk.injEq] at e1
          rw [← e1.1]
          simp only
          rw [List.getElem?_append_left (List.getElem?_eq_some_iff.1 hx).1]
          exact hx
        | on d a =>
          simp only [SWorld.step] at e1
          split at e1
          · simp only [Option.some.injEq, Prod.mk.injEq] at e1
            rw [← e1.1]
            simp only [mentions, beq_eq_false_iff_ne, ne_eq] at ho
            simp only [List.getElem?_set, ho, if_false]
            exact hx
          · cases e1
        | destroy d =>
          simp only [SWorld.step] at e1
          split at e1
          · simp only [Option.some.injEq, Prod.mk.injEq] at e1
            rw [← e1.1]
            simp only [mentions, beq_eq_false_iff_ne, ne_eq] at ho
            simp only [List.getElem?_set, ho, if_false]
            exact hx
          · cases e1
        | keep p => cases e1
        | drop p => cases e1
        | useUndo p => cases e1
        | useClose p => cases e1

/-- An edit never marks a document as changed; closing the step does, exactly when there are changes in it. -/
theorem marked_when_closed (s : SDoc) (b : Bool) (h : Hist) (hh : s.hist = some h) :
    (s.call .edit).1.changed = s.changed ∧ (s.call .badEdit).1.changed = s.changed ∧ (s.call .closeT).1.changed = s.changed ∧
    (s.call .closeStep).1.changed = (s.changed || h.pending != 0) ∧
    (s.call (.setUndo false)).1.changed = (s.changed || h.pending != 0) ∧ (s.call (.setChanged b)).1.changed = b := by
  refine ⟨rfl, rfl, rfl, ?_, ?_, rfl⟩
  · simp only [SDoc.call, hh]
    by_cases hp : h.pending = 0 <;> simp [hp]
  · simp [SDoc.call, hh, pendingOf]

/-- Without an undo manager no edit, however many follow, and no `closeUndoStep` ever marks the document. -/
theorem unmarked_without_undo (as : List DocOp) (has : ∀ a ∈ as, a = .edit ∨ a = .badEdit ∨ a = .closeStep ∨ a = .openT ∨ a = .closeT)
    (s : SDoc) (hs : s.hist = none) : (as.foldl (fun t a => (t.call a).1) s) = s := by
  induction as generalizing s with
  | nil => rfl
  | cons a as ih =>
    have e : (s.call a).1 = s := by
      cases s with
      | mk hi c r =>
        simp only at hs
        subst hs
        rcases has a (by simp) with rfl | rfl | rfl | rfl | rfl <;> rfl
    simp only [List.foldl_cons]
    rw [e]
    exact ih (fun a h => has a (by simp [h])) s hs

/-- A program that opens no transactions loses none. -/
theorem nothing_lost (os : List Op) (ho : ∀ d, Op.on d .openT ∉ os) (s : SWorld) (outs : List Out)
    (h : SWorld.run os SWorld.empty = some (s, outs)) : s.lost = 0 := by
  have key : ∀ (os : List Op) (v : SWorld) (outs : List Out), (∀ d, Op.on d .openT ∉ os) → v.lost = 0 →
      (∀ (x : SDoc) (h : Hist), some x ∈ v.docs → x.hist = some h → h.tr = none) → SWorld.run os v = some (s, outs) → s.lost = 0 := by
    intro os
    induction os with
    | nil =>
      intro v outs _ hv _ h
      simp only [SWorld.run, Option.some.injEq, Prod.mk.injEq] at h
      rw [← h.1]; exact hv
    | cons o os ih =>
      intro v outs ho hv ht h
      simp only [SWorld.run] at h
      split at h
      · cases h
      · rename_i v1 out e1
        split at h
        · cases h
        · rename_i v2 outs' e2
          simp only [Option.some.injEq, Prod.mk.injEq] at h
          have ho' : ∀ d, Op.on d .openT ∉ os := fun d hd => ho d (by simp [hd])
          rw [h.1] at e2
          refine ih v1 outs' ho' ?_ ?_ e2
          · cases o with
            | newDoc => simp only [SWorld.step, Option.some.injEq, Prod.mk.injEq] at e1; rw [← e1.1]; exact hv
            | on d a =>
              simp only [SWorld.step] at e1
              split at e1
              · rename_i x hx
                simp only [Option.some.injEq, Prod.mk.injEq] at e1
                rw [← e1.1]
                have : (x.call a).2.2 = 0 := no_loss (fun h hh => ht x h (List.mem_of_getElem? hx) hh) a
                simp only [this, hv]
              · cases e1
            | destroy d =>
              simp only [SWorld.step] at e1
              split at e1
              · rename_i x hx
                simp only [Option.some.injEq, Prod.mk.injEq] at e1
                rw [← e1.1]
                have : lostBy x.hist = 0 := by
                  cases hh : x.hist with
                  | none => rfl
                  | some h => simp only [lostBy, ht x h (List.mem_of_getElem? hx) hh]; rfl
                simp only [this, hv]
              · cases e1
            | keep p => cases e1
            | drop p => cases e1
            | useUndo p => cases e1
            | useClose p => cases e1
          · cases o with
            | newDoc =>
              simp only [SWorld.step, Option.some.injEq, Prod.mk.injEq] at e1
              rw [← e1.1]
              intro x h hx hh
              simp only [List.mem_append, List.mem_singleton, Option.some.injEq] at hx
              rcases hx with hx | rfl
              · exact ht x h hx hh
              · simp only [Option.some.injEq] at hh; rw [← hh]; rfl
            | on d a =>
              simp only [SWorld.step] at e1
              split at e1
              · rename_i x hx
                simp only [Option.some.injEq, Prod.mk.injEq] at e1
                rw [← e1.1]
                intro y h hy hh
                rcases List.mem_or_eq_of_mem_set hy with hy | hy
                · exact ht y h hy hh
                · simp only [Option.some.injEq] at hy
                  subst hy
                  refine no_tr (fun h hh => ht x h (List.mem_of_getElem? hx) hh) a ?_ h hh
                  intro ha
                  exact ho d (by simp [ha])
              · cases e1
            | destroy d =>
              simp only [SWorld.step] at e1
              split at e1
              · rename_i x hx
                simp only [Option.some.injEq, Prod.mk.injEq] at e1
                rw [← e1.1]
                intro y h hy hh
                rcases List.mem_or_eq_of_mem_set hy with hy | hy
                · exact ht y h hy hh
                · cases hy
              · cases e1
            | keep p => cases e1
            | drop p => cases e1
            | useUndo p => cases e1
            | useClose p => cases e1
  exact key os SWorld.empty outs ho rfl (by intro x h hx; cases hx) h
where
  no_loss {x : SDoc} (ht : ∀ h, x.hist = some h → h.tr = none) (a : DocOp) : (x.call a).2.2 = 0 := by
    cases a with
    | setUndo b =>
      cases b with
      | true => rfl
      | false =>
        simp only [SDoc.call]
        cases hh : x.hist with
        | none => rfl
        | some h => simp only [lostBy, ht h hh]; rfl
    | closeStep => simp only [SDoc.call]; split <;> first | rfl | (split <;> rfl)
    | undo => simp only [SDoc.call]; split <;> first | rfl | (split <;> rfl)
    | redo => simp only [SDoc.call]; split <;> first | rfl | (split <;> rfl)
    | edit => rfl
    | badEdit => rfl
    | openT => rfl
    | closeT => rfl
    | setActive b => rfl
    | setChanged b => rfl
    | regenerate => rfl
    | regenerationDone => rfl
  no_tr {x : SDoc} (ht : ∀ h, x.hist = some h → h.tr = none) (a : DocOp) (ha : a ≠ .openT) : ∀ h, (x.call a).1.hist = some h → h.tr = none := by
    obtain ⟨hi, c, r⟩ := x
    cases hi with
    | none =>
      intro h hh
      cases a with
      | setUndo b => cases b <;> cases hh; rfl
      | _ => cases hh
    | some g =>
      have hg : g.tr = none := ht g rfl
      intro h hh
      cases a with
      | setUndo b => cases b <;> cases hh; exact hg
      | edit =>
        cases hh
        simp only [Hist.edit, hg, Hist.change]
        split <;> first | exact hg | rfl
      | badEdit => cases hh; exact hg
      | openT => exact absurd rfl ha
      | closeT =>
        cases hh
        simp only [Hist.closeT, hg]
      | closeStep =>
        simp only [SDoc.call] at hh
        split at hh <;> cases hh <;> exact hg
      | undo =>
        simp only [SDoc.call] at hh
        split at hh <;> cases hh <;> exact hg
      | redo =>
        simp only [SDoc.call] at hh
        split at hh <;> cases hh <;> exact hg
      | setActive b => cases hh; exact hg
      | setChanged b => cases hh; exact hg
      | regenerate => cases hh; exact hg
      | regenerationDone => cases hh; exact hg

/-- A transaction that is open when its document is destroyed, or when undo is switched off, is lost: nobody can
free it. -/
theorem open_transaction_lost :
    (∃ w outs, run [.newDoc, .on 0 .openT, .destroy 0] World.empty = .ok (w, outs) ∧ w.leaked = 1) ∧
    (∃ w outs, run [.newDoc, .on 0 .openT, .on 0 (.setUndo false), .destroy 0] World.empty = .ok (w, outs) ∧ w.leaked = 1) :=
  ⟨⟨_, _, rfl, rfl⟩, ⟨_, _, rfl, rfl⟩⟩

/-- An edit inside a transaction is not rolled back when undo is switched off before the transaction is closed:
`closeTransaction` then reports `eNotChanged` for a transaction with a failure. -/
theorem transaction_forgotten : ∃ w, run [.newDoc, .on 0 .openT, .on 0 .edit, .on 0 .badEdit, .on 0 (.setUndo false), .on 0 .closeT] World.empty =
    .ok (w, [.none, .status eOK, .status eOK, .status eInvalidInput, .none, .status eNotChanged]) := ⟨_, rfl⟩

/-! ### A program that keeps pointers to undo managers -/

/-- Retaining the undo manager does not keep it: destroying the document deletes it, and the release of the kept
reference (like any other use) is undefined behaviour. -/
theorem retain_does_not_keep (w : World) (i : Inv w) (d p : Nat) (doc : Doc) (hd : w.docs[d]? = some (some doc)) (hp : doc.man = some p) :
    run [.keep p, .destroy d, .drop p] w = .error .ub ∧ run [.keep p, .destroy d, .useUndo p] w = .error .ub := by
  obtain ⟨m, hm, h1, h2, k⟩ := i.own d doc p hd hp
  have lp := Heap.lt_of_live hm
  have ld := Heap.lt_of_live hd
  have e0 : (w.mans.set p (some { m with rc := m.rc + 1 }))[p]? = some (some { m with rc := m.rc + 1 }) := by simp [lp]
  have e1 := manDelete_ok (w := ⟨w.docs, w.mans.set p (some { m with rc := m.rc + 1 }), w.leaked⟩) (p := p) hd e0 h2
    ⟨k.open_iff, k.trans_iff⟩
  have e2 : (w.docs.set d (some { doc with changed := doc.changed || decide (m.cur ≠ 0) }))[d]? =
      some (some { doc with changed := doc.changed || decide (m.cur ≠ 0) }) := by simp [ld]
  have e3 : (w.mans.set p none)[p]? = some none := by simp [lp]
  have s1 : step w (.keep p) = .ok (⟨w.docs, w.mans.set p (some { m with rc := m.rc + 1 }), w.leaked⟩, .none) := by
    simp only [step, manRetain, Heap.load_ok hm, Heap.store_ok hm, bind, Except.bind]; rfl
  have s2 : step ⟨w.docs, w.mans.set p (some { m with rc := m.rc + 1 }), w.leaked⟩ (.destroy d) =
      .ok (⟨w.docs.set d none, w.mans.set p none, w.leaked + lost m.trans⟩, .none) := by
    simp only [hp] at e1 e2
    simp only [step, destroy, Heap.load_ok hd, bind, Except.bind, hp, e1, Heap.free_ok e2, List.set_set, pure, Except.pure]
  constructor
  · have s3 : step ⟨w.docs.set d none, w.mans.set p none, w.leaked + lost m.trans⟩ (.drop p) = .error .ub := by
      simp only [step, manRelease, Heap.load_free e3, bind, Except.bind]
    simp only [run, s1, s2, s3, bind, Except.bind]
  · have s3 : step ⟨w.docs.set d none, w.mans.set p none, w.leaked + lost m.trans⟩ (.useUndo p) = .error .ub := by
      simp only [step, manUndo, Heap.load_free e3, bind, Except.bind]
    simp only [run, s1, s2, s3, bind, Except.bind]

example : ∃ (w : World) (doc : Doc), run [.newDoc, .on 0 .edit] World.empty = .ok (w, [.none, .status eOK]) ∧ w.docs[0]? = some (some doc) ∧
    doc.man = some 0 := ⟨_, _, rfl, rfl, rfl⟩

/-- A kept undo manager that undo was switched off for survives, but still points to its document: once that is
destroyed, undoing through it, and even releasing it while a step is open, uses the destroyed document. -/
theorem kept_manager_outlives :
    run [.newDoc, .on 0 .edit, .on 0 .closeStep, .keep 0, .on 0 (.setUndo false), .destroy 0, .useUndo 0] World.empty = .error .ub ∧
    run [.newDoc, .on 0 .edit, .keep 0, .on 0 (.setUndo false), .destroy 0, .drop 0] World.empty = .error .ub ∧
    (∃ w outs, run [.newDoc, .on 0 .edit, .on 0 .closeStep, .keep 0, .on 0 (.setUndo false), .destroy 0, .drop 0] World.empty = .ok (w, outs) ∧
      w.mans.AllFreed ∧ w.docs.AllFreed) := by
  refine ⟨rfl, rfl, ⟨[none], [none], 0⟩, _, rfl, ?_, ?_⟩
  · intro c hc; simpa using hc
  · intro c hc; simpa using hc

end Verif.Doc.Props
