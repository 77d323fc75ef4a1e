import Verif.UndoRef.ListSim3
import Verif.UndoRef.Props
/-
C26, C92, C93: linked lists that are edited under an undo manager.
-/
namespace Verif.UndoRef
open Verif Verif.UndoRef.Spec
open Verif.UndoRef.ListSpec (World History Move walk walkBack Shows)

theorem walk_ok {s : State} : ∀ {xs : List Item} {p : Option Obj} {fuel : Nat}, Seg s.cells p (ids xs) none →
    (∀ x ∈ xs, s.cells (dataCell x.1) = x.2 ∧ touch s.cnt x.1 = .ok ()) → xs.length ≤ fuel → walk s fuel (ids xs).head? = .ok xs
  | [], _, fuel, _, _, _ => by cases fuel <;> rfl
  | x :: xs, p, fuel, ⟨_, h2, h3⟩, hx, hl => by
    obtain ⟨k, rfl⟩ : ∃ k, fuel = k + 1 := ⟨fuel - 1, by simp only [List.length_cons] at hl; omega⟩
    obtain ⟨g1, g2⟩ := hx x (.head _)
    simp only [Option.or_none] at h2
    have ih := walk_ok h3 (fun y hy => hx y (.tail _ hy)) (fuel := k) (by simp only [List.length_cons] at hl; omega)
    simp only [ids, List.map_cons, List.head?_cons, walk, g2, bind, Except.bind, g1, pure, Except.pure]
    simp only [ids] at h2 ih
    rw [h2, ih]

theorem walkBack_ok {s : State} : ∀ {n : Nat} {xs : List Item} {q : Option Obj} {fuel : Nat}, xs.length = n → Seg s.cells none (ids xs) q →
    (∀ x ∈ xs, s.cells (dataCell x.1) = x.2 ∧ touch s.cnt x.1 = .ok ()) → xs.length ≤ fuel → walkBack s fuel (ids xs).getLast? = .ok xs.reverse
  | 0, xs, _, fuel, hn, _, _, _ => by
    have : xs = [] := List.length_eq_zero_iff.1 hn
    subst this
    cases fuel <;> rfl
  | n + 1, xs, q, fuel, hn, hs, hx, hl => by
    obtain ⟨ys, y, rfl⟩ : ∃ ys y, xs = ys ++ [y] := by
      have : xs ≠ [] := fun e => by rw [e] at hn; cases hn
      exact ⟨_, _, (List.dropLast_append_getLast this).symm⟩
    simp only [List.length_append, List.length_cons, List.length_nil] at hn hl
    obtain ⟨k, rfl⟩ : ∃ k, fuel = k + 1 := ⟨fuel - 1, by omega⟩
    obtain ⟨g1, g2⟩ := hx y (by simp)
    have he : ids (ys ++ [y]) = ids ys ++ [y.1] := by simp [ids]
    rw [he, Seg.append] at hs
    have h1 := hs.2.1
    rw [Option.or_none] at h1
    have ih := walkBack_ok (n := n) (xs := ys) (fuel := k) (by omega) hs.1 (fun x hxx => hx x (by simp [hxx])) (by omega)
    rw [he, List.getLast?_append, List.getLast?_singleton, Option.some_or]
    simp only [walkBack, g2, bind, Except.bind, g1, pure, Except.pure, h1, ih, List.reverse_append, List.reverse_cons, List.reverse_nil, List.nil_append, List.cons_append]

theorem Sim.shows {w : World} {s : State} {h : Hist} (i : Sim w s h) : Shows w s := by
  have hc := i.inv.cells
  have hx : ∀ l, ∀ x ∈ w.hist.now.seq l, s.cells (dataCell x.1) = x.2 ∧ UndoRef.touch s.cnt x.1 = .ok () := fun l x hx =>
    ⟨by rw [hc]; exact i.rels.now.data l x hx, i.touch (i.rels.now.alive l x hx).1⟩
  have hcnt : ∀ o, 1 ≤ w.hist.now.refs o → s.cnt o ≠ 0 := fun o ho h0 => by
    have := i.touch ho
    simp only [UndoRef.touch, h0, if_true] at this
    cases this
  refine ⟨fun l hl => ?_, fun l hl => ?_, fun l hl => hcnt l (i.rels.now.lists l hl), fun l x hxx d hd => hcnt d (i.rels.now.backed l x hxx d hd).1⟩
  · rw [hc, i.rels.now.start l hl]
    exact walk_ok (by rw [hc]; exact i.rels.now.seg l) (hx l) (i.length l)
  · rw [hc, i.rels.now.last l hl]
    exact walkBack_ok rfl (by rw [hc]; exact i.rels.now.seg l) (hx l) (i.length l)

/-- **C26, C92, C93.** Whatever an application does with linked lists under an undo manager — `add`, `addBefore`, `remove`, `clear`, `swapData`, other
registered changes, `undo`, `redo`, `close`, clearing the stacks, transactions, `commit`, `rollback`, in any order —: if the data it puts into
the lists is backed by registered references, nothing undefined happens; every operation reports what it should; every list can be walked
through in both directions, all its elements and their data exist, and they are those of the specified history; and the count of every
object is the number of references the application holds plus those of the changes in the history. -/
theorem list_history (as : List ListSpec.Act) (hl : ListSpec.Legal .new as) :
    ∃ s, ListSpec.execAll 0 .new as = .ok ((World.new.run as).1.n, s, (World.new.run as).2) ∧ Shows (World.new.run as).1 s ∧
      ∀ o, (s.cnt o : Int) = (World.new.run as).1.own o + heldBy (changes s) o := by
  obtain ⟨s, h, e, i⟩ := run_sim as sim_new hl
  refine ⟨s, e, i.shows, fun o => ?_⟩
  have := i.inv.bal o
  rw [← i.own o]
  exact this

theorem run_append : ∀ (as bs : List ListSpec.Act) (w : World), (w.run (as ++ bs)).1 = ((w.run as).1.run bs).1
  | [], _, _ => rfl
  | a :: as, bs, w => run_append as bs (w.step a).1

theorem legal_append : ∀ {as bs : List ListSpec.Act} {w : World}, ListSpec.Legal w (as ++ bs) → ListSpec.Legal w as ∧ ListSpec.Legal (w.run as).1 bs
  | [], _, _, h => ⟨trivial, h⟩
  | _ :: _, _, _, h => ⟨⟨h.1, (legal_append h.2).1⟩, (legal_append h.2).2⟩

theorem seen_some (d1 d2 : Option Obj) : ∀ {xs : List Item} {e1 e2 : Option Obj}, (e1.isSome = true ∨ d1 ∈ xs.map (·.2)) → (e2.isSome = true ∨ d2 ∈ xs.map (·.2)) →
    ∃ e f, ListSpec.seen d1 d2 xs e1 e2 = (some e, some f)
  | [], e1, e2, h1, h2 => by
    have h1 := h1.resolve_right (by simp)
    have h2 := h2.resolve_right (by simp)
    obtain ⟨e, rfl⟩ := Option.isSome_iff_exists.1 h1
    obtain ⟨f, rfl⟩ := Option.isSome_iff_exists.1 h2
    exact ⟨e, f, rfl⟩
  | x :: xs, e1, e2, h1, h2 => by
    have one : ∀ (d c : Option Obj), (c.isSome = true ∨ d ∈ (x :: xs).map (·.2)) → (if x.2 = d then some x.1 else c).isSome = true ∨ d ∈ xs.map (·.2) := fun d c hc => by
      by_cases e : x.2 = d
      · rw [if_pos e]; exact .inl rfl
      · rw [if_neg e]
        rcases hc with hc | hc
        · exact .inl hc
        · rw [List.map_cons, List.mem_cons] at hc
          exact .inr (hc.resolve_left (fun h => e h.symm))
    have g1 := one d1 e1 h1
    have g2 := one d2 e2 h2
    simp only [ListSpec.seen]
    generalize (if x.2 = d1 then some x.1 else e1) = a at g1 ⊢
    generalize (if x.2 = d2 then some x.1 else e2) = b at g2 ⊢
    by_cases hab : (a.isSome && b.isSome) = true
    · rw [if_pos hab]
      rw [Bool.and_eq_true] at hab
      obtain ⟨e, rfl⟩ := Option.isSome_iff_exists.1 hab.1
      obtain ⟨f, rfl⟩ := Option.isSome_iff_exists.1 hab.2
      exact ⟨e, f, rfl⟩
    · rw [if_neg hab]
      exact seen_some d1 d2 g1 g2

theorem inj_of_nodup {α β : Type} {f : α → β} : ∀ {l : List α}, (l.map f).Nodup → ∀ {x y : α}, x ∈ l → y ∈ l → f x = f y → x = y
  | [], _, _, _, hx, _, _ => by cases hx
  | a :: l, h, x, y, hx, hy, e => by
    have h := List.nodup_cons.1 h
    rcases List.mem_cons.1 hx with h1 | h1
    · rcases List.mem_cons.1 hy with h2 | h2
      · rw [h1, h2]
      · exact absurd (List.mem_map.2 ⟨y, h2, by rw [← e, h1]⟩) h.1
    · rcases List.mem_cons.1 hy with h2 | h2
      · exact absurd (List.mem_map.2 ⟨x, h1, by rw [e, h2]⟩) h.1
      · exact inj_of_nodup h.2 h1 h2 e

/-- **C128.** `swapData` of two data that occur once exchanges them, whatever happened before. -/
theorem swap_once (as : List ListSpec.Act) (l : Obj) (d1 d2 : Option Obj) (hl : ListSpec.Legal .new (as ++ [.swap l d1 d2]))
    (hn : (((World.new.run as).1.hist.now.seq l).map (·.2)).Nodup) (h1 : d1 ∈ ((World.new.run as).1.hist.now.seq l).map (·.2))
    (h2 : d2 ∈ ((World.new.run as).1.hist.now.seq l).map (·.2)) :
    ∃ n s q xs, ListSpec.execAll 0 .new (as ++ [.swap l d1 d2]) = .ok (n, s, q) ∧ walk s n (s.cells (startCell l)) = .ok xs ∧
      xs.map (·.1) = ((World.new.run as).1.hist.now.seq l).map (·.1) ∧
      xs.map (·.2) = ((World.new.run as).1.hist.now.seq l).map (fun x => if x.2 = d1 then d2 else if x.2 = d2 then d1 else x.2) := by
  obtain ⟨s0, h0, _, i0⟩ := run_sim as sim_new (legal_append hl).1
  obtain ⟨s, e1, s1, _⟩ := list_history _ hl
  have hll : (World.new.run as).1.isList l = true := (legal_append hl).2.1
  obtain ⟨e, f, he⟩ := seen_some d1 d2 (xs := (World.new.run as).1.hist.now.seq l) (e1 := none) (e2 := none) (.inr h1) (.inr h2)
  obtain ⟨m1, m2⟩ := seen_mem d1 d2 he
  replace m1 := m1.resolve_left (by simp)
  replace m2 := m2.resolve_left (by simp)
  have hw : (World.new.run (as ++ [.swap l d1 d2])).1.hist.now.seq l = ListSpec.setData f d1 (ListSpec.setData e d2 ((World.new.run as).1.hist.now.seq l)) ∧
      (World.new.run (as ++ [.swap l d1 d2])).1.isList = (World.new.run as).1.isList := by
    rw [run_append]
    simp only [World.run, World.step, he, hedit_now, upd_same, and_self]
  refine ⟨_, s, _, _, e1, s1.forth l (by rw [hw.2]; exact hll), ?_, ?_⟩
  · rw [hw.1]
    exact (setData_ids _ _ _).trans (setData_ids _ _ _)
  · rw [hw.1]
    have hid := i0.rels.now.nodup l
    simp only [ListSpec.setData, List.map_map]
    refine List.map_congr_left (fun x hx => ?_)
    -- an element is known by its data, and by its number
    have k1 : ∀ {y : Item}, y ∈ (World.new.run as).1.hist.now.seq l → (y.2 = x.2 ↔ y.1 = x.1) := fun {y} hy =>
      ⟨fun h => by rw [inj_of_nodup hn hy hx h], fun h => by rw [inj_of_nodup (f := fun x : Item => x.1) hid hy hx h]⟩
    have k2 := k1 m1
    have k3 := k1 m2
    simp only at k2 k3
    simp only [Function.comp_apply]
    by_cases a1 : x.1 = e
    · have b1 : x.2 = d1 := (k2.2 a1.symm).symm
      rw [if_pos a1, if_pos b1]
      by_cases a2 : x.1 = f
      · rw [if_pos a2]
        have b2 : x.2 = d2 := (k3.2 a2.symm).symm
        simp only [← b1, ← b2]
      · rw [if_neg a2]
    · have b1 : x.2 ≠ d1 := fun h => a1 (k2.1 h.symm).symm
      rw [if_neg a1, if_neg b1]
      by_cases a2 : x.1 = f
      · rw [if_pos a2, if_pos (k3.2 a2.symm).symm]
      · rw [if_neg a2, if_neg (fun h => a2 (k3.1 h.symm).symm)]

/-! ### Undo, redo and rollback as seen by the application -/

/-- a change of the application, not of the position in the history -/
def IsChange : ListSpec.Act → Prop
  | .move _ => False
  | _ => True

/-- `w` comes from `w0` by changes -/
structure Since (w0 w : World) : Prop where
  tr : w.hist.tr = none
  past : w.hist.past.map (·.seq) = w0.hist.past.map (·.seq)
  same : w.hist.start = none → w.hist.now.seq = w0.hist.now.seq
  start : ∀ a, w.hist.start = some a → a.seq = w0.hist.now.seq
  lists : ∀ l, w0.isList l = true → w.isList l = true

theorem Since.map {w0 w : World} (i : Since w0 w) (o : Obj) {w' : World} (hh : w'.hist = w.hist.map (ListSpec.Lists.shift o)) (hl : ∀ l, w.isList l = true → w'.isList l = true) :
    Since w0 w' := by
  refine ⟨?_, ?_, fun h => ?_, fun a h => ?_, fun l h => hl l (i.lists l h)⟩
  · rw [hh]; simp only [History.map, i.tr, Option.map_none]
  · rw [hh, ← i.past]; simp only [History.map, List.map_map]; rfl
  · rw [hh] at h ⊢
    simp only [History.map, Option.map_eq_none_iff] at h
    exact i.same h
  · rw [hh] at h
    simp only [History.map, Option.map_eq_some_iff] at h
    obtain ⟨b, h1, rfl⟩ := h
    exact i.start b h1

theorem Since.edit {w0 w : World} (i : Since w0 w) {w' : World} (b : ListSpec.Lists) (hh : w'.hist = w.hist.edit b) (hl : ∀ l, w.isList l = true → w'.isList l = true) :
    Since w0 w' := by
  have e : w.hist.edit b = { w.hist with now := b, start := some (w.hist.start.getD w.hist.now), future := [] } := by
    unfold History.edit; rw [i.tr]; simp only [← i.tr]
  rw [e] at hh
  refine ⟨by rw [hh]; exact i.tr, by rw [hh]; exact i.past, fun h => (by rw [hh] at h; cases h), fun a h => ?_, fun l h => hl l (i.lists l h)⟩
  rw [hh] at h
  simp only [Option.some.injEq] at h
  rw [← h]
  cases hs : w.hist.start with
  | none => exact i.same hs
  | some a => exact i.start a hs

theorem Since.step {w0 w : World} (i : Since w0 w) (a : ListSpec.Act) (ha : IsChange a) : Since w0 (w.step a).1 := by
  have same : ∀ {w' : World}, w'.hist = w.hist → w'.isList = w.isList → Since w0 w' := fun h1 h2 =>
    ⟨by rw [h1]; exact i.tr, by rw [h1]; exact i.past, by rw [h1]; exact i.same, by rw [h1]; exact i.start, by rw [h2]; exact i.lists⟩
  have ins : ∀ l xs, Since w0 (w.insert l xs) := fun l xs =>
    Since.edit (w := w.newAdopted) (i.map w.n rfl (fun _ h => h)) _ rfl (fun _ h => h)
  cases a with
  | create => exact same rfl rfl
  | newList =>
    refine i.map w.n rfl (fun l h => ?_)
    show upd w.isList w.n true l = true
    unfold upd; split
    · rfl
    · exact h
  | keep o => exact same rfl rfl
  | drop o => exact same rfl rfl
  | adopt o => exact i.map o rfl (fun _ h => h)
  | retain o => exact i.edit _ rfl (fun _ h => h)
  | release o => exact i.edit _ rfl (fun _ h => h)
  | other o => exact i.edit _ rfl (fun _ h => h)
  | add l d => exact ins _ _
  | addBefore l b d =>
    simp only [World.step]
    cases ListSpec.insertBefore b (w.n, d) (w.hist.now.seq l) with
    | none => exact i
    | some xs => exact ins _ _
  | remove l d =>
    simp only [World.step]
    cases ListSpec.takeOut d (w.hist.now.seq l) with
    | none => exact i
    | some x => exact i.edit _ rfl (fun _ h => h)
  | clear l =>
    simp only [World.step]
    cases w.hist.now.seq l with
    | nil => exact i
    | cons x xs => exact i.edit _ rfl (fun _ h => h)
  | swap l d1 d2 =>
    simp only [World.step]
    cases ListSpec.seen d1 d2 (w.hist.now.seq l) none none with
    | mk a b =>
      cases a with
      | none => exact i
      | some e1 =>
        cases b with
        | none => exact i
        | some e2 => exact i.edit _ rfl (fun _ h => h)
  | move m => exact absurd ha id

theorem Since.run {w0 : World} : ∀ {as : List ListSpec.Act} {w : World}, Since w0 w → (∀ a ∈ as, IsChange a) → Since w0 (w.run as).1
  | [], _, i, _ => i
  | a :: as, _, i, h => Since.run (as := as) (i.step a (h a (.head _))) (fun x hx => h x (.tail _ hx))

/-- **C93.** A step with any changes to lists is undone as a whole: walking through the lists finds again what was there before. -/
theorem undo_lists (as bs : List ListSpec.Act) (hb : ∀ b ∈ bs, IsChange b) (hl : ListSpec.Legal .new (as ++ (bs ++ [.move .close, .move .undo])))
    (h1 : (World.new.run as).1.hist.start = none) (h2 : (World.new.run as).1.hist.tr = none) (h3 : (World.new.run (as ++ bs)).1.hist.start ≠ none) :
    ∃ n s m t r q, ListSpec.execAll 0 .new as = .ok (n, s, r) ∧ ListSpec.execAll 0 .new (as ++ (bs ++ [.move .close, .move .undo])) = .ok (m, t, q) ∧
      ∀ l, (World.new.run as).1.isList l = true → ∃ xs, walk s n (s.cells (startCell l)) = .ok xs ∧ walk t m (t.cells (startCell l)) = .ok xs := by
  obtain ⟨s, e1, s1, _⟩ := list_history as (legal_append hl).1
  obtain ⟨t, e2, s2, _⟩ := list_history _ hl
  refine ⟨_, s, _, t, _, _, e1, e2, fun l hlist => ⟨_, s1.forth l hlist, ?_⟩⟩
  have i : Since (World.new.run as).1 (World.new.run (as ++ bs)).1 := by
    rw [run_append]
    exact Since.run ⟨h2, rfl, fun _ => rfl, fun a h => by (rw [h1] at h; cases h), fun _ h => h⟩ hb
  have e3 : World.new.run (as ++ (bs ++ [.move .close, .move .undo])) = World.new.run (as ++ bs ++ [.move .close, .move .undo]) := by rw [List.append_assoc]
  rw [e3] at s2 ⊢
  rw [run_append] at s2 ⊢
  generalize (World.new.run (as ++ bs)).1 = w at h3 i s2 ⊢
  obtain ⟨n, base, isL, isE, ⟨now, past, future, start, tr⟩⟩ := w
  cases start with
  | none => exact absurd rfl h3
  | some a =>
    have := s2.forth l (i.lists l hlist)
    rw [← i.start a rfl]
    exact this

/-- … and redone as a whole. -/
theorem redo_lists (as bs : List ListSpec.Act) (hl : ListSpec.Legal .new (as ++ (bs ++ [.move .close, .move .undo, .move .redo])))
    (h3 : (World.new.run (as ++ bs)).1.hist.start ≠ none) :
    ∃ n s m t r q, ListSpec.execAll 0 .new (as ++ bs) = .ok (n, s, r) ∧ ListSpec.execAll 0 .new (as ++ (bs ++ [.move .close, .move .undo, .move .redo])) = .ok (m, t, q) ∧
      ∀ l, (World.new.run (as ++ bs)).1.isList l = true → ∃ xs, walk s n (s.cells (startCell l)) = .ok xs ∧ walk t m (t.cells (startCell l)) = .ok xs := by
  have hl2 := hl
  rw [← List.append_assoc] at hl2
  obtain ⟨s, e1, s1, _⟩ := list_history (as ++ bs) (legal_append hl2).1
  obtain ⟨t, e2, s2, _⟩ := list_history _ hl
  refine ⟨_, s, _, t, _, _, e1, e2, fun l hlist => ⟨_, s1.forth l hlist, ?_⟩⟩
  have e3 : World.new.run (as ++ (bs ++ [.move .close, .move .undo, .move .redo])) = World.new.run (as ++ bs ++ [.move .close, .move .undo, .move .redo]) := by
    rw [List.append_assoc]
  rw [e3] at s2 ⊢
  rw [run_append] at s2 ⊢
  generalize (World.new.run (as ++ bs)).1 = w at h3 hlist s2 ⊢
  obtain ⟨n, base, isL, isE, ⟨now, past, future, start, tr⟩⟩ := w
  cases start with
  | none => exact absurd rfl h3
  | some a => exact s2.forth l hlist

/-- `w` comes from `w0` by changes inside a transaction -/
structure Within (w0 w : World) : Prop where
  tr : ∃ t, w.hist.tr = some t ∧ t.level = 1 ∧ t.start.seq = w0.hist.now.seq
  lists : ∀ l, w0.isList l = true → w.isList l = true

theorem Within.map {w0 w : World} (i : Within w0 w) (o : Obj) {w' : World} (hh : w'.hist = w.hist.map (ListSpec.Lists.shift o)) (hl : ∀ l, w.isList l = true → w'.isList l = true) :
    Within w0 w' := by
  obtain ⟨t, h1, h2, h3⟩ := i.tr
  exact ⟨⟨t.map (ListSpec.Lists.shift o), by rw [hh]; simp only [History.map, h1, Option.map_some], h2, h3⟩, fun l h => hl l (i.lists l h)⟩

theorem Within.edit {w0 w : World} (i : Within w0 w) {w' : World} (b : ListSpec.Lists) (hh : w'.hist = w.hist.edit b) (hl : ∀ l, w.isList l = true → w'.isList l = true) :
    Within w0 w' := by
  obtain ⟨t, h1, h2, h3⟩ := i.tr
  refine ⟨⟨{ t with edited := true }, ?_, h2, h3⟩, fun l h => hl l (i.lists l h)⟩
  rw [hh]; unfold History.edit; rw [h1]

theorem Within.step {w0 w : World} (i : Within w0 w) (a : ListSpec.Act) (ha : IsChange a) : Within w0 (w.step a).1 := by
  have same : ∀ {w' : World}, w'.hist = w.hist → w'.isList = w.isList → Within w0 w' := fun h1 h2 => ⟨by rw [h1]; exact i.tr, by rw [h2]; exact i.lists⟩
  have ins : ∀ l xs, Within w0 (w.insert l xs) := fun l xs =>
    Within.edit (w := w.newAdopted) (i.map w.n rfl (fun _ h => h)) _ rfl (fun _ h => h)
  cases a with
  | create => exact same rfl rfl
  | newList =>
    refine i.map w.n rfl (fun l h => ?_)
    show upd w.isList w.n true l = true
    unfold upd; split
    · rfl
    · exact h
  | keep o => exact same rfl rfl
  | drop o => exact same rfl rfl
  | adopt o => exact i.map o rfl (fun _ h => h)
  | retain o => exact i.edit _ rfl (fun _ h => h)
  | release o => exact i.edit _ rfl (fun _ h => h)
  | other o => exact i.edit _ rfl (fun _ h => h)
  | add l d => exact ins _ _
  | addBefore l b d =>
    simp only [World.step]
    cases ListSpec.insertBefore b (w.n, d) (w.hist.now.seq l) with
    | none => exact i
    | some xs => exact ins _ _
  | remove l d =>
    simp only [World.step]
    cases ListSpec.takeOut d (w.hist.now.seq l) with
    | none => exact i
    | some x => exact i.edit _ rfl (fun _ h => h)
  | clear l =>
    simp only [World.step]
    cases w.hist.now.seq l with
    | nil => exact i
    | cons x xs => exact i.edit _ rfl (fun _ h => h)
  | swap l d1 d2 =>
    simp only [World.step]
    cases ListSpec.seen d1 d2 (w.hist.now.seq l) none none with
    | mk a b =>
      cases a with
      | none => exact i
      | some e1 =>
        cases b with
        | none => exact i
        | some e2 => exact i.edit _ rfl (fun _ h => h)
  | move m => exact absurd ha id

theorem Within.run {w0 : World} : ∀ {as : List ListSpec.Act} {w : World}, Within w0 w → (∀ a ∈ as, IsChange a) → Within w0 (w.run as).1
  | [], _, i, _ => i
  | a :: as, _, i, h => Within.run (as := as) (i.step a (h a (.head _))) (fun x hx => h x (.tail _ hx))

/-- **C93.** Rolling back a transaction with any changes to lists restores them. -/
theorem rollback_lists (as bs : List ListSpec.Act) (hb : ∀ b ∈ bs, IsChange b) (hl : ListSpec.Legal .new (as ++ (.move .begin :: (bs ++ [.move .rollback]))))
    (h2 : (World.new.run as).1.hist.tr = none) :
    ∃ n s m t r q, ListSpec.execAll 0 .new as = .ok (n, s, r) ∧ ListSpec.execAll 0 .new (as ++ (.move .begin :: (bs ++ [.move .rollback]))) = .ok (m, t, q) ∧
      ∀ l, (World.new.run as).1.isList l = true → ∃ xs, walk s n (s.cells (startCell l)) = .ok xs ∧ walk t m (t.cells (startCell l)) = .ok xs := by
  obtain ⟨s, e1, s1, _⟩ := list_history as (legal_append hl).1
  obtain ⟨t, e2, s2, _⟩ := list_history _ hl
  refine ⟨_, s, _, t, _, _, e1, e2, fun l hlist => ⟨_, s1.forth l hlist, ?_⟩⟩
  rw [run_append] at s2 ⊢
  generalize (World.new.run as).1 = w0 at h2 hlist s2 ⊢
  have i0 : Within w0 (w0.step (.move .begin)).1 := by
    refine ⟨⟨⟨1, w0.hist.now, false⟩, ?_, rfl, rfl⟩, fun _ h => h⟩
    simp only [World.step, History.move, History.begin, h2]
  have i := Within.run i0 hb
  have e3 : (w0.run (.move .begin :: (bs ++ [.move .rollback]))).1 = (((w0.step (.move .begin)).1.run bs).1.run [.move .rollback]).1 := by
    show ((w0.step (.move .begin)).1.run (bs ++ [.move .rollback])).1 = _
    rw [run_append]
  rw [e3] at s2 ⊢
  generalize ((w0.step (.move .begin)).1.run bs).1 = w at i s2 ⊢
  obtain ⟨⟨t, g1, g2, g3⟩, g4⟩ := i
  have e4 : (w.run [.move .rollback]).1.hist.now.seq = w0.hist.now.seq := by
    simp only [World.run, World.step, History.move, History.rollback, g1, g2, if_true, g3]
  rw [← e4]
  exact s2.forth l (g4 l hlist)

/-! ### When objects are destroyed -/

/-- forget the history -/
def forget : List ListSpec.Act := [.move .close, .move .clearUndo, .move .clearRedo]

/-- a manager without a history -/
theorem Sim.idle {w : World} {s : State} {h : Hist} (i : Sim w s h) (h1 : w.hist.start = none) (h2 : w.hist.tr = none) (h3 : w.hist.past = []) (h4 : w.hist.future = []) :
    changes s = [] := by
  obtain ⟨_, j2, j3, j4, j5⟩ := i.rels
  rw [h1] at j4
  rw [h2] at j5
  rw [h3] at j2
  rw [h4] at j3
  have e1 : h.start = none := by generalize h.start = x at j4 ⊢; cases j4; rfl
  have e2 : h.tr = none := by generalize h.tr = x at j5 ⊢; cases j5; rfl
  have e3 : h.past = [] := by generalize h.past = x at j2 ⊢; cases j2; rfl
  have e4 : h.future = [] := by generalize h.future = x at j3 ⊢; cases j3; rfl
  have f1 : s.current = [] := i.inv.emp.2 e1
  have f2 : s.undoStack = [] := by
    have := i.inv.und
    rw [e3] at this
    generalize s.undoStack = x at this ⊢
    cases this; rfl
  have f3 : s.redoStack = [] := by
    have := i.inv.red
    rw [e4] at this
    generalize s.redoStack = x at this ⊢
    cases this; rfl
  have f4 : s.trans = none := by
    have := i.inv.tr
    unfold TrOk at this
    rw [e2] at this
    exact this.1
  simp only [changes, f1, f2, f3, f4, List.flatten_nil, List.append_nil, Option.getD_none]

theorem forget_world (w : World) (ht : w.hist.tr = none) : let v := (w.run forget).1
    v.own = w.own ∧ v.isList = w.isList ∧ v.n = w.n ∧ v.hist.now = w.hist.now ∧ v.hist.start = none ∧ v.hist.tr = none ∧ v.hist.past = [] ∧ v.hist.future = [] := by
  obtain ⟨n, base, isL, isE, ⟨now, past, future, start, tr⟩⟩ := w
  simp only at ht
  subst ht
  cases start <;> exact ⟨rfl, rfl, rfl, rfl, rfl, rfl, rfl, rfl⟩

theorem legal_forget : ∀ {as : List ListSpec.Act} {w : World}, ListSpec.Legal w as → ListSpec.Legal w (as ++ forget)
  | [], _, _ => ⟨trivial, trivial, trivial, trivial⟩
  | _ :: _, _, h => ⟨h.1, legal_forget h.2⟩

/-- **C92.** When the history is forgotten, exactly the objects the application holds are left: every other one is destroyed, and every list is
unchanged. -/
theorem forgotten (as : List ListSpec.Act) (hl : ListSpec.Legal .new as) (ht : (World.new.run as).1.hist.tr = none) :
    ∃ s q, ListSpec.execAll 0 .new (as ++ forget) = .ok ((World.new.run as).1.n, s, q) ∧ (∀ o, (s.cnt o : Int) = (World.new.run as).1.own o) ∧
      ∀ l, (World.new.run as).1.isList l = true → walk s (World.new.run as).1.n (s.cells (startCell l)) = .ok ((World.new.run as).1.hist.now.seq l) := by
  obtain ⟨s, h, e, i⟩ := run_sim _ sim_new (legal_forget hl)
  obtain ⟨g1, g2, g3, g4, g5, g6, g7, g8⟩ := forget_world _ ht
  rw [← run_append] at g1 g2 g3 g4 g5 g6 g7 g8
  have hc := i.idle g5 g6 g7 g8
  rw [g3] at e
  refine ⟨s, _, e, fun o => ?_, fun l hlist => ?_⟩
  · have h1 := i.inv.bal o
    have h2 := i.own o
    rw [g1] at h2
    simp only [hc, heldBy, List.map_nil, List.sum_nil] at h1
    rw [← h2]
    simp only [Hist.own]
    omega
  · have := i.shows.forth l (by rw [g2]; exact hlist)
    rw [g3, g4] at this
    exact this

/-- **C92.** An element that was taken out of a list is destroyed when the history is forgotten, unless somebody else holds it. -/
theorem removed_destroyed (as : List ListSpec.Act) (l : Obj) (d : Option Obj) (e : Obj) (xs : List Item) (hl : ListSpec.Legal .new (as ++ [.remove l d]))
    (ht : (World.new.run as).1.hist.tr = none) (hx : ListSpec.takeOut d ((World.new.run as).1.hist.now.seq l) = some (e, xs)) (ho : (World.new.run as).1.own e = 1) :
    ∃ n s q, ListSpec.execAll 0 .new (as ++ [.remove l d] ++ forget) = .ok (n, s, q) ∧ s.cnt e = 0 ∧ walk s n (s.cells (startCell l)) = .ok xs := by
  have hw : (World.new.run (as ++ [.remove l d])).1 = (World.new.run as).1.removeOne l e xs := by
    rw [run_append]
    simp only [World.run, World.step, hx]
  have hll : (World.new.run as).1.isList l = true := (legal_append hl).2.1
  obtain ⟨s, q, e1, e2, e3⟩ := forgotten _ hl (by
    rw [hw]
    simp only [World.removeOne, History.edit, ht])
  rw [hw] at e2 e3
  refine ⟨_, s, q, e1, ?_, ?_⟩
  · have := e2 e
    simp only [World.own, World.removeOne, hedit_now, upd_same] at this ho
    omega
  · rw [hw]
    have := e3 l hll
    simp only [World.removeOne, hedit_now, upd_same] at this
    exact this

/-- **C92 fails** for every addition that is undone: when the history has forgotten it, the element is in no list and nobody refers to it, but
it still has the reference it was created with; it is never destroyed. -/
theorem undone_add_always_leaks (as : List ListSpec.Act) (l : Obj) (d : Option Obj) (hl : ListSpec.Legal .new (as ++ [.add l d, .move .close, .move .undo]))
    (h1 : (World.new.run as).1.hist.start = none) (ht : (World.new.run as).1.hist.tr = none) :
    ∃ n s q, ListSpec.execAll 0 .new (as ++ [.add l d, .move .close, .move .undo] ++ forget) = .ok (n, s, q) ∧ s.cnt (World.new.run as).1.n = 1 ∧ changes s = [] ∧
      ∀ l', (World.new.run as).1.isList l' = true → ∃ xs, walk s n (s.cells (startCell l')) = .ok xs ∧ (World.new.run as).1.n ∉ ids xs := by
  obtain ⟨s0, h0, _, i0⟩ := run_sim as sim_new (legal_append hl).1
  obtain ⟨s, h, e, i⟩ := run_sim _ sim_new (legal_forget hl)
  have hw : (World.new.run (as ++ [.add l d, .move .close, .move .undo])).1 = ((World.new.run as).1.run [.add l d, .move .close, .move .undo]).1 := run_append _ _ _
  have hmain : (World.new.run (as ++ [.add l d, .move .close, .move .undo])).1.hist.now = (World.new.run as).1.hist.now.shift (World.new.run as).1.n ∧
      (World.new.run (as ++ [.add l d, .move .close, .move .undo])).1.hist.tr = none ∧
      (World.new.run (as ++ [.add l d, .move .close, .move .undo])).1.base (World.new.run as).1.n = 0 ∧
      (World.new.run (as ++ [.add l d, .move .close, .move .undo])).1.isList = (World.new.run as).1.isList := by
    rw [hw]
    generalize (World.new.run as).1 = w at h1 ht ⊢
    obtain ⟨n, base, isL, isE, ⟨now, past, future, start, tr⟩⟩ := w
    simp only at h1 ht
    subst h1 ht
    exact ⟨rfl, rfl, upd_same _ _ _, rfl⟩
  obtain ⟨m1, m2, m3, m4⟩ := hmain
  obtain ⟨g1, g2, g3, g4, g5, g6, g7, g8⟩ := forget_world _ m2
  rw [← run_append] at g1 g2 g3 g4 g5 g6 g7 g8
  have hc := i.idle g5 g6 g7 g8
  refine ⟨_, s, _, e, ?_, hc, fun l' hl' => ⟨_, i.shows.forth l' (by rw [g2, m4]; exact hl'), ?_⟩⟩
  · have k1 := i.inv.bal (World.new.run as).1.n
    have k2 := i.own (World.new.run as).1.n
    rw [g1] at k2
    simp only [hc, heldBy, List.map_nil, List.sum_nil] at k1
    simp only [World.own, m1, m3, ListSpec.Lists.shift, upd_same, i0.rels.now.low _ (Nat.le_refl _), Hist.own] at k2
    omega
  · rw [g4, m1]
    exact fun hin => (i0.elem (l := l') hin).2.1 rfl

/-! ### Cases -/

/-- Two objects, two lists; elements are added, inserted, removed; a list is cleared; undone, redone; a transaction is rolled back, another one
committed. -/
def listSample : List ListSpec.Act :=
  [.create, .adopt 0, .create, .adopt 1, .newList, .newList, .add 2 (some 0), .add 2 (some 1), .addBefore 2 (some 1) (some 0), .add 3 none, .addBefore 3 (some 0) (some 1), .move .close, .swap 2 (some 1) (some 0),
   .remove 2 (some 0), .move .close, .clear 2, .remove 3 (some 1), .move .close, .move .undo, .move .undo, .move .redo,
   .move .begin, .clear 2, .add 3 (some 1), .move .rollback, .move .begin, .move .begin, .remove 2 (some 0), .move .commit, .move .commit, .move .close]

theorem listSample_legal : ListSpec.Legal .new listSample := by
  simp [listSample, ListSpec.Legal, World.allowed, World.step, World.new, World.newAdopted, World.insert, World.removeOne, History.edit, History.map, History.move, History.undo,
    History.redo, History.close, History.begin, History.commit, History.rollback, ListSpec.Lists.new, ListSpec.Lists.shift, ListSpec.insertBefore, ListSpec.takeOut, ListSpec.dropRefs, ListSpec.seen, ListSpec.setData,
    ListSpec.Tr.map, upd]

/-- what the program finds at the end: the number of objects, the ends of list 2, and the count of an element that only the rolled back
transaction had created: it has leaked -/
def ends (as : List ListSpec.Act) : Option (Nat × Option Obj × Option Obj × Nat) :=
  match ListSpec.execAll 0 .new as with
  | .ok (n, s, _) => some (n, s.cells (startCell 2), s.cells (endCell 2), s.cnt 8)
  | .error _ => none

/-- At its end: the second list is as it was when `undo` took back the step that had cleared the first one; of the first list one element is left. -/
theorem listSample_result : (World.new.run listSample).1.hist.now.seq 2 = [(6, some 1)] ∧ (World.new.run listSample).1.hist.now.seq 3 = [(7, none)] ∧
    (World.new.run listSample).2.getD 10 true = false ∧ ends listSample = some (9, some 6, some 6, 1) := by
  refine ⟨?_, ?_, ?_, ?_⟩ <;> decide +kernel

/-- one object and one list with one element -/
def listSetup : List ListSpec.Act := [.create, .adopt 0, .newList, .add 1 (some 0), .move .close]

example := list_history listSample listSample_legal

example := swap_once (listSetup ++ [.create, .adopt 3, .add 1 (some 3), .add 1 none]) 1 (some 0) (some 3)
  (by simp [listSetup, ListSpec.Legal, World.allowed, World.step, World.new, World.newAdopted, World.insert, World.own, History.edit, History.map, History.move,
    History.close, ListSpec.Lists.new, ListSpec.Lists.shift, upd]) (by decide +kernel) (by decide +kernel) (by decide +kernel)

example := undo_lists listSetup [.newList, .clear 1, .add 1 none, .add 3 (some 0)] (by simp [IsChange])
  (by simp [listSetup, listSample, ListSpec.Legal, World.allowed, World.run, World.step, World.new, World.newAdopted, World.insert, World.removeOne, World.own, History.edit, History.map, History.move,
    History.undo, History.redo, History.close, History.begin, History.commit, History.rollback, ListSpec.Lists.new, ListSpec.Lists.shift, ListSpec.insertBefore, ListSpec.takeOut,
    ListSpec.dropRefs, ListSpec.Tr.map, upd, forget, IsChange]) (by decide +kernel) (by decide +kernel) (by decide +kernel)

example := redo_lists listSetup [.newList, .clear 1, .add 1 none, .add 3 (some 0)]
  (by simp [listSetup, listSample, ListSpec.Legal, World.allowed, World.run, World.step, World.new, World.newAdopted, World.insert, World.removeOne, World.own, History.edit, History.map, History.move,
    History.undo, History.redo, History.close, History.begin, History.commit, History.rollback, ListSpec.Lists.new, ListSpec.Lists.shift, ListSpec.insertBefore, ListSpec.takeOut,
    ListSpec.dropRefs, ListSpec.Tr.map, upd, forget, IsChange]) (by decide +kernel)

example := rollback_lists listSetup [.newList, .clear 1, .add 1 none, .add 3 (some 0)] (by simp [IsChange])
  (by simp [listSetup, listSample, ListSpec.Legal, World.allowed, World.run, World.step, World.new, World.newAdopted, World.insert, World.removeOne, World.own, History.edit, History.map, History.move,
    History.undo, History.redo, History.close, History.begin, History.commit, History.rollback, ListSpec.Lists.new, ListSpec.Lists.shift, ListSpec.insertBefore, ListSpec.takeOut,
    ListSpec.dropRefs, ListSpec.Tr.map, upd, forget, IsChange]) (by decide +kernel)

example := forgotten listSetup (by simp [listSetup, listSample, ListSpec.Legal, World.allowed, World.run, World.step, World.new, World.newAdopted, World.insert, World.removeOne, World.own, History.edit, History.map, History.move,
    History.undo, History.redo, History.close, History.begin, History.commit, History.rollback, ListSpec.Lists.new, ListSpec.Lists.shift, ListSpec.insertBefore, ListSpec.takeOut,
    ListSpec.dropRefs, ListSpec.Tr.map, upd, forget, IsChange]) (by decide +kernel)

example := removed_destroyed listSetup 1 (some 0) 2 [] (by simp [listSetup, listSample, ListSpec.Legal, World.allowed, World.run, World.step, World.new, World.newAdopted, World.insert, World.removeOne, World.own, History.edit, History.map, History.move,
    History.undo, History.redo, History.close, History.begin, History.commit, History.rollback, ListSpec.Lists.new, ListSpec.Lists.shift, ListSpec.insertBefore, ListSpec.takeOut,
    ListSpec.dropRefs, ListSpec.Tr.map, upd, forget, IsChange]) (by decide +kernel) (by decide +kernel) (by decide +kernel)

example := undone_add_always_leaks listSetup 1 (some 0) (by simp [listSetup, listSample, ListSpec.Legal, World.allowed, World.run, World.step, World.new, World.newAdopted, World.insert, World.removeOne, World.own, History.edit, History.map, History.move,
    History.undo, History.redo, History.close, History.begin, History.commit, History.rollback, ListSpec.Lists.new, ListSpec.Lists.shift, ListSpec.insertBefore, ListSpec.takeOut,
    ListSpec.dropRefs, ListSpec.Tr.map, upd, forget, IsChange]) (by decide +kernel) (by decide +kernel)

end Verif.UndoRef
