import Verif.UndoRef.ListSpec
import Verif.UndoRef.States
import Mathlib.Data.List.Forall2
/-
Pointers and sequences: which pointers represent a list.
-/
namespace Verif.UndoRef
open Verif Verif.UndoRef.Spec

/-- the elements are linked, the first one to `p`, the last one to `q` -/
def Seg (f : Cells) (p : Option Obj) : List Obj → Option Obj → Prop
  | [], _ => True
  | e :: es, q => f (prevCell e) = p ∧ f (nextCell e) = (es.head?).or q ∧ Seg f (some e) es q

theorem Seg.congr {f g : Cells} : ∀ {es : List Obj} {p q : Option Obj}, Seg f p es q →
    (∀ e ∈ es, g (prevCell e) = f (prevCell e) ∧ g (nextCell e) = f (nextCell e)) → Seg g p es q
  | [], _, _, _, _ => trivial
  | e :: es, _, _, ⟨h1, h2, h3⟩, h => by
    have he := h e (.head _)
    exact ⟨he.1.trans h1, he.2.trans h2, Seg.congr h3 (fun x hx => h x (.tail _ hx))⟩

theorem Seg.append {f : Cells} : ∀ {as bs : List Obj} {p q : Option Obj},
    Seg f p (as ++ bs) q ↔ Seg f p as (bs.head?.or q) ∧ Seg f (as.getLast?.or p) bs q
  | [], bs, p, q => by simp [Seg]
  | a :: as, bs, p, q => by
    simp only [List.cons_append, Seg]
    rw [Seg.append (as := as)]
    have e1 : ((as ++ bs).head?).or q = (as.head?).or (bs.head?.or q) := by
      cases as <;> simp
    have e2 : (as.getLast?).or (some a) = ((a :: as).getLast?).or p := by
      cases as with
      | nil => simp
      | cons b bs => simp [List.getLast?_cons_cons, List.getLast?_cons]
    rw [e1, e2]
    tauto

/-- another successor of the last element -/
theorem Seg.setNext {f : Cells} {as : List Obj} {l : Obj} {p q : Option Obj} (h : Seg f p (as ++ [l]) q) (hn : (as ++ [l]).Nodup) {g : Cells} {q' : Option Obj}
    (hl : g (nextCell l) = q') (hg : ∀ e ∈ as ++ [l], g (prevCell e) = f (prevCell e) ∧ (e ≠ l → g (nextCell e) = f (nextCell e))) : Seg g p (as ++ [l]) q' := by
  rw [Seg.append] at h ⊢
  obtain ⟨h1, h2, h3, _⟩ := h
  refine ⟨?_, ?_, ?_, trivial⟩
  · simp only [List.head?_cons, Option.some_or] at h1 ⊢
    refine h1.congr (fun e he => ⟨(hg e (by simp [he])).1, (hg e (by simp [he])).2 (fun e' => ?_)⟩)
    subst e'
    rw [List.nodup_append] at hn
    exact hn.2.2 e he e (by simp) rfl
  · rw [(hg l (by simp)).1]; exact h2
  · rw [hl]; simp

/-- another predecessor of the first element -/
theorem Seg.setPrev {f : Cells} {b : Obj} {bs : List Obj} {p q : Option Obj} (h : Seg f p (b :: bs) q) (hn : (b :: bs).Nodup) {g : Cells} {p' : Option Obj}
    (hb : g (prevCell b) = p') (hg : ∀ e ∈ b :: bs, g (nextCell e) = f (nextCell e) ∧ (e ≠ b → g (prevCell e) = f (prevCell e))) : Seg g p' (b :: bs) q := by
  obtain ⟨_, h2, h3⟩ := h
  refine ⟨hb, (hg b (.head _)).1.trans h2, h3.congr (fun e he => ⟨(hg e (.tail _ he)).2 (fun e' => ?_), (hg e (.tail _ he)).1⟩)⟩
  subst e'
  exact (List.nodup_cons.1 hn).1 he

/-! ### The relation between the pointers and the sequences -/

abbrev Item := Obj × Option Obj

/-- the elements of a list -/
abbrev ids (xs : List Item) : List Obj := xs.map (·.1)

/-- the fixed part of the relation: which objects are lists and elements -/
structure Roles where
  n : Nat
  isList : Obj → Bool
  isElem : Obj → Bool

structure Roles.Ok (r : Roles) : Prop where
  listLt : ∀ o, r.isList o = true → o < r.n
  elemLt : ∀ o, r.isElem o = true → o < r.n
  apart : ∀ o, r.isList o = true → r.isElem o = false

/-- the pointers represent the lists -/
structure R (r : Roles) (p : ListSpec.Lists) (a : App) : Prop where
  refs : a.refs = p.refs
  start : ∀ l, r.isList l = true → a.cells (startCell l) = (ids (p.seq l)).head?
  last : ∀ l, r.isList l = true → a.cells (endCell l) = (ids (p.seq l)).getLast?
  seg : ∀ l, Seg a.cells none (ids (p.seq l)) none
  data : ∀ l, ∀ x ∈ p.seq l, a.cells (dataCell x.1) = x.2
  alive : ∀ l, ∀ x ∈ p.seq l, 1 ≤ p.refs x.1 ∧ r.isElem x.1 = true
  backed : ∀ l, ∀ x ∈ p.seq l, ∀ d, x.2 = some d → 1 ≤ p.refs d ∧ r.isElem d = false
  nodup : ∀ l, (ids (p.seq l)).Nodup
  disj : ∀ l l' : Obj, l ≠ l' → ∀ e ∈ ids (p.seq l), e ∉ ids (p.seq l')
  lists : ∀ l, r.isList l = true → 1 ≤ p.refs l
  none_ : ∀ l, r.isList l = false → p.seq l = []
  fresh : ∀ c : Cell, r.n ≤ c.1 → a.cells c = none
  low : ∀ o, r.n ≤ o → p.refs o = 0

theorem R.lt {r : Roles} {p : ListSpec.Lists} {a : App} (i : R r p a) {o : Obj} (h : 1 ≤ p.refs o) : o < r.n := by
  by_contra hn
  have := i.low o (Nat.not_lt.1 hn)
  omega

theorem R.shift {r : Roles} {p : ListSpec.Lists} {a : App} (i : R r p a) {o : Obj} (ho : o < r.n) : R r (p.shift o) (a.shift o) := by
  have hle : ∀ x, p.refs x ≤ (p.shift o).refs x := fun x => by
    unfold ListSpec.Lists.shift
    by_cases e : x = o
    · subst e; simp only [upd_same]; omega
    · simp only [upd_other _ _ _ e]; exact le_refl _
  refine ⟨?_, i.start, i.last, i.seg, i.data, fun l x hx => ⟨le_trans (i.alive l x hx).1 (hle _), (i.alive l x hx).2⟩,
    fun l x hx d hd => ⟨le_trans (i.backed l x hx d hd).1 (hle _), (i.backed l x hx d hd).2⟩, i.nodup, i.disj,
    fun l hl => le_trans (i.lists l hl) (hle _), i.none_, i.fresh, fun x hx => ?_⟩
  · simp only [App.shift, ListSpec.Lists.shift, i.refs]
  · have : x ≠ o := Nat.ne_of_gt (Nat.lt_of_lt_of_le ho hx)
    simp only [ListSpec.Lists.shift, upd_other _ _ _ this]
    exact i.low x hx

/-- a new object -/
theorem R.grow {r : Roles} {p : ListSpec.Lists} {a : App} (i : R r p a) : R { r with n := r.n + 1 } p a :=
  ⟨i.refs, i.start, i.last, i.seg, i.data, i.alive, i.backed, i.nodup, i.disj, i.lists, i.none_, fun c hc => i.fresh c (Nat.le_of_succ_le hc),
    fun o ho => i.low o (Nat.le_of_succ_le ho)⟩

/-- a new element, not yet in a list -/
theorem R.newElem {r : Roles} {p : ListSpec.Lists} {a : App} (i : R r p a) :
    R { r with n := r.n + 1, isElem := upd r.isElem r.n true } (p.shift r.n) (a.shift r.n) := by
  refine R.shift (r := { r with n := r.n + 1, isElem := upd r.isElem r.n true }) ?_ (Nat.lt_succ_self _)
  have h := i.grow
  refine ⟨h.refs, h.start, h.last, h.seg, h.data, fun l x hx => ⟨(h.alive l x hx).1, ?_⟩, fun l x hx d hd => ⟨(h.backed l x hx d hd).1, ?_⟩, h.nodup, h.disj,
    h.lists, h.none_, h.fresh, h.low⟩
  · have : x.1 ≠ r.n := by exact Nat.ne_of_lt (i.lt (h.alive l x hx).1)
    simp only [upd_other _ _ _ this]
    exact (h.alive l x hx).2
  · have : d ≠ r.n := by exact Nat.ne_of_lt (i.lt (h.backed l x hx d hd).1)
    simp only [upd_other _ _ _ this]
    exact (h.backed l x hx d hd).2

/-- a new list -/
theorem R.newList {r : Roles} {p : ListSpec.Lists} {a : App} (i : R r p a) (ok : r.Ok) :
    R { r with n := r.n + 1, isList := upd r.isList r.n true } (p.shift r.n) (a.shift r.n) := by
  have h := i.grow.shift (o := r.n) (Nat.lt_succ_self _)
  have hn : p.seq r.n = [] := i.none_ _ (by
    cases e : r.isList r.n with
    | false => rfl
    | true => exact absurd (ok.listLt _ e) (Nat.lt_irrefl _))
  have he : ∀ l, upd r.isList r.n true l = true → l = r.n ∨ r.isList l = true := fun l hl => by
    by_cases e : l = r.n
    · exact .inl e
    · rw [upd_other _ _ _ e] at hl; exact .inr hl
  refine ⟨h.refs, fun l hl => ?_, fun l hl => ?_, h.seg, h.data, h.alive, h.backed, h.nodup, h.disj, fun l hl => ?_, fun l hl => ?_, h.fresh, h.low⟩
  · rcases he l hl with rfl | e
    · show a.cells _ = (ids (p.seq r.n)).head?
      rw [hn]; exact i.fresh _ (le_refl _)
    · exact h.start l e
  · rcases he l hl with rfl | e
    · show a.cells _ = (ids (p.seq r.n)).getLast?
      rw [hn]; exact i.fresh _ (le_refl _)
    · exact h.last l e
  · rcases he l hl with rfl | e
    · simp only [ListSpec.Lists.shift, upd_same]
      rw [i.low _ (le_refl _)]; omega
    · exact h.lists l e
  · by_cases e : l = r.n
    · simp only [e, upd_same] at hl; cases hl
    · simp only [upd_other _ _ _ e] at hl; exact h.none_ l hl

/-- another sequence for one of the lists -/
theorem R.relist {r : Roles} {p : ListSpec.Lists} {a : App} (i : R r p a) (ok : r.Ok) {l : Obj} (hl : r.isList l = true) {xs : List Item} {f : Cells} {refs : Obj → Int}
    (h1 : f (startCell l) = (ids xs).head?) (h2 : f (endCell l) = (ids xs).getLast?) (h3 : Seg f none (ids xs) none)
    (h4 : ∀ x ∈ xs, f (dataCell x.1) = x.2) (h5 : ∀ x ∈ xs, 1 ≤ refs x.1 ∧ r.isElem x.1 = true)
    (h6 : ∀ x ∈ xs, ∀ d, x.2 = some d → 1 ≤ p.refs d ∧ r.isElem d = false) (h7 : (ids xs).Nodup)
    (h8 : ∀ e ∈ ids xs, ∀ l', l' ≠ l → e ∉ ids (p.seq l'))
    (h9 : ∀ c : Cell, c.1 ≠ l → c.1 ∉ ids (p.seq l) → c.1 ∉ ids xs → f c = a.cells c)
    (h10 : ∀ o, o ∉ ids (p.seq l) → refs o = p.refs o) : R r ⟨upd p.seq l xs, refs⟩ ⟨f, refs⟩ := by
  have helem : ∀ l', ∀ e ∈ ids (p.seq l'), r.isElem e = true := fun l' e he => by
    obtain ⟨x, hx, rfl⟩ := List.mem_map.1 he
    exact (i.alive l' x hx).2
  have hnl : ∀ l', ∀ e ∈ ids (p.seq l'), e ≠ l := fun l' e he e' => by
    have := helem l' e he
    rw [e', ok.apart l hl] at this; cases this
  have helem2 : ∀ e ∈ ids xs, r.isElem e = true := fun e he => by
    obtain ⟨x, hx, rfl⟩ := List.mem_map.1 he
    exact (h5 x hx).2
  have hlistfree : ∀ l', r.isList l' = true → l' ∉ ids (p.seq l) ∧ l' ∉ ids xs := fun l' hl' =>
    ⟨fun h => (by have := helem l l' h; rw [ok.apart l' hl'] at this; cases this), fun h => by have := helem2 l' h; rw [ok.apart l' hl'] at this; cases this⟩
  have hother : ∀ l', l' ≠ l → ∀ e ∈ ids (p.seq l'), ∀ k, f (e, k) = a.cells (e, k) := fun l' hne e he k =>
    h9 (e, k) (hnl l' e he) (fun h => i.disj l' l hne e he h) (fun h => h8 e h l' hne he)
  have hnonelem : ∀ o, r.isElem o = false → refs o = p.refs o := fun o ho => h10 o (fun h => by rw [helem l o h] at ho; cases ho)
  have hnr : ∀ o, r.n ≤ o → r.isElem o = false := fun o ho => by
    cases e : r.isElem o with
    | false => rfl
    | true => exact absurd (ok.elemLt o e) (Nat.not_lt.2 ho)
  refine ⟨rfl, fun l' hl' => ?_, fun l' hl' => ?_, fun l' => ?_, fun l' => ?_, fun l' => ?_, fun l' => ?_, fun l' => ?_, fun l1 l2 hne => ?_, fun l' hl' => ?_,
    fun l' hl' => ?_, fun c hc => ?_, fun o ho => ?_⟩
  · by_cases e : l' = l
    · subst e; simp only [upd_same]; exact h1
    · simp only [upd_other _ _ _ e]
      rw [h9 _ e (hlistfree l' hl').1 (hlistfree l' hl').2]
      exact i.start l' hl'
  · by_cases e : l' = l
    · subst e; simp only [upd_same]; exact h2
    · simp only [upd_other _ _ _ e]
      rw [h9 _ e (hlistfree l' hl').1 (hlistfree l' hl').2]
      exact i.last l' hl'
  · by_cases e : l' = l
    · subst e; simp only [upd_same]; exact h3
    · simp only [upd_other _ _ _ e]
      exact (i.seg l').congr (fun x hx => ⟨hother l' e x hx _, hother l' e x hx _⟩)
  · by_cases e : l' = l
    · subst e; simp only [upd_same]; exact h4
    · simp only [upd_other _ _ _ e]
      exact fun x hx => (hother l' e x.1 (List.mem_map.2 ⟨x, hx, rfl⟩) _).trans (i.data l' x hx)
  · by_cases e : l' = l
    · subst e; simp only [upd_same]; exact h5
    · simp only [upd_other _ _ _ e]
      refine fun x hx => ⟨?_, (i.alive l' x hx).2⟩
      rw [h10 _ (i.disj l' l e x.1 (List.mem_map.2 ⟨x, hx, rfl⟩))]
      exact (i.alive l' x hx).1
  · have hb : ∀ x : Item, (∀ d, x.2 = some d → 1 ≤ p.refs d ∧ r.isElem d = false) → ∀ d, x.2 = some d → 1 ≤ refs d ∧ r.isElem d = false := fun x hx d hd => by
      have := hx d hd
      rw [hnonelem d this.2]
      exact this
    by_cases e : l' = l
    · subst e; simp only [upd_same]; exact fun x hx => hb x (h6 x hx)
    · simp only [upd_other _ _ _ e]; exact fun x hx => hb x (i.backed l' x hx)
  · by_cases e : l' = l
    · subst e; simp only [upd_same]; exact h7
    · simp only [upd_other _ _ _ e]; exact i.nodup l'
  · by_cases e1 : l1 = l
    · subst e1
      simp only [upd_same, upd_other _ _ _ (Ne.symm hne)]
      exact fun e he => h8 e he l2 (Ne.symm hne)
    · by_cases e2 : l2 = l
      · subst e2
        simp only [upd_same, upd_other _ _ _ e1]
        exact fun e he h => h8 e h l1 e1 he
      · simp only [upd_other _ _ _ e1, upd_other _ _ _ e2]
        exact i.disj l1 l2 hne
  · show 1 ≤ refs l'
    rw [hnonelem l' (ok.apart l' hl')]
    exact i.lists l' hl'
  · have e : l' ≠ l := fun e => by rw [e, hl] at hl'; cases hl'
    simp only [upd_other _ _ _ e]
    exact i.none_ l' hl'
  · have g1 := hnr _ hc
    have := h9 c (fun e => Nat.not_lt.2 hc (by rw [e]; exact ok.listLt l hl)) (fun h => by rw [helem l _ h] at g1; cases g1) (fun h => by rw [helem2 _ h] at g1; cases g1)
    show f c = none
    rw [this]
    exact i.fresh c hc
  · show refs o = 0
    rw [hnonelem o (hnr o ho)]
    exact i.low o ho

/-! ### Histories -/

/-- two histories of the same shape, whose states are related -/
structure Rels {β : Type} (Q : β → App → Prop) (g : ListSpec.History β) (h : Hist) : Prop where
  now : Q g.now h.now
  past : List.Forall₂ Q g.past h.past
  future : List.Forall₂ Q g.future h.future
  start : Option.Rel Q g.start h.start
  tr : Option.Rel (fun t u => t.level = u.level ∧ t.edited = u.edited ∧ Q t.start u.start) g.tr h.tr

variable {β : Type} {Q : β → App → Prop} {g : ListSpec.History β} {h : Hist}

theorem Rels.edit (i : Rels Q g h) {b : β} {a : App} (hq : Q b a) : Rels Q (g.edit b) (h.edit a) := by
  obtain ⟨gn, gp, gf, gs, gt⟩ := g
  obtain ⟨fresh, base, now, past, future, start, tr⟩ := h
  obtain ⟨h1, h2, h3, h4, h5⟩ := i
  cases h5 with
  | none =>
    refine ⟨hq, h2, .nil, ?_, .none⟩
    cases h4 with
    | none => exact .some h1
    | some h4 => exact .some h4
  | some h5 => exact ⟨hq, h2, h3, h4, .some ⟨h5.1, rfl, h5.2.2⟩⟩

theorem Rels.base (i : Rels Q g h) (n : Nat) (b : Obj → Nat) : Rels Q g { h with fresh := n, base := b } := ⟨i.now, i.past, i.future, i.start, i.tr⟩

theorem Rels.imp {Q' : β → App → Prop} (i : Rels Q g h) (hq : ∀ b a, Q b a → Q' b a) : Rels Q' g h := by
  obtain ⟨gn, gp, gf, gs, gt⟩ := g
  obtain ⟨fresh, base, now, past, future, start, tr⟩ := h
  obtain ⟨h1, h2, h3, h4, h5⟩ := i
  refine ⟨hq _ _ h1, h2.imp (fun {a b} => hq a b), h3.imp (fun {a b} => hq a b), ?_, ?_⟩
  · cases h4 with
    | none => exact .none
    | some h => exact .some (hq _ _ h)
  · cases h5 with
    | none => exact .none
    | some h => exact .some ⟨h.1, h.2.1, hq _ _ h.2.2⟩

theorem Rels.adopt {γ : Type} {Q' : γ → App → Prop} (i : Rels Q g h) {o : Obj} {f : β → γ} (hq : ∀ b a, Q b a → Q' (f b) (a.shift o)) : Rels Q' (g.map f) (h.adopt o) := by
  obtain ⟨gn, gp, gf, gs, gt⟩ := g
  obtain ⟨fresh, base, now, past, future, start, tr⟩ := h
  obtain ⟨h1, h2, h3, h4, h5⟩ := i
  have hm : ∀ {l : List β} {m : List App}, List.Forall₂ Q l m → List.Forall₂ Q' (l.map f) (m.map (App.shift o)) := fun hl => by
    induction hl with
    | nil => exact .nil
    | cons a _ ih => exact .cons (hq _ _ a) ih
  refine ⟨hq _ _ h1, hm h2, hm h3, ?_, ?_⟩
  · cases h4 with
    | none => exact .none
    | some h => exact .some (hq _ _ h)
  · cases h5 with
    | none => exact .none
    | some h => exact .some ⟨h.1, h.2.1, hq _ _ h.2.2⟩

/-- the same move for pointers -/
def moveAct : ListSpec.Move → Act
  | .undo => .undo
  | .redo => .redo
  | .close => .close
  | .clearUndo => .clearUndo
  | .clearRedo => .clearRedo
  | .begin => .begin
  | .commit => .commit
  | .rollback => .rollback

theorem Rels.move (i : Rels Q g h) (m : ListSpec.Move) : Rels Q (g.move m).1 (h.step (moveAct m)).1 ∧ (g.move m).2 = (h.step (moveAct m)).2 := by
  obtain ⟨gn, gp, gf, gs, gt⟩ := g
  obtain ⟨fresh, base, now, past, future, start, tr⟩ := h
  have j := i
  obtain ⟨h1, h2, h3, h4, h5⟩ := i
  cases m with
  | undo =>
    cases h4 with
    | some h4 => exact ⟨j, rfl⟩
    | none =>
      cases h2 with
      | nil => exact ⟨j, rfl⟩
      | cons a b => exact ⟨⟨a, b, .cons h1 h3, .none, h5⟩, rfl⟩
  | redo =>
    cases h4 with
    | some h4 => exact ⟨j, rfl⟩
    | none =>
      cases h3 with
      | nil => exact ⟨j, rfl⟩
      | cons a b => exact ⟨⟨a, .cons h1 h2, b, .none, h5⟩, rfl⟩
  | close =>
    cases h4 with
    | some h4 => exact ⟨⟨h1, .cons h4 h2, h3, .none, h5⟩, rfl⟩
    | none => exact ⟨⟨h1, h2, h3, .none, h5⟩, rfl⟩
  | clearUndo => exact ⟨⟨h1, .nil, h3, h4, h5⟩, rfl⟩
  | clearRedo => exact ⟨⟨h1, h2, .nil, h4, h5⟩, rfl⟩
  | «begin» =>
    cases h5 with
    | none => exact ⟨⟨h1, h2, h3, h4, .some ⟨rfl, rfl, h1⟩⟩, rfl⟩
    | some h5 => exact ⟨⟨h1, h2, h3, h4, .some ⟨by simp only [h5.1], h5.2.1, h5.2.2⟩⟩, rfl⟩
  | commit =>
    cases h5 with
    | none => exact ⟨⟨h1, h2, h3, h4, .none⟩, rfl⟩
    | @some t u h5 =>
      refine ⟨?_, rfl⟩
      obtain ⟨tl, ts, te⟩ := t
      obtain ⟨ul, us, ue⟩ := u
      obtain ⟨k1, k2, k3⟩ := h5
      (try simp only at k1 k2 k3)
      subst k1 k2
      simp only [ListSpec.History.move, ListSpec.History.commit, moveAct, Hist.step, Hist.commit]
      split
      · split
        · refine ⟨h1, h2, .nil, ?_, .none⟩
          cases h4 with
          | none => exact .some k3
          | some h4 => exact .some h4
        · exact ⟨h1, h2, h3, h4, .none⟩
      · exact ⟨h1, h2, h3, h4, .some ⟨rfl, rfl, k3⟩⟩
  | rollback =>
    cases h5 with
    | none => exact ⟨⟨h1, h2, h3, h4, .none⟩, rfl⟩
    | @some t u h5 =>
      refine ⟨?_, rfl⟩
      obtain ⟨tl, ts, te⟩ := t
      obtain ⟨ul, us, ue⟩ := u
      obtain ⟨k1, k2, k3⟩ := h5
      (try simp only at k1 k2 k3)
      subst k1 k2
      simp only [ListSpec.History.move, ListSpec.History.rollback, moveAct, Hist.step, Hist.rollback]
      split
      · exact ⟨k3, h2, h3, h4, .none⟩
      · exact ⟨h1, h2, h3, h4, .some ⟨rfl, rfl, k3⟩⟩

end Verif.UndoRef
