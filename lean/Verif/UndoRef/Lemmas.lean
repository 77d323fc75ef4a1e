import Verif.UndoRef.Spec
import Mathlib.Tactic.Linarith
import Mathlib.Tactic.Ring
/-
The invariant of histories with references, and its preservation.
-/
namespace Verif.UndoRef
open Verif Verif.UndoRef.Spec

theorem upd_same {κ α : Type} [DecidableEq κ] (f : κ → α) (a : κ) (v : α) : upd f a v a = v := if_pos rfl
theorem upd_other {κ α : Type} [DecidableEq κ] (f : κ → α) (a : κ) (v : α) {x : κ} (h : x ≠ a) : upd f a v x = f x := if_neg h
theorem upd_upd {κ α : Type} [DecidableEq κ] (f : κ → α) (a : κ) (v w : α) : upd (upd f a v) a w = upd f a w := by
  funext x; unfold upd; split <;> rfl
theorem upd_self {κ α : Type} [DecidableEq κ] (f : κ → α) (a : κ) : upd f a (f a) = f := by
  funext x; unfold upd; split
  · next h => rw [h]
  · rfl

/-- objects that do not exist stay so -/
def Zeros (cnt cnt' : Counts) : Prop := ∀ o, cnt o = 0 → cnt' o = 0

theorem Zeros.refl (c : Counts) : Zeros c c := fun _ h => h
theorem Zeros.trans {a b c : Counts} (h : Zeros a b) (k : Zeros b c) : Zeros a c := fun o ho => k o (h o ho)

/-- indicator -/
def one (b : Prop) [Decidable b] : Int := if b then 1 else 0

theorem one_nonneg (b : Prop) [Decidable b] : 0 ≤ one b := by unfold one; split <;> omega
theorem one_true {b : Prop} [Decidable b] (h : b) : one b = 1 := if_pos h
theorem one_false {b : Prop} [Decidable b] (h : ¬ b) : one b = 0 := if_neg h

theorem retain_ok (cnt : Counts) (o : Obj) (h : (0 : Int) < cnt o) :
    ∃ c, retain cnt o = .ok c ∧ Zeros cnt c ∧ ∀ x, (c x : Int) = cnt x + one (o = x) := by
  refine ⟨upd cnt o (cnt o + 1), if_neg (by omega), fun x hx => ?_, fun x => ?_⟩
  · rw [upd_other _ _ _ (fun e => by rw [e] at hx; omega)]; exact hx
  · by_cases e : o = x
    · rw [one_true e, ← e, upd_same]; push_cast; ring
    · rw [one_false e, upd_other _ _ _ (fun e' => e e'.symm)]; ring

theorem release_ok (cnt : Counts) (o : Obj) (h : (0 : Int) < cnt o) :
    ∃ c, release cnt o = .ok c ∧ Zeros cnt c ∧ ∀ x, (c x : Int) = cnt x - one (o = x) := by
  refine ⟨upd cnt o (cnt o - 1), if_neg (by omega), fun x hx => ?_, fun x => ?_⟩
  · rw [upd_other _ _ _ (fun e => by rw [e] at hx; omega)]; exact hx
  · by_cases e : o = x
    · rw [one_true e, ← e, upd_same]; omega
    · rw [one_false e, upd_other _ _ _ (fun e' => e e'.symm)]; ring

theorem touch_ok (cnt : Counts) (o : Obj) (h : (0 : Int) < cnt o) : touch cnt o = .ok () := if_neg (by omega)

theorem retainOpt_ok (cnt : Counts) (p : Option Obj) (h : ∀ o, p = some o → (0 : Int) < cnt o) :
    ∃ c, retainOpt cnt p = .ok c ∧ Zeros cnt c ∧ ∀ x, (c x : Int) = cnt x + one (p = some x) := by
  cases p with
  | none => exact ⟨cnt, rfl, Zeros.refl _, fun x => by rw [one_false (by simp)]; ring⟩
  | some o =>
    obtain ⟨c, h1, h2, h3⟩ := retain_ok cnt o (h o rfl)
    refine ⟨c, h1, h2, fun x => ?_⟩
    rw [h3 x]; unfold one; simp only [Option.some.injEq]

theorem releaseOpt_ok (cnt : Counts) (p : Option Obj) (h : ∀ o, p = some o → (0 : Int) < cnt o) :
    ∃ c, releaseOpt cnt p = .ok c ∧ Zeros cnt c ∧ ∀ x, (c x : Int) = cnt x - one (p = some x) := by
  cases p with
  | none => exact ⟨cnt, rfl, Zeros.refl _, fun x => by rw [one_false (by simp)]; ring⟩
  | some o =>
    obtain ⟨c, h1, h2, h3⟩ := release_ok cnt o (h o rfl)
    refine ⟨c, h1, h2, fun x => ?_⟩
    rw [h3 x]; unfold one; simp only [Option.some.injEq]

/-- references of a change -/
theorem refsOf_ref (o : Obj) (cell : Cell) (v v1 v2 : Option Obj) (sw : Bool) (x : Obj) :
    (refsOf ⟨o, .ref cell v v1 v2 sw⟩ x : Int) = one (o = x) + one (v1 = some x) + one (v2 = some x) := by
  unfold refsOf one; push_cast; ring
theorem refsOf_rel (o : Obj) (r : Bool) (x : Obj) : (refsOf ⟨o, .rel r⟩ x : Int) = one (o = x) := by
  unfold refsOf one; push_cast; ring
theorem refsOf_other (o : Obj) (x : Obj) : (refsOf ⟨o, .other⟩ x : Int) = one (o = x) := by
  unfold refsOf one; push_cast; ring
theorem refsOf_owner (c : Change) : 1 ≤ refsOf c c.owner := by unfold refsOf; simp

/-- the count of every object: unregistered and registered references of the application, references of changes, and `H` others -/
def Bal (cnt : Counts) (base : Obj → Nat) (refs : Obj → Int) (H : Obj → Int) : Prop := ∀ o, (cnt o : Int) = base o + refs o + H o

theorem Bal.owner_pos {cnt : Counts} {base : Obj → Nat} {refs H : Obj → Int} {c : Change} (b : Bal cnt base refs (fun o => H o + refsOf c o))
    (hr : ∀ o, 0 ≤ refs o) (hH : ∀ o, 0 ≤ H o) : (0 : Int) < cnt c.owner := by
  have := b c.owner
  have h1 := hr c.owner
  have h2 := hH c.owner
  have h3 := refsOf_owner c
  simp only at this
  omega

/-- swapping `c` takes the application from `x` to `y` -/
structure Link (c : Change) (x y : App) : Prop where
  vx : x.Valid
  vy : y.Valid
  eff : match c.kind with
    | .ref cell value _ v2 sw => y.refs = x.refs ∧ y.cells = upd x.cells cell value ∧ (sw = false → v2 = none) ∧
        (cell.1 = c.owner ∨ 1 ≤ x.refs cell.1) ∧ (∀ w, x.cells cell = some w → 1 ≤ x.refs w) ∧ ∀ w, value = some w → 1 ≤ x.refs w
    | .rel r => y.cells = x.cells ∧ y.refs = upd x.refs c.owner (x.refs c.owner + if r then 1 else -1)
    | .other => y = x

theorem swap_ok {c : Change} {x y : App} (l : Link c x y) {cnt : Counts} {base : Obj → Nat} {H : Obj → Int} (hH : ∀ o, 0 ≤ H o)
    (b : Bal cnt base x.refs (fun o => H o + refsOf c o)) :
    ∃ c' cnt', swap cnt x.cells c = .ok (c', cnt', y.cells) ∧ Link c' y x ∧ Zeros cnt cnt' ∧ Bal cnt' base y.refs (fun o => H o + refsOf c' o) := by
  have hpos := b.owner_pos l.vx hH
  obtain ⟨owner, kind⟩ := c
  unfold swap
  rw [touch_ok _ _ hpos]
  cases kind with
  | other =>
    have e := l.eff
    simp only at e
    subst e
    exact ⟨⟨owner, .other⟩, cnt, rfl, ⟨l.vy, l.vx, rfl⟩, Zeros.refl _, b⟩
  | rel r =>
    obtain ⟨e1, e2⟩ := l.eff
    have hv := l.vy owner
    rw [e2, upd_same] at hv
    cases r with
    | true =>
      obtain ⟨c2, h1, h2, h3⟩ := retain_ok cnt owner hpos
      have hp2 : (0 : Int) < c2 owner := by rw [h3 owner]; have := one_nonneg (owner = owner); simp only at hpos; omega
      refine ⟨⟨owner, .rel false⟩, c2, ?_, ⟨l.vy, l.vx, e1.symm, ?_⟩, h2, fun o => ?_⟩
      · simp only [swapRel, h1, if_true, bind, Except.bind, touch_ok _ _ hp2, pure, Except.pure, Bool.not_true, e1]
      · rw [e2, upd_same, upd_upd]
        simp only [if_true]
        rw [show x.refs owner + 1 + (if false = true then 1 else -1) = x.refs owner by simp, upd_self]
      · have := b o
        simp only [refsOf_rel] at this ⊢
        rw [h3 o, this, e2]
        by_cases eo : owner = o
        · subst eo; rw [upd_same, one_true rfl]; simp; ring
        · rw [upd_other _ _ _ (fun h => eo h.symm), one_false eo]; ring
    | false =>
      obtain ⟨c2, h1, h2, h3⟩ := release_ok cnt owner hpos
      have hp2 : (0 : Int) < c2 owner := by
        have := b owner
        have h4 := hH owner
        simp only [refsOf_rel] at this
        rw [one_true trivial] at this
        rw [h3 owner, one_true (rfl : owner = owner), this]
        simp only [Bool.false_eq_true, if_false] at hv
        omega
      refine ⟨⟨owner, .rel true⟩, c2, ?_, ⟨l.vy, l.vx, e1.symm, ?_⟩, h2, fun o => ?_⟩
      · simp only [swapRel, h1, Bool.false_eq_true, if_false, bind, Except.bind, touch_ok _ _ hp2, pure, Except.pure, Bool.not_false, e1]
      · rw [e2, upd_same, upd_upd]
        simp only [Bool.false_eq_true, if_false, if_true]
        rw [show x.refs owner + -1 + 1 = x.refs owner by ring, upd_self]
      · have := b o
        simp only [refsOf_rel] at this ⊢
        rw [h3 o, this, e2]
        by_cases eo : owner = o
        · subst eo; rw [upd_same, one_true rfl]; simp; ring
        · rw [upd_other _ _ _ (fun h => eo h.symm), one_false eo]; ring
  | ref cell value v1 v2 sw =>
    obtain ⟨e1, e2, e3, e4, e5, e6⟩ := l.eff
    have hhost : touch cnt cell.1 = .ok () := touch_ok _ _ (by
      rcases e4 with e4 | e4
      · have e4 : cell.1 = owner := e4
        rw [e4]; exact hpos
      · have h5 := b cell.1
        have h7 := hH cell.1
        simp only at h5
        omega)
    have hl : ∀ v1 v2 sw, (sw = false → v2 = none) → Link ⟨owner, .ref cell (x.cells cell) v1 v2 sw⟩ y x := fun v1 v2 sw hs =>
      ⟨l.vy, l.vx, e1.symm, by rw [e2, upd_upd, upd_self], hs, by rw [e1]; exact e4, fun w hw => by
        rw [e1]; rw [e2, upd_same] at hw; exact e6 w hw, fun w hw => by rw [e1]; exact e5 w hw⟩
    have hback : x.cells = upd y.cells cell (x.cells cell) := by rw [e2, upd_upd, upd_self]
    cases sw with
    | true =>
      refine ⟨⟨owner, .ref cell (x.cells cell) v1 v2 true⟩, cnt, ?_, hl _ _ _ (fun h => by cases h), Zeros.refl _, fun o => ?_⟩
      · simp only [hhost, bind, Except.bind, keepSecond, if_true, pure, Except.pure, e2]
      · have := b o
        simp only [refsOf_ref] at this ⊢
        rw [this, e1]
    | false =>
      obtain ⟨c2, h1, h2, h3⟩ := retainOpt_ok cnt (x.cells cell) (fun o ho => by
        have h5 := b o
        have h6 := e5 _ ho
        have h7 := hH o
        simp only at h5
        omega)
      refine ⟨⟨owner, .ref cell (x.cells cell) v1 (x.cells cell) true⟩, c2, ?_, hl _ _ _ (fun h => by cases h), h2, fun o => ?_⟩
      · simp only [hhost, keepSecond, h1, Bool.false_eq_true, if_false, bind, Except.bind, pure, Except.pure, e2]
      · have := b o
        simp only [refsOf_ref] at this ⊢
        rw [e3 rfl, one_false (show ¬ (none = some o) by simp)] at this
        rw [h3 o, this, e1]; ring

theorem Link.heldPos {c : Change} : (0 : Int) ≤ refsOf c c.owner := by omega

/-- swapping the changes one after the other takes the application from `x` to `y` -/
inductive Path : List Change → App → App → Prop
  | nil (x : App) (v : x.Valid) : Path [] x x
  | cons {c : Change} {cs : List Change} {x m y : App} : Link c x m → Path cs m y → Path (c :: cs) x y

theorem Path.vx {cs : List Change} {x y : App} (p : Path cs x y) : x.Valid := by
  cases p with
  | nil v => assumption
  | cons l _ => exact l.vx

theorem Path.vy {cs : List Change} {x y : App} (p : Path cs x y) : y.Valid := by
  induction p with
  | nil v => assumption
  | cons _ _ ih => exact ih

theorem Path.append {cs ds : List Change} {x m y : App} (p : Path cs x m) (q : Path ds m y) : Path (cs ++ ds) x y := by
  induction p with
  | nil _ => exact q
  | cons l _ ih => exact .cons l (ih q)

theorem Path.single {c : Change} {x y : App} (l : Link c x y) : Path [c] x y := .cons l (.nil _ l.vy)

theorem heldBy_cons (c : Change) (cs : List Change) (o : Obj) : (heldBy (c :: cs) o : Int) = refsOf c o + heldBy cs o := by
  unfold heldBy; simp
theorem heldBy_append (cs ds : List Change) (o : Obj) : (heldBy (cs ++ ds) o : Int) = heldBy cs o + heldBy ds o := by
  unfold heldBy; simp
theorem heldBy_reverse (cs : List Change) (o : Obj) : (heldBy cs.reverse o : Int) = heldBy cs o := by
  induction cs with
  | nil => rfl
  | cons c cs ih => rw [List.reverse_cons, heldBy_append, ih, heldBy_cons, heldBy_cons]; simp [heldBy]; ring
theorem heldBy_nil (o : Obj) : (heldBy [] o : Int) = 0 := rfl

theorem Bal.congr {cnt : Counts} {base : Obj → Nat} {r H K : Obj → Int} (b : Bal cnt base r H) (e : ∀ o, H o = K o) : Bal cnt base r K :=
  fun o => by rw [b o, e o]

theorem swapAll_ok {cs : List Change} {x y : App} (p : Path cs x y) : ∀ {cnt : Counts} {base : Obj → Nat} {H : Obj → Int}, (∀ o, 0 ≤ H o) →
    Bal cnt base x.refs (fun o => H o + heldBy cs o) →
    ∃ cs' cnt', swapAll cnt x.cells cs = .ok (cs', cnt', y.cells) ∧ Path cs'.reverse y x ∧ Zeros cnt cnt' ∧
      Bal cnt' base y.refs (fun o => H o + heldBy cs' o) ∧ cs'.length = cs.length := by
  induction p with
  | nil x v => intro cnt base H hH b; exact ⟨[], cnt, rfl, .nil x v, Zeros.refl _, b, rfl⟩
  | @cons c cs x m y l p ih =>
    intro cnt base H hH b
    obtain ⟨c', cnt1, h1, l', z1, b1⟩ := swap_ok (H := fun o => H o + heldBy cs o) l (fun o => by have := hH o; omega)
      (b.congr (fun o => by rw [heldBy_cons]; ring))
    obtain ⟨cs', cnt2, h2, p', z2, b2, hl⟩ := ih (cnt := cnt1) (base := base) (H := fun o => H o + refsOf c' o) (fun o => by have := hH o; omega)
      (b1.congr (fun o => by ring))
    refine ⟨c' :: cs', cnt2, ?_, ?_, z1.trans z2, b2.congr (fun o => by rw [heldBy_cons]; ring), by simp [hl]⟩
    · simp only [swapAll, h1, h2, bind, Except.bind, pure, Except.pure]
    · rw [List.reverse_cons]; exact p'.append (.single l')

theorem swapBack_ok {cs : List Change} {x y : App} (p : Path cs.reverse x y) {cnt : Counts} {base : Obj → Nat} {H : Obj → Int} (hH : ∀ o, 0 ≤ H o)
    (b : Bal cnt base x.refs (fun o => H o + heldBy cs o)) :
    ∃ cs' cnt', swapBack cnt x.cells cs = .ok (cs', cnt', y.cells) ∧ Path cs' y x ∧ Zeros cnt cnt' ∧
      Bal cnt' base y.refs (fun o => H o + heldBy cs' o) ∧ cs'.length = cs.length := by
  obtain ⟨cs', cnt', h1, h2, h3, h4, h5⟩ := swapAll_ok p hH (b.congr (fun o => by rw [heldBy_reverse]))
  refine ⟨cs'.reverse, cnt', ?_, h2, h3, h4.congr (fun o => by rw [heldBy_reverse]), by simpa using h5⟩
  simp only [swapBack, h1, bind, Except.bind, pure, Except.pure]

/-! ### Deleting changes -/

theorem destroyBase_ok (cnt : Counts) (o : Obj) (h : (0 : Int) < cnt o) :
    ∃ c, destroyBase cnt o = .ok c ∧ Zeros cnt c ∧ ∀ x, (c x : Int) = cnt x - one (o = x) := by
  obtain ⟨c, h1, h2⟩ := release_ok cnt o h
  refine ⟨c, ?_, h2⟩
  simp only [destroyBase, touch_ok _ _ h, bind, Except.bind, h1]

theorem destroy_ok (cnt : Counts) (c : Change) (h : ∀ o, (refsOf c o : Int) ≤ cnt o) :
    ∃ c', destroy cnt c = .ok c' ∧ Zeros cnt c' ∧ ∀ x, (c' x : Int) = cnt x - refsOf c x := by
  obtain ⟨owner, kind⟩ := c
  cases kind with
  | other =>
    have := h owner
    rw [refsOf_other, one_true rfl] at this
    obtain ⟨c, h1, h2, h3⟩ := destroyBase_ok cnt owner (by omega)
    exact ⟨c, h1, h2, fun x => by rw [h3, refsOf_other]⟩
  | rel r =>
    have := h owner
    rw [refsOf_rel, one_true rfl] at this
    obtain ⟨c, h1, h2, h3⟩ := destroyBase_ok cnt owner (by omega)
    exact ⟨c, h1, h2, fun x => by rw [h3, refsOf_rel]⟩
  | ref cell v v1 v2 sw =>
    simp only [refsOf_ref] at h
    obtain ⟨a, a1, a2, a3⟩ := releaseOpt_ok cnt v1 (fun o e => by
      have h1 := h o; rw [one_true e] at h1
      have h2 := one_nonneg (owner = o); have h3 := one_nonneg (v2 = some o); omega)
    obtain ⟨b, b1, b2, b3⟩ := releaseOpt_ok a v2 (fun o e => by
      have h1 := h o; rw [one_true e] at h1
      have h2 := one_nonneg (owner = o); rw [a3 o]; omega)
    obtain ⟨c, c1, c2, c3⟩ := destroyBase_ok b owner (by
      have h1 := h owner; rw [one_true rfl] at h1; rw [b3, a3]; omega)
    refine ⟨c, ?_, (a2.trans b2).trans c2, fun x => ?_⟩
    · simp only [destroy, a1, b1, c1, bind, Except.bind]
    · rw [c3, b3, a3, refsOf_ref]; ring

theorem destroyAll_ok (cs : List Change) : ∀ (cnt : Counts), (∀ o, (heldBy cs o : Int) ≤ cnt o) →
    ∃ c', destroyAll cnt cs = .ok c' ∧ Zeros cnt c' ∧ ∀ x, (c' x : Int) = cnt x - heldBy cs x := by
  induction cs with
  | nil => intro cnt _; exact ⟨cnt, rfl, Zeros.refl _, fun x => by rw [heldBy_nil]; ring⟩
  | cons c cs ih =>
    intro cnt h
    simp only [heldBy_cons] at h
    obtain ⟨a, a1, a2, a3⟩ := destroy_ok cnt c (fun o => by have := h o; omega)
    obtain ⟨b, b1, b2, b3⟩ := ih a (fun o => by have := h o; rw [a3]; omega)
    refine ⟨b, ?_, a2.trans b2, fun x => by rw [b3, a3, heldBy_cons]; ring⟩
    simp only [destroyAll, a1, b1, bind, Except.bind]

theorem destroyStep_ok (cs : List Change) (cnt : Counts) (h : ∀ o, (heldBy cs o : Int) ≤ cnt o) :
    ∃ c', destroyStep cnt cs = .ok c' ∧ Zeros cnt c' ∧ ∀ x, (c' x : Int) = cnt x - heldBy cs x := by
  obtain ⟨c, h1, h2, h3⟩ := destroyAll_ok cs.reverse cnt (fun o => by rw [heldBy_reverse]; exact h o)
  exact ⟨c, h1, h2, fun x => by rw [h3, heldBy_reverse]⟩

theorem destroySteps_ok (ss : List (List Change)) : ∀ (cnt : Counts), (∀ o, (heldBy ss.flatten o : Int) ≤ cnt o) →
    ∃ c', destroySteps cnt ss = .ok c' ∧ Zeros cnt c' ∧ ∀ x, (c' x : Int) = cnt x - heldBy ss.flatten x := by
  induction ss with
  | nil => intro cnt _; exact ⟨cnt, rfl, Zeros.refl _, fun x => by simp [heldBy]⟩
  | cons s ss ih =>
    intro cnt h
    simp only [List.flatten_cons, heldBy_append] at h
    obtain ⟨a, a1, a2, a3⟩ := destroyStep_ok s cnt (fun o => by have := h o; omega)
    obtain ⟨b, b1, b2, b3⟩ := ih a (fun o => by have := h o; rw [a3]; omega)
    refine ⟨b, ?_, a2.trans b2, fun x => by rw [b3, a3, List.flatten_cons, heldBy_append]; ring⟩
    simp only [destroySteps, a1, b1, bind, Except.bind]

/-! ### The invariant -/

inductive ChainU : List (List Change) → List App → App → Prop
  | nil (a : App) : ChainU [] [] a
  | cons {step : List Change} {rest : List (List Change)} {p : App} {ps : List App} {a : App} :
      Path step.reverse a p → ChainU rest ps p → ChainU (step :: rest) (p :: ps) a

inductive ChainR : List (List Change) → List App → App → Prop
  | nil (a : App) : ChainR [] [] a
  | cons {step : List Change} {rest : List (List Change)} {f : App} {fs : List App} {a : App} :
      Path step a f → ChainR rest fs f → ChainR (step :: rest) (f :: fs) a

/-- the state that belongs to the end of the current step -/
def anchor (h : Hist) : App := match h.tr with | some t => t.start | none => h.now

/-- the state before the current step -/
def stepStart (h : Hist) : App := h.start.getD (anchor h)

def TrOk (s : State) (h : Hist) : Prop :=
  match h.tr with
  | none => s.trans = none ∧ s.level = 0
  | some t => ∃ cs, s.trans = some cs ∧ s.level = t.level ∧ 1 ≤ t.level ∧ Path cs.reverse h.now t.start ∧ (t.edited = true ↔ cs ≠ [])

structure Inv (s : State) (h : Hist) : Prop where
  valid : h.now.Valid
  cells : s.cells = h.now.cells
  bal : Bal s.cnt h.base h.now.refs (fun o => heldBy (changes s) o)
  low : ∀ o, h.fresh ≤ o → s.cnt o = 0
  tr : TrOk s h
  cur : Path s.current.reverse (anchor h) (stepStart h)
  opn : s.isOpen = h.start.isSome
  emp : s.current = [] ↔ h.start = none
  und : ChainU s.undoStack h.past (stepStart h)
  red : ChainR s.redoStack h.future (anchor h)

theorem held_changes (s : State) (o : Obj) : (heldBy (changes s) o : Int) =
    heldBy s.current o + heldBy s.undoStack.flatten o + heldBy s.redoStack.flatten o + heldBy (s.trans.getD []) o := by
  simp only [changes, heldBy_append]

theorem empty_valid : App.empty.Valid := fun _ => le_refl _

theorem inv_new : Inv State.new Hist.new where
  valid := empty_valid
  cells := rfl
  bal := fun o => rfl
  low := fun _ _ => rfl
  tr := ⟨rfl, rfl⟩
  cur := .nil _ empty_valid
  opn := rfl
  emp := ⟨fun _ => rfl, fun _ => rfl⟩
  und := .nil _
  red := .nil _

end Verif.UndoRef
