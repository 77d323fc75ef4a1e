import Verif.LinkedList.Model
import Verif.Undo.Refine
/-
Normal form of the list operations: registrations, then assignments.
-/
namespace Verif.LinkedList
open Verif Verif.Undo Verif.Undo.Spec

def upd (m : Mem Nat) (p v : Nat) : Mem Nat := fun a => if a = p then v else m a

theorem store_upd (u : State Nat) (p v : Nat) : store u p [v] = { u with mem := upd u.mem p v } := by
  unfold store
  congr 1
  funext a
  unfold upd writeMem
  by_cases h : a = p
  · subst h; simp
  · rw [if_neg h]
    split
    · rw [List.getElem?_eq_none (by simp; omega)]; rfl
    · rfl

/-- registering cannot fail -/
def Good (s : S) : Prop := s.um = true → s.u.active = true ∧ (0 < s.u.level → s.u.trans.isSome = true)

def reg1 (u : State Nat) (o p : Nat) : State Nat :=
  match register u o p 1 with
  | .ok u' => u'
  | .error _ => u

theorem register_ok (u : State Nat) (o p : Nat) (ha : u.active = true) (ht : 0 < u.level → u.trans.isSome = true) :
    register u o p 1 = .ok (reg1 u o p) ∧ (reg1 u o p).mem = u.mem ∧ (reg1 u o p).active = true ∧
      (0 < (reg1 u o p).level → (reg1 u o p).trans.isSome = true) := by
  have key : ∃ u', register u o p 1 = .ok u' ∧ u'.mem = u.mem ∧ u'.active = true ∧ (0 < u'.level → u'.trans.isSome = true) := by
    unfold register addChange
    rw [if_neg (by rw [ha]; decide)]
    by_cases hl : 0 < u.level
    · obtain ⟨t, hs⟩ := Option.isSome_iff_exists.1 (ht hl)
      rw [if_pos hl, hs]
      exact ⟨_, rfl, rfl, ha, fun _ => rfl⟩
    · rw [if_neg hl]
      exact ⟨_, rfl, rfl, ha, fun h => absurd h hl⟩
  obtain ⟨u', e, h1, h2, h3⟩ := key
  have : reg1 u o p = u' := by unfold reg1; rw [e]
  rw [this]
  exact ⟨e, h1, h2, h3⟩

def R (s : S) (r : Nat × Nat) : S := if s.um then { s with u := reg1 s.u r.1 r.2 } else s

def Rl (s : S) (l : List (Nat × Nat)) : S := l.foldl R s

def W (m : Mem Nat) (l : List (Nat × Nat)) : Mem Nat := l.foldl (fun m w => upd m w.1 w.2) m

def Wl (s : S) (l : List (Nat × Nat)) : S := { s with u := { s.u with mem := W s.u.mem l } }

def Alive (s : S) (e : Nat) : Prop := e ≠ 0 ∧ e < s.brk ∧ s.dead e = false

theorem chk_ok {s : S} {e : Nat} (h : Alive s e) : chk s e = .ok () := if_pos h

theorem R_spec (s : S) (r : Nat × Nat) (h : Good s) :
    (R s r).u.mem = s.u.mem ∧ (R s r).brk = s.brk ∧ (R s r).dead = s.dead ∧ (R s r).um = s.um ∧ (R s r).cur = s.cur ∧ Good (R s r) := by
  unfold R
  split
  · rename_i hu
    obtain ⟨h1, h2⟩ := h hu
    obtain ⟨_, k2, k3, k4⟩ := register_ok s.u r.1 r.2 h1 h2
    exact ⟨k2, rfl, rfl, rfl, rfl, fun _ => ⟨k3, k4⟩⟩
  · exact ⟨rfl, rfl, rfl, rfl, rfl, h⟩

theorem Rl_spec (s : S) (l : List (Nat × Nat)) (h : Good s) :
    (Rl s l).u.mem = s.u.mem ∧ (Rl s l).brk = s.brk ∧ (Rl s l).dead = s.dead ∧ (Rl s l).um = s.um ∧ (Rl s l).cur = s.cur ∧ Good (Rl s l) := by
  induction l generalizing s with
  | nil => exact ⟨rfl, rfl, rfl, rfl, rfl, h⟩
  | cons r l ih =>
    obtain ⟨a1, a2, a3, a4, a5, a6⟩ := R_spec s r h
    obtain ⟨b1, b2, b3, b4, b5, b6⟩ := ih (R s r) a6
    exact ⟨b1.trans a1, b2.trans a2, b3.trans a3, b4.trans a4, b5.trans a5, b6⟩

theorem Rl_append (s : S) (l k : List (Nat × Nat)) : Rl s (l ++ k) = Rl (Rl s l) k := by simp [Rl, List.foldl_append]
theorem W_append (m : Mem Nat) (l k : List (Nat × Nat)) : W m (l ++ k) = W (W m l) k := by simp [W, List.foldl_append]

theorem Rl_nil (s : S) : Rl s [] = s := rfl
theorem Wl_nil (s : S) : Wl s [] = s := rfl
theorem Wl_Wl (s : S) (l k : List (Nat × Nat)) : Wl (Wl s l) k = Wl s (l ++ k) := by
  simp only [Wl, W_append]

theorem alive_Rl {s : S} {l : List (Nat × Nat)} (hg : Good s) {e : Nat} (h : Alive s e) : Alive (Rl s l) e := by
  obtain ⟨_, h2, h3, _⟩ := Rl_spec s l hg
  exact ⟨h.1, by rw [h2]; exact h.2.1, by rw [h3]; exact h.2.2⟩

theorem alive_Wl {s : S} {l : List (Nat × Nat)} {e : Nat} (h : Alive s e) : Alive (Wl s l) e := h

theorem regE_ok (s : S) (l : List (Nat × Nat)) (hg : Good s) (o e f : Nat) (ho : Alive s o) (he : Alive s e) :
    regE (Rl s l) o e f = .ok (Rl s (l ++ [(o, e + f)])) := by
  obtain ⟨_, _, _, _, _, g⟩ := Rl_spec s l hg
  rw [Rl_append]
  unfold regE
  rw [chk_ok (alive_Rl hg ho), chk_ok (alive_Rl hg he)]
  simp only [bind, Except.bind, pure, Except.pure]
  show _ = Except.ok (R (Rl s l) (o, e + f))
  unfold R
  by_cases hu : (Rl s l).um = true
  · rw [if_pos hu, if_pos hu]
    obtain ⟨h1, h2⟩ := g hu
    rw [(register_ok _ o (e + f) h1 h2).1]
  · rw [if_neg hu, if_neg hu]

theorem regL_ok (s : S) (l : List (Nat × Nat)) (hg : Good s) (f : Nat) :
    regL (Rl s l) f = .ok (Rl s (l ++ [(this, f)])) := by
  obtain ⟨_, _, _, _, _, g⟩ := Rl_spec s l hg
  rw [Rl_append]
  unfold regL
  simp only [bind, Except.bind, pure, Except.pure]
  show _ = Except.ok (R (Rl s l) (this, f))
  unfold R
  by_cases hu : (Rl s l).um = true
  · rw [if_pos hu, if_pos hu]
    obtain ⟨h1, h2⟩ := g hu
    rw [(register_ok _ this f h1 h2).1]
  · rw [if_neg hu, if_neg hu]

theorem cond_regE (s : S) (l : List (Nat × Nat)) (hg : Good s) (c : Bool) (o e f : Nat) (ho : c = true → Alive s o) (he : c = true → Alive s e) :
    cond c (fun s => regE s o e f) (Rl s l) = .ok (Rl s (l ++ if c then [(o, e + f)] else [])) := by
  cases c with
  | false => simp [cond]
  | true => simp only [cond, if_true]; exact regE_ok s l hg o e f (ho rfl) (he rfl)

theorem cond_regL (s : S) (l : List (Nat × Nat)) (hg : Good s) (c : Bool) (f : Nat) :
    cond c (fun s => regL s f) (Rl s l) = .ok (Rl s (l ++ if c then [(this, f)] else [])) := by
  cases c with
  | false => simp [cond]
  | true => simp only [cond, if_true]; exact regL_ok s l hg f

theorem stL_Wl (s : S) (l : List (Nat × Nat)) (f v : Nat) : stL (Wl s l) f v = Wl s (l ++ [(f, v)]) := by
  unfold stL
  rw [store_upd]
  simp only [Wl, W_append]
  rfl

theorem stE_ok (s : S) (l : List (Nat × Nat)) (e f v : Nat) (h : Alive s e) : stE (Wl s l) e f v = .ok (Wl s (l ++ [(e + f, v)])) := by
  have := stL_Wl s l (e + f) v
  unfold stL at this
  unfold stE
  rw [chk_ok (alive_Wl h)]
  simp only [bind, Except.bind, pure, Except.pure, this]

theorem cond_stE (s : S) (l : List (Nat × Nat)) (c : Bool) (e f v : Nat) (h : c = true → Alive s e) :
    cond c (fun s => stE s e f v) (Wl s l) = .ok (Wl s (l ++ if c then [(e + f, v)] else [])) := by
  cases c with
  | false => simp [cond]
  | true => simp only [cond, if_true]; exact stE_ok s l e f v (h rfl)

theorem cond_stL (s : S) (l : List (Nat × Nat)) (c : Bool) (f v : Nat) :
    cond c (fun s => .ok (stL s f v)) (Wl s l) = .ok (Wl s (l ++ if c then [(f, v)] else [])) := by
  cases c with
  | false => simp [cond]
  | true => simp only [cond, if_true]; rw [stL_Wl]

theorem ldE_ok (s : S) (e f : Nat) (h : Alive s e) : ldE s e f = .ok (s.u.mem (e + f)) := by
  unfold ldE; rw [chk_ok h]; rfl

theorem R_Wl_comm (s : S) (hg : Good s) (r : Nat × Nat) (a v : Nat) (h : a ≠ r.2) : R (Wl s [(a, v)]) r = Wl (R s r) [(a, v)] := by
  unfold R
  by_cases hu : s.um = true
  · obtain ⟨h1, h2⟩ := hg hu
    rw [if_pos hu, if_pos (show (Wl s [(a, v)]).um = true from hu)]
    simp only [Wl]
    congr 1
    have e : readMem (upd s.u.mem a v) r.2 1 = readMem s.u.mem r.2 1 := by
      simp only [readMem, List.range_one, List.map_cons, List.map_nil, upd, Nat.add_zero]
      rw [if_neg (fun e => h e.symm)]
    unfold reg1 register addChange
    simp only [h1, Bool.not_true, Bool.false_eq_true, if_false, W, List.foldl_cons, List.foldl_nil, e]
    by_cases hl : 0 < s.u.level
    · obtain ⟨t, ht⟩ := Option.isSome_iff_exists.1 (h2 hl)
      simp only [if_pos hl, ht]
    · simp only [if_neg hl]; rfl
  · rw [if_neg hu, if_neg (show ¬ (Wl s [(a, v)]).um = true from hu)]

theorem Rl_Wl_comm (s : S) (hg : Good s) (l : List (Nat × Nat)) (a v : Nat) (h : ∀ r ∈ l, a ≠ r.2) :
    Rl (Wl s [(a, v)]) l = Wl (Rl s l) [(a, v)] := by
  induction l generalizing s with
  | nil => rfl
  | cons r l ih =>
    show Rl (R (Wl s [(a, v)]) r) l = Wl (Rl (R s r) l) [(a, v)]
    rw [R_Wl_comm s hg r a v (h r (List.mem_cons_self ..))]
    exact ih (R s r) (R_spec s r hg).2.2.2.2.2 (fun x hx => h x (List.mem_cons_of_mem _ hx))

/-! ### the operations -/

def endRegs (lend lstart item : Nat) : List (Nat × Nat) :=
  [(item, item + 0)] ++ (if (lend != 0) = true then [(lend, lend + 1)] else []) ++ (if (lstart == 0) = true then [(this, aStart)] else []) ++
    [(this, aEnd)] ++ [(this, aCount)]

def endStores (lend lstart cnt item : Nat) : List (Nat × Nat) :=
  [(item + 0, lend)] ++ (if (lend != 0) = true then [(lend + 1, item)] else []) ++ (if (lend != 0) = true then [(item + 0, lend)] else []) ++
    [(aEnd, item)] ++ (if (lstart == 0) = true then [(aStart, item)] else []) ++ [(aCount, (cnt + 1) % 2 ^ 32)]

theorem addElem_nf (s : S) (hg : Good s) (item : Nat) (hi : Alive s item) (hl : s.u.mem aEnd ≠ 0 → Alive s (s.u.mem aEnd)) :
    addElem s item = .ok (Wl (Rl s (endRegs (s.u.mem aEnd) (s.u.mem aStart) item))
      (endStores (s.u.mem aEnd) (s.u.mem aStart) (s.u.mem aCount) item)) := by
  have hl' : (s.u.mem aEnd != 0) = true → Alive s (s.u.mem aEnd) := fun h => hl (by simpa using h)
  unfold addElem
  simp only [bind, Except.bind, pure, Except.pure]
  have e0 : regE s item item 0 = .ok (Rl s [(item, item + 0)]) := by
    have := regE_ok s [] hg item item 0 hi hi
    exact this
  simp only [e0, cond_regE s _ hg _ _ _ _ hl' hl', cond_regL s _ hg, regL_ok s _ hg]
  generalize hb : Rl s _ = b
  have ha : ∀ e, Alive s e → Alive b e := fun e h => hb ▸ alive_Rl hg h
  have e1 : ∀ v, stE b item 0 v = .ok (Wl b [(item + 0, v)]) := fun v => stE_ok b [] item 0 v (ha _ hi)
  simp only [e1, cond_stE b _ _ _ _ _ (fun h => ha _ (hl' h)), cond_stE b _ _ item _ _ (fun _ => ha _ hi), stL_Wl, cond_stL]
  rw [← hb]
  rfl

theorem newElem_nf (s : S) (hz : ∀ a, s.brk ≤ a → s.u.mem a = 0) : newElem s = ({ s with brk := s.brk + 3 }, s.brk) := by
  unfold newElem
  have : store s.u s.brk [0, 0, 0] = s.u := by
    unfold store
    have : writeMem s.u.mem s.brk [0, 0, 0] = s.u.mem := by
      funext a
      unfold writeMem
      split
      · rename_i h
        rw [hz a h]
        rcases hk : a - s.brk with _ | _ | _ | k <;> simp
      · rfl
    rw [this]
  rw [this]

def addRegs (lend lstart item : Nat) : List (Nat × Nat) := (item, item + 2) :: endRegs lend lstart item
def addStores (lend lstart cnt item data : Nat) : List (Nat × Nat) := (item + 2, data) :: endStores lend lstart cnt item

theorem add_nf (s : S) (hg : Good s) (data : Nat) (hb : 8 ≤ s.brk) (hd : s.dead s.brk = false) (hz : ∀ a, s.brk ≤ a → s.u.mem a = 0)
    (hl : s.u.mem aEnd ≠ 0 → Alive s (s.u.mem aEnd) ∧ s.u.mem aEnd + 1 ≠ s.brk + 2) :
    add s data = .ok (Wl (Rl { s with brk := s.brk + 3 } (addRegs (s.u.mem aEnd) (s.u.mem aStart) s.brk))
      (addStores (s.u.mem aEnd) (s.u.mem aStart) (s.u.mem aCount) s.brk data)) := by
  unfold add
  rw [newElem_nf s hz]
  simp only
  generalize hs0 : ({ s with brk := s.brk + 3 } : S) = s0
  have hmem : s0.u = s.u := by rw [← hs0]
  have hg0 : Good s0 := by rw [← hs0]; exact hg
  have hit : Alive s0 s.brk := by rw [← hs0]; exact ⟨by omega, by simp, hd⟩
  have hle : s.u.mem aEnd ≠ 0 → Alive s0 (s.u.mem aEnd) := by
    intro h
    obtain ⟨⟨h1, h2, h3⟩, _⟩ := hl h
    rw [← hs0]
    exact ⟨h1, by simp; omega, h3⟩
  have e0 : regE s0 s.brk s.brk 2 = .ok (Rl s0 [(s.brk, s.brk + 2)]) := regE_ok s0 [] hg0 s.brk s.brk 2 hit hit
  simp only [bind, Except.bind, e0]
  generalize hs1 : Rl s0 [(s.brk, s.brk + 2)] = s1
  obtain ⟨m1, _, _, _, _, hg1⟩ := Rl_spec s0 [(s.brk, s.brk + 2)] hg0
  rw [hs1] at m1 hg1
  have hit1 : Alive s1 s.brk := hs1 ▸ alive_Rl hg0 hit
  have e1 : stE s1 s.brk 2 data = .ok (Wl s1 [(s.brk + 2, data)]) := stE_ok s1 [] s.brk 2 data hit1
  simp only [e1]
  have hmw : ∀ a, a < 8 → (Wl s1 [(s.brk + 2, data)]).u.mem a = s.u.mem a := by
    intro a ha
    simp only [Wl, W, List.foldl_cons, List.foldl_nil, upd]
    rw [if_neg (by omega), m1, hmem]
  have q1 := hmw aEnd (by decide)
  have q2 := hmw aStart (by decide)
  have q3 := hmw aCount (by decide)
  have nf := addElem_nf (Wl s1 [(s.brk + 2, data)]) hg1 s.brk hit1 (by
    rw [q1]; intro h
    have := hle h
    exact hs1 ▸ alive_Rl hg0 this)
  rw [q1, q2, q3] at nf
  rw [nf, Rl_Wl_comm s1 hg1, Wl_Wl, ← hs1]
  · rfl
  · intro r hr
    simp only [endRegs, List.mem_append, List.mem_singleton] at hr
    rcases hr with (((rfl | hr) | hr) | rfl) | rfl
    · simp
    · split at hr
      · rename_i h
        simp only [List.mem_singleton] at hr
        subst hr
        exact fun e => (hl (by simpa using h)).2 e.symm
      · cases hr
    · split at hr
      · simp only [List.mem_singleton] at hr
        subst hr
        show s.brk + 2 ≠ 1; omega
      · cases hr
    · show s.brk + 2 ≠ 2; omega
    · show s.brk + 2 ≠ 4; omega

def befRegs (after lstart before item : Nat) : List (Nat × Nat) :=
  [(item, item + 0)] ++ [(item, item + 1)] ++ (if (lstart == before) = true then [(this, aStart)] else []) ++ [(before, before + 0)] ++
    (if (after != 0) = true then [(before, after + 1)] else []) ++ [(this, aCount)]

def befStores (after lstart cnt before item : Nat) : List (Nat × Nat) :=
  (if (lstart == before) = true then [(aStart, item)] else []) ++ [(item + 0, after)] ++ [(item + 1, before)] ++
    (if (after != 0) = true then [(after + 1, item)] else []) ++ [(before + 0, item)] ++ [(aCount, (cnt + 1) % 2 ^ 32)]

theorem addBeforeElem_nf (s : S) (hg : Good s) (before item : Nat) (hi : Alive s item) (hb : Alive s before)
    (ha : s.u.mem (before + 0) ≠ 0 → Alive s (s.u.mem (before + 0))) :
    addBeforeElem s before item = .ok (Wl (Rl s (befRegs (s.u.mem (before + 0)) (s.u.mem aStart) before item))
      (befStores (s.u.mem (before + 0)) (s.u.mem aStart) (s.u.mem aCount) before item)) := by
  have ha' : (s.u.mem (before + 0) != 0) = true → Alive s (s.u.mem (before + 0)) := fun h => ha (by simpa using h)
  unfold addBeforeElem
  simp only [bind, Except.bind, pure, Except.pure, ldE_ok s before 0 hb]
  have e0 : regE s item item 0 = .ok (Rl s [(item, item + 0)]) := regE_ok s [] hg item item 0 hi hi
  simp only [e0, regE_ok s _ hg item item 1 hi hi, cond_regL s _ hg, regE_ok s _ hg before before 0 hb hb,
    cond_regE s _ hg _ before _ 1 (fun _ => hb) ha', regL_ok s _ hg]
  generalize hbb : Rl s _ = b
  have hal : ∀ e, Alive s e → Alive b e := fun e h => hbb ▸ alive_Rl hg h
  have e1 : cond (s.u.mem aStart == before) (fun s => .ok (stL s aStart item)) b =
      .ok (Wl b (if (s.u.mem aStart == before) = true then [(aStart, item)] else [])) := cond_stL b [] _ aStart item
  simp only [e1, stE_ok b _ item 0 _ (hal _ hi), stE_ok b _ item 1 _ (hal _ hi), cond_stE b _ _ _ 1 item (fun h => hal _ (ha' h)),
    stE_ok b _ before 0 item (hal _ hb), stL_Wl]
  rw [← hbb]
  rfl

end Verif.LinkedList
