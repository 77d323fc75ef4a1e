import Verif.UndoMem.Lemmas
/-
What is where: the steps with their chains, nothing shared and nothing lost; and the operations on one step or one stack.
-/
namespace Verif.UndoMem
open Verif Verif.Undo

variable {V : Type}

/-- a step: its address and its changes -/
abbrev Own (V : Type) := Nat × Chain V

def addrs (W : List (Own V)) : List Nat := W.flatMap (fun o => o.2.map Prod.fst)

/-- The live steps are those of `W` (complete) and those of `FS` (in transit), the live changes those of the steps of `W` and those of `F`. -/
structure Ok (ch : Heap (CNode V)) (sh : Heap SNode) (W : List (Own V)) (FS F : List Nat) : Prop where
  step : ∀ o ∈ W, ∃ pv, sh[o.1]? = some (some ⟨pv, lastOf o.2 none, nextOf o.2 none, BitVec.ofNat 32 o.2.length⟩)
  chain : ∀ o ∈ W, DL ch none o.2 none
  nodupS : (FS ++ W.map Prod.fst).Nodup
  nodupC : (F ++ addrs W).Nodup
  liveS : ∀ a n, sh[a]? = some (some n) → a ∈ FS ++ W.map Prod.fst
  liveC : ∀ a n, ch[a]? = some (some n) → a ∈ F ++ addrs W

theorem addrs_cons (o : Own V) (W : List (Own V)) : addrs (o :: W) = o.2.map Prod.fst ++ addrs W := rfl
theorem addrs_append (W W' : List (Own V)) : addrs (W ++ W') = addrs W ++ addrs W' := by simp [addrs]

theorem addrs_perm {W W' : List (Own V)} (h : W.Perm W') : (addrs W).Perm (addrs W') := h.flatMap_right _

theorem Ok.perm {ch : Heap (CNode V)} {sh : Heap SNode} {W W' : List (Own V)} {FS F : List Nat} (h : Ok ch sh W FS F) (hp : W.Perm W') : Ok ch sh W' FS F where
  step := fun o ho => h.step o (hp.mem_iff.2 ho)
  chain := fun o ho => h.chain o (hp.mem_iff.2 ho)
  nodupS := ((List.Perm.append_left FS (hp.map Prod.fst)).nodup_iff).1 h.nodupS
  nodupC := ((List.Perm.append_left F (addrs_perm hp)).nodup_iff).1 h.nodupC
  liveS := fun a n e => (List.Perm.append_left FS (hp.map Prod.fst)).mem_iff.1 (h.liveS a n e)
  liveC := fun a n e => (List.Perm.append_left F (addrs_perm hp)).mem_iff.1 (h.liveC a n e)

/-- the `prev` pointers of the steps -/
def prevs (sh : Heap SNode) (a : Nat) : Option (Option (Option Nat)) := (sh[a]?).map (Option.map SNode.prev)

/-- a stack of steps -/
def Stk (sh : Heap SNode) : Option Nat → List (Own V) → Prop
  | p, [] => p = none
  | p, o :: os => p = some o.1 ∧ ∃ pv, prevs sh o.1 = some (some pv) ∧ Stk sh pv os

theorem Stk_frame {sh sh' : Heap SNode} {os : List (Own V)} {p : Option Nat} (h : Stk sh p os) (hf : ∀ o ∈ os, prevs sh' o.1 = prevs sh o.1) :
    Stk sh' p os := by
  induction os generalizing p with
  | nil => exact h
  | cons o os ih =>
    obtain ⟨h1, pv, h2, h3⟩ := h
    exact ⟨h1, pv, by rw [hf o (by simp)]; exact h2, ih h3 (fun x hx => hf x (by simp [hx]))⟩

/-- a stack is about addresses only -/
theorem Stk_addr {sh : Heap SNode} {os os' : List (Own V)} {p : Option Nat} (h : Stk sh p os) (he : os'.map Prod.fst = os.map Prod.fst) : Stk sh p os' := by
  induction os generalizing p os' with
  | nil => cases os' with
    | nil => exact h
    | cons x xs => simp at he
  | cons o os ih => cases os' with
    | nil => simp at he
    | cons x xs =>
      simp only [List.map_cons, List.cons.injEq] at he
      obtain ⟨h1, pv, h2, h3⟩ := h
      exact ⟨by rw [h1, he.1], pv, by rw [he.1]; exact h2, ih h3 he.2⟩

/-- the changes of one step get other values -/
theorem Ok.setChain {ch ch' : Heap (CNode V)} {sh : Heap SNode} {s : Nat} {l l' : Chain V} {W : List (Own V)} {FS F : List Nat}
    (h : Ok ch sh ((s, l) :: W) FS F) (he : l'.map Prod.fst = l.map Prod.fst) (hd : DL ch' none l' none)
    (hf : ∀ a, a ∉ l.map Prod.fst → ch'[a]? = ch[a]?) : Ok ch' sh ((s, l') :: W) FS F where
  step := by
    intro o ho
    simp only [List.mem_cons] at ho
    rcases ho with rfl | ho
    · obtain ⟨pv, hp⟩ := h.step (s, l) (by simp)
      refine ⟨pv, ?_⟩
      have hl : l'.length = l.length := by simpa using congrArg List.length he
      simp only [lastOf_addr he, nextOf_addr he, hl]
      exact hp
    · exact h.step o (by simp [ho])
  chain := by
    intro o ho
    simp only [List.mem_cons] at ho
    rcases ho with rfl | ho
    · exact hd
    · refine DL_frame (h.chain o (by simp [ho])) ?_
      intro a ha
      refine hf a ?_
      intro hal
      have hn := h.nodupC
      rw [addrs_cons] at hn
      have := (List.nodup_append.1 hn).2.1
      have := (List.nodup_append.1 this).2.2 a hal a (by
        simp only [addrs, List.mem_flatMap]
        exact ⟨o, ho, ha⟩)
      exact this rfl
  nodupS := by simpa using h.nodupS
  nodupC := by have := h.nodupC; rw [addrs_cons] at this ⊢; simp only [he]; exact this
  liveS := by have := h.liveS; simpa using this
  liveC := by
    intro a n e
    rw [addrs_cons]
    simp only [he]
    by_cases ha : a ∈ l.map Prod.fst
    · simp only [List.mem_append]; exact Or.inr (Or.inl ha)
    · have := h.liveC a n (by rw [← hf a ha]; exact e)
      rw [addrs_cons] at this
      exact this

theorem Ok.chainNodup {ch : Heap (CNode V)} {sh : Heap SNode} {o : Own V} {W : List (Own V)} {FS F : List Nat} (h : Ok ch sh (o :: W) FS F) :
    (o.2.map Prod.fst).Nodup := by
  have hn := h.nodupC
  rw [addrs_cons] at hn
  exact (List.nodup_append.1 (List.nodup_append.1 hn).2.1).1

/-- the step and its chain are disjoint from everything else -/
theorem Ok.disjC {ch : Heap (CNode V)} {sh : Heap SNode} {o : Own V} {W : List (Own V)} {FS F : List Nat} (h : Ok ch sh (o :: W) FS F) :
    ∀ a ∈ o.2.map Prod.fst, a ∉ F ∧ a ∉ addrs W := by
  intro a ha
  have hn := h.nodupC
  rw [addrs_cons] at hn
  obtain ⟨h1, h2, h3⟩ := List.nodup_append.1 hn
  refine ⟨fun hf => h3 a hf a (by simp only [List.mem_append]; exact Or.inl ha) rfl, fun hw => (List.nodup_append.1 h2).2.2 a ha a hw rfl⟩

theorem Ok.disjS {ch : Heap (CNode V)} {sh : Heap SNode} {o : Own V} {W : List (Own V)} {FS F : List Nat} (h : Ok ch sh (o :: W) FS F) :
    o.1 ∉ FS ∧ o.1 ∉ W.map Prod.fst := by
  have hn := h.nodupS
  simp only [List.map_cons] at hn
  obtain ⟨h1, h2, h3⟩ := List.nodup_append.1 hn
  refine ⟨fun hf => h3 _ hf _ (by simp) rfl, fun hw => ?_⟩
  exact (List.nodup_cons.1 h2).1 hw

theorem mem_addrs {W : List (Own V)} {o : Own V} {a : Nat} (ho : o ∈ W) (ha : a ∈ o.2.map Prod.fst) : a ∈ addrs W := by
  simp only [addrs, List.mem_flatMap]
  exact ⟨o, ho, ha⟩

/-- `delete step` -/
theorem deleteStep_spec (m : M V) {s : Nat} {l : Chain V} {W : List (Own V)} {FS F : List Nat} (h : Ok m.ch m.sh ((s, l) :: W) FS F) :
    ∃ ch' : Heap (CNode V), deleteStep m s = .ok { m with ch := ch', sh := m.sh.set s none } ∧ Ok ch' (m.sh.set s none) W FS F ∧
      (∀ a, a ∉ l.map Prod.fst → ch'[a]? = m.ch[a]?) ∧ ch'.length = m.ch.length := by
  obtain ⟨pv, hs⟩ := h.step (s, l) (by simp)
  have hd := h.chain (s, l) (by simp)
  have hn := h.chainNodup
  obtain ⟨ch', e1, e2, e3, e4⟩ := freeChain_spec l m.ch.length m.ch (chain_length hd hn) hd hn
  have hslt := Heap.lt_of_live hs
  refine ⟨ch', ?_, ?_, e3, e4⟩
  · unfold deleteStep
    rw [Heap.load_ok hs]
    simp only [bind, Except.bind]
    rw [e1]
    simp only
    rw [Heap.free_ok hs]
    rfl
  · constructor
    · intro o ho
      obtain ⟨pv, hp⟩ := h.step o (by simp [ho])
      refine ⟨pv, ?_⟩
      rw [List.getElem?_set_ne]
      · exact hp
      · intro e
        exact h.disjS.2 (by simp only [e]; exact List.mem_map_of_mem ho)
    · intro o ho
      refine DL_frame (h.chain o (by simp [ho])) ?_
      intro a ha
      refine e3 a (fun hal => (h.disjC a hal).2 (mem_addrs ho ha))
    · have := h.nodupS
      simp only [List.map_cons] at this
      exact this.sublist (List.Sublist.append_left (List.sublist_cons_self _ _) _)
    · have := h.nodupC
      rw [addrs_cons] at this
      exact this.sublist (List.Sublist.append_left (List.sublist_append_right _ _) _)
    · intro a n e
      by_cases ha : a = s
      · subst ha
        rw [List.getElem?_set_self hslt] at e
        cases e
      · rw [List.getElem?_set_ne (fun e => ha e.symm)] at e
        have := h.liveS a n e
        simp only [List.map_cons, List.mem_append, List.mem_cons] at this ⊢
        rcases this with h | h | h
        · exact Or.inl h
        · exact absurd h ha
        · exact Or.inr h
    · intro a n e
      by_cases ha : a ∈ l.map Prod.fst
      · rw [e2 a ha] at e
        cases e
      · rw [e3 a ha] at e
        have := h.liveC a n e
        rw [addrs_cons] at this
        simp only [List.mem_append] at this ⊢
        rcases this with h | h | h
        · exact Or.inl h
        · exact absurd h ha
        · exact Or.inr h

/-- deleting a whole stack -/
theorem freeSteps_spec : ∀ (os : List (Own V)) (fuel : Nat) (p : Option Nat) (m : M V) (W : List (Own V)) (FS F : List Nat), os.length ≤ fuel →
    Stk m.sh p os → Ok m.ch m.sh (os ++ W) FS F →
    ∃ (ch' : Heap (CNode V)) (sh' : Heap SNode), freeSteps fuel p m = .ok { m with ch := ch', sh := sh' } ∧ Ok ch' sh' W FS F ∧
      (∀ a, a ∉ addrs os → ch'[a]? = m.ch[a]?) ∧ (∀ a, a ∉ os.map Prod.fst → sh'[a]? = m.sh[a]?) ∧ ch'.length = m.ch.length ∧ sh'.length = m.sh.length := by
  intro os
  induction os with
  | nil =>
    intro fuel p m W FS F _ hs h
    cases (show p = none from hs)
    exact ⟨m.ch, m.sh, by cases fuel <;> rfl, h, fun _ _ => rfl, fun _ _ => rfl, rfl, rfl⟩
  | cons o os ih =>
    obtain ⟨s, l⟩ := o
    intro fuel p m W FS F hf hs h
    obtain ⟨fuel, rfl⟩ : ∃ k, fuel = k + 1 := ⟨fuel - 1, by simp at hf; omega⟩
    obtain ⟨h1, pv, h2, h3⟩ := hs
    simp only at h1 h2
    subst h1
    obtain ⟨pv', hp⟩ := h.step (s, l) (by simp)
    have hpv : pv' = pv := by
      rw [prevs, hp] at h2
      simpa using h2
    subst hpv
    obtain ⟨ch1, e1, e2, e3, e4⟩ := deleteStep_spec m h
    have hst : Stk (m.sh.set s none) pv' os := by
      refine Stk_frame h3 ?_
      intro o ho
      unfold prevs
      rw [List.getElem?_set_ne]
      intro e
      exact h.disjS.2 (by simp only [e]; exact List.mem_map_of_mem (by simp [ho]))
    obtain ⟨ch', sh', g1, g2, g3, g4, g5, g6⟩ := ih fuel pv' { m with ch := ch1, sh := m.sh.set s none } W FS F (by simp at hf; omega) hst e2
    refine ⟨ch', sh', ?_, g2, ?_, ?_, by rw [g5, e4], by rw [g6]; simp⟩
    · simp only [freeSteps]
      rw [Heap.load_ok hp]
      simp only [bind, Except.bind]
      rw [e1]
      exact g1
    · intro a ha
      rw [addrs_cons, List.mem_append, not_or] at ha
      rw [g3 a ha.2, e3 a ha.1]
    · intro a ha
      simp only [List.map_cons, List.mem_cons, not_or] at ha
      rw [g4 a ha.2, List.getElem?_set_ne (fun e => ha.1 e.symm)]

theorem stack_length {ch : Heap (CNode V)} {sh : Heap SNode} {os W : List (Own V)} {FS F : List Nat} (h : Ok ch sh (os ++ W) FS F) : os.length ≤ sh.length := by
  have hn : (os.map Prod.fst).Nodup := by
    have := h.nodupS
    simp only [List.map_append] at this
    exact (List.nodup_append.1 (List.nodup_append.1 this).2.1).1
  have := nodup_length_le hn (n := sh.length) (by
    intro a ha
    obtain ⟨o, ho, rfl⟩ := List.mem_map.1 ha
    obtain ⟨pv, hp⟩ := h.step o (by simp [ho])
    exact Heap.lt_of_live hp)
  simpa using this

theorem lastOf_some {l : Chain V} {r : Nat} (h : lastOf l none = some r) : ∃ l0 cr, l = l0 ++ [(r, cr)] := by
  rcases List.eq_nil_or_concat l with rfl | ⟨l0, x, rfl⟩
  · simp [lastOf] at h
  · obtain ⟨a, c⟩ := x
    rw [List.concat_eq_append, lastOf_append] at h
    simp only [lastOf, Option.some.injEq] at h
    subst h
    exact ⟨l0, c, by simp⟩

/-- `UndoStep::add` -/
theorem stepAdd_spec (m : M V) {s c : Nat} {l : Chain V} {W : List (Own V)} {FS F : List Nat} {pv : Option Nat} {x : Change V}
    (h : Ok m.ch m.sh ((s, l) :: W) FS (c :: F)) (hc : m.ch[c]? = some (some ⟨pv, none, x⟩)) :
    ∃ (ch' : Heap (CNode V)) (sh' : Heap SNode), stepAdd m s c = .ok { m with ch := ch', sh := sh' } ∧ Ok ch' sh' ((s, l ++ [(c, x)]) :: W) FS F ∧
      (∀ a, prevs sh' a = prevs m.sh a) ∧ (∀ a, a ≠ c → a ∉ l.map Prod.fst → ch'[a]? = m.ch[a]?) ∧ (∀ a, a ≠ s → sh'[a]? = m.sh[a]?) ∧
      ch'.length = m.ch.length ∧ sh'.length = m.sh.length := by
  obtain ⟨pv0, hs⟩ := h.step (s, l) (by simp)
  have hd := h.chain (s, l) (by simp)
  have hn := h.chainNodup
  have hclt := Heap.lt_of_live hc
  have hslt := Heap.lt_of_live hs
  have hcl : c ∉ l.map Prod.fst := fun hm => (h.disjC c hm).1 (by simp)
  have hcW : c ∉ addrs W := by
    intro hm
    have := (List.nodup_append.1 h.nodupC).2.2 c (by simp) c (by rw [addrs_cons, List.mem_append]; exact Or.inr hm)
    exact this rfl
  -- the heap of changes
  obtain ⟨ch', hl', hd', hfr, hlen⟩ : ∃ ch', linkNext (m.ch.set c (some ⟨lastOf l none, none, x⟩)) c (lastOf l none) = .ok ch' ∧
      DL ch' none (l ++ [(c, x)]) none ∧ (∀ a, a ≠ c → a ∉ l.map Prod.fst → ch'[a]? = m.ch[a]?) ∧ ch'.length = m.ch.length := by
    cases hla : lastOf l none with
    | none =>
      obtain ⟨rfl, -⟩ := lastOf_none.1 hla
      refine ⟨_, rfl, ?_, ?_, by simp⟩
      · refine ⟨?_, trivial⟩
        rw [List.getElem?_set_self hclt]
        rfl
      · intro a ha _
        rw [List.getElem?_set_ne (fun e => ha e.symm)]
    | some r =>
      obtain ⟨l0, cr, rfl⟩ := lastOf_some hla
      rw [DL_append] at hd
      obtain ⟨hd0, hr, -⟩ := hd
      simp only [nextOf] at hd0 hr
      have hrc : r ≠ c := by intro e; subst e; exact hcl (by simp)
      have hr1 : (m.ch.set c (some ⟨some r, none, x⟩))[r]? = some (some ⟨lastOf l0 none, none, cr⟩) := by
        rw [List.getElem?_set_ne (fun e => hrc e.symm)]
        exact hr
      have hrlt := Heap.lt_of_live hr
      refine ⟨(m.ch.set c (some ⟨some r, none, x⟩)).set r (some ⟨lastOf l0 none, some c, cr⟩), ?_, ?_, ?_, by simp⟩
      · simp only [linkNext]
        rw [Heap.load_ok hr1]
        simp only [bind, Except.bind]
        rw [Heap.store_ok hr1]
      · rw [DL_append, DL_append]
        refine ⟨⟨?_, ?_, trivial⟩, ?_, trivial⟩
        · refine DL_frame hd0 ?_
          intro a ha
          have h1 : r ≠ a := by
            intro e; subst e
            simp only [List.map_append, List.map_cons, List.map_nil] at hn
            exact (List.nodup_append.1 hn).2.2 _ ha _ (by simp) rfl
          have h2 : c ≠ a := by
            intro e; subst e
            exact hcl (by simp only [List.map_append, List.mem_append]; exact Or.inl ha)
          rw [List.getElem?_set_ne h1, List.getElem?_set_ne h2]
        · rw [List.getElem?_set_self (by simp; exact hrlt)]
          rfl
        · rw [List.getElem?_set_ne hrc, List.getElem?_set_self hclt, hla]
          rfl
      · intro a ha hal
        have : r ≠ a := by intro e; subst e; exact hal (by simp)
        rw [List.getElem?_set_ne this, List.getElem?_set_ne (fun e => ha e.symm)]
  refine ⟨ch', m.sh.set s (some ⟨pv0, some c, if (nextOf l none).isNone then some c else nextOf l none, BitVec.ofNat 32 l.length + 1⟩), ?_, ?_, ?_, hfr, ?_, hlen, by simp⟩
  · unfold stepAdd
    rw [Heap.load_ok hs]
    simp only [bind, Except.bind]
    rw [Heap.load_ok hc]
    simp only
    rw [Heap.store_ok hc]
    simp only
    rw [hl']
    simp only
    rw [Heap.store_ok hs]
    rfl
  · constructor
    · intro o ho
      simp only [List.mem_cons] at ho
      rcases ho with rfl | ho
      · refine ⟨pv0, ?_⟩
        rw [List.getElem?_set_self hslt, lastOf_append, nextOf_append]
        simp only [lastOf, nextOf, List.length_append, List.length_cons, List.length_nil]
        congr 3
        · cases l with
          | nil => rfl
          | cons y l => obtain ⟨y1, y2⟩ := y; rfl
        · apply BitVec.eq_of_toNat_eq
          simp
      · obtain ⟨pv, hp⟩ := h.step o (by simp [ho])
        refine ⟨pv, ?_⟩
        rw [List.getElem?_set_ne]
        · exact hp
        · intro e
          exact h.disjS.2 (by simp only [e]; exact List.mem_map_of_mem ho)
    · intro o ho
      simp only [List.mem_cons] at ho
      rcases ho with rfl | ho
      · exact hd'
      · refine DL_frame (h.chain o (by simp [ho])) ?_
        intro a ha
        refine hfr a ?_ ?_
        · intro e; subst e; exact hcW (mem_addrs ho ha)
        · intro hal; exact (h.disjC a hal).2 (mem_addrs ho ha)
    · simpa using h.nodupS
    · refine List.Perm.nodup ?_ h.nodupC
      rw [addrs_cons, addrs_cons]
      simp only [List.map_append, List.map_cons, List.map_nil, List.cons_append, List.append_assoc]
      have e1 : (c :: (F ++ (l.map Prod.fst ++ addrs W))).Perm (F ++ (l.map Prod.fst ++ (c :: addrs W))) := by
        rw [← List.append_assoc F, ← List.append_assoc F]
        exact (List.perm_middle).symm
      exact e1
    · intro a n e
      by_cases ha : a = s
      · subst ha; simp
      · rw [List.getElem?_set_ne (fun e => ha e.symm)] at e
        have := h.liveS a n e
        simpa using this
    · intro a n e
      rw [addrs_cons]
      simp only [List.map_append, List.mem_append, List.map_cons, List.map_nil]
      by_cases h1 : a = c
      · subst h1; simp
      · by_cases h2 : a ∈ l.map Prod.fst
        · exact Or.inr (Or.inl (Or.inl h2))
        · rw [hfr a h1 h2] at e
          have := h.liveC a n e
          rw [addrs_cons] at this
          simp only [List.mem_append, List.mem_cons] at this
          rcases this with (h | h) | h | h
          · exact absurd h h1
          · exact Or.inl h
          · exact absurd h h2
          · exact Or.inr (Or.inr h)
  · intro a
    unfold prevs
    by_cases ha : a = s
    · subst ha
      rw [List.getElem?_set_self hslt, hs]
      rfl
    · rw [List.getElem?_set_ne (fun e => ha e.symm)]
  · intro a ha
    rw [List.getElem?_set_ne (fun e => ha e.symm)]

/-- `new UndoChange…` -/
theorem Ok.allocC {ch : Heap (CNode V)} {sh : Heap SNode} {W : List (Own V)} {FS F : List Nat} (h : Ok ch sh W FS F) (hF : ∀ a ∈ F, a < ch.length) (n : CNode V) :
    Ok (ch ++ [some n]) sh W FS (ch.length :: F) := by
  have hold : ∀ a, a < ch.length → (ch ++ [some n])[a]? = ch[a]? := fun a ha => List.getElem?_append_left ha
  have hW : ∀ a ∈ addrs W, a < ch.length := by
    intro a ha
    simp only [addrs, List.mem_flatMap] at ha
    obtain ⟨o, ho, ha⟩ := ha
    obtain ⟨k, hk⟩ := DL_live (h.chain o ho) a ha
    exact Heap.lt_of_live hk
  refine ⟨h.step, ?_, h.nodupS, ?_, h.liveS, ?_⟩
  · intro o ho
    exact DL_frame (h.chain o ho) (fun a ha => hold a (hW a (mem_addrs ho ha)))
  · rw [List.cons_append, List.nodup_cons]
    refine ⟨?_, h.nodupC⟩
    intro hm
    rcases List.mem_append.1 hm with hm | hm
    · have := hF _ hm; omega
    · have := hW _ hm; omega
  · intro a k e
    by_cases ha : a < ch.length
    · rw [hold a ha] at e
      have := h.liveC a k e
      simp only [List.cons_append, List.mem_cons]
      exact Or.inr this
    · have := Heap.lt_of_live e
      simp only [List.length_append, List.length_cons, List.length_nil] at this
      have : a = ch.length := by omega
      subst this
      simp

/-- `new UndoStep()` -/
theorem Ok.allocS {ch : Heap (CNode V)} {sh : Heap SNode} {W : List (Own V)} {FS F : List Nat} (h : Ok ch sh W FS F) (hF : ∀ a ∈ FS, a < sh.length) :
    Ok ch (sh ++ [some SNode.new]) ((sh.length, []) :: W) FS F := by
  have hold : ∀ a, a < sh.length → (sh ++ [some SNode.new])[a]? = sh[a]? := fun a ha => List.getElem?_append_left ha
  have hW : ∀ o ∈ W, o.1 < sh.length := by
    intro o ho
    obtain ⟨pv, hp⟩ := h.step o ho
    exact Heap.lt_of_live hp
  refine ⟨?_, ?_, ?_, by rw [addrs_cons]; exact h.nodupC, ?_, by intro a n e; rw [addrs_cons]; exact h.liveC a n e⟩
  · intro o ho
    simp only [List.mem_cons] at ho
    rcases ho with rfl | ho
    · refine ⟨none, ?_⟩
      simp [SNode.new, lastOf, nextOf]
    · obtain ⟨pv, hp⟩ := h.step o ho
      exact ⟨pv, by rw [hold _ (hW o ho)]; exact hp⟩
  · intro o ho
    simp only [List.mem_cons] at ho
    rcases ho with rfl | ho
    · trivial
    · exact h.chain o ho
  · have hn : sh.length ∉ FS ++ W.map Prod.fst := by
      intro hm
      rcases List.mem_append.1 hm with hm | hm
      · have := hF _ hm; omega
      · obtain ⟨o, ho, e⟩ := List.mem_map.1 hm
        have := hW o ho; omega
    simp only [List.map_cons]
    exact (List.perm_middle.nodup_iff).2 (List.nodup_cons.2 ⟨hn, h.nodupS⟩)
  · intro a k e
    by_cases ha : a < sh.length
    · rw [hold a ha] at e
      have := h.liveS a k e
      simp only [List.mem_append, List.map_cons, List.mem_cons] at this ⊢
      rcases this with h | h
      · exact Or.inl h
      · exact Or.inr (Or.inr h)
    · have := Heap.lt_of_live e
      simp only [List.length_append, List.length_cons, List.length_nil] at this
      have : a = sh.length := by omega
      subst this
      simp

/-- a step whose `prev` is changed -/
theorem Ok.setPrev {ch : Heap (CNode V)} {sh : Heap SNode} {W : List (Own V)} {FS F : List Nat} {s : Nat} {n : SNode} (h : Ok ch sh W FS F) (hs : sh[s]? = some (some n))
    (q : Option Nat) : Ok ch (sh.set s (some { n with prev := q })) W FS F := by
  have hlt := Heap.lt_of_live hs
  refine ⟨?_, h.chain, h.nodupS, h.nodupC, ?_, h.liveC⟩
  · intro o ho
    obtain ⟨pv, hp⟩ := h.step o ho
    by_cases e : o.1 = s
    · rw [e] at hp ⊢
      rw [hs] at hp
      simp only [Option.some.injEq] at hp
      exact ⟨q, by rw [List.getElem?_set_self hlt, hp]⟩
    · exact ⟨pv, by rw [List.getElem?_set_ne (fun h => e h.symm)]; exact hp⟩
  · intro a k e
    by_cases ha : a = s
    · subst ha; exact h.liveS _ n hs
    · rw [List.getElem?_set_ne (fun h => ha h.symm)] at e
      exact h.liveS a k e

/-- the changes of a step are taken away one by one -/
theorem Ok.detach {ch : Heap (CNode V)} {sh : Heap SNode} {W : List (Own V)} {s : Nat} {l : Chain V} (h : Ok ch sh ((s, l) :: W) [] []) :
    Ok ch sh W [s] (l.map Prod.fst) :=
  ⟨fun o ho => h.step o (by simp [ho]), fun o ho => h.chain o (by simp [ho]), by simpa using h.nodupS, by simpa [addrs_cons] using h.nodupC,
   fun a n e => by simpa using h.liveS a n e, fun a n e => by simpa [addrs_cons] using h.liveC a n e⟩

/-- and the empty step is complete again -/
theorem Ok.attach {ch : Heap (CNode V)} {sh : Heap SNode} {W : List (Own V)} {s : Nat} {n : SNode} (h : Ok ch sh W [s] []) (hs : sh[s]? = some (some n)) :
    Ok ch (sh.set s (some SNode.new)) ((s, []) :: W) [] [] := by
  have hlt := Heap.lt_of_live hs
  have hsW : s ∉ W.map Prod.fst := by
    have := h.nodupS
    simp only [List.cons_append, List.nil_append, List.nodup_cons] at this
    exact this.1
  refine ⟨?_, ?_, by simpa using h.nodupS, by simpa [addrs_cons] using h.nodupC, ?_, fun a n e => by simpa [addrs_cons] using h.liveC a n e⟩
  · intro o ho
    simp only [List.mem_cons] at ho
    rcases ho with rfl | ho
    · exact ⟨none, by rw [List.getElem?_set_self hlt]; rfl⟩
    · obtain ⟨pv, hp⟩ := h.step o ho
      refine ⟨pv, ?_⟩
      rw [List.getElem?_set_ne]
      · exact hp
      · intro e; exact hsW (by rw [e]; exact List.mem_map_of_mem ho)
  · intro o ho
    simp only [List.mem_cons] at ho
    rcases ho with rfl | ho
    · trivial
    · exact h.chain o ho
  · intro a k e
    by_cases ha : a = s
    · subst ha; simp
    · rw [List.getElem?_set_ne (fun h => ha h.symm)] at e
      simpa using h.liveS a k e

end Verif.UndoMem
