import Verif.UndoMem.Layout
/-
The undo manager in memory behaves as the one of `Verif.Undo`, which works on lists.
-/
namespace Verif.UndoMem
open Verif Verif.Undo

variable {V : Type}

/-- which step is which -/
structure Lay (V : Type) where
  cur : Own V
  und : List (Own V)
  red : List (Own V)
  tr : Option (Own V)

def Lay.all (L : Lay V) : List (Own V) := L.cur :: (L.und ++ L.red ++ L.tr.toList)

/-- the changes of a step -/
def vals (o : Own V) : List (Change V) := o.2.map Prod.snd

/-- the undo manager seen as lists -/
def abs (m : M V) (L : Lay V) (T : Option (List (Change V))) : State V :=
  { mem := m.mem, regen := m.regen, docChanged := m.docChanged, active := m.active, isOpen := m.isOpen, current := vals L.cur,
    undoStack := L.und.map vals, redoStack := L.red.map vals, undoCount := m.undoCount, redoCount := m.redoCount, level := m.level,
    trans := T, tstatus := m.tstatus }

structure Rel0 (m : M V) (L : Lay V) (FS F : List Nat) : Prop where
  ok : Ok m.ch m.sh L.all FS F
  cur : m.current = L.cur.1
  und : Stk m.sh m.undoStack L.und
  red : Stk m.sh m.redoStack L.red

structure Rel (m : M V) (L : Lay V) : Prop where
  r0 : Rel0 m L [] []
  tr : m.trans = L.tr.map Prod.fst
  lev : m.level = 0 ↔ L.tr = none

/-- the state of `Verif.Undo` -/
def Lay.state (L : Lay V) (m : M V) : State V := abs m L (L.tr.map vals)

theorem Lay.addr_und (L : Lay V) {o : Own V} (ho : o ∈ L.und) : o ∈ L.all := by simp [Lay.all, ho]
theorem Lay.addr_red (L : Lay V) {o : Own V} (ho : o ∈ L.red) : o ∈ L.all := by simp [Lay.all, ho]

theorem perm_red (L : Lay V) : L.all.Perm (L.red ++ (L.cur :: (L.und ++ L.tr.toList))) := by
  unfold Lay.all
  rw [List.append_assoc]
  refine List.Perm.trans ?_ List.perm_middle.symm
  refine List.Perm.cons _ ?_
  rw [← List.append_assoc, ← List.append_assoc]
  exact List.Perm.append_right _ List.perm_append_comm

theorem perm_und (L : Lay V) : L.all.Perm (L.und ++ (L.cur :: (L.red ++ L.tr.toList))) := by
  unfold Lay.all
  rw [List.append_assoc]
  exact List.perm_middle.symm

theorem perm_tr (L : Lay V) (o : Own V) (h : L.tr = some o) : L.all.Perm (o :: (L.cur :: (L.und ++ L.red))) := by
  unfold Lay.all
  rw [h]
  simp only [Option.toList_some]
  rw [← List.cons_append]
  exact List.perm_append_singleton o _

/-- different roles, different addresses -/
theorem Rel0.nodup {m : M V} {L : Lay V} {FS F : List Nat} (h : Rel0 m L FS F) : (L.all.map Prod.fst).Nodup := (List.nodup_append.1 h.ok.nodupS).2.1

theorem Rel0.undRed {m : M V} {L : Lay V} {FS F : List Nat} (h : Rel0 m L FS F) {o o' : Own V} (ho : o ∈ L.und) (ho' : o' ∈ L.red) : o.1 ≠ o'.1 := by
  have hn := h.nodup
  unfold Lay.all at hn
  simp only [List.map_cons, List.map_append, List.nodup_cons] at hn
  have := (List.nodup_append.1 hn.2).1
  exact (List.nodup_append.1 this).2.2 _ (List.mem_map_of_mem ho) _ (List.mem_map_of_mem ho')

theorem Rel0.curStack {m : M V} {L : Lay V} {FS F : List Nat} (h : Rel0 m L FS F) {o : Own V} (ho : o ∈ L.und ++ L.red ++ L.tr.toList) : L.cur.1 ≠ o.1 := by
  have hn := h.nodup
  unfold Lay.all at hn
  simp only [List.map_cons, List.nodup_cons] at hn
  intro e
  exact hn.1 (by rw [e]; exact List.mem_map_of_mem ho)

theorem Rel0.trStack {m : M V} {L : Lay V} {FS F : List Nat} (h : Rel0 m L FS F) {o t : Own V} (ht : L.tr = some t) (ho : o ∈ L.und ++ L.red) : t.1 ≠ o.1 := by
  have hn := h.nodup
  unfold Lay.all at hn
  simp only [List.map_cons, List.map_append, List.nodup_cons, ht, Option.toList_some] at hn
  intro e
  have := (List.nodup_append.1 hn.2).2.2 o.1 (by rw [← List.map_append]; exact List.mem_map_of_mem ho) t.1 (by simp)
  exact this e.symm

/-- `clearRedoStack` -/
theorem clearRedoStack_spec {m : M V} {L : Lay V} {FS F : List Nat} (h : Rel0 m L FS F) :
    ∃ (ch' : Heap (CNode V)) (sh' : Heap SNode), clearRedoStack m = .ok { m with ch := ch', sh := sh', redoStack := none, redoCount := 0 } ∧
      Rel0 { m with ch := ch', sh := sh', redoStack := none, redoCount := 0 } { L with red := [] } FS F ∧
      (∀ a, a ∉ addrs L.red → ch'[a]? = m.ch[a]?) ∧ (∀ a, a ∉ L.red.map Prod.fst → sh'[a]? = m.sh[a]?) ∧ ch'.length = m.ch.length := by
  have hok := h.ok.perm (perm_red L)
  obtain ⟨ch', sh', e1, e2, e3, e4, e5, e6⟩ := freeSteps_spec L.red m.sh.length m.redoStack m _ FS F (stack_length hok) h.red hok
  refine ⟨ch', sh', ?_, ⟨?_, h.cur, ?_, rfl⟩, e3, e4, e5⟩
  · unfold clearRedoStack
    rw [e1]
    rfl
  · refine e2.perm ?_
    simp [Lay.all]
  · refine Stk_frame h.und ?_
    intro o ho
    unfold prevs
    rw [e4]
    intro hm
    obtain ⟨o', ho', e⟩ := List.mem_map.1 hm
    exact h.undRed ho ho' e.symm

/-- `clearUndoStack` -/
theorem clearUndoStack_spec {m : M V} {L : Lay V} {FS F : List Nat} (h : Rel0 m L FS F) :
    ∃ (ch' : Heap (CNode V)) (sh' : Heap SNode), clearUndoStack m = .ok { m with ch := ch', sh := sh', undoStack := none, undoCount := 0 } ∧
      Rel0 { m with ch := ch', sh := sh', undoStack := none, undoCount := 0 } { L with und := [] } FS F ∧ ch'.length = m.ch.length := by
  have hok := h.ok.perm (perm_und L)
  obtain ⟨ch', sh', e1, e2, e3, e4, e5, e6⟩ := freeSteps_spec L.und m.sh.length m.undoStack m _ FS F (stack_length hok) h.und hok
  refine ⟨ch', sh', ?_, ⟨?_, h.cur, rfl, ?_⟩, e5⟩
  · unfold clearUndoStack
    rw [e1]
    rfl
  · refine e2.perm ?_
    simp [Lay.all]
  · refine Stk_frame h.red ?_
    intro o ho
    unfold prevs
    rw [e4]
    intro hm
    obtain ⟨o', ho', e⟩ := List.mem_map.1 hm
    exact h.undRed ho' ho e

/-- `registerChange` outside of transactions -/
theorem registerChange_spec0 {m : M V} {L : Lay V} {FS F : List Nat} {c : Nat} {pv : Option Nat} {x : Change V} (h : Rel0 m L FS (c :: F))
    (hl : m.level = 0 ∨ m.active = false) (hc : m.ch[c]? = some (some ⟨pv, none, x⟩)) :
    ∃ (m' : M V) (L' : Lay V), registerChange m c = .ok m' ∧ Rel0 m' L' FS F ∧ L'.tr = L.tr ∧ (∀ T, addChange (abs m L T) x = .ok (abs m' L' T)) ∧
      m'.level = m.level ∧ m'.trans = m.trans ∧ m'.active = m.active ∧ m'.ch.length = m.ch.length ∧ (∀ a ∈ F, m'.ch[a]? = m.ch[a]?) ∧ (∀ a ∈ FS, m'.sh[a]? = m.sh[a]?) := by
  have hclt := Heap.lt_of_live hc
  have hcF : c ∉ F ++ addrs L.all := by
    have := h.ok.nodupC
    rw [List.cons_append, List.nodup_cons] at this
    exact this.1
  by_cases ha : m.active = true
  · have hl : m.level = 0 := by
      rcases hl with h | h
      · exact h
      · rw [ha] at h; cases h
    rcases hcur : L.cur with ⟨s, l⟩
    have hok : Ok m.ch m.sh ((s, l) :: (L.und ++ L.red ++ L.tr.toList)) FS (c :: F) := by
      have := h.ok; unfold Lay.all at this; rw [hcur] at this; exact this
    obtain ⟨ch1, sh1, e1, e2, e3, e4, e5, e6, e7⟩ := stepAdd_spec m hok hc
    have hsc : m.current = s := by rw [h.cur, hcur]
    let L1 : Lay V := { L with cur := (s, l ++ [(c, x)]) }
    have r1 : Rel0 { m with ch := ch1, sh := sh1 } L1 FS F :=
      ⟨e2, hsc, Stk_frame h.und (fun o _ => e3 o.1), Stk_frame h.red (fun o _ => e3 o.1)⟩
    obtain ⟨ch2, sh2, g1, g2, g3, g4, g5⟩ := clearRedoStack_spec r1
    refine ⟨{ m with ch := ch2, sh := sh2, redoStack := none, redoCount := 0, isOpen := true }, { L1 with red := [] }, ?_, ?_, rfl, ?_, rfl, rfl, rfl, ?_, ?_, ?_⟩
    · unfold registerChange
      have e1' : stepAdd m m.current c = .ok { m with ch := ch1, sh := sh1 } := by
        rw [show stepAdd m m.current c = stepAdd m s c from congrArg (fun z => stepAdd m z c) hsc]; exact e1
      rw [if_neg (by simp [ha]), if_neg (by omega), e1']
      simp only [bind, Except.bind]
      rw [g1]
      rfl
    · exact ⟨g2.ok, g2.cur, g2.und, g2.red⟩
    · intro T
      unfold addChange
      rw [if_neg (by simp [abs, ha]), if_neg (by simp [abs, hl])]
      simp [Undo.clearRedoStack, abs, L1, vals, hcur]
    · show ch2.length = _
      rw [g5]; exact e6
    · intro a haF
      show ch2[a]? = _
      have hnA : a ∉ addrs L.all := by
        have := h.ok.nodupC
        rw [List.cons_append, List.nodup_cons] at this
        intro hm
        exact (List.nodup_append.1 this.2).2.2 a haF a hm rfl
      have hac : a ≠ c := by intro e; subst e; exact hcF (List.mem_append.2 (Or.inl haF))
      rw [g3 a, e4 a hac]
      · intro hal
        exact hnA (mem_addrs (o := L.cur) (by simp [Lay.all]) (by rw [hcur]; exact hal))
      · intro hm
        simp only [addrs, List.mem_flatMap] at hm
        obtain ⟨o, ho, hm⟩ := hm
        exact hnA (mem_addrs (L.addr_red ho) hm)
    · intro a haF
      show sh2[a]? = _
      have hnA : a ∉ L.all.map Prod.fst := fun hm => (List.nodup_append.1 h.ok.nodupS).2.2 a haF a hm rfl
      rw [g4 a, e5 a]
      · intro e; subst e
        exact hnA (by rw [show a = L.cur.1 by rw [hcur]]; exact List.mem_map_of_mem (by simp [Lay.all]))
      · intro hm
        obtain ⟨o, ho, e⟩ := List.mem_map.1 hm
        exact hnA (by rw [← e]; exact List.mem_map_of_mem (L.addr_red ho))
  · have ha : m.active = false := by simpa using ha
    refine ⟨{ m with ch := m.ch.set c none }, L, ?_, ⟨?_, h.cur, h.und, h.red⟩, rfl, ?_, rfl, rfl, rfl, by simp, ?_, fun a _ => rfl⟩
    · unfold registerChange
      rw [if_pos (by simp [ha]), Heap.free_ok hc]
      rfl
    · refine ⟨h.ok.step, ?_, h.ok.nodupS, ?_, h.ok.liveS, ?_⟩
      · intro o ho
        refine DL_frame (h.ok.chain o ho) ?_
        intro a haa
        rw [List.getElem?_set_ne]
        intro e; subst e
        exact hcF (List.mem_append.2 (Or.inr (mem_addrs ho haa)))
      · have := h.ok.nodupC
        rw [List.cons_append, List.nodup_cons] at this
        exact this.2
      · intro a n e
        by_cases hac : a = c
        · subst hac; rw [List.getElem?_set_self hclt] at e; cases e
        · rw [List.getElem?_set_ne (fun h => hac h.symm)] at e
          have := h.ok.liveC a n e
          rw [List.cons_append, List.mem_cons] at this
          exact this.resolve_left hac
    · intro T
      unfold addChange
      rw [if_pos (by simp [abs, ha])]
      rfl
    · intro a haF
      show (m.ch.set c none)[a]? = _
      rw [List.getElem?_set_ne]
      intro e; subst e
      exact hcF (List.mem_append.2 (Or.inl haF))

/-- `registerChange(object, pointer)` -/
theorem register_spec {m : M V} {L : Lay V} (h : Rel m L) (o p n : Nat) :
    ∃ (m' : M V) (L' : Lay V), register m o p n = .ok m' ∧ Rel m' L' ∧ Undo.register (L.state m) o p n = .ok (L'.state m') ∧ m'.ch.length = m.ch.length + 1 := by
  let x : Change V := ⟨o, p, readMem m.mem p n⟩
  let m1 : M V := { m with ch := m.ch ++ [some ⟨none, none, x⟩] }
  have hc : m1.ch[m.ch.length]? = some (some ⟨none, none, x⟩) := by simp [m1]
  have h1 : Rel0 m1 L [] [m.ch.length] := ⟨h.r0.ok.allocC (by simp) _, h.r0.cur, h.r0.und, h.r0.red⟩
  have hreg : register m o p n = registerChange m1 m.ch.length := rfl
  have habs : Undo.register (L.state m) o p n = addChange (abs m1 L (L.tr.map vals)) x := rfl
  by_cases hl : m.level = 0 ∨ m.active = false
  · obtain ⟨m', L', e1, e2, e3, e4, e5, e6, e7, e8, -, -⟩ := registerChange_spec0 h1 hl hc
    refine ⟨m', L', by rw [hreg]; exact e1, ⟨e2, ?_, ?_⟩, ?_, ?_⟩
    · rw [e6, e3]; exact h.tr
    · rw [e5, e3]; exact h.lev
    · rw [habs, e4, Lay.state, e3]
    · rw [e8]; simp [m1]
  · have hl1 : m.level ≠ 0 := fun e => hl (Or.inl e)
    have ha : m.active = true := by
      cases h : m.active with
      | true => rfl
      | false => exact absurd (Or.inr h) hl
    cases htr : L.tr with
    | none => exact absurd (h.lev.2 htr) hl1
    | some t =>
      obtain ⟨s, l⟩ := t
      have hok := h1.ok.perm (perm_tr L (s, l) htr)
      obtain ⟨ch', sh', e1, e2, e3, e4, e5, e6, e7⟩ := stepAdd_spec m1 hok hc
      let L' : Lay V := { L with tr := some (s, l ++ [(m.ch.length, x)]) }
      have htm : m.trans = some s := by rw [h.tr, htr]; rfl
      refine ⟨{ m1 with ch := ch', sh := sh' }, L', ?_, ⟨⟨?_, h.r0.cur, Stk_frame h.r0.und (fun o _ => e3 o.1), Stk_frame h.r0.red (fun o _ => e3 o.1)⟩, ?_, ?_⟩, ?_, ?_⟩
      · have e : registerChange m1 m.ch.length = stepAdd m1 s m.ch.length := by
          unfold registerChange
          rw [if_neg (by simp [m1, ha]), if_pos (by show m.level > 0; omega), show m1.trans = some s from htm]
        rw [hreg, e]
        exact e1
      · exact e2.perm (perm_tr L' (s, l ++ [(m.ch.length, x)]) rfl).symm
      · show m.trans = _
        rw [htm]; rfl
      · show m.level = 0 ↔ _
        constructor
        · intro e; exact absurd e hl1
        · intro e; cases e
      · rw [habs]
        unfold addChange
        rw [if_neg (by simp [abs, m1, ha]), if_pos (by show m.level > 0; omega)]
        simp [abs, htr, Lay.state, L', vals, m1]
      · show ch'.length = _
        rw [e6]; simp [m1]

/-- `close` -/
theorem close_spec {m : M V} {L : Lay V} (h : Rel m L) (hb : m.ch.length < 2 ^ 32) :
    ∃ (m' : M V) (L' : Lay V), close m = .ok m' ∧ Rel m' L' ∧ L'.state m' = Undo.close (L.state m) ∧ m'.ch.length = m.ch.length ∧ L'.tr = L.tr ∧ m'.level = m.level := by
  rcases hcur : L.cur with ⟨s, l⟩
  have hsc : m.current = s := by rw [h.r0.cur, hcur]
  have hmem : (s, l) ∈ L.all := by rw [← hcur]; simp [Lay.all]
  obtain ⟨pv, hs⟩ := h.r0.ok.step (s, l) hmem
  have hlen : l.length < 2 ^ 32 := by
    have hok : Ok m.ch m.sh ((s, l) :: (L.und ++ L.red ++ L.tr.toList)) [] [] := by
      have := h.r0.ok; unfold Lay.all at this; rw [hcur] at this; exact this
    have := chain_length (hok.chain (s, l) (by simp)) hok.chainNodup
    simp only at this
    omega
  have hcnt : BitVec.ofNat 32 l.length = 0 ↔ l.length = 0 := by
    constructor
    · intro e
      have := congrArg BitVec.toNat e
      simp at this
      omega
    · intro e; rw [e]; rfl
  have hslt := Heap.lt_of_live hs
  unfold close
  rw [hsc, Heap.load_ok hs]
  simp only [bind, Except.bind]
  by_cases h0 : l.length = 0
  · rw [if_pos (hcnt.2 h0)]
    refine ⟨m, L, rfl, h, ?_, rfl, rfl, rfl⟩
    unfold Undo.close
    rw [if_pos (by simp [Lay.state, abs, vals, hcur, h0])]
  · rw [if_neg (fun e => h0 (hcnt.1 e)), Heap.store_ok hs]
    simp only [Heap.alloc, pure, Except.pure]
    let sh1 := m.sh.set s (some ⟨m.undoStack, lastOf l none, nextOf l none, BitVec.ofNat 32 l.length⟩)
    have hl1 : sh1.length = m.sh.length := by simp [sh1]
    let L' : Lay V := { L with cur := (sh1.length, []), und := (s, l) :: L.und }
    have hok1 : Ok m.ch sh1 L.all [] [] := h.r0.ok.setPrev hs m.undoStack
    have hpv : ∀ o ∈ L.und ++ L.red, prevs (sh1 ++ [some SNode.new]) o.1 = prevs m.sh o.1 := by
      intro o ho
      have hne : s ≠ o.1 := by
        have := h.r0.curStack (o := o) (by simp only [List.mem_append] at ho ⊢; exact Or.inl ho)
        rw [hcur] at this; exact this
      obtain ⟨q, hq⟩ := h.r0.ok.step o (by
        simp only [List.mem_append] at ho
        rcases ho with ho | ho
        · exact L.addr_und ho
        · exact L.addr_red ho)
      have hlt := Heap.lt_of_live hq
      unfold prevs
      rw [List.getElem?_append_left (by rw [hl1]; exact hlt)]
      simp only [sh1]
      rw [List.getElem?_set_ne hne]
    refine ⟨_, L', rfl, ⟨⟨?_, rfl, ?_, ?_⟩, h.tr, h.lev⟩, ?_, rfl, rfl, rfl⟩
    · refine (hok1.allocS (by simp)).perm ?_
      unfold Lay.all
      simp only [L']
      rw [hcur]
      exact List.Perm.refl _
    · refine ⟨rfl, m.undoStack, ?_, ?_⟩
      · show prevs (sh1 ++ [some SNode.new]) s = _
        unfold prevs
        rw [List.getElem?_append_left (by rw [hl1]; exact hslt)]
        simp only [sh1]
        rw [List.getElem?_set_self hslt]
        rfl
      · exact Stk_frame h.r0.und (fun o ho => hpv o (List.mem_append.2 (Or.inl ho)))
    · exact Stk_frame h.r0.red (fun o ho => hpv o (List.mem_append.2 (Or.inr ho)))
    · unfold Undo.close
      rw [if_neg (by simp [Lay.state, abs, vals, hcur]; intro e; exact h0 (by simp [e]))]
      simp [Lay.state, abs, vals, hcur, L']

/-- `undo` -/
theorem undo_spec {m : M V} {L : Lay V} (h : Rel m L) :
    ∃ (m' : M V) (L' : Lay V), undo m = .ok ((Undo.undo (L.state m)).1, m') ∧ Rel m' L' ∧ L'.state m' = (Undo.undo (L.state m)).2 ∧ m'.ch.length = m.ch.length := by
  unfold undo Undo.undo
  by_cases ho : m.isOpen = true
  · rw [if_pos ho, if_pos (by exact ho)]
    exact ⟨m, L, rfl, h, rfl, rfl⟩
  · rw [if_neg ho, if_neg (by exact ho)]
    cases hu : L.und with
    | nil =>
      have hsn : m.undoStack = none := by have := h.r0.und; rw [hu] at this; exact this
      have hsu : (L.state m).undoStack = [] := by simp [Lay.state, abs, hu]
      rw [hsn, hsu]
      exact ⟨m, L, rfl, h, rfl, rfl⟩
    | cons o und =>
      obtain ⟨s, l⟩ := o
      have hst := h.r0.und
      rw [hu] at hst
      obtain ⟨h1, pv, h2, h3⟩ := hst
      have hsu : (L.state m).undoStack = vals (s, l) :: und.map vals := by simp [Lay.state, abs, hu]
      rw [h1, hsu]
      simp only
      have hmem : (s, l) ∈ L.all := L.addr_und (by simp [hu])
      obtain ⟨pv', hs⟩ := h.r0.ok.step (s, l) hmem
      have : pv' = pv := by rw [prevs] at h2; simp only at h2 hs; rw [hs] at h2; simpa using h2
      subst this
      have hslt := Heap.lt_of_live hs
      have hok : Ok m.ch m.sh ((s, l) :: (und ++ (L.cur :: (L.red ++ L.tr.toList)))) [] [] := by
        have := h.r0.ok.perm (perm_und L); rw [hu] at this; exact this
      have hd := hok.chain (s, l) (by simp)
      have hn := hok.chainNodup
      obtain ⟨l', ch', e1, e2, e3, e4, e5, e6⟩ := swapPrev_spec l m.ch.length { m with undoStack := pv' } (chain_length hd hn) hd hn
      rw [Heap.load_ok hs]
      simp only [bind, Except.bind]
      rw [e3]
      simp only
      rw [Heap.load_ok hs]
      simp only
      rw [Heap.store_ok hs]
      have hok2 : Ok ch' m.sh ((s, l') :: (und ++ (L.cur :: (L.red ++ L.tr.toList)))) [] [] := hok.setChain e1 e4 e5
      have hok3 := hok2.setPrev hs m.redoStack
      let L' : Lay V := { L with und := und, red := (s, l') :: L.red }
      have hns : ∀ o ∈ und ++ L.red, s ≠ o.1 := by
        intro o ho e
        have := hok.disjS.2
        simp only [List.map_append, List.map_cons, List.mem_append, List.mem_cons] at this
        simp only [List.mem_append] at ho
        rcases ho with ho | ho
        · exact this (Or.inl (by rw [e]; exact List.mem_map_of_mem ho))
        · exact this (Or.inr (Or.inr (Or.inl (by rw [e]; exact List.mem_map_of_mem ho))))
      have hpv : ∀ o ∈ und ++ L.red, prevs (m.sh.set s (some ⟨m.redoStack, lastOf l none, nextOf l none, BitVec.ofNat 32 l.length⟩)) o.1 = prevs m.sh o.1 := by
        intro o ho
        unfold prevs
        rw [List.getElem?_set_ne (hns o ho)]
      refine ⟨_, L', rfl, ⟨⟨?_, h.r0.cur, ?_, ?_⟩, h.tr, h.lev⟩, ?_, e6⟩
      · refine hok3.perm ?_
        have := perm_red L'
        refine List.Perm.trans ?_ this.symm
        simp only [L', List.cons_append]
        refine List.Perm.cons _ ?_
        refine List.Perm.trans List.perm_middle ?_
        refine List.Perm.trans ?_ List.perm_middle.symm
        refine List.Perm.cons _ ?_
        rw [← List.append_assoc, ← List.append_assoc]
        exact List.Perm.append_right _ List.perm_append_comm
      · exact Stk_frame h3 (fun o ho => hpv o (List.mem_append.2 (Or.inl ho)))
      · refine ⟨rfl, m.redoStack, ?_, Stk_frame h.r0.red (fun o ho => hpv o (List.mem_append.2 (Or.inr ho)))⟩
        simp only [prevs]
        rw [List.getElem?_set_self hslt]
        rfl
      · simp [Lay.state, abs, L', vals, e2]

/-- `redo` -/
theorem redo_spec {m : M V} {L : Lay V} (h : Rel m L) :
    ∃ (m' : M V) (L' : Lay V), redo m = .ok ((Undo.redo (L.state m)).1, m') ∧ Rel m' L' ∧ L'.state m' = (Undo.redo (L.state m)).2 ∧ m'.ch.length = m.ch.length := by
  unfold redo Undo.redo
  by_cases ho : m.isOpen = true
  · rw [if_pos ho, if_pos (by exact ho)]
    exact ⟨m, L, rfl, h, rfl, rfl⟩
  · rw [if_neg ho, if_neg (by exact ho)]
    cases hu : L.red with
    | nil =>
      have hsn : m.redoStack = none := by have := h.r0.red; rw [hu] at this; exact this
      have hsu : (L.state m).redoStack = [] := by simp [Lay.state, abs, hu]
      rw [hsn, hsu]
      exact ⟨m, L, rfl, h, rfl, rfl⟩
    | cons o red =>
      obtain ⟨s, l⟩ := o
      have hst := h.r0.red
      rw [hu] at hst
      obtain ⟨h1, pv, h2, h3⟩ := hst
      have hsu : (L.state m).redoStack = vals (s, l) :: red.map vals := by simp [Lay.state, abs, hu]
      rw [h1, hsu]
      simp only
      have hmem : (s, l) ∈ L.all := L.addr_red (by simp [hu])
      obtain ⟨pv', hs⟩ := h.r0.ok.step (s, l) hmem
      have : pv' = pv := by rw [prevs] at h2; simp only at h2 hs; rw [hs] at h2; simpa using h2
      subst this
      have hslt := Heap.lt_of_live hs
      have hok : Ok m.ch m.sh ((s, l) :: (red ++ (L.cur :: (L.und ++ L.tr.toList)))) [] [] := by
        have := h.r0.ok.perm (perm_red L); rw [hu] at this; exact this
      have hd := hok.chain (s, l) (by simp)
      have hn := hok.chainNodup
      obtain ⟨l', ch', e1, e2, e3, e4, e5, e6⟩ := swapNext_spec l m.ch.length { m with redoStack := pv' } none (chain_length hd hn) hd hn
      rw [Heap.load_ok hs]
      simp only [bind, Except.bind]
      rw [e3]
      simp only
      rw [Heap.load_ok hs]
      simp only
      rw [Heap.store_ok hs]
      have hok2 : Ok ch' m.sh ((s, l') :: (red ++ (L.cur :: (L.und ++ L.tr.toList)))) [] [] := hok.setChain e1 e4 e5
      have hok3 := hok2.setPrev hs m.undoStack
      let L' : Lay V := { L with red := red, und := (s, l') :: L.und }
      have hns : ∀ o ∈ red ++ L.und, s ≠ o.1 := by
        intro o ho e
        have := hok.disjS.2
        simp only [List.map_append, List.map_cons, List.mem_append, List.mem_cons] at this
        simp only [List.mem_append] at ho
        rcases ho with ho | ho
        · exact this (Or.inl (by rw [e]; exact List.mem_map_of_mem ho))
        · exact this (Or.inr (Or.inr (Or.inl (by rw [e]; exact List.mem_map_of_mem ho))))
      have hpv : ∀ o ∈ red ++ L.und, prevs (m.sh.set s (some ⟨m.undoStack, lastOf l none, nextOf l none, BitVec.ofNat 32 l.length⟩)) o.1 = prevs m.sh o.1 := by
        intro o ho
        unfold prevs
        rw [List.getElem?_set_ne (hns o ho)]
      refine ⟨_, L', rfl, ⟨⟨?_, h.r0.cur, ?_, ?_⟩, h.tr, h.lev⟩, ?_, e6⟩
      · refine hok3.perm ?_
        have := perm_und L'
        refine List.Perm.trans ?_ this.symm
        simp only [L', List.cons_append]
        refine List.Perm.cons _ ?_
        refine List.Perm.trans List.perm_middle ?_
        refine List.Perm.trans ?_ List.perm_middle.symm
        refine List.Perm.cons _ ?_
        rw [← List.append_assoc, ← List.append_assoc]
        exact List.Perm.append_right _ List.perm_append_comm
      · refine ⟨rfl, m.undoStack, ?_, Stk_frame h.r0.und (fun o ho => hpv o (List.mem_append.2 (Or.inr ho)))⟩
        simp only [prevs]
        rw [List.getElem?_set_self hslt]
        rfl
      · exact Stk_frame h3 (fun o ho => hpv o (List.mem_append.2 (Or.inl ho)))
      · simp [Lay.state, abs, L', vals, e2]

/-- `openTransaction` -/
theorem openTransaction_spec {m : M V} {L : Lay V} (h : Rel m L) :
    ∃ L' : Lay V, Rel (openTransaction m) L' ∧ L'.state (openTransaction m) = Undo.openTransaction (L.state m) ∧ (openTransaction m).ch.length = m.ch.length := by
  unfold openTransaction Undo.openTransaction
  by_cases hl : m.level = 0
  · rw [if_pos hl, if_pos (by exact hl)]
    have htr := h.lev.1 hl
    let L' : Lay V := { L with tr := some (m.sh.length, []) }
    have hpv : ∀ o ∈ L.und ++ L.red, prevs (m.sh ++ [some SNode.new]) o.1 = prevs m.sh o.1 := by
      intro o ho
      obtain ⟨q, hq⟩ := h.r0.ok.step o (by
        simp only [List.mem_append] at ho
        rcases ho with ho | ho
        · exact L.addr_und ho
        · exact L.addr_red ho)
      unfold prevs
      rw [List.getElem?_append_left (Heap.lt_of_live hq)]
    refine ⟨L', ⟨⟨?_, h.r0.cur, Stk_frame h.r0.und (fun o ho => hpv o (List.mem_append.2 (Or.inl ho))), Stk_frame h.r0.red (fun o ho => hpv o (List.mem_append.2 (Or.inr ho)))⟩, rfl, ?_⟩, ?_, rfl⟩
    · refine (h.r0.ok.allocS (by simp)).perm ?_
      refine List.Perm.trans ?_ (perm_tr L' _ rfl).symm
      simp [Lay.all, htr, L']
    · simp [Heap.alloc, L']
    · simp [Lay.state, abs, L', vals]
  · rw [if_neg hl, if_neg (by exact hl)]
    refine ⟨L, ⟨⟨h.r0.ok, h.r0.cur, h.r0.und, h.r0.red⟩, h.tr, ?_⟩, rfl, rfl⟩
    constructor
    · intro e; simp at e
    · intro e; exact absurd (h.lev.2 e) hl

/-- the loop of `commit` -/
theorem moveChanges_spec : ∀ (rem : Chain V) (fuel : Nat) (m : M V) (L : Lay V) (FS : List Nat) (pv : Option Nat), rem.length ≤ fuel → m.level = 0 →
    Rel0 m L FS (rem.map Prod.fst) → DL m.ch pv rem none →
    ∃ (m' : M V) (L' : Lay V), moveChanges fuel (nextOf rem none) m = .ok m' ∧ Rel0 m' L' FS [] ∧ L'.tr = L.tr ∧
      (∀ T, addAll (rem.map Prod.snd) (abs m L T) = .ok (abs m' L' T)) ∧ m'.level = 0 ∧ m'.ch.length = m.ch.length ∧ (∀ a ∈ FS, m'.sh[a]? = m.sh[a]?) := by
  intro rem
  induction rem with
  | nil =>
    intro fuel m L FS pv _ hl h _
    exact ⟨m, L, by cases fuel <;> rfl, h, rfl, fun T => rfl, hl, rfl, fun _ _ => rfl⟩
  | cons y rem ih =>
    obtain ⟨a, c⟩ := y
    intro fuel m L FS pv hf hl h hd
    obtain ⟨fuel, rfl⟩ : ∃ k, fuel = k + 1 := ⟨fuel - 1, by simp at hf; omega⟩
    obtain ⟨hd1, hd2⟩ := hd
    have hlt := Heap.lt_of_live hd1
    let m1 : M V := { m with ch := m.ch.set a (some ⟨none, none, c⟩) }
    have hn := h.ok.nodupC
    simp only [List.map_cons, List.cons_append, List.nodup_cons, List.mem_append, not_or] at hn
    have hne : ∀ b, b ≠ a → m1.ch[b]? = m.ch[b]? := fun b hb => by
      simp only [m1]; rw [List.getElem?_set_ne (fun e => hb e.symm)]
    have r1 : Rel0 m1 L FS (a :: rem.map Prod.fst) := by
      refine ⟨⟨h.ok.step, ?_, h.ok.nodupS, h.ok.nodupC, h.ok.liveS, ?_⟩, h.cur, h.und, h.red⟩
      · intro o ho
        refine DL_frame (h.ok.chain o ho) ?_
        intro b hb
        exact hne b (by intro e; subst e; exact hn.1.2 (mem_addrs ho hb))
      · intro b n e
        by_cases hb : b = a
        · subst hb; simp
        · rw [hne b hb] at e
          exact h.ok.liveC b n e
    have hc1 : m1.ch[a]? = some (some ⟨none, none, c⟩) := by simp only [m1]; rw [List.getElem?_set_self hlt]
    obtain ⟨m2, L2, e1, e2, e3, e4, e5, e6, e7, e8, e9, e10⟩ := registerChange_spec0 r1 (Or.inl hl) hc1
    have hd3 : DL m2.ch (some a) rem none := by
      refine DL_frame hd2 ?_
      intro b hb
      rw [e9 b hb, hne b (by intro e; subst e; exact hn.1.1 hb)]
    obtain ⟨m', L', g1, g2, g3, g4, g5, g6, g7⟩ := ih fuel m2 L2 FS (some a) (by simp at hf; omega) (by rw [e5]; exact hl) e2 hd3
    refine ⟨m', L', ?_, g2, by rw [g3, e3], ?_, g5, ?_, ?_⟩
    · simp only [nextOf, moveChanges]
      rw [Heap.load_ok hd1]
      simp only [bind, Except.bind]
      rw [Heap.store_ok hd1]
      simp only
      rw [e1]
      exact g1
    · intro T
      simp only [List.map_cons, addAll]
      rw [show abs m L T = abs m1 L T from rfl, e4 T]
      exact g4 T
    · rw [g6, e8]; simp [m1]
    · intro b hb
      rw [g7 b hb, e10 b hb]

theorem commit_last {m : M V} {t : Nat} (hl : ¬ m.level = 0) (h1 : m.level - 1 = 0) (ht : m.trans = some t) :
    commit m = (do
      let s ← m.sh.load t
      let m ← moveChanges m.ch.length s.eldest { m with level := m.level - 1 }
      let sh ← m.sh.store t SNode.new
      let m ← deleteStep { m with sh := sh } t
      return { m with trans := none, tstatus := eOK }) := by
  unfold commit
  rw [if_neg hl, if_pos h1]
  split
  · rename_i e; rw [ht] at e; cases e
  · rename_i e; rw [ht] at e; cases e; rfl

theorem rollback_last {m : M V} {t : Nat} (hl : ¬ m.level = 0) (h1 : m.level - 1 = 0) (ht : m.trans = some t) :
    rollback m = (do
      let s ← m.sh.load t
      let m ← swapPrev m.ch.length s.recent { m with level := m.level - 1 }
      let m ← deleteStep m t
      return { m with trans := none, tstatus := eOK }) := by
  unfold rollback
  rw [if_neg hl, if_pos h1]
  split
  · rename_i e; rw [ht] at e; cases e
  · rename_i e; rw [ht] at e; cases e; rfl

theorem commit_lastL {s : State V} {t : List (Change V)} (hl : ¬ s.level = 0) (h1 : s.level - 1 = 0) (ht : s.trans = some t) :
    Undo.commit s = (do
      let s ← addAll t { s with level := s.level - 1 }
      return { s with trans := none, tstatus := eOK }) := by
  unfold Undo.commit
  rw [if_neg hl, if_pos h1]
  split
  · rename_i e; rw [ht] at e; cases e
  · rename_i e; rw [ht] at e; cases e; rfl

theorem rollback_lastL {s : State V} {t : List (Change V)} (hl : ¬ s.level = 0) (h1 : s.level - 1 = 0) (ht : s.trans = some t) :
    Undo.rollback s = .ok { s with level := s.level - 1, mem := (swapBack t s.mem s.regen).2.1, regen := (swapBack t s.mem s.regen).2.2, trans := none, tstatus := eOK } := by
  unfold Undo.rollback
  rw [if_neg hl, if_pos h1]
  split
  · rename_i e; rw [ht] at e; cases e
  · rename_i e; rw [ht] at e; cases e; rfl

/-- `commit` -/
theorem commit_spec {m : M V} {L : Lay V} (h : Rel m L) :
    ∃ (m' : M V) (L' : Lay V), commit m = .ok m' ∧ Rel m' L' ∧ Undo.commit (L.state m) = .ok (L'.state m') ∧ m'.ch.length = m.ch.length := by
  by_cases hl : m.level = 0
  · unfold commit Undo.commit
    rw [if_pos hl, if_pos (show (L.state m).level = 0 from hl)]
    exact ⟨m, L, rfl, h, rfl, rfl⟩
  · cases htr : L.tr with
    | none => exact absurd (h.lev.2 htr) hl
    | some t =>
      obtain ⟨s, l⟩ := t
      have htm : m.trans = some s := by rw [h.tr, htr]; rfl
      by_cases h1 : m.level - 1 = 0
      · rw [commit_last hl h1 htm, commit_lastL (s := L.state m) (t := vals (s, l)) hl h1 (by simp [Lay.state, abs, htr])]
        have hok := h.r0.ok.perm (perm_tr L (s, l) htr)
        obtain ⟨pv, hs⟩ := hok.step (s, l) (by simp)
        let L0 : Lay V := { L with tr := none }
        have r0 : Rel0 { m with level := m.level - 1 } L0 [s] (l.map Prod.fst) :=
          ⟨by simpa [Lay.all, L0] using hok.detach, h.r0.cur, h.r0.und, h.r0.red⟩
        have hd := hok.chain (s, l) (by simp)
        obtain ⟨m1, L1, e1, e2, e3, e4, e5, e6, e7⟩ := moveChanges_spec l m.ch.length { m with level := m.level - 1 } L0 [s] none
          (chain_length hd hok.chainNodup) h1 r0 hd
        have hs1 : m1.sh[s]? = some (some ⟨pv, lastOf l none, nextOf l none, BitVec.ofNat 32 l.length⟩) := by rw [e7 s (by simp)]; exact hs
        rw [Heap.load_ok hs]
        simp only [bind, Except.bind]
        rw [e1]
        simp only
        rw [Heap.store_ok hs1]
        simp only
        have hok1 := e2.ok.attach hs1
        obtain ⟨ch2, g1, g2, g3, g4⟩ := deleteStep_spec { m1 with sh := m1.sh.set s (some SNode.new) } hok1
        rw [g1]
        have hpv : ∀ o ∈ L1.und ++ L1.red, prevs ((m1.sh.set s (some SNode.new)).set s none) o.1 = prevs m1.sh o.1 := by
          intro o ho
          have hne : s ≠ o.1 := by
            intro e
            refine hok1.disjS.2 ?_
            simp only [e]
            refine List.mem_map_of_mem ?_
            simp only [Lay.all, List.mem_cons, List.mem_append] at ho ⊢
            exact Or.inr (Or.inl ho)
          unfold prevs
          rw [List.getElem?_set_ne hne, List.getElem?_set_ne hne]
        refine ⟨_, L1, rfl, ⟨⟨g2, e2.cur, ?_, ?_⟩, ?_, ?_⟩, ?_, ?_⟩
        · exact Stk_frame e2.und (fun o ho => hpv o (by simp [ho]))
        · exact Stk_frame e2.red (fun o ho => hpv o (by simp [ho]))
        · rw [e3]; rfl
        · rw [e3]
          constructor
          · intro _; rfl
          · intro _; exact e5
        · have := e4 (some (vals (s, l)))
          have hst : ({ L.state m with level := (L.state m).level - 1 } : State V) = abs { m with level := m.level - 1 } L0 (some (vals (s, l))) := by
            simp [Lay.state, abs, htr, L0]
          rw [hst, show vals (s, l) = l.map Prod.snd from rfl] at *
          rw [this]
          simp [Lay.state, abs, e3, L0, pure, Except.pure]
        · show ch2.length = _
          rw [g4]; exact e6
      · unfold commit Undo.commit
        rw [if_neg hl, if_neg (show ¬ (L.state m).level = 0 from hl), if_neg h1, if_neg (show ¬ (L.state m).level - 1 = 0 from h1)]
        refine ⟨_, L, rfl, ⟨⟨h.r0.ok, h.r0.cur, h.r0.und, h.r0.red⟩, h.tr, ?_⟩, rfl, rfl⟩
        constructor
        · intro e; exact absurd e h1
        · intro e; rw [htr] at e; cases e

/-- `rollback` -/
theorem rollback_spec {m : M V} {L : Lay V} (h : Rel m L) :
    ∃ (m' : M V) (L' : Lay V), rollback m = .ok m' ∧ Rel m' L' ∧ Undo.rollback (L.state m) = .ok (L'.state m') ∧ m'.ch.length = m.ch.length := by
  by_cases hl : m.level = 0
  · unfold rollback Undo.rollback
    rw [if_pos hl, if_pos (show (L.state m).level = 0 from hl)]
    exact ⟨m, L, rfl, h, rfl, rfl⟩
  · cases htr : L.tr with
    | none => exact absurd (h.lev.2 htr) hl
    | some t =>
      obtain ⟨s, l⟩ := t
      have htm : m.trans = some s := by rw [h.tr, htr]; rfl
      by_cases h1 : m.level - 1 = 0
      · rw [rollback_last hl h1 htm, rollback_lastL (s := L.state m) (t := vals (s, l)) hl h1 (by simp [Lay.state, abs, htr])]
        have hok := h.r0.ok.perm (perm_tr L (s, l) htr)
        obtain ⟨pv, hs⟩ := hok.step (s, l) (by simp)
        have hd := hok.chain (s, l) (by simp)
        have hn := hok.chainNodup
        obtain ⟨l', ch', e1, e2, e3, e4, e5, e6⟩ := swapPrev_spec l m.ch.length { m with level := m.level - 1 } (chain_length hd hn) hd hn
        rw [Heap.load_ok hs]
        simp only [bind, Except.bind]
        rw [e3]
        simp only
        have hok2 := hok.setChain e1 e4 e5
        obtain ⟨ch2, g1, g2, g3, g4⟩ := deleteStep_spec { m with level := m.level - 1, ch := ch', mem := (swapBack (l.map Prod.snd) m.mem m.regen).2.1,
                                                                  regen := (swapBack (l.map Prod.snd) m.mem m.regen).2.2 } hok2
        rw [g1]
        let L' : Lay V := { L with tr := none }
        have hpv : ∀ o ∈ L.und ++ L.red, prevs (m.sh.set s none) o.1 = prevs m.sh o.1 := by
          intro o ho
          unfold prevs
          rw [List.getElem?_set_ne (h.r0.trStack htr ho)]
        refine ⟨_, L', rfl, ⟨⟨?_, h.r0.cur, ?_, ?_⟩, rfl, ?_⟩, ?_, ?_⟩
        · simpa [Lay.all, L'] using g2
        · exact Stk_frame h.r0.und (fun o ho => hpv o (List.mem_append.2 (Or.inl ho)))
        · exact Stk_frame h.r0.red (fun o ho => hpv o (List.mem_append.2 (Or.inr ho)))
        · constructor
          · intro _; rfl
          · intro _; exact h1
        · simp [Lay.state, abs, L', vals]
        · show ch2.length = _
          rw [g4]; exact e6
      · unfold rollback Undo.rollback
        rw [if_neg hl, if_neg (show ¬ (L.state m).level = 0 from hl), if_neg h1, if_neg (show ¬ (L.state m).level - 1 = 0 from h1)]
        refine ⟨_, L, rfl, ⟨⟨h.r0.ok, h.r0.cur, h.r0.und, h.r0.red⟩, h.tr, ?_⟩, rfl, rfl⟩
        constructor
        · intro e; exact absurd e h1
        · intro e; rw [htr] at e; cases e

end Verif.UndoMem
