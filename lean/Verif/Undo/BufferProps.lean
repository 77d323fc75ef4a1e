import Verif.Undo.Buffer
/-
Properties of registering a block of bytes with the undo manager.
-/
namespace Verif.Undo.Buffer
open Verif

variable {V : Type}

/-- The documented behaviour: "If the UndoManager is not active, nothing happens"; otherwise the call returns and the history has one
change more (in the open transaction if there is one, in the open step otherwise). -/
def Documented (w : W V) : Ended V → Prop
  | .threw _ => False
  | .returned w' => if w.um.active = false then w' = w else ∃ c : Change V,
      if w.um.level > 0 then w'.um.trans = w.um.trans.map (· ++ [c]) else w'.um.current = w.um.current ++ [c]

/-- the number of bytes in arrays that were never freed -/
def lost (h : Heap (List Byte)) : Nat := (h.map fun c => (c.map List.length).getD 0).sum

theorem registerBuffer_eq (w : W V) (n : Nat) (hc : 0 < w.count) (hb : n ≤ w.block.length) :
    registerBuffer w n =
      .ok (.threw { w with copies := if n ≤ 8 then w.copies else w.copies ++ [some (w.block.take n)] }) := by
  have h0 : ¬ w.count = 0 := by omega
  have h1 : ¬ w.block.length < n := by omega
  by_cases h : n ≤ 8
  · simp [registerBuffer, baseNew, copyBlock, baseDelete, h0, h, bind, Except.bind, pure, Except.pure]
  · simp [registerBuffer, baseNew, copyBlock, baseDelete, h0, h, h1, bind, Except.bind, pure, Except.pure, Heap.alloc]

/-- What a program does see, for every live object and every block at least as long as it says: the call throws, and the undo manager,
the object's reference count and the block are as before. Missing: everything the documentation promises, see
`registerBuffer_undocumented`. -/
theorem registerBuffer_partial (w : W V) (n : Nat) (hc : 0 < w.count) (hb : n ≤ w.block.length) :
    ∃ w', registerBuffer w n = .ok (.threw w') ∧ w'.um = w.um ∧ w'.count = w.count ∧ w'.block = w.block :=
  ⟨_, registerBuffer_eq w n hc hb, rfl, rfl, rfl⟩

/-- No call does what is documented: neither with an active manager nor with an inactive one, for whatever object, block and length. -/
theorem registerBuffer_undocumented (w : W V) (n : Nat) (e : Ended V) (h : registerBuffer w n = .ok e) : ¬ Documented w e := by
  have : ∃ w', e = .threw w' := by
    unfold registerBuffer at h
    cases h1 : baseNew w with
    | error x => simp [h1, bind, Except.bind] at h
    | ok w1 =>
      cases h2 : copyBlock w1 n with
      | error x => simp [h1, h2, bind, Except.bind] at h
      | ok w2 =>
        cases h3 : baseDelete w2 with
        | error x => simp [h1, h2, h3, bind, Except.bind] at h
        | ok w3 =>
          simp [h1, h2, h3, bind, Except.bind, pure, Except.pure] at h
          exact ⟨w3, h.symm⟩
  obtain ⟨w', rfl⟩ := this
  exact id

/-- in particular with an inactive manager, where "nothing happens" is promised, the call throws -/
theorem registerBuffer_inactive (w : W V) (n : Nat) (hc : 0 < w.count) (hb : n ≤ w.block.length) (_ha : w.um.active = false) :
    ∃ w', registerBuffer w n = .ok (.threw w') :=
  ⟨_, registerBuffer_eq w n hc hb⟩

theorem lost_append (h : Heap (List Byte)) (l : List Byte) : lost (h ++ [some l]) = lost h + l.length := by
  simp [lost]

/-- Memory: after any number of such calls, with the exceptions caught, exactly the bytes of all blocks of more than eight bytes are
lost; manager, object and block are as before. -/
theorem registerAll_lost (ns : List Nat) : ∀ (w : W V), 0 < w.count → (∀ n ∈ ns, n ≤ w.block.length) →
    ∃ w', registerAll ns w = .ok w' ∧ w'.um = w.um ∧ w'.count = w.count ∧ w'.block = w.block ∧
      lost w'.copies = lost w.copies + (ns.filter (8 < ·)).sum := by
  induction ns with
  | nil => intro w _ _; exact ⟨w, rfl, rfl, rfl, rfl, by simp⟩
  | cons n ns ih =>
    intro w hc hb
    have hn : n ≤ w.block.length := hb n (by simp)
    obtain ⟨w', e, a, b, c, d⟩ := ih { w with copies := if n ≤ 8 then w.copies else w.copies ++ [some (w.block.take n)] } hc
      (fun m hm => hb m (by simp [hm]))
    refine ⟨w', ?_, a, b, c, ?_⟩
    · rw [registerAll, registerBuffer_eq w n hc hn]
      exact e
    · rw [d]
      by_cases h : n ≤ 8
      · have h' : ¬ 8 < n := by omega
        simp [h, h']
      · have h' : 8 < n := by omega
        simp only [h, if_false, lost_append, List.length_take, h', List.filter_cons, decide_true, if_true, List.sum_cons]
        omega

theorem sum_nines : ∀ k, (List.replicate k 9).sum = 9 * k
  | 0 => rfl
  | k + 1 => by rw [List.replicate_succ, List.sum_cons, sum_nines k]; omega

/-- The promise that nothing is lost fails: the loss has no bound. -/
theorem registerAll_unbounded (w : W V) (hc : 0 < w.count) (hb : 9 ≤ w.block.length) (k : Nat) :
    ∃ w', registerAll (List.replicate k 9) w = .ok w' ∧ k ≤ lost w'.copies := by
  obtain ⟨w', e, -, -, -, d⟩ := registerAll_lost (List.replicate k 9) w hc (fun n hn => by
    have := List.eq_of_mem_replicate hn; omega)
  refine ⟨w', e, ?_⟩
  rw [d]
  have : (List.replicate k 9).filter (8 < ·) = List.replicate k 9 := by simp
  rw [this, sum_nines]
  omega

/-- A length beyond the block: the copy reads outside of it. -/
theorem registerBuffer_short (w : W V) (n : Nat) (hc : 0 < w.count) (h8 : 8 < n) (hb : w.block.length < n) :
    registerBuffer w n = .error .ub := by
  have h0 : ¬ w.count = 0 := by omega
  have h : ¬ n ≤ 8 := by omega
  simp [registerBuffer, baseNew, copyBlock, h0, h, hb, bind, Except.bind]

example : ∃ w : W Nat, 0 < w.count ∧ 9 ≤ w.block.length ∧ (∀ n ∈ [3, 9, 10], n ≤ w.block.length) :=
  ⟨⟨State.new (fun _ => 0) (fun _ => false) false, 1, List.replicate 10 0, []⟩, by decide, by decide, by decide⟩

end Verif.Undo.Buffer
