import Verif.LinkedList.Lemmas
/-
Normal forms of the remaining operations.
-/
namespace Verif.LinkedList
open Verif Verif.Undo Verif.Undo.Spec

def remRegs (prev next lstart lend e : Nat) : List (Nat × Nat) :=
  (if (prev != 0) = true then [(prev, prev + 1)] else []) ++ (if (next != 0) = true then [(next, next + 0)] else []) ++
    (if (lstart == e) = true then [(this, aStart)] else []) ++ (if (lend == e) = true then [(this, aEnd)] else []) ++
    [(e, e + 0)] ++ [(e, e + 1)] ++ [(this, aCount)]

def remStores (prev next lstart lend cnt e : Nat) : List (Nat × Nat) :=
  (if (prev != 0) = true then [(prev + 1, next)] else []) ++ (if (next != 0) = true then [(next + 0, prev)] else []) ++
    (if (lstart == e) = true then [(aStart, next)] else []) ++ (if (lend == e) = true then [(aEnd, prev)] else []) ++
    [(e + 0, 0)] ++ [(e + 1, 0)] ++ [(aCount, (cnt + 2 ^ 32 - 1) % 2 ^ 32)]

/-- after `release` -/
def kill (s : S) (e : Nat) : S := if s.um then s else { s with dead := fun a => if a = e then true else s.dead a }

theorem kill_u (s : S) (e : Nat) : (kill s e).u = s.u := by unfold kill; split <;> rfl
theorem kill_brk (s : S) (e : Nat) : (kill s e).brk = s.brk := by unfold kill; split <;> rfl
theorem kill_um (s : S) (e : Nat) : (kill s e).um = s.um := by unfold kill; split <;> rfl
theorem kill_cur (s : S) (e : Nat) : (kill s e).cur = s.cur := by unfold kill; split <;> rfl

theorem kill_Wl (s : S) (l : List (Nat × Nat)) (e : Nat) : kill (Wl s l) e = Wl (kill s e) l := by
  unfold kill Wl
  by_cases h : s.um = true
  · simp only [h, if_true]
  · simp only [h, if_false, Bool.false_eq_true]

theorem W_skip (m : Mem Nat) (l : List (Nat × Nat)) (a : Nat) (h : ∀ w ∈ l, w.1 ≠ a) : W m l a = m a := by
  induction l generalizing m with
  | nil => rfl
  | cons w l ih =>
    show W (upd m w.1 w.2) l a = m a
    rw [ih _ (fun x hx => h x (List.mem_cons_of_mem _ hx)), upd, if_neg (fun e => h w (List.mem_cons_self ..) e.symm)]

theorem removeElem_nf (s : S) (hg : Good s) (e : Nat) (he : Alive s e)
    (hp : s.u.mem (e + 0) ≠ 0 → Alive s (s.u.mem (e + 0)) ∧ s.u.mem (e + 0) ≠ e ∧ s.u.mem (e + 0) + 1 ≠ e)
    (hn : s.u.mem (e + 1) ≠ 0 → Alive s (s.u.mem (e + 1)) ∧ s.u.mem (e + 1) ≠ e ∧ s.u.mem (e + 1) ≠ e + 1) (h8 : 8 ≤ e) :
    removeElem s e = .ok (Wl (kill (Rl s (remRegs (s.u.mem (e + 0)) (s.u.mem (e + 1)) (s.u.mem aStart) (s.u.mem aEnd) e)) e)
      (remStores (s.u.mem (e + 0)) (s.u.mem (e + 1)) (s.u.mem aStart) (s.u.mem aEnd) (s.u.mem aCount) e)) := by
  have hp' : (s.u.mem (e + 0) != 0) = true → Alive s (s.u.mem (e + 0)) := fun h => (hp (by simpa using h)).1
  have hn' : (s.u.mem (e + 1) != 0) = true → Alive s (s.u.mem (e + 1)) := fun h => (hn (by simpa using h)).1
  unfold removeElem
  simp only [bind, Except.bind, pure, Except.pure, ldE_ok s e _ he]
  have e0 : cond (s.u.mem (e + 0) != 0) (fun x => regE x (s.u.mem (e + 0)) (s.u.mem (e + 0)) 1) s =
      .ok (Rl s (if (s.u.mem (e + 0) != 0) = true then [(s.u.mem (e + 0), s.u.mem (e + 0) + 1)] else [])) :=
    cond_regE s [] hg _ _ _ _ hp' hp'
  simp only [e0, cond_regE s _ hg _ _ _ 0 hn' hn', cond_regL s _ hg, regE_ok s _ hg e e _ he he, regL_ok s _ hg]
  generalize hbb : Rl s _ = b
  have hal : ∀ x, Alive s x → Alive b x := fun x h => hbb ▸ alive_Rl hg h
  have hbm : b.u.mem = s.u.mem := hbb ▸ (Rl_spec s _ hg).1
  have e1 : cond (s.u.mem (e + 0) != 0) (fun x => stE x (s.u.mem (e + 0)) 1 (s.u.mem (e + 1))) b =
      .ok (Wl b (if (s.u.mem (e + 0) != 0) = true then [(s.u.mem (e + 0) + 1, s.u.mem (e + 1))] else [])) :=
    cond_stE b [] _ _ _ _ (fun h => hal _ (hp' h))
  simp only [e1, cond_stE b _ _ _ 0 _ (fun h => hal _ (hn' h))]
  generalize hl0 : ((if (s.u.mem (e + 0) != 0) = true then [(s.u.mem (e + 0) + 1, s.u.mem (e + 1))] else []) ++
    (if (s.u.mem (e + 1) != 0) = true then [(s.u.mem (e + 1) + 0, s.u.mem (e + 0))] else [])) = l0
  have hw : W b.u.mem l0 (e + 1) = s.u.mem (e + 1) ∧ W b.u.mem l0 (e + 0) = s.u.mem (e + 0) := by
    have key : ∀ w ∈ l0, w.1 ≠ e + 1 ∧ w.1 ≠ e + 0 := by
      intro w hw
      rw [← hl0, List.mem_append] at hw
      rcases hw with hw | hw
      · split at hw
        · rename_i c
          obtain ⟨_, k2, k3⟩ := hp (by simpa using c)
          simp only [List.mem_singleton] at hw
          subst hw
          exact ⟨by simp only; omega, by simp only; omega⟩
        · cases hw
      · split at hw
        · rename_i c
          obtain ⟨_, k2, k3⟩ := hn (by simpa using c)
          simp only [List.mem_singleton] at hw
          subst hw
          exact ⟨by simp only; omega, by simp only; omega⟩
        · cases hw
    rw [W_skip _ _ _ (fun w hw => (key w hw).1), W_skip _ _ _ (fun w hw => (key w hw).2), hbm]
    exact ⟨rfl, rfl⟩
  have e2 : cond (s.u.mem aStart == e) (fun x => advStart x (s.u.mem aStart)) (Wl b l0) =
      .ok (Wl b (l0 ++ if (s.u.mem aStart == e) = true then [(aStart, s.u.mem (e + 1))] else [])) := by
    by_cases c : (s.u.mem aStart == e) = true
    · have c' : s.u.mem aStart = e := by simpa using c
      rw [cond, if_pos c, if_pos c]
      simp only [c', advStart, bind, Except.bind, pure, Except.pure]
      rw [ldE_ok _ _ _ (show Alive (Wl b l0) e from hal _ he)]
      simp only [show (Wl b l0).u.mem (e + 1) = s.u.mem (e + 1) from hw.1]
      by_cases z : s.u.mem (e + 1) = 0
      · rw [z, if_neg (by decide), stL_Wl]
      · rw [if_pos (by simpa using z), stL_Wl]
    · simp only [cond, c, if_false, Bool.false_eq_true, List.append_nil]
  simp only [e2]
  generalize hl1 : (l0 ++ if (s.u.mem aStart == e) = true then [(aStart, s.u.mem (e + 1))] else []) = l1
  have hw1 : W b.u.mem l1 (e + 0) = s.u.mem (e + 0) := by
    rw [← hl1, W_append]
    split
    · show upd _ aStart _ _ = _
      rw [upd, if_neg (by simp only [aStart]; omega)]
      exact hw.2
    · exact hw.2
  have e3 : cond (s.u.mem aEnd == e) (fun x => advEnd x (s.u.mem aEnd)) (Wl b l1) =
      .ok (Wl b (l1 ++ if (s.u.mem aEnd == e) = true then [(aEnd, s.u.mem (e + 0))] else [])) := by
    by_cases c : (s.u.mem aEnd == e) = true
    · have c' : s.u.mem aEnd = e := by simpa using c
      rw [cond, if_pos c, if_pos c]
      simp only [c', advEnd, bind, Except.bind, pure, Except.pure]
      rw [ldE_ok _ _ _ (show Alive (Wl b l1) e from hal _ he)]
      simp only [show (Wl b l1).u.mem (e + 0) = s.u.mem (e + 0) from hw1]
      by_cases z : s.u.mem (e + 0) = 0
      · rw [z, if_neg (by decide), stL_Wl]
      · rw [if_pos (by simpa using z), stL_Wl]
    · simp only [cond, c, if_false, Bool.false_eq_true, List.append_nil]
  simp only [e3, stE_ok b _ e _ _ (hal _ he)]
  have e4 : ∀ l, release (Wl b l) e = .ok (Wl (kill b e) l) := by
    intro l
    rw [← kill_Wl]
    unfold release
    rw [chk_ok (show Alive (Wl b l) e from hal _ he)]
    rfl
  simp only [e4, stL_Wl]
  rw [← hl1, ← hl0, ← hbb]
  rfl

theorem swap_nf (s : S) (hg : Good s) (e1 e2 d1 d2 : Nat) (h1 : Alive s e1) (h2 : Alive s e2) :
    swapElems s e1 e2 d1 d2 = .ok (Wl (Rl s [(e1, e1 + 2), (e2, e2 + 2)]) [(e1 + 2, d2), (e2 + 2, d1)]) := by
  have r1 : regE s e1 e1 2 = .ok (Rl s [(e1, e1 + 2)]) := regE_ok s [] hg e1 e1 2 h1 h1
  unfold swapElems
  simp only [bind, Except.bind, r1, regE_ok s _ hg e2 e2 2 h2 h2]
  generalize hb : Rl s _ = b
  have w1 : stE b e1 2 d2 = .ok (Wl b [(e1 + 2, d2)]) := stE_ok b [] e1 2 d2 (hb ▸ alive_Rl hg h1)
  simp only [w1, stE_ok b _ e2 2 d1 (hb ▸ alive_Rl hg h2)]
  rw [← hb]
  rfl

end Verif.LinkedList
