import Verif.DiffMem.Refine
import Verif.Diff.Props
import Mathlib.Data.List.Forall2
/-
C116: DiffDistance objects can be used again and again; the report has one entry for each change; what is freed and what is not.
-/
namespace Verif.DiffMem
open Verif Verif.Diff Verif.Diff.Spec

variable {α : Type}

/-- Whatever a client does with objects and results it has not destroyed: no freed memory is used, all calls return what they return
without memory, and the DiffDistance objects and the steps of the results are freed when the client has destroyed them. -/
theorem diff_safe (eqv : α → α → Bool) (sh : Show α) (cs : List (Call α)) (a : Abs α) (o : List Out)
    (h : arun eqv sh Abs.init cs = .ok (a, o)) :
    ∃ w, run eqv sh World.init cs = .ok (w, o) ∧ ((∀ d ∈ a.dists, d = none) → w.dists.AllFreed) ∧ ((∀ r ∈ a.reports, r = none) → w.steps.AllFreed) := by
  obtain ⟨w, own, g, hi⟩ := run_ok eqv sh cs World.init Abs.init [] a o inv_init h
  refine ⟨w, g, ?_, ?_⟩
  · intro hd c hc
    have : Option.map absD c ∈ a.dists := by rw [← hi.dists]; exact List.mem_map_of_mem hc
    have := hd _ this
    cases c with
    | none => rfl
    | some x => cases this
  · intro hr c hc
    cases c with
    | none => rfl
    | some b =>
      obtain ⟨p, hp⟩ := List.getElem?_of_mem hc
      obtain ⟨r, l, h1, h2⟩ := hi.all p b hp
      have hrl : r < a.reports.length := by rw [← hi.lenO]; exact (List.getElem?_eq_some_iff.1 h1).1
      have h3 : a.reports[r]? = some none := by
        rw [List.getElem?_eq_getElem hrl, hr _ (List.getElem_mem hrl)]
      rw [(hi.dead r h3).1] at h1
      cases h1
      simp at h2

/-- With a symmetric `equals` every call on what exists succeeds: `solve` never fails. -/
theorem never_fails (eqv : α → α → Bool) (hs : ∀ a b, eqv a b = eqv b a) (sh : Show α) (a : Abs α) (c : Call α) (h : Usable a c) :
    ∃ r, acall eqv sh a c = .ok r := by
  cases c with
  | create => exact ⟨_, rfl⟩
  | addU h' x => obtain ⟨d, hd⟩ := h; exact ⟨_, by simp only [acall, alive_of hd]; rfl⟩
  | addV h' x => obtain ⟨d, hd⟩ := h; exact ⟨_, by simp only [acall, alive_of hd]; rfl⟩
  | solve h' =>
    obtain ⟨d, hd⟩ := h
    obtain ⟨n, s, e, _⟩ := Diff.Props.distance_minimal eqv hs d.u d.v
    exact ⟨_, by simp only [acall, alive_of hd, bind, Except.bind, e]; rfl⟩
  | distance h' => obtain ⟨d, hd⟩ := h; exact ⟨_, by simp only [acall, alive_of hd]; rfl⟩
  | clear h' => obtain ⟨d, hd⟩ := h; exact ⟨_, by simp only [acall, alive_of hd]; rfl⟩
  | destroy h' => obtain ⟨d, hd⟩ := h; exact ⟨_, by simp only [acall, alive_of hd]; rfl⟩
  | print r => obtain ⟨d, hd⟩ := h; exact ⟨_, by simp only [acall, alive_of hd]; rfl⟩
  | drop r => obtain ⟨d, hd⟩ := h; exact ⟨_, by simp only [acall, alive_of hd]; rfl⟩

/-! ### The lists are what was added since the last clear -/

/-- one call: what `h` holds afterwards -/
theorem acall_added (eqv : α → α → Bool) (sh : Show α) {a a' : Abs α} {c : Call α} {o : Out} (he : acall eqv sh a c = .ok (a', o)) (h : Nat)
    {d' : ADist α} (hd' : a'.dists[h]? = some (some d')) :
    (a.dists[h]? = none ∧ addedU h [] [c] = d'.u ∧ addedV h [] [c] = d'.v) ∨
    ∃ d, a.dists[h]? = some (some d) ∧ addedU h d.u [c] = d'.u ∧ addedV h d.v [c] = d'.v := by
  have setcase : ∀ {h' : Nat} {x : Option (ADist α)}, (a.dists.set h' x)[h]? = some (some d') →
      (h' ≠ h ∧ a.dists[h]? = some (some d')) ∨ (h' = h ∧ x = some d') := by
    intro h' x e
    by_cases hh : h' = h
    · subst hh
      have hlt : h' < a.dists.length := by
        have := (List.getElem?_eq_some_iff.1 e).1
        simpa using this
      rw [List.getElem?_set_self hlt] at e
      exact Or.inr ⟨rfl, by simpa using e⟩
    · rw [List.getElem?_set_ne hh] at e
      exact Or.inl ⟨hh, e⟩
  cases c with
  | create =>
    simp only [acall, Except.ok.injEq, Prod.mk.injEq] at he
    obtain ⟨rfl, rfl⟩ := he
    simp only at hd'
    by_cases hl : h < a.dists.length
    · rw [List.getElem?_append_left hl] at hd'
      exact Or.inr ⟨d', hd', rfl, rfl⟩
    · rw [List.getElem?_append_right (by omega), List.getElem?_singleton] at hd'
      split at hd'
      · cases hd'
        exact Or.inl ⟨List.getElem?_eq_none_iff.2 (by omega), rfl, rfl⟩
      · cases hd'
  | addU h' x =>
    simp only [acall] at he
    cases e1 : alive a.dists h' with
    | error f => rw [e1] at he; cases he
    | ok d =>
    rw [e1] at he
    simp only [bind, Except.bind, pure, Except.pure, Except.ok.injEq, Prod.mk.injEq] at he
    obtain ⟨rfl, rfl⟩ := he
    rcases setcase hd' with ⟨hh, e⟩ | ⟨rfl, e⟩
    · exact Or.inr ⟨d', e, by simp [addedU, hh], by simp [addedV]⟩
    · cases e
      exact Or.inr ⟨d, alive_ok e1, by simp [addedU], by simp [addedV]⟩
  | addV h' x =>
    simp only [acall] at he
    cases e1 : alive a.dists h' with
    | error f => rw [e1] at he; cases he
    | ok d =>
    rw [e1] at he
    simp only [bind, Except.bind, pure, Except.pure, Except.ok.injEq, Prod.mk.injEq] at he
    obtain ⟨rfl, rfl⟩ := he
    rcases setcase hd' with ⟨hh, e⟩ | ⟨rfl, e⟩
    · exact Or.inr ⟨d', e, by simp [addedU], by simp [addedV, hh]⟩
    · cases e
      exact Or.inr ⟨d, alive_ok e1, by simp [addedU], by simp [addedV]⟩
  | solve h' =>
    simp only [acall] at he
    cases e1 : alive a.dists h' with
    | error f => rw [e1] at he; cases he
    | ok d =>
    rw [e1] at he
    simp only [bind, Except.bind, pure, Except.pure] at he
    cases e2 : Diff.solve ⟨d.u, d.v, eqv⟩ with
    | error f => rw [e2] at he; cases he
    | ok s =>
    rw [e2] at he
    simp only [Except.ok.injEq, Prod.mk.injEq] at he
    obtain ⟨rfl, rfl⟩ := he
    rcases setcase hd' with ⟨hh, e⟩ | ⟨rfl, e⟩
    · exact Or.inr ⟨d', e, rfl, rfl⟩
    · cases e
      exact Or.inr ⟨d, alive_ok e1, rfl, rfl⟩
  | distance h' =>
    simp only [acall] at he
    cases e1 : alive a.dists h' with
    | error f => rw [e1] at he; cases he
    | ok d =>
    rw [e1] at he
    simp only [bind, Except.bind, pure, Except.pure, Except.ok.injEq, Prod.mk.injEq] at he
    obtain ⟨rfl, rfl⟩ := he
    exact Or.inr ⟨d', hd', rfl, rfl⟩
  | clear h' =>
    simp only [acall] at he
    cases e1 : alive a.dists h' with
    | error f => rw [e1] at he; cases he
    | ok d =>
    rw [e1] at he
    simp only [bind, Except.bind, pure, Except.pure, Except.ok.injEq, Prod.mk.injEq] at he
    obtain ⟨rfl, rfl⟩ := he
    rcases setcase hd' with ⟨hh, e⟩ | ⟨rfl, e⟩
    · exact Or.inr ⟨d', e, by simp [addedU, hh], by simp [addedV, hh]⟩
    · cases e
      exact Or.inr ⟨d, alive_ok e1, by simp [addedU], by simp [addedV]⟩
  | destroy h' =>
    simp only [acall] at he
    cases e1 : alive a.dists h' with
    | error f => rw [e1] at he; cases he
    | ok d =>
    rw [e1] at he
    simp only [bind, Except.bind, pure, Except.pure, Except.ok.injEq, Prod.mk.injEq] at he
    obtain ⟨rfl, rfl⟩ := he
    rcases setcase hd' with ⟨hh, e⟩ | ⟨rfl, e⟩
    · exact Or.inr ⟨d', e, rfl, rfl⟩
    · cases e
  | print r =>
    simp only [acall] at he
    cases e1 : alive a.reports r with
    | error f => rw [e1] at he; cases he
    | ok d =>
    rw [e1] at he
    simp only [bind, Except.bind, pure, Except.pure, Except.ok.injEq, Prod.mk.injEq] at he
    obtain ⟨rfl, rfl⟩ := he
    exact Or.inr ⟨d', hd', rfl, rfl⟩
  | drop r =>
    simp only [acall] at he
    cases e1 : alive a.reports r with
    | error f => rw [e1] at he; cases he
    | ok d =>
    rw [e1] at he
    simp only [bind, Except.bind, pure, Except.pure, Except.ok.injEq, Prod.mk.injEq] at he
    obtain ⟨rfl, rfl⟩ := he
    exact Or.inr ⟨d', hd', rfl, rfl⟩

theorem addedU_cons (h : Nat) (acc : List α) (c : Call α) (cs : List (Call α)) : addedU h acc (c :: cs) = addedU h (addedU h acc [c]) cs := by
  cases c <;> rfl
theorem addedV_cons (h : Nat) (acc : List α) (c : Call α) (cs : List (Call α)) : addedV h acc (c :: cs) = addedV h (addedV h acc [c]) cs := by
  cases c <;> rfl

theorem arun_added (eqv : α → α → Bool) (sh : Show α) (h : Nat) : ∀ (cs : List (Call α)) (a a' : Abs α) (o : List Out) (d' : ADist α),
    arun eqv sh a cs = .ok (a', o) → a'.dists[h]? = some (some d') →
    (a.dists[h]? = none ∧ addedU h [] cs = d'.u ∧ addedV h [] cs = d'.v) ∨
    ∃ d, a.dists[h]? = some (some d) ∧ addedU h d.u cs = d'.u ∧ addedV h d.v cs = d'.v := by
  intro cs
  induction cs with
  | nil =>
    intro a a' o d' he hd
    simp only [arun, Except.ok.injEq, Prod.mk.injEq] at he
    obtain ⟨rfl, rfl⟩ := he
    exact Or.inr ⟨d', hd, rfl, rfl⟩
  | cons c cs ih =>
    intro a a' o d' he hd
    simp only [arun] at he
    cases e1 : acall eqv sh a c with
    | error f => rw [e1] at he; cases he
    | ok r =>
    obtain ⟨a1, o1⟩ := r
    rw [e1] at he
    simp only [bind, Except.bind, pure, Except.pure] at he
    cases e2 : arun eqv sh a1 cs with
    | error f => rw [e2] at he; cases he
    | ok r =>
    obtain ⟨a2, o2⟩ := r
    rw [e2] at he
    simp only [Except.ok.injEq, Prod.mk.injEq] at he
    obtain ⟨rfl, rfl⟩ := he
    rcases ih a1 a2 o2 d' e2 hd with ⟨h1, h2, h3⟩ | ⟨d1, h1, h2, h3⟩
    · -- created later
      have hn : a.dists[h]? = none := by
        rw [List.getElem?_eq_none_iff] at h1 ⊢
        refine Nat.le_trans ?_ h1
        -- no call shortens the list
        cases c <;> simp only [acall] at e1
        case create => cases e1; simp
        case print r =>
          cases g : alive a.reports r with
          | error f => rw [g] at e1; cases e1
          | ok s => rw [g] at e1; cases e1; exact Nat.le_refl _
        case drop r =>
          cases g : alive a.reports r with
          | error f => rw [g] at e1; cases e1
          | ok s => rw [g] at e1; cases e1; exact Nat.le_refl _
        case solve h' =>
          cases g : alive a.dists h' with
          | error f => rw [g] at e1; cases e1
          | ok s =>
            rw [g] at e1
            simp only [bind, Except.bind] at e1
            cases g2 : Diff.solve ⟨s.u, s.v, eqv⟩ with
            | error f => rw [g2] at e1; cases e1
            | ok x => rw [g2] at e1; cases e1; simp
        case addU h' x =>
          cases g : alive a.dists h' with
          | error f => rw [g] at e1; cases e1
          | ok s => rw [g] at e1; cases e1; simp
        case addV h' x =>
          cases g : alive a.dists h' with
          | error f => rw [g] at e1; cases e1
          | ok s => rw [g] at e1; cases e1; simp
        all_goals
          rename_i h'
          cases g : alive a.dists h' with
          | error f => rw [g] at e1; cases e1
          | ok s => rw [g] at e1; cases e1; simp
      have hc : addedU h [] [c] = ([] : List α) ∧ addedV h [] [c] = ([] : List α) := by
        have dead : ∀ h' (f : ADist α → Res (Abs α × Out)), (alive a.dists h' >>= f) = .ok (a1, o1) → h' ≠ h := by
          intro h' f e hh
          subst hh
          simp only [alive, hn] at e
          cases e
        cases c with
        | addU h' x => simp only [acall] at e1; have := dead _ _ e1; simp [addedU, addedV, this]
        | addV h' x => simp only [acall] at e1; have := dead _ _ e1; simp [addedU, addedV, this]
        | clear h' => simp [addedU, addedV]
        | _ => exact ⟨rfl, rfl⟩
      refine Or.inl ⟨hn, ?_, ?_⟩
      · rw [addedU_cons, hc.1]; exact h2
      · rw [addedV_cons, hc.2]; exact h3
    · rcases acall_added eqv sh e1 h h1 with ⟨g1, g2, g3⟩ | ⟨d, g1, g2, g3⟩
      · exact Or.inl ⟨g1, by rw [addedU_cons, g2]; exact h2, by rw [addedV_cons, g3]; exact h3⟩
      · exact Or.inr ⟨d, g1, by rw [addedU_cons, g2]; exact h2, by rw [addedV_cons, g3]; exact h3⟩

theorem arun_append (eqv : α → α → Bool) (sh : Show α) : ∀ (cs cs' : List (Call α)) (a a1 a2 : Abs α) (o1 o2 : List Out),
    arun eqv sh a cs = .ok (a1, o1) → arun eqv sh a1 cs' = .ok (a2, o2) → arun eqv sh a (cs ++ cs') = .ok (a2, o1 ++ o2) := by
  intro cs
  induction cs with
  | nil =>
    intro cs' a a1 a2 o1 o2 h1 h2
    simp only [arun, Except.ok.injEq, Prod.mk.injEq] at h1
    obtain ⟨rfl, rfl⟩ := h1
    exact h2
  | cons c cs ih =>
    intro cs' a a1 a2 o1 o2 h1 h2
    simp only [arun] at h1
    cases e1 : acall eqv sh a c with
    | error f => rw [e1] at h1; cases h1
    | ok r =>
    rw [e1] at h1
    simp only [bind, Except.bind, pure, Except.pure] at h1
    cases e2 : arun eqv sh r.1 cs with
    | error f => rw [e2] at h1; cases h1
    | ok s =>
    obtain ⟨s1, s2⟩ := s
    rw [e2] at h1
    simp only [Except.ok.injEq, Prod.mk.injEq] at h1
    obtain ⟨rfl, rfl⟩ := h1
    simp only [List.cons_append, arun, e1, bind, Except.bind, pure, Except.pure]
    rw [ih cs' r.1 s1 a2 s2 o2 e2 h2]

/-- After any history, `solve` compares what was added since the last `clear`, and `distance` is its edit distance. -/
theorem solve_current (eqv : α → α → Bool) (hs : ∀ a b, eqv a b = eqv b a) (sh : Show α) (cs : List (Call α)) (a : Abs α) (o : List Out)
    (h : arun eqv sh Abs.init cs = .ok (a, o)) (j : Nat) (hj : ∃ d, a.dists[j]? = some (some d)) :
    ∃ w d, run eqv sh World.init (cs ++ [.solve j, .distance j]) = .ok (w, o ++ [.nothing, .number d]) ∧
      IsDistance eqv (addedU j [] cs) (addedV j [] cs) d := by
  obtain ⟨c, hc⟩ := hj
  have hadd : addedU j [] cs = c.u ∧ addedV j [] cs = c.v := by
    rcases arun_added eqv sh j cs Abs.init a o c h hc with ⟨-, h1, h2⟩ | ⟨d, h1, -, -⟩
    · exact ⟨h1, h2⟩
    · simp [Abs.init] at h1
  rw [hadd.1, hadd.2]
  obtain ⟨n, s, e, hd⟩ := Diff.Props.distance_minimal eqv hs c.u c.v
  have hl : j < a.dists.length := (List.getElem?_eq_some_iff.1 hc).1
  have h2 : ∃ a2, arun eqv sh a [.solve j, .distance j] = .ok (a2, [.nothing, .number n]) := by
    simp only [arun, acall, alive_of hc, bind, Except.bind, pure, Except.pure, e]
    have : alive (a.dists.set j (some { c with distance := n })) j = .ok { c with distance := n } :=
      alive_of (List.getElem?_set_self hl)
    rw [this]
    exact ⟨_, rfl⟩
  obtain ⟨a2, h2⟩ := h2
  obtain ⟨w, g, -⟩ := diff_safe eqv sh _ a2 _ (arun_append eqv sh cs _ Abs.init a a2 o _ h h2)
  exact ⟨w, n, g, hd⟩

/-! ### The report -/

theorem entry_of (sh : Show α) (c : Ctx α) (a b : Nat) (op : Spec.Op)
    (hu : op ≠ .insert → ∃ x, c.u[a]? = some x) (hv : op ≠ .delete → ∃ x, c.v[b]? = some x)
    (hi : op = .insert → ¬ a ≤ b + 1 → ∃ x, c.u[a - 1]? = some x) (hd : op = .delete → a + 1 ≤ b → ∃ x, c.v[b - 1]? = some x) :
    Entry op (printStep sh (reportOp c a b op)) := by
  cases op with
  | keep => rfl
  | insert =>
    obtain ⟨y, hy⟩ := hv (by decide)
    simp only [reportOp]
    split
    · rw [hy]; exact ⟨_, rfl⟩
    · rename_i hh
      obtain ⟨x, hx⟩ := hi rfl hh
      rw [hx]; exact ⟨_, rfl⟩
  | delete =>
    obtain ⟨x, hx⟩ := hu (by decide)
    simp only [reportOp]
    split
    · rename_i hh
      obtain ⟨y, hy⟩ := hd rfl hh
      rw [hy]; exact ⟨_, rfl⟩
    · rw [hx]; exact ⟨_, rfl⟩
  | replace =>
    obtain ⟨x, hx⟩ := hu (by decide)
    obtain ⟨y, hy⟩ := hv (by decide)
    simp only [reportOp]
    split
    · rw [hx, hy]
      simp only [printStep]
      split
      · exact ⟨_, _, Or.inr (by simp only [List.append_assoc]; rfl)⟩
      · exact ⟨_, _, Or.inl rfl⟩
    · rw [hx, hy]
      simp only [printStep]
      split
      · exact ⟨_, _, Or.inr (by simp only [List.append_assoc]; rfl)⟩
      · exact ⟨_, _, Or.inl rfl⟩

theorem report_parts (sh : Show α) (c : Ctx α) {u v : List α} {s : List Spec.Op} (h : Script c.eqv u v s) :
    ∀ a b, c.u.drop a = u → c.v.drop b = v → a ≤ c.u.length → b ≤ c.v.length →
    ∃ parts, (report c s a b).flatMap (printStep sh) = parts.flatten ∧ List.Forall₂ Entry (s.filter (fun o => o != .keep)) parts := by
  have hd : ∀ {l : List α} {n : Nat} {x : α} {r : List α}, l.drop n = x :: r → l[n]? = some x ∧ l.drop (n + 1) = r ∧ n + 1 ≤ l.length := by
    intro l n x r e
    refine ⟨?_, ?_, ?_⟩
    · rw [← List.head?_drop, e]; rfl
    · rw [← List.drop_drop, e]; rfl
    · have : (l.drop n).length = r.length + 1 := by rw [e]; rfl
      rw [List.length_drop] at this
      omega
  induction h with
  | done => intro a b _ _ _ _; exact ⟨[], rfl, List.Forall₂.nil⟩
  | keep e _ ih =>
    intro a b ha hb la lb
    obtain ⟨a1, a2, a3⟩ := hd ha
    obtain ⟨b1, b2, b3⟩ := hd hb
    obtain ⟨parts, p1, p2⟩ := ih (a + 1) (b + 1) a2 b2 a3 b3
    refine ⟨parts, ?_, p2⟩
    simp only [report, List.flatMap_cons, incU, incV, p1]
    rfl
  | replace _ ih =>
    intro a b ha hb la lb
    obtain ⟨a1, a2, a3⟩ := hd ha
    obtain ⟨b1, b2, b3⟩ := hd hb
    obtain ⟨parts, p1, p2⟩ := ih (a + 1) (b + 1) a2 b2 a3 b3
    refine ⟨printStep sh (reportOp c a b .replace) :: parts, ?_, List.Forall₂.cons ?_ p2⟩
    · simp only [report, List.flatMap_cons, incU, incV, p1, List.flatten_cons]
    · exact entry_of sh c a b _ (fun _ => ⟨_, a1⟩) (fun _ => ⟨_, b1⟩) (by intro h; cases h) (by intro h; cases h)
  | insert _ ih =>
    intro a b ha hb la lb
    obtain ⟨b1, b2, b3⟩ := hd hb
    obtain ⟨parts, p1, p2⟩ := ih a (b + 1) ha b2 la b3
    refine ⟨printStep sh (reportOp c a b .insert) :: parts, ?_, List.Forall₂.cons ?_ p2⟩
    · simp only [report, List.flatMap_cons, incU, incV, p1, List.flatten_cons, Nat.add_zero]
    · exact entry_of sh c a b _ (by intro h; exact absurd rfl h) (fun _ => ⟨_, b1⟩)
        (fun _ h => ⟨_, List.getElem?_eq_getElem (by omega)⟩) (by intro h; cases h)
  | delete _ ih =>
    intro a b ha hb la lb
    obtain ⟨a1, a2, a3⟩ := hd ha
    obtain ⟨parts, p1, p2⟩ := ih (a + 1) b a2 hb a3 lb
    refine ⟨printStep sh (reportOp c a b .delete) :: parts, ?_, List.Forall₂.cons ?_ p2⟩
    · simp only [report, List.flatMap_cons, incU, incV, p1, List.flatten_cons, Nat.add_zero]
    · exact entry_of sh c a b _ (fun _ => ⟨_, a1⟩) (by intro h; exact absurd rfl h)
        (by intro h; cases h) (fun _ h => ⟨_, List.getElem?_eq_getElem (by omega)⟩)

theorem forall2_length {β γ : Type} {R : β → γ → Prop} {l : List β} {m : List γ} (h : List.Forall₂ R l m) : l.length = m.length := by
  induction h with
  | nil => rfl
  | cons _ _ ih => simp [ih]

/-- `print` prints one entry for every change of a shortest script, in its order: `A` for an insertion, `D` for a deletion, `M` or
`R` for a replacement; nothing else, in particular no `<nullptr_PROBLEM>`.  (The names are those of C38.) -/
theorem report_entries (eqv : α → α → Bool) (hs : ∀ a b, eqv a b = eqv b a) (sh : Show α) (u v : List α) :
    ∃ d steps s parts, Diff.solve ⟨u, v, eqv⟩ = .ok (d, steps) ∧ Script eqv u v s ∧ cost s = d ∧
      steps.flatMap (printStep sh) = parts.flatten ∧ parts.length = d ∧ List.Forall₂ Entry (s.filter (fun o => o != .keep)) parts := by
  obtain ⟨s, h1, h2, h3⟩ := solve_ok (c := ⟨u, v, eqv⟩) hs
  obtain ⟨parts, p1, p2⟩ := report_parts sh ⟨u, v, eqv⟩ h1 0 0 rfl rfl (Nat.zero_le _) (Nat.zero_le _)
  refine ⟨_, _, s, parts, h3, h1, h2, ?_, ?_, p2⟩
  · simp only [List.flatMap_cons, p1]
    rfl
  · rw [← forall2_length p2, ← h2]; rfl

/-- the same seen by the client: whatever happened before, and whatever happens to the DiffDistance between `solve` and `print` -/
theorem print_after (eqv : α → α → Bool) (hs : ∀ a b, eqv a b = eqv b a) (sh : Show α) (cs : List (Call α)) (a : Abs α) (o : List Out)
    (h : arun eqv sh Abs.init cs = .ok (a, o)) (j : Nat) (hj : ∃ d, a.dists[j]? = some (some d)) (last : Call α)
    (hl : last = .distance j ∨ last = .clear j ∨ last = .destroy j) :
    ∃ w x d s parts, run eqv sh World.init (cs ++ [.solve j, last, .print a.reports.length]) = .ok (w, o ++ [.nothing, x, .text parts.flatten]) ∧
      IsDistance eqv (addedU j [] cs) (addedV j [] cs) d ∧ Script eqv (addedU j [] cs) (addedV j [] cs) s ∧ cost s = d ∧
      parts.length = d ∧ List.Forall₂ Entry (s.filter (fun o => o != .keep)) parts := by
  obtain ⟨c, hc⟩ := hj
  have hadd : addedU j [] cs = c.u ∧ addedV j [] cs = c.v := by
    rcases arun_added eqv sh j cs Abs.init a o c h hc with ⟨-, h1, h2⟩ | ⟨d, h1, -, -⟩
    · exact ⟨h1, h2⟩
    · simp [Abs.init] at h1
  rw [hadd.1, hadd.2]
  obtain ⟨n, st, s, parts, e, h1, h2, h3, h4, h5⟩ := report_entries eqv hs sh c.u c.v
  obtain ⟨n', st', e', hd⟩ := Diff.Props.distance_minimal eqv hs c.u c.v
  rw [e] at e'
  simp only [Except.ok.injEq, Prod.mk.injEq] at e'
  obtain ⟨rfl, rfl⟩ := e'
  have hlt : j < a.dists.length := (List.getElem?_eq_some_iff.1 hc).1
  have al : alive (a.dists.set j (some { c with distance := n })) j = .ok { c with distance := n } :=
    alive_of (List.getElem?_set_self hlt)
  have ar : alive (a.reports ++ [some st]) a.reports.length = .ok st := alive_of (by simp)
  have h6 : ∃ a2 x, arun eqv sh a [.solve j, last, .print a.reports.length] = .ok (a2, [.nothing, x, .text (st.flatMap (printStep sh))]) := by
    rcases hl with rfl | rfl | rfl
    all_goals
      simp only [arun, acall, alive_of hc, bind, Except.bind, pure, Except.pure, e]
      rw [al]
      simp only
      rw [ar]
      exact ⟨_, _, rfl⟩
  obtain ⟨a2, x, h6⟩ := h6
  obtain ⟨w, g, -⟩ := diff_safe eqv sh _ a2 _ (arun_append eqv sh cs _ Abs.init a a2 o _ h h6)
  rw [h3] at g
  exact ⟨w, x, n, s, parts, g, hd, h1, h2, h4, h5⟩

/-! ### What is wrong -/

/-- a diagonal that nobody can free any more -/
def Leaked (w : World α) (q : Nat) : Prop :=
  (∃ x, w.diags[q]? = some (some x)) ∧ ∀ (h : Nat) (d : DD α), w.dists[h]? = some (some d) → d.diagonal ≠ some q

theorem Leaked.keep {w w' : World α} {q : Nat} (h : Leaked w q) (h1 : w'.diags[q]? = w.diags[q]?)
    (h2 : ∀ (j : Nat) (d : DD α), w'.dists[j]? = some (some d) → d.diagonal = some q → ∃ (j' : Nat) (d' : DD α), w.dists[j']? = some (some d') ∧ d'.diagonal = some q) :
    Leaked w' q := by
  obtain ⟨x, hx⟩ := h.1
  refine ⟨⟨x, by rw [h1, hx]⟩, fun j d hd hq => ?_⟩
  obtain ⟨j', d', e1, e2⟩ := h2 j d hd hq
  exact h.2 j' d' e1 e2

theorem set_diag {l : Heap (DD α)} {h j : Nat} {c : DD α} {x : Option (DD α)} {d : DD α} {q : Nat} (e : l[h]? = some (some c))
    (hx : ∀ y, x = some y → y.diagonal = none ∨ y.diagonal = c.diagonal) (hd : (l.set h x)[j]? = some (some d)) (hq : d.diagonal = some q) :
    ∃ (j' : Nat) (d' : DD α), l[j']? = some (some d') ∧ d'.diagonal = some q := by
  by_cases hj : j = h
  · subst hj
    rw [List.getElem?_set_self (Heap.lt_of_live e)] at hd
    simp only [Option.some.injEq] at hd
    rcases hx d hd with h1 | h1
    · rw [h1] at hq; cases hq
    · exact ⟨j, c, e, by rw [← h1]; exact hq⟩
  · rw [List.getElem?_set_ne (Ne.symm hj)] at hd
    exact ⟨j, d, hd, hq⟩

theorem leaked_call (eqv : α → α → Bool) (sh : Show α) {w : World α} {a : Abs α} {own : List (List Nat)} (hi : Inv w a own) {c : Call α}
    {a' : Abs α} {o : Out} (he : acall eqv sh a c = .ok (a', o)) {q : Nat} (hq : Leaked w q) :
    ∃ w' own', call eqv sh w c = .ok (w', o) ∧ Inv w' a' own' ∧ Leaked w' q := by
  obtain ⟨w', own', g, i'⟩ := call_ok eqv sh hi he
  refine ⟨w', own', g, i', ?_⟩
  obtain ⟨x, hx⟩ := hq.1
  cases c with
  | create =>
    simp only [call, Except.ok.injEq, Prod.mk.injEq] at g
    obtain ⟨rfl, -⟩ := g
    refine hq.keep rfl ?_
    intro j d hd hdq
    simp only [Heap.alloc] at hd
    by_cases hj : j < w.dists.length
    · rw [List.getElem?_append_left hj] at hd
      exact ⟨j, d, hd, hdq⟩
    · rw [List.getElem?_append_right (by omega), List.getElem?_singleton] at hd
      split at hd
      · cases hd; cases hdq
      · cases hd
  | addU h y =>
    simp only [acall] at he
    cases e1 : alive a.dists h with
    | error f => rw [e1] at he; cases he
    | ok d =>
    obtain ⟨c, hc, -⟩ := hi.dist (alive_ok e1)
    simp only [call] at g
    rw [Heap.load_ok hc] at g
    simp only [bind, Except.bind, pure, Except.pure] at g
    rw [Heap.store_ok hc] at g
    simp only [Except.ok.injEq, Prod.mk.injEq] at g
    obtain ⟨rfl, -⟩ := g
    exact hq.keep rfl fun j d hd hdq => set_diag hc (by intro y hy; cases hy; exact Or.inr rfl) hd hdq
  | addV h y =>
    simp only [acall] at he
    cases e1 : alive a.dists h with
    | error f => rw [e1] at he; cases he
    | ok d =>
    obtain ⟨c, hc, -⟩ := hi.dist (alive_ok e1)
    simp only [call] at g
    rw [Heap.load_ok hc] at g
    simp only [bind, Except.bind, pure, Except.pure] at g
    rw [Heap.store_ok hc] at g
    simp only [Except.ok.injEq, Prod.mk.injEq] at g
    obtain ⟨rfl, -⟩ := g
    exact hq.keep rfl fun j d hd hdq => set_diag hc (by intro y hy; cases hy; exact Or.inr rfl) hd hdq
  | solve h =>
    simp only [acall] at he
    cases e1 : alive a.dists h with
    | error f => rw [e1] at he; cases he
    | ok d =>
    rw [e1] at he
    simp only [bind, Except.bind, pure, Except.pure] at he
    obtain ⟨c, hc, rfl⟩ := hi.dist (alive_ok e1)
    cases e2 : Diff.solve ⟨(absD c).u, (absD c).v, eqv⟩ with
    | error f => rw [e2] at he; cases he
    | ok s =>
    obtain ⟨n, s⟩ := s
    obtain ⟨w1, own1, g1, -, f1, c', p, f2, f3, f4, -⟩ := solveH_ok eqv hi hc e2
    simp only [call] at g
    rw [g1] at g
    simp only [bind, Except.bind, pure, Except.pure, Except.ok.injEq, Prod.mk.injEq] at g
    obtain ⟨rfl, -⟩ := g
    have hql := Heap.lt_of_live hx
    refine hq.keep (f1 q hql) ?_
    intro j d hd hdq
    rw [f2] at hd
    by_cases hj : j = h
    · subst hj
      rw [List.getElem?_set_self (Heap.lt_of_live hc)] at hd
      simp only [Option.some.injEq] at hd
      subst hd
      rw [f3] at hdq
      cases hdq
      omega
    · rw [List.getElem?_set_ne (Ne.symm hj)] at hd
      exact ⟨j, d, hd, hdq⟩
  | distance h =>
    simp only [acall] at he
    cases e1 : alive a.dists h with
    | error f => rw [e1] at he; cases he
    | ok d =>
    obtain ⟨c, hc, -⟩ := hi.dist (alive_ok e1)
    simp only [call] at g
    rw [Heap.load_ok hc] at g
    simp only [bind, Except.bind, pure, Except.pure, Except.ok.injEq, Prod.mk.injEq] at g
    obtain ⟨rfl, -⟩ := g
    exact hq
  | clear h =>
    simp only [acall] at he
    cases e1 : alive a.dists h with
    | error f => rw [e1] at he; cases he
    | ok d =>
    obtain ⟨c, hc, -⟩ := hi.dist (alive_ok e1)
    obtain ⟨w1, g1, -, f1, -, -, f2⟩ := clearH_ok hi hc
    simp only [call] at g
    rw [g1] at g
    simp only [bind, Except.bind, pure, Except.pure, Except.ok.injEq, Prod.mk.injEq] at g
    obtain ⟨rfl, -⟩ := g
    refine hq.keep (f2 q (hq.2 h c hc)) fun j d hd hdq => ?_
    rw [f1] at hd
    exact set_diag hc (by intro y hy; cases hy; exact Or.inl rfl) hd hdq
  | destroy h =>
    simp only [acall] at he
    cases e1 : alive a.dists h with
    | error f => rw [e1] at he; cases he
    | ok d =>
    obtain ⟨c, hc, -⟩ := hi.dist (alive_ok e1)
    obtain ⟨w1, g1, -, f1, f2⟩ := deleteDist_ok hi hc
    simp only [call] at g
    rw [g1] at g
    simp only [bind, Except.bind, pure, Except.pure, Except.ok.injEq, Prod.mk.injEq] at g
    obtain ⟨rfl, -⟩ := g
    refine hq.keep (f2 q (hq.2 h c hc)) fun j d hd hdq => ?_
    rw [f1] at hd
    exact set_diag hc (by intro y hy; cases hy) hd hdq
  | print r =>
    simp only [call] at g
    cases e1 : held w.reports r with
    | error f => rw [e1] at g; cases g
    | ok p =>
    rw [e1] at g
    simp only [bind, Except.bind, pure, Except.pure] at g
    cases e2 : printFrom sh (w.steps.length + 1) w.steps p with
    | error f => rw [e2] at g; cases g
    | ok l =>
    rw [e2] at g
    simp only [Except.ok.injEq, Prod.mk.injEq] at g
    obtain ⟨rfl, -⟩ := g
    exact hq
  | drop r =>
    simp only [call] at g
    cases e1 : held w.reports r with
    | error f => rw [e1] at g; cases g
    | ok p =>
    rw [e1] at g
    simp only [bind, Except.bind, pure, Except.pure] at g
    cases e2 : deleteStep (w.steps.length + 1) w.steps p with
    | error f => rw [e2] at g; cases g
    | ok l =>
    rw [e2] at g
    simp only [Except.ok.injEq, Prod.mk.injEq] at g
    obtain ⟨rfl, -⟩ := g
    exact hq.keep rfl fun j d hd hdq => ⟨j, d, hd, hdq⟩

theorem leaked_run (eqv : α → α → Bool) (sh : Show α) {q : Nat} : ∀ (cs : List (Call α)) (w : World α) (a : Abs α) (own : List (List Nat)) (a' : Abs α) (o : List Out),
    Inv w a own → Leaked w q → arun eqv sh a cs = .ok (a', o) → ∃ w', run eqv sh w cs = .ok (w', o) ∧ Leaked w' q := by
  intro cs
  induction cs with
  | nil =>
    intro w a own a' o hi hq he
    simp only [arun, Except.ok.injEq, Prod.mk.injEq] at he
    obtain ⟨rfl, rfl⟩ := he
    exact ⟨w, rfl, hq⟩
  | cons c cs ih =>
    intro w a own a' o hi hq he
    simp only [arun] at he
    cases e1 : acall eqv sh a c with
    | error f => rw [e1] at he; cases he
    | ok r =>
    obtain ⟨a1, o1⟩ := r
    rw [e1] at he
    simp only [bind, Except.bind, pure, Except.pure] at he
    cases e2 : arun eqv sh a1 cs with
    | error f => rw [e2] at he; cases he
    | ok r =>
    obtain ⟨a2, o2⟩ := r
    rw [e2] at he
    simp only [Except.ok.injEq, Prod.mk.injEq] at he
    obtain ⟨rfl, rfl⟩ := he
    obtain ⟨w1, own1, g1, i1, q1⟩ := leaked_call eqv sh hi e1 hq
    obtain ⟨w2, g2, q2⟩ := ih w1 a1 own1 a2 o2 i1 q1 e2
    refine ⟨w2, ?_, q2⟩
    simp only [run, bind, Except.bind, pure, Except.pure]
    rw [g1]
    simp only
    rw [g2]

theorem run_append (eqv : α → α → Bool) (sh : Show α) : ∀ (cs cs' : List (Call α)) (w w1 w2 : World α) (o1 o2 : List Out),
    run eqv sh w cs = .ok (w1, o1) → run eqv sh w1 cs' = .ok (w2, o2) → run eqv sh w (cs ++ cs') = .ok (w2, o1 ++ o2) := by
  intro cs
  induction cs with
  | nil =>
    intro cs' a a1 a2 o1 o2 h1 h2
    simp only [run, Except.ok.injEq, Prod.mk.injEq] at h1
    obtain ⟨rfl, rfl⟩ := h1
    exact h2
  | cons c cs ih =>
    intro cs' a a1 a2 o1 o2 h1 h2
    simp only [run] at h1
    cases e1 : call eqv sh a c with
    | error f => rw [e1] at h1; cases h1
    | ok r =>
    rw [e1] at h1
    simp only [bind, Except.bind, pure, Except.pure] at h1
    cases e2 : run eqv sh r.1 cs with
    | error f => rw [e2] at h1; cases h1
    | ok s =>
    obtain ⟨s1, s2⟩ := s
    rw [e2] at h1
    simp only [Except.ok.injEq, Prod.mk.injEq] at h1
    obtain ⟨rfl, rfl⟩ := h1
    simp only [List.cons_append, run, e1, bind, Except.bind, pure, Except.pure]
    rw [ih cs' r.1 s1 a2 s2 o2 e2 h2]

/-- Memory leaks: once `solve` has compared lists of different lengths, no further calls, not even destroying everything, free
all diagonals. -/
theorem diagonals_leak (eqv : α → α → Bool) (sh : Show α) (cs cs' : List (Call α)) (a a' : Abs α) (o o' : List Out) (j : Nat) (d : ADist α)
    (h : arun eqv sh Abs.init cs = .ok (a, o)) (hd : a.dists[j]? = some (some d)) (hl : d.u.length ≠ d.v.length)
    (h' : arun eqv sh a (.solve j :: cs') = .ok (a', o')) :
    ∃ w, run eqv sh World.init (cs ++ .solve j :: cs') = .ok (w, o ++ o') ∧ ¬ w.diags.AllFreed := by
  obtain ⟨w1, own1, g1, i1⟩ := run_ok eqv sh cs World.init Abs.init [] a o inv_init h
  obtain ⟨c, hc, rfl⟩ := i1.dist hd
  simp only [arun] at h'
  cases e1 : acall eqv sh a (.solve j) with
  | error f => rw [e1] at h'; cases h'
  | ok r =>
  obtain ⟨a1, o1⟩ := r
  rw [e1] at h'
  simp only [bind, Except.bind, pure, Except.pure] at h'
  cases e2 : arun eqv sh a1 cs' with
  | error f => rw [e2] at h'; cases h'
  | ok r =>
  obtain ⟨a2, o2⟩ := r
  rw [e2] at h'
  simp only [Except.ok.injEq, Prod.mk.injEq] at h'
  obtain ⟨rfl, rfl⟩ := h'
  simp only [acall] at e1
  rw [alive_of hd] at e1
  simp only [bind, Except.bind, pure, Except.pure] at e1
  cases e3 : Diff.solve ⟨(absD c).u, (absD c).v, eqv⟩ with
  | error f => rw [e3] at e1; cases e1
  | ok s =>
  obtain ⟨n, s⟩ := s
  rw [e3] at e1
  simp only [Except.ok.injEq, Prod.mk.injEq] at e1
  obtain ⟨rfl, rfl⟩ := e1
  obtain ⟨w2, own2, g2, i2, f1, c', p, f2, f3, f4, f5⟩ := solveH_ok eqv i1 hc e3
  obtain ⟨q, q1, q2, q3⟩ := f5 hl
  have hq : Leaked w2 q := by
    refine ⟨q3, ?_⟩
    intro j' d' hd' hdq
    rw [f2] at hd'
    by_cases hj : j' = j
    · subst hj
      rw [List.getElem?_set_self (Heap.lt_of_live hc)] at hd'
      simp only [Option.some.injEq] at hd'
      subst hd'
      rw [f3] at hdq
      cases hdq
      exact q2 rfl
    · rw [List.getElem?_set_ne (Ne.symm hj)] at hd'
      obtain ⟨x, hx⟩ := i1.diag j' d' q hd' hdq
      have := Heap.lt_of_live hx
      omega
  obtain ⟨w3, g3, q4⟩ := leaked_run eqv sh cs' w2 _ own2 a2 o2 i2 hq e2
  refine ⟨w3, run_append eqv sh cs _ World.init w1 w3 o _ g1 ?_, ?_⟩
  · simp only [run, call, bind, Except.bind, pure, Except.pure]
    rw [g2]
    simp only
    rw [g3]
  · intro hall
    obtain ⟨x, hx⟩ := q4.1
    have := hall _ (List.mem_of_getElem? hx)
    cases this

def plain : Show Nat := ⟨fun _ => [], fun _ => 0, fun _ _ => []⟩

/-- A result must not be copied: the copy shares all steps but the first, and destroying both frees them twice. -/
theorem copy_freed_twice : ∃ (w w1 w2 : World Nat) (o : List Out),
    run (fun a b => a == b) plain World.init [.create, .addU 0 1, .solve 0] = .ok (w, o) ∧ copyReport w 0 = .ok w1 ∧
    call (fun a b => a == b) plain w1 (.drop 1) = .ok (w2, .nothing) ∧ call (fun a b => a == b) plain w2 (.drop 0) = .error .ub :=
  ⟨_, _, _, _, rfl, rfl, rfl, rfl⟩

/-! ### The theorems apply -/

private def history : List (Call Nat) :=
  [.create, .addU 0 1, .addU 0 2, .addV 0 2, .solve 0, .create, .addU 1 7, .clear 0, .addU 0 3, .addV 0 4, .addV 0 5, .solve 0, .distance 0, .destroy 1]

example : ∃ a o, arun (fun a b => a == b) plain Abs.init history = .ok (a, o) ∧ a.dists[0]? = some (some ⟨[3], [4, 5], 2⟩) ∧ a.reports.length = 2 :=
  ⟨_, _, rfl, rfl, rfl⟩

example : addedU 0 [] history = [3] ∧ addedV 0 [] history = [4, 5] := ⟨rfl, rfl⟩

example := solve_current (fun a b : Nat => a == b) (fun _ _ => BEq.comm) plain history _ _ rfl 0 ⟨_, rfl⟩

example := diagonals_leak (fun a b : Nat => a == b) plain history [.destroy 0, .drop 0, .drop 1, .drop 2] _ _ _ _ 0 ⟨[3], [4, 5], 2⟩ rfl rfl (by decide) rfl

/-- the report of a concrete comparison -/
example : (Diff.solve ⟨["a", "b", "c"], ["a", "x", "c", "d"], fun a b => a == b⟩).map (fun r => r.2.flatMap (printStep ⟨String.toList, fun _ => 0, fun _ _ => []⟩)) =
    .ok ["M b".toList, "A d".toList] := rfl

end Verif.DiffMem
