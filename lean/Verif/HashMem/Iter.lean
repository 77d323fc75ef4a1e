import Verif.HashMem.Grow
import Verif.HashMem.Spec
/-
Iterators.
-/
set_option linter.unusedSectionVars false
namespace Verif.HashMem
open Verif
open Verif.Hashtable (Entry Table bucket hit replaceIn unlink findIn bucket_lt)

variable {K : Type} [DecidableEq K]

/-- The iterator stands before `rest`, the end of the chain before `index`. -/
structure At (L : List (Chain K)) (it : It) (rest : Chain K) : Prop where
  entry : it.entry = hd rest
  place : rest ≠ [] → ∃ i pre, it.index = i + 1 ∧ L[i]? = some (pre ++ rest)

/-- what is still to be delivered -/
def pend (L : List (Chain K)) (it : It) (rest : Chain K) : Chain K := rest ++ (L.drop it.index).flatten

theorem hd_none {c : Chain K} : hd c = none ↔ c = [] := by cases c <;> simp [hd, hdOr]

theorem skip_ok {m : Mem K} {t : Tab} {L : List (Chain K)} (r : Rep m t L) : ∀ (d : Nat) (it : It) (rest : Chain K), t.arrLength - it.index ≤ d →
    At L it rest → ∃ it' rest', skip m t it = .ok it' ∧ At L it' rest' ∧ pend L it' rest' = pend L it rest ∧
      (rest' = [] → pend L it rest = []) ∧ it'.retKey = it.retKey := by
  intro d
  induction d with
  | zero =>
    intro it rest hd' a
    have hge : t.arrLength ≤ it.index := by omega
    refine ⟨it, rest, ?_, a, rfl, ?_, rfl⟩
    · rw [skip_eq, if_neg (by omega)]
    · rintro rfl
      simp only [pend, List.nil_append]
      rw [List.drop_eq_nil_of_le (by rw [r.len]; exact hge)]; rfl
  | succ d ih =>
    intro it rest hd' a
    by_cases h : it.entry = none ∧ it.index < t.arrLength
    · have hr : rest = [] := hd_none.1 (a.entry ▸ h.1)
      subst hr
      obtain ⟨c, hc⟩ : ∃ c, L[it.index]? = some c := ⟨_, List.getElem?_eq_getElem (by rw [r.len]; exact h.2)⟩
      have a' : At L { it with entry := hd c, index := it.index + 1 } c := ⟨rfl, fun _ => ⟨it.index, [], rfl, by simpa using hc⟩⟩
      obtain ⟨it', rest', e, a2, hp, hn, hk⟩ := ih { it with entry := hd c, index := it.index + 1 } c (by show t.arrLength - (it.index + 1) ≤ d; omega) a'
      have hq : pend L { it with entry := hd c, index := it.index + 1 } c = pend L it [] := by
        simp only [pend, List.nil_append]
        obtain ⟨hl, rfl⟩ := List.getElem?_eq_some_iff.1 hc
        rw [List.drop_eq_getElem_cons hl]; rfl
      refine ⟨it', rest', ?_, a2, hp.trans hq, fun h => hq ▸ hn h, hk⟩
      rw [skip_eq, if_pos h]
      simp only [Heap.load_ok r.arr, rd_map hd hc, bind, Except.bind]
      exact e
    · refine ⟨it, rest, by rw [skip_eq, if_neg h], a, rfl, ?_, rfl⟩
      rintro rfl
      have h1 : it.entry = none := a.entry
      have hge : t.arrLength ≤ it.index := by
        by_cases hh : it.index < t.arrLength
        · exact absurd ⟨h1, hh⟩ h
        · omega
      simp only [pend, List.nil_append]
      rw [List.drop_eq_nil_of_le (by rw [r.len]; exact hge)]; rfl

/-- a chain's rest is in memory -/
theorem At.seg {m : Mem K} {t : Tab} {L : List (Chain K)} (r : Rep m t L) {it : It} {rest : Chain K} (a : At L it rest) :
    Seg m.nodes rest none := by
  by_cases h : rest = []
  · subst h; trivial
  · obtain ⟨i, pre, _, hi⟩ := a.place h
    exact (Seg_append.1 (r.own.ch _ (List.mem_of_getElem? hi))).2

theorem next_ok {m : Mem K} {t : Tab} {L : List (Chain K)} (r : Rep m t L) {it : It} {rest : Chain K} (a : At L it rest) :
    (pend L it rest = [] ∧ ∃ it' rest', next m t it = .ok (it', .null) ∧ At L it' rest' ∧ pend L it' rest' = [] ∧ it'.retKey = it.retKey) ∨
    ∃ p e l q it' rest', pend L it rest = (p, e) :: l ∧ m.nodes[p]? = some (some (nd e q)) ∧
      next m t it = .ok (it', item it.retKey p (nd e q)) ∧ At L it' rest' ∧ pend L it' rest' = l ∧ it'.retKey = it.retKey := by
  obtain ⟨it1, rest1, e1, a1, hp, hn, hk⟩ := skip_ok r _ it rest (Nat.le_refl _) a
  cases rest1 with
  | nil =>
    have h0 := hn rfl
    refine Or.inl ⟨h0, it1, [], ?_, a1, hp.trans h0, hk⟩
    have : it1.entry = none := a1.entry
    simp only [next, e1, bind, Except.bind, this, pure, Except.pure]
  | cons x rest1 =>
    obtain ⟨p, e⟩ := x
    have hs := (a1.seg r).1
    have hent : it1.entry = some p := a1.entry
    refine Or.inr ⟨p, e, rest1 ++ (L.drop it1.index).flatten, hdOr none rest1, { it1 with last := some p, entry := hdOr none rest1 }, rest1, ?_, hs, ?_, ?_, rfl, hk⟩
    · rw [← hp]; rfl
    · simp only [next, e1, bind, Except.bind, hent, Heap.load_ok hs, pure, Except.pure, hk]
      rfl
    · refine ⟨rfl, fun _ => ?_⟩
      obtain ⟨i, pre, h1, h2⟩ := a1.place (by simp)
      exact ⟨i, pre ++ [(p, e)], h1, by simpa using h2⟩

theorem drop_flatten_sub (L : List (Chain K)) (n : Nat) : ((L.drop n).flatten).Sublist L.flatten := by
  conv => rhs; rw [← List.take_append_drop n L, List.flatten_append]
  exact List.sublist_append_right _ _

/-- what is pending is a part of the table, in order -/
theorem At.sub {L : List (Chain K)} {it : It} {rest : Chain K} (a : At L it rest) : (pend L it rest).Sublist L.flatten := by
  by_cases h : rest = []
  · subst h
    exact drop_flatten_sub _ _
  · obtain ⟨i, pre, h1, h2⟩ := a.place h
    obtain ⟨hl, e⟩ := List.getElem?_eq_some_iff.1 h2
    have h3 : ((L.drop i).flatten).Sublist L.flatten := drop_flatten_sub _ _
    rw [List.drop_eq_getElem_cons hl, e, List.flatten_cons, ← h1, List.append_assoc] at h3
    exact (List.sublist_append_right pre _).trans h3

/-! ### Changes of one chain as changes of all -/

theorem other_chain {nodes : Heap (Node K)} {L : List (Chain K)} (o : Own nodes L) {i j : Nat} {c d : Chain K} {p : Nat}
    (hi : L[i]? = some c) (hj : L[j]? = some d) (hij : j ≠ i) (hp : p ∈ c.map Prod.fst) : p ∉ d.map Prod.fst := by
  intro hd'
  have h1 := (o.perm (perm_get hi)).nodup
  rw [adr_cons, List.nodup_append] at h1
  refine h1.2.2 p hp p ?_ rfl
  obtain ⟨y, hy, he⟩ := List.mem_map.1 hd'
  exact List.mem_map.2 ⟨y, List.mem_flatten.2 ⟨d, List.mem_eraseIdx_iff_getElem?.2 ⟨j, hij, hj⟩, hy⟩, he⟩

/-- the entry at `p` gets the value `v` -/
def revalue (p : Nat) (v : Ptr) (x : Nat × Entry K) : Nat × Entry K := if x.1 = p then (x.1, { x.2 with value := v }) else x

theorem revalue_fst (p : Nat) (v : Ptr) (x : Nat × Entry K) : (revalue p v x).1 = x.1 := by
  unfold revalue; split <;> rfl

theorem revalue_key (p : Nat) (v : Ptr) (x : Nat × Entry K) : (revalue p v x).2.key = x.2.key := by
  unfold revalue; split <;> rfl

theorem map_revalue_same {p : Nat} {v : Ptr} {c : Chain K} (h : p ∉ c.map Prod.fst) : c.map (revalue p v) = c := by
  induction c with
  | nil => rfl
  | cons x c ih =>
    simp only [List.map_cons, List.mem_cons, not_or] at h
    rw [List.map_cons, ih h.2, revalue, if_neg (fun e => h.1 e.symm)]

theorem filter_same {p : Nat} {c : Chain K} (h : p ∉ c.map Prod.fst) : c.filter (fun x => decide (x.1 ≠ p)) = c := by
  apply List.filter_eq_self.2
  intro x hx
  exact decide_eq_true (fun e => h (List.mem_map.2 ⟨x, hx, e⟩))

theorem set_revalue {nodes : Heap (Node K)} {L : List (Chain K)} (o : Own nodes L) {i p : Nat} {pre post : Chain K} {e : Entry K} (v : Ptr)
    (hi : L[i]? = some (pre ++ (p, e) :: post)) :
    L.set i (pre ++ (p, { e with value := v }) :: post) = L.map (List.map (revalue p v)) := by
  have hnd := o.chain_nodup (List.mem_of_getElem? hi)
  simp only [List.map_append, List.map_cons] at hnd
  have h2 := (List.perm_middle.nodup_iff).1 hnd
  simp only [List.nodup_cons, List.mem_append, not_or] at h2
  apply List.ext_getElem?
  intro j
  rw [List.getElem?_map]
  by_cases hj : j = i
  · subst hj
    rw [get_set_eq _ (List.getElem?_eq_some_iff.1 hi).1, hi]
    simp only [Option.map_some, List.map_append, List.map_cons, map_revalue_same h2.1.1, map_revalue_same h2.1.2]
    rw [revalue, if_pos rfl]
  · rw [get_set_ne _ hj]
    cases hc : L[j]? with
    | none => rfl
    | some d =>
      rw [Option.map_some, map_revalue_same (other_chain o hi hc hj (by simp))]

theorem set_filter {nodes : Heap (Node K)} {L : List (Chain K)} (o : Own nodes L) {i p : Nat} {pre post : Chain K} {e : Entry K}
    (hi : L[i]? = some (pre ++ (p, e) :: post)) :
    L.set i (pre ++ post) = L.map (List.filter (fun x => decide (x.1 ≠ p))) := by
  have hnd := o.chain_nodup (List.mem_of_getElem? hi)
  simp only [List.map_append, List.map_cons] at hnd
  have h2 := (List.perm_middle.nodup_iff).1 hnd
  simp only [List.nodup_cons, List.mem_append, not_or] at h2
  apply List.ext_getElem?
  intro j
  rw [List.getElem?_map]
  by_cases hj : j = i
  · subst hj
    rw [get_set_eq _ (List.getElem?_eq_some_iff.1 hi).1, hi]
    simp only [Option.map_some, List.filter_append, filter_same h2.1.1]
    rw [List.filter_cons_of_neg (by simp), filter_same h2.1.2]
  · rw [get_set_ne _ hj]
    cases hc : L[j]? with
    | none => rfl
    | some d => rw [Option.map_some, filter_same (other_chain o hi hc hj (by simp))]

theorem hd_map_revalue (p : Nat) (v : Ptr) (c : Chain K) : hd (c.map (revalue p v)) = hd c := by
  cases c with
  | nil => rfl
  | cons x c => simp [hd, hdOr, revalue_fst]

theorem At.revalue {L : List (Chain K)} {it : It} {rest : Chain K} (a : At L it rest) (p : Nat) (v : Ptr) :
    At (L.map (List.map (revalue p v))) it (rest.map (HashMem.revalue p v)) ∧
    pend (L.map (List.map (HashMem.revalue p v))) it (rest.map (HashMem.revalue p v)) = (pend L it rest).map (HashMem.revalue p v) := by
  refine ⟨⟨by rw [hd_map_revalue]; exact a.entry, fun h => ?_⟩, ?_⟩
  · obtain ⟨i, pre, h1, h2⟩ := a.place (by rintro rfl; exact h rfl)
    exact ⟨i, pre.map (HashMem.revalue p v), h1, by simp [h2]⟩
  · simp [pend, List.map_drop, List.map_flatten]

theorem flatten_filter {L : List (Chain K)} {p : Nat} (h : p ∉ (L.flatten).map Prod.fst) :
    (L.map (List.filter (fun x => decide (x.1 ≠ p)))) = L := by
  induction L with
  | nil => rfl
  | cons d L ih =>
    simp only [List.flatten_cons, List.map_append, List.mem_append, not_or] at h
    rw [List.map_cons, ih h.2, filter_same h.1]

theorem At.filter {L : List (Chain K)} {it : It} {rest : Chain K} (a : At L it rest) {p : Nat} (hp : p ∉ (pend L it rest).map Prod.fst) :
    At (L.map (List.filter (fun x => decide (x.1 ≠ p)))) it rest ∧
    pend (L.map (List.filter (fun x => decide (x.1 ≠ p)))) it rest = pend L it rest := by
  simp only [pend, List.map_append, List.mem_append, not_or] at hp
  refine ⟨⟨a.entry, fun h => ?_⟩, ?_⟩
  · obtain ⟨i, pre, h1, h2⟩ := a.place h
    refine ⟨i, pre.filter (fun x => decide (x.1 ≠ p)), h1, ?_⟩
    rw [List.getElem?_map, h2, Option.map_some, List.filter_append, filter_same hp.1]
  · unfold pend
    rw [← List.map_drop, flatten_filter hp.2]

/-! ### Together with the map -/

theorem flat_toTable (t : Tab) (L : List (Chain K)) : Hashtable.flat (toTable t L) = L.flatten.map Prod.snd := by
  simp [Hashtable.flat, toTable, List.map_flatten]

/-- the entry of a key that is there -/
theorem present {hf : K → BitVec 64} {t : Tab} {L : List (Chain K)} (I : Hashtable.Inv hf (toTable t L)) {k : K} {c : Chain K}
    (hc : L[bucket (hf k) t.arrLength]? = some c) (hn : ∀ x ∈ c, hit (hf k) k x.2 = false) : Hashtable.abs (toTable t L) k = none := by
  have hc' : (toTable t L).data[bucket (hf k) (toTable t L).arrLength]? = some (c.map Prod.snd) := by
    simp [toTable, hc]
  rw [← Hashtable.lookup_chain I k hc', Hashtable.lookup_none]
  intro e he hk
  have hh := Hashtable.hit_iff (k := k) (I.hash e (Hashtable.mem_flat_of_chain hc' he))
  rw [no_hit_map hn e he] at hh
  exact absurd (hh.2 hk) (by simp)

theorem abs_mem {hf : K → BitVec 64} {t : Tab} {L : List (Chain K)} (I : Hashtable.Inv hf (toTable t L)) {x : Nat × Entry K}
    (hx : x ∈ L.flatten) : Hashtable.abs (toTable t L) x.2.key = some x.2.value := by
  have := I.nodup
  unfold Hashtable.abs
  exact Hashtable.lookup_of_mem this (by rw [flat_toTable]; exact List.mem_map.2 ⟨x, hx, rfl⟩)

end Verif.HashMem
