import Verif.Hashtable.Lemmas
/-
Properties C05 and C06.  The hash function `h` of the keys is arbitrary (collisions included):
the theorems only need that an operation presents for a key the hash `h key`.  Whether String
keys actually do is property C07 (Verif/HString).
-/
namespace Verif.Hashtable.Props
open Verif Verif.Hashtable

variable {K : Type} [DecidableEq K]

/-- One client operation carried out on the modelled table. -/
def exec (h : K → BitVec 64) (t : Table K) : Spec.Op K → Res (Table K × Spec.Out)
  | .put k v => do let r ← put t (h k) k v; return (r.1, .ptr r.2)
  | .get k => do let r ← get t (h k) k; return (t, .ptr r)
  | .containsKey k => do let r ← containsKey t (h k) k; return (t, .bool r)
  | .remove k => do let r ← remove t (h k) k; return (r.1, .ptr r.2)
  | .clear => .ok (clear t, .unit)
  | .size => .ok (t, .nat (size t))

/-- A history of client operations. -/
def execAll (h : K → BitVec 64) (t : Table K) : List (Spec.Op K) → Res (Table K × List Spec.Out)
  | [] => .ok (t, [])
  | op :: ops => do
    let r ← exec h t op
    let s ← execAll h r.1 ops
    return (s.1, r.2 :: s.2)

theorem exec_ok (h : K → BitVec 64) {t : Table K} (I : Inv h t) (op : Spec.Op K) :
    ∃ t' o, exec h t op = .ok (t', o) ∧ Inv h t' ∧ Spec.Step (abs t) op (abs t') o := by
  cases op with
  | put k v =>
    obtain ⟨t', e, I', ha⟩ := put_ok I k v
    refine ⟨t', .ptr (Spec.orNull (abs t k)), by simp only [exec, e, bind, Except.bind, pure, Except.pure], I', ?_⟩
    rw [show abs t' = _ from funext ha]; exact .put _ _ _
  | get k =>
    exact ⟨t, _, by simp only [exec, get_ok I k, bind, Except.bind, pure, Except.pure], I, .get _ _⟩
  | containsKey k =>
    exact ⟨t, _, by simp only [exec, containsKey, get_ok I k, bind, Except.bind, pure, Except.pure], I,
      .containsKey _ _⟩
  | remove k =>
    obtain ⟨t', e, I', ha⟩ := remove_ok I k
    refine ⟨t', .ptr (Spec.orNull (abs t k)), by simp only [exec, e, bind, Except.bind, pure, Except.pure], I', ?_⟩
    rw [show abs t' = _ from funext ha]; exact .remove _ _
  | clear =>
    refine ⟨_, _, rfl, (clear_ok I).1, ?_⟩
    rw [show abs (clear t) = _ from funext (clear_ok I).2]; exact .clear _
  | size => exact ⟨t, _, rfl, I, .size _ _ (size_ok I)⟩

theorem execAll_ok (h : K → BitVec 64) (ops : List (Spec.Op K)) : ∀ {t : Table K}, Inv h t →
    ∃ t' os, execAll h t ops = .ok (t', os) ∧ Inv h t' ∧ Spec.Steps (abs t) ops (abs t') os := by
  induction ops with
  | nil => exact fun {t} I => ⟨t, [], rfl, I, .nil _⟩
  | cons op ops ih =>
    intro t I
    obtain ⟨t1, o, e1, I1, s1⟩ := exec_ok h I op
    obtain ⟨t2, os, e2, I2, s2⟩ := ih I1
    exact ⟨t2, o :: os, by simp only [execAll, e1, e2, bind, Except.bind, pure, Except.pure], I2, .cons s1 s2⟩

/-- **C05 (and the `size` half of C06).** Every history of `put`, `get`, `containsKey`, `remove`,
`clear` and `size` on a new table runs without an access outside the table, and every answer is
the one the finite map gives (`Spec.Step`): whatever the hash function and however often the
table was rehashed. -/
theorem table_is_map (h : K → BitVec 64) (ops : List (Spec.Op K)) :
    ∃ t os m, execAll h init ops = .ok (t, os) ∧ Spec.Steps Spec.empty ops m os := by
  obtain ⟨t, os, e, _, s⟩ := execAll_ok h ops (init_inv h)
  rw [show abs (init : Table K) = Spec.empty from funext abs_init] at s
  exact ⟨t, os, abs t, e, s⟩

/-- The specification leaves no freedom: the answers of a history are determined. -/
theorem spec_determined {m m1 m2 : Spec.Map K} {ops : List (Spec.Op K)} {o1 o2 : List Spec.Out}
    (s1 : Spec.Steps m ops m1 o1) (s2 : Spec.Steps m ops m2 o2) : m1 = m2 ∧ o1 = o2 := by
  induction s1 generalizing m2 o2 with
  | nil => cases s2; exact ⟨rfl, rfl⟩
  | cons a _ ih =>
    cases s2 with
    | cons b t2 =>
      have : ∀ {p op p1 p2 a1 a2}, Spec.Step (K := K) p op p1 a1 → Spec.Step p op p2 a2 → p1 = p2 ∧ a1 = a2 := by
        intro p op p1 p2 a1 a2 x y
        cases x <;> cases y <;> try exact ⟨rfl, rfl⟩
        rename_i h1 _ h2
        obtain ⟨k1, n1, c1, rfl⟩ := h1
        obtain ⟨k2, n2, c2, rfl⟩ := h2
        refine ⟨rfl, ?_⟩
        have : k1.Perm k2 := (List.perm_ext_iff_of_nodup n1 n2).2 (fun k => by rw [c1, c2])
        rw [this.length_eq]
      obtain ⟨rfl, rfl⟩ := this a b
      obtain ⟨rfl, rfl⟩ := ih t2
      exact ⟨rfl, rfl⟩

/-- A table reached by some history of client operations. -/
def Reachable (h : K → BitVec 64) (t : Table K) : Prop := ∃ ops os, execAll h init ops = .ok (t, os)

theorem reachable_inv {h : K → BitVec 64} {t : Table K} (r : Reachable h t) : Inv h t := by
  obtain ⟨ops, os, e⟩ := r
  obtain ⟨t', os', e', I, _⟩ := execAll_ok h ops (init_inv h)
  rw [e] at e'; cases e'; exact I

/-- The fill of a table never exceeds three quarters of its slots (rounded up). -/
theorem load_bounded (h : K → BitVec 64) {t : Table K} (r : Reachable h t) :
    4 * size t ≤ 3 * t.data.length + 3 := by
  have I := reachable_inv r
  have := I.load; have := I.thr1; have := I.len
  unfold size; omega

/-- Calls `next` until it reports the end. -/
def drainN : Nat → Iter K → Res (List (Entry K) × Option (Entry K) × Iter K)
  | 0, it => do let r ← next it; return ([], r.2, r.1)
  | n + 1, it => do
    let r ← next it
    match r.2 with
    | none => return ([], none, r.1)
    | some e => do
      let s ← drainN n r.1
      return (e :: s.1, s.2.1, s.2.2)

theorem next_ok (it : Iter K) (hl : it.table.data.length = it.table.arrLength) :
    ∃ it', next it = .ok (it', (pending it).head?) ∧ pending it' = (pending it).tail ∧ it'.table = it.table := by
  obtain ⟨it', e, hp, ht, hn⟩ := skip_ok it hl
  unfold next
  simp only [e, bind, Except.bind, pure, Except.pure]
  cases he : it'.entry with
  | nil => 
    refine ⟨it', ?_, ?_, ht⟩
    · simp only [← hp, hn he]; rfl
    · rw [← hp, hn he]; rfl
  | cons a rest =>
    have hq : pending it' = a :: (rest ++ (it'.table.data.drop it'.index).flatten) := by simp [pending, he]
    refine ⟨{ it' with entry := rest }, ?_, ?_, ht⟩
    · simp only [← hp, hq]; rfl
    · rw [← hp, hq]; rfl

theorem drainN_ok (l : List (Entry K)) : ∀ (it : Iter K), it.table.data.length = it.table.arrLength →
    pending it = l → ∃ it', drainN l.length it = .ok (l, none, it') := by
  induction l with
  | nil =>
    intro it hl hp
    obtain ⟨it', e, _⟩ := next_ok it hl
    exact ⟨it', by simp only [List.length_nil, drainN, e, hp, bind, Except.bind, pure, Except.pure]; rfl⟩
  | cons a l ih =>
    intro it hl hp
    obtain ⟨it1, e, hp1, ht⟩ := next_ok it hl
    rw [hp] at e hp1
    obtain ⟨it2, e2⟩ := ih it1 (by rw [ht]; exact hl) hp1
    exact ⟨it2, by simp only [List.length_cons, drainN, e, List.head?_cons, e2, bind, Except.bind, pure, Except.pure]⟩

/-- **C06 (iteration).** On every reachable table, `size` calls of `next` on a new iterator
deliver a list of entries with pairwise different keys, whose keys are exactly the keys present
in the table, each with the value `get` returns for it; the following call delivers the end.
No call leaves the array. -/
theorem iteration_exact (h : K → BitVec 64) {t : Table K} (r : Reachable h t) :
    ∃ es it', drainN (size t) (iterator t) = .ok (es, none, it') ∧ es.length = size t ∧
      (es.map Entry.key).Nodup ∧
      (∀ e ∈ es, get t (h e.key) e.key = .ok e.value) ∧
      (∀ k v, v ≠ nullptr → get t (h k) k = .ok v → ∃ e ∈ es, e.key = k ∧ e.value = v) := by
  have I := reachable_inv r
  have hp : pending (iterator t) = flat t := by simp [pending, iterator, flat]
  obtain ⟨it', e⟩ := drainN_ok (flat t) (iterator t) I.len hp
  have hs : size t = (flat t).length := I.count
  rw [← hs] at e
  refine ⟨flat t, it', e, hs.symm, I.nodup, ?_, ?_⟩
  · intro x hx
    rw [get_ok I]
    unfold abs
    rw [lookup_of_mem I.nodup hx]; rfl
  · intro k v hv hg
    rw [get_ok I] at hg
    injection hg with hg
    cases hl : abs t k with
    | none => rw [hl] at hg; exact absurd hg.symm hv
    | some w =>
      rw [hl] at hg
      have hw : w = v := hg
      unfold abs lookup at hl
      obtain ⟨x, hx, hxv⟩ := Option.map_eq_some_iff.1 hl
      have hm := List.mem_of_find?_eq_some hx
      have hk := List.find?_some hx
      simp only [decide_eq_true_eq] at hk
      exact ⟨x, hm, hk, by rw [hxv, hw]⟩

/-- **C06 (`hasNext`).** `hasNext` is true exactly when `next` would deliver an entry, and asking
does not change what is delivered. -/
theorem hasNext_exact (it : Iter K) (hl : it.table.data.length = it.table.arrLength) :
    ∃ it1 it2 it3 e, next it = .ok (it1, e) ∧ hasNext it = .ok (it2, e.isSome) ∧
      next it2 = .ok (it3, e) ∧ pending it3 = pending it1 := by
  obtain ⟨it1, e1, p1, _⟩ := next_ok it hl
  obtain ⟨it2, e2, p2, t2, n2⟩ := skip_ok it hl
  obtain ⟨it3, e3, p3, _⟩ := next_ok it2 (by rw [t2]; exact hl)
  refine ⟨it1, it2, it3, _, e1, ?_, by rw [← p2]; exact e3, by rw [p3, p1, p2]⟩
  simp only [hasNext, e2, bind, Except.bind, pure, Except.pure]
  congr 2
  cases he : it2.entry with
  | nil => rw [← p2, n2 he]; simp
  | cons a l => rw [← p2]; simp [pending, he]

/-- A stored null value is the one thing the API cannot report: `containsKey` denies the key
although it counts towards `size`. -/
theorem containsKey_null_value : ∃ (t : Table Nat) (os : List Spec.Out),
    execAll (fun k => BitVec.ofNat 64 k) init [.put 5 nullptr, .containsKey 5, .size] = .ok (t, os) ∧
      os = [.ptr 0, .bool false, .nat 1] := ⟨_, _, rfl, rfl⟩

/-! ### Non-vacuity: a history with colliding keys that rehashes -/

/-- six keys in the same chain, one replaced, one removed; `7` and `14` collide as do all here -/
example : (execAll (fun k : Nat => BitVec.ofNat 64 k) init
    [.put 0 1, .put 7 2, .put 14 3, .put 21 4, .put 28 5, .put 35 6, .put 7 9, .remove 14, .get 7, .get 14,
     .size]).map (fun r => (r.1.arrLength, r.2)) =
    .ok (15, [.ptr 0, .ptr 0, .ptr 0, .ptr 0, .ptr 0, .ptr 0, .ptr 2, .ptr 3, .ptr 9, .ptr 0, .nat 5]) := rfl

example : Reachable (fun k : Nat => BitVec.ofNat 64 k) (init : Table Nat) := ⟨[], [], rfl⟩

end Verif.Hashtable.Props
