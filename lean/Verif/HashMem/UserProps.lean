import Verif.HashMem.Props
/-
Property C127, continued: what a client must not do while iterating, what `put` does to an iterator, keys passed by
reference, copies of a table; and concrete cases.
-/
set_option linter.unusedSectionVars false
namespace Verif.HashMem.Props
open Verif Verif.HashMem
open Verif.Hashtable (Entry bucket)

variable {K : Type} [DecidableEq K]

/-- What any history of operations on one table leads to. -/
theorem reach {hf : K → BitVec 64} {ops : List (Hashtable.Spec.Op K)} {m : Mem K} {t : Tab} {os : List Hashtable.Spec.Out}
    (h : run hf ops = .ok (m, t, os)) : ∃ L M, Good hf m t L M := by
  obtain ⟨m', t', L, M, os', e, g, _⟩ := run_ok hf ops
  rw [h] at e
  injection e with e
  injection e with h1 h2
  injection h2 with h2 h3
  subst h1; subst h2
  exact ⟨L, M, g⟩

/-- **C127 (keys by reference).** A key that a key iterator delivered (a pointer into the entry) may be passed on to
`get`, `containsKey` and `remove`: the answer is the same as for a copy of the key, although `remove` deletes the entry the
parameter refers to. -/
theorem key_by_reference {hf : K → BitVec 64} {ops : List (Hashtable.Spec.Op K)} {m : Mem K} {t : Tab} {os : List Hashtable.Spec.Out}
    (h : run hf ops = .ok (m, t, os)) {p : Nat} {k : K} (hp : readKey m.nodes (.at p) = .ok k) :
    remove hf m t (.at p) = remove hf m t (.val k) ∧ get hf m t (.at p) = get hf m t (.val k) ∧
      containsKey hf m t (.at p) = containsKey hf m t (.val k) ∧ ∃ r, remove hf m t (.at p) = .ok r := by
  obtain ⟨L, M, g⟩ := reach h
  have hg : get hf m t (.at p) = get hf m t (.val k) := by rw [get_eq g.rep hp, get_eq g.rep (key := .val k) rfl]
  obtain ⟨c, hc⟩ := g.rep.chain (hf k)
  have hmem := List.mem_of_getElem? hc
  have hw : walk m.nodes (hf k) (.at p) m.nodes.length none (hd c) = walk m.nodes (hf k) (.val k) m.nodes.length none (hd c) := by
    rcases split_hit (hf k) k c with hn | ⟨pre, p', e, post, rfl, hn, he⟩
    · rw [walk_miss hp hn (g.rep.own.ch _ hmem) (g.rep.own.len hmem), walk_miss (key := .val k) rfl hn (g.rep.own.ch _ hmem) (g.rep.own.len hmem)]
    · rw [walk_hit hp hn he (g.rep.own.ch _ hmem) (g.rep.own.len hmem), walk_hit (key := .val k) rfl hn he (g.rep.own.ch _ hmem) (g.rep.own.len hmem)]
  obtain ⟨m', t', L', o, e1, _, _⟩ := remove_ok (hf := hf) g.rep hp
  refine ⟨?_, hg, by simp only [containsKey, hg], _, e1⟩
  have hv : readKey m.nodes (.val k) = .ok k := rfl
  simp only [remove, hp, hv, Heap.load_ok g.rep.arr, rd_map hd hc, hw, bind, Except.bind]

/-- `next` on an iterator that holds a pointer to a freed entry -/
theorem next_dangling {m : Mem K} {t : Tab} {it : It} {p : Nat} (h : it.entry = some p) (hf' : m.nodes[p]? = some none) :
    next m t it = .error .ub := by
  have hs : skip m t it = .ok it := by rw [skip_eq, if_neg (by rw [h]; simp)]
  simp only [next, hs, bind, Except.bind, h, Heap.load_free hf']

/-- the entry an iterator holds after `hasNext` said yes -/
theorem held {m : Mem K} {t : Tab} {L : List (Chain K)} (r : Rep m t L) {it it' : It} {rest : Chain K} (a : At L it rest)
    (h : hasNext m t it = .ok (it', true)) : ∃ p e rest', it'.entry = some p ∧ At L it' ((p, e) :: rest') := by
  obtain ⟨it1, rest1, e1, a1, _, _, _⟩ := skip_ok r _ it rest (Nat.le_refl _) a
  simp only [hasNext, e1, bind, Except.bind, pure, Except.pure] at h
  injection h with h
  injection h with h1 h2
  subst h1
  cases rest1 with
  | nil => rw [a1.entry] at h2; simp [hd, hdOr] at h2
  | cons x l => exact ⟨x.1, x.2, l, a1.entry, a1⟩

theorem start_at (L : List (Chain K)) (retKey : Bool) : At L (iterator retKey) [] := ⟨rfl, fun h => absurd rfl h⟩

/-- **C127 (violated: removing the wrong key).** On *every* table that is not empty: when `hasNext` has said yes and the
client then removes the key that `next` would deliver, the following `next` reads freed memory. -/
theorem remove_then_next_is_ub {hf : K → BitVec 64} {ops : List (Hashtable.Spec.Op K)} {m : Mem K} {t : Tab} {os : List Hashtable.Spec.Out}
    (h : run hf ops = .ok (m, t, os)) {it it2 : It} {p : Nat} {k : K} (hn : hasNext m t (iterator true) = .ok (it, true))
    (hx : next m t it = .ok (it2, .keyOf p)) (hk : readKey m.nodes (.at p) = .ok k) :
    ∃ m' t' o, remove hf m t (.val k) = .ok (m', t', o) ∧ next m' t' it = .error .ub := by
  obtain ⟨L, M, g⟩ := reach h
  obtain ⟨p', e, rest', he, a⟩ := held g.rep (start_at L true) hn
  obtain ⟨i, pre, hi1, hi2⟩ := a.place (by simp)
  have hs := (a.seg g.rep).1
  -- `next` delivers that entry
  have hskip : skip m t it = .ok it := by rw [skip_eq, if_neg (by rw [he]; simp)]
  simp only [next, hskip, bind, Except.bind, he, Heap.load_ok hs, pure, Except.pure] at hx
  injection hx with hx
  injection hx with _ hx
  have hpp : p' = p := by
    unfold item at hx
    split at hx
    · injection hx
    · cases hx
  subst hpp
  have hke : e.key = k := by
    simp only [readKey, Heap.load_ok hs, bind, Except.bind, pure, Except.pure] at hk
    injection hk
  -- where `remove` finds it
  obtain ⟨c, hc⟩ := g.rep.chain (hf k)
  have hmem : (p', e) ∈ L.flatten := List.mem_flatten.2 ⟨_, List.mem_of_getElem? hi2, by simp⟩
  rcases split_hit (hf k) k c with hn' | ⟨pre', q, f, post, rfl, hn', hf''⟩
  · have := present g.inv hc hn'
    have h2 := abs_mem g.inv hmem
    simp only [hke, this] at h2
    cases h2
  · obtain ⟨m', e1, r', hfree, e2⟩ := remove_hit (key := .val k) g.rep rfl hc hn' hf''
    have hmem2 : (q, f) ∈ L.flatten := List.mem_flatten.2 ⟨_, List.mem_of_getElem? hc, by simp⟩
    have hh : f.hash = hf f.key := g.inv.hash f (by rw [flat_toTable]; exact List.mem_map.2 ⟨_, hmem2, rfl⟩)
    have hkf : f.key = k := (Hashtable.hit_iff hh).1 hf''
    have hq : q = p' := by
      have hnd := g.inv.nodup
      rw [flat_toTable, List.map_map] at hnd
      have := Hashtable.abs (toTable t L) k
      have hxy : ∀ (l : Chain K), (l.map (Entry.key ∘ Prod.snd)).Nodup → ∀ x ∈ l, ∀ y ∈ l, x.2.key = y.2.key → x = y := by
        intro l
        induction l with
        | nil => simp
        | cons z l ih =>
          intro hnd x hx y hy hxy
          rw [List.map_cons, List.nodup_cons] at hnd
          rcases List.mem_cons.1 hx with hx1 | hx1 <;> rcases List.mem_cons.1 hy with hy1 | hy1
          · rw [hx1, hy1]
          · subst hx1; exact absurd ((List.mem_map (f := Entry.key ∘ Prod.snd)).2 ⟨y, hy1, hxy.symm⟩) hnd.1
          · subst hy1; exact absurd ((List.mem_map (f := Entry.key ∘ Prod.snd)).2 ⟨x, hx1, hxy⟩) hnd.1
          · exact ih hnd.2 x hx1 y hy1 hxy
      have := hxy _ hnd _ hmem2 _ hmem (by rw [hkf, hke])
      exact congrArg Prod.fst this
    subst hq
    exact ⟨m', _, _, e1, next_dangling he hfree⟩

/-- **C127 (violated: clearing while iterating).** On every table: `clear` after `hasNext` said yes makes the following
`next` read freed memory. -/
theorem clear_then_next_is_ub {hf : K → BitVec 64} {ops : List (Hashtable.Spec.Op K)} {m : Mem K} {t : Tab} {os : List Hashtable.Spec.Out}
    (h : run hf ops = .ok (m, t, os)) {retKey : Bool} {it : It} (hn : hasNext m t (iterator retKey) = .ok (it, true)) :
    ∃ m' t', clear m t = .ok (m', t') ∧ next m' t' it = .error .ub := by
  obtain ⟨L, M, g⟩ := reach h
  obtain ⟨p, e, rest', he, a⟩ := held g.rep (start_at L retKey) hn
  have hs := (a.seg g.rep).1
  obtain ⟨m', e1, r', _⟩ := clear_ok g.rep
  refine ⟨m', _, e1, ?_⟩
  -- nothing is live any more
  have hskip : skip m' { t with dataLength := 0 } it = .ok it := by rw [skip_eq, if_neg (by rw [he]; simp)]
  have hload : m'.nodes.load p = .error .ub := by
    unfold Heap.load
    cases hx : m'.nodes[p]? with
    | none => rfl
    | some y =>
      cases y with
      | none => rfl
      | some n =>
        have := r'.own.live p n hx
        simp [adr, List.map_const'] at this
  simp only [next, hskip, bind, Except.bind, he, hload]

/-- **C127 (violated: copies).** `Hashtable` has no copy constructor of its own, so a copy shares the array and the entries:
destroying the copy after the original (in either order) is undefined for *every* table, also an empty one. -/
theorem copy_freed_twice {hf : K → BitVec 64} {ops : List (Hashtable.Spec.Op K)} {m : Mem K} {t : Tab} {os : List Hashtable.Spec.Out}
    (h : run hf ops = .ok (m, t, os)) : ∃ m', destroy m t = .ok m' ∧ destroy m' t = .error .ub := by
  obtain ⟨L, M, g⟩ := reach h
  obtain ⟨m', e, _, hA⟩ := destroy_ok g.rep
  refine ⟨m', e, ?_⟩
  have hload : m'.arrays.load t.data = .error .ub := by
    unfold Heap.load
    cases hx : m'.arrays[t.data]? with
    | none => rfl
    | some y =>
      cases y with
      | none => rfl
      | some n => exact absurd (hA _ (List.mem_of_getElem? hx)) (by simp)
  obtain ⟨n, hn⟩ : ∃ n, t.arrLength = n + 1 := ⟨t.arrLength - 1, by have := g.rep.pos; omega⟩
  simp only [destroy, clear, hn, clearLoop, hload, bind, Except.bind]

/-! ### Adding while iterating -/

/-- the iterator holds no pointer or one to an entry -/
def Holds (L : List (Chain K)) (it : It) : Prop := ∀ p, it.entry = some p → p ∈ adr L

theorem chain_of_adr {L : List (Chain K)} {p : Nat} (h : p ∈ adr L) : ∃ c pre e post, c ∈ L ∧ c = pre ++ (p, e) :: post := by
  obtain ⟨x, hx, rfl⟩ := List.mem_map.1 h
  obtain ⟨c, hc, hxc⟩ := List.mem_flatten.1 hx
  obtain ⟨pre, post, rfl⟩ := List.append_of_mem hxc
  exact ⟨_, pre, x.2, post, hc, rfl⟩

theorem adr_of_chain {L : List (Chain K)} {c : Chain K} (hc : c ∈ L) {p : Nat} (h : p ∈ c.map Prod.fst) : p ∈ adr L := by
  obtain ⟨y, hy, he⟩ := List.mem_map.1 h
  exact List.mem_map.2 ⟨y, List.mem_flatten.2 ⟨c, hc, hy⟩, he⟩

theorem hd_mem {c : Chain K} {p : Nat} (h : hd c = some p) : p ∈ c.map Prod.fst := by
  cases c with
  | nil => simp [hd, hdOr] at h
  | cons x c => simp only [hd, hdOr, Option.some.injEq] at h; simp [h]

theorem skip_holds {m : Mem K} {t : Tab} {L : List (Chain K)} (r : Rep m t L) : ∀ (d : Nat) (it : It), t.arrLength - it.index ≤ d →
    Holds L it → ∃ it', skip m t it = .ok it' ∧ Holds L it' ∧ it'.retKey = it.retKey := by
  intro d
  induction d with
  | zero =>
    intro it hd' a
    exact ⟨it, by rw [skip_eq, if_neg (by omega)], a, rfl⟩
  | succ d ih =>
    intro it hd' a
    by_cases h : it.entry = none ∧ it.index < t.arrLength
    · obtain ⟨c, hc⟩ : ∃ c, L[it.index]? = some c := ⟨_, List.getElem?_eq_getElem (by rw [r.len]; exact h.2)⟩
      obtain ⟨it', e, a', hk⟩ := ih { it with entry := hd c, index := it.index + 1 } (by show t.arrLength - (it.index + 1) ≤ d; omega)
        (fun p hp => adr_of_chain (List.mem_of_getElem? hc) (hd_mem hp))
      refine ⟨it', ?_, a', hk⟩
      rw [skip_eq, if_pos h]
      simp only [Heap.load_ok r.arr, rd_map hd hc, bind, Except.bind]
      exact e
    · exact ⟨it, by rw [skip_eq, if_neg h], a, rfl⟩

theorem wexec_ok {hf : K → BitVec 64} {w : World K} {L : List (Chain K)} {M : Hashtable.Spec.Map K} (g : Good hf w.mem w.tab L M)
    (a : Holds L w.it) {op : Spec.Op K} (hp : Spec.Additive op) :
    ∃ w' L' M' o, exec hf w op = .ok (w', o) ∧ Good hf w'.mem w'.tab L' M' ∧ Holds L' w'.it ∧ Spec.WStep w.it.retKey M op M' o ∧
      w'.it.retKey = w.it.retKey := by
  cases op with
  | tab op =>
    cases op with
    | put k v =>
      obtain ⟨c, hc⟩ := g.rep.chain (hf k)
      rcases Verif.HashMem.split_hit (hf k) k c with hn | ⟨pre, p, e, post, rfl, hn, he⟩
      · obtain ⟨m', t', L', e1, r', hsub, e2⟩ := put_miss g.rep v hc hn
        obtain ⟨g', ho⟩ := put_good g k v r' e2
        refine ⟨⟨m', t', w.it⟩, L', _, .tab (.ptr 0), by simp only [exec, execTab, e1, bind, Except.bind, pure, Except.pure], g',
          fun p hp => hsub p (a p hp), .tab ?_, rfl⟩
        rw [ho]; exact .put ..
      · obtain ⟨m', e1, r', e2⟩ := put_hit g.rep v hc hn he
        rw [set_revalue g.rep.own v hc] at r' e2
        obtain ⟨g', ho⟩ := put_good g k v r' e2
        refine ⟨⟨m', w.tab, w.it⟩, _, _, .tab (.ptr e.value), by simp only [exec, execTab, e1, bind, Except.bind, pure, Except.pure], g',
          fun p hp => ?_, .tab ?_, rfl⟩
        · have := a p hp
          unfold adr at this ⊢
          rw [← List.map_flatten, List.map_map, show (Prod.fst ∘ revalue _ v : Nat × Entry K → Nat) = Prod.fst from funext (revalue_fst _ v)]
          exact this
        · rw [ho]; exact .put ..
    | get k => exact ⟨w, L, M, _, by simp only [exec, execTab, get_good g k (key := .val k) rfl, bind, Except.bind, pure, Except.pure], g, a, .tab (.get ..), rfl⟩
    | containsKey k =>
      exact ⟨w, L, M, _, by simp only [exec, execTab, containsKey, get_good g k (key := .val k) rfl, bind, Except.bind, pure, Except.pure]; rfl, g, a,
        .tab (.containsKey ..), rfl⟩
    | remove k => exact hp.elim
    | clear => exact hp.elim
    | size => exact ⟨w, L, M, _, rfl, g, a, .tab (.size _ _ (size_good g)), rfl⟩
  | next =>
    obtain ⟨it1, e1, a1, hk⟩ := skip_holds g.rep _ w.it (Nat.le_refl _) a
    cases he : it1.entry with
    | none =>
      exact ⟨⟨w.mem, w.tab, it1⟩, L, M, _, by simp only [exec, next, e1, he, look, bind, Except.bind, pure, Except.pure], g, a1, .done, hk⟩
    | some p =>
      obtain ⟨c, pre, e, post, hc, rfl⟩ := chain_of_adr (a1 p he)
      have hs := (Seg_append.1 (g.rep.own.ch _ hc)).2.1
      refine ⟨⟨w.mem, w.tab, { it1 with last := some p, entry := hd post }⟩, L, M, Spec.shown w.it.retKey e.key e.value, ?_, g, ?_, .next ?_, hk⟩
      · have hl := look_item (retKey := w.it.retKey) hs
        simp only [exec, next, e1, he, Heap.load_ok hs, hk, hl, bind, Except.bind, pure, Except.pure]
        rfl
      · intro q hq
        refine adr_of_chain hc ?_
        have := hd_mem (show hd post = some q from hq)
        rw [List.map_append, List.map_cons]
        exact List.mem_append.2 (Or.inr (List.mem_cons_of_mem _ this))
      · rw [← g.map]
        exact abs_mem (x := (p, e)) g.inv (List.mem_flatten.2 ⟨_, hc, by simp⟩)
  | hasNext =>
    obtain ⟨it1, e1, a1, hk⟩ := skip_holds g.rep _ w.it (Nat.le_refl _) a
    exact ⟨⟨w.mem, w.tab, it1⟩, L, M, .more it1.entry.isSome, by simp only [exec, hasNext, e1, bind, Except.bind, pure, Except.pure], g, a1, .hasNext, hk⟩

theorem wexecAll_ok {hf : K → BitVec 64} {retKey : Bool} (ops : List (Spec.Op K)) : ∀ {w : World K} {L : List (Chain K)} {M : Hashtable.Spec.Map K},
    Good hf w.mem w.tab L M → Holds L w.it → w.it.retKey = retKey → (∀ op ∈ ops, Spec.Additive op) →
    ∃ w' L' M' os, execAll hf w ops = .ok (w', os) ∧ Good hf w'.mem w'.tab L' M' ∧ Spec.WSteps retKey M ops M' os := by
  induction ops with
  | nil => exact fun {w L M} g _ _ _ => ⟨w, L, M, [], rfl, g, .nil _⟩
  | cons op ops ih =>
    intro w L M g a hk hp
    obtain ⟨w1, L1, M1, o, e1, g1, a1, s1, hk1⟩ := wexec_ok g a (hp op (by simp))
    obtain ⟨w2, L2, M2, os, e2, g2, s2⟩ := ih g1 a1 (hk1.trans hk) (fun x hx => hp x (by simp [hx]))
    exact ⟨w2, L2, M2, o :: os, by simp only [execAll, e1, e2, bind, Except.bind, pure, Except.pure], g2, .cons (hk ▸ s1) s2⟩

/-- **C127 (adding while iterating).** Arbitrary `put`s between the deliveries never make the iterator touch freed memory,
even when the table is rehashed, and each key delivered is in the table at that moment, with that value.  (That each key is
delivered once is *not* guaranteed: `put_delivers_twice`, `put_skips`.) -/
theorem put_while_iterating_is_safe (hf : K → BitVec 64) (before : List (Hashtable.Spec.Op K)) (retKey : Bool) (ops : List (Spec.Op K))
    (hp : ∀ op ∈ ops, Spec.Additive op) :
    ∃ m t M os0, run hf before = .ok (m, t, os0) ∧ Hashtable.Spec.Steps Hashtable.Spec.empty before M os0 ∧
    ∃ w' M' os m', execAll hf ⟨m, t, iterator retKey⟩ ops = .ok (w', os) ∧ Spec.WSteps retKey M ops M' os ∧
      destroy w'.mem w'.tab = .ok m' ∧ m'.nodes.AllFreed ∧ m'.arrays.AllFreed := by
  obtain ⟨m, t, L, M, os0, e, g, s⟩ := run_ok hf before
  obtain ⟨w', L', M', os, e2, g2, s2⟩ := wexecAll_ok (w := ⟨m, t, iterator retKey⟩) ops g (fun p hp => by cases hp) rfl hp
  obtain ⟨m', e', h1, h2⟩ := destroy_ok g2.rep
  exact ⟨m, t, M, os0, e, s, w', M', os, m', e2, s2, e', h1, h2⟩

/-! ### Concrete cases -/

/-- the hash code of a number is the number -/
def hid (k : Nat) : BitVec 64 := BitVec.ofNat 64 k

/-- the answers of an iteration over the table made by `before` -/
def answers (before : List (Hashtable.Spec.Op Nat)) (retKey : Bool) (ops : List (Spec.Op Nat)) : Res (List (Spec.Out Nat)) := do
  let r ← run hid before
  let s ← execAll hid ⟨r.1, r.2.1, iterator retKey⟩ ops
  return s.2

/-- **C127 (violated: `put` while iterating).** Five keys, one delivered, a sixth is put (the table is rehashed): key 7 is
delivered a second time. -/
theorem put_delivers_twice : answers [.put 7 1, .put 1 1, .put 2 1, .put 3 1, .put 4 1] true
    [.next, .tab (.put 20 9), .next, .next, .next, .next, .next, .next, .next] =
    .ok [.key (some 7), .tab (.ptr 0), .key (some 1), .key (some 2), .key (some 3), .key (some 4), .key (some 20), .key (some 7), .key none] := by
  rfl

/-- … and here key 15 is never delivered, although it was there from the beginning and is never removed. -/
theorem put_skips : answers [.put 0 1, .put 15 1, .put 2 1, .put 3 1, .put 4 1] true
    [.next, .tab (.put 20 9), .next, .next, .next, .next, .next, .tab (.containsKey 15)] =
    .ok [.key (some 0), .tab (.ptr 0), .key (some 2), .key (some 3), .key (some 4), .key (some 20), .key none, .tab (.bool true)] := by
  rfl

/-- removing what was delivered, in one chain of three entries -/
example : answers [.put 0 1, .put 7 2, .put 14 3, .put 3 5] true
    [.hasNext, .next, .tab (.remove 14), .next, .tab (.put 0 8), .tab (.remove 7), .hasNext, .next, .tab (.remove 0), .next, .next, .tab .size] =
    .ok [.more true, .key (some 14), .tab (.ptr 3), .key (some 7), .tab (.ptr 1), .tab (.ptr 2), .more true, .key (some 0), .tab (.ptr 8),
      .key (some 3), .key none, .tab (.nat 1)] := by
  rfl

/-- that history is permitted by the specification all along: see `iterate_and_modify`; here its first removal -/
example : Spec.Permitted (⟨fun k => if k = 14 then some 3 else none, fun _ => False⟩ : Spec.St Nat) (.tab (.remove 14)) := fun h => h

/-- removing a key not yet delivered, from the same chain -/
example : answers [.put 0 1, .put 7 2] true [.next, .tab (.remove 0), .next] = .error .ub := by rfl

/-- clearing -/
example : answers [.put 0 1, .put 7 2] false [.next, .tab .clear, .next] = .error .ub := by rfl

/-- memory: two entries live after three `put`s and one `remove`, and a rehash later all are freed at the end -/
example : (do let r ← run hid [.put 0 1, .put 7 2, .put 14 3, .remove 7]; return (r.1.nodes.map Option.isSome, size r.2.1)) =
    .ok ([true, false, true], 2) := by rfl

example : (do
    let r ← run hid [.put 0 1, .put 7 2, .put 14 3, .put 21 4, .put 1 5, .put 2 6, .remove 7]
    let m ← destroy r.1 r.2.1
    return (r.1.arrays.map Option.isSome, m.nodes.map Option.isSome, m.arrays.map Option.isSome)) =
    .ok ([false, true], [false, false, false, false, false, false], [false, false]) := by rfl

/-- the hypotheses of `remove_then_next_is_ub` and `key_by_reference` -/
example : ∃ m t os it it2, run hid [.put 0 1, .put 7 2] = .ok (m, t, os) ∧ hasNext m t (iterator true) = .ok (it, true) ∧
    next m t it = .ok (it2, .keyOf 1) ∧ readKey m.nodes (.at 1) = .ok 7 := by
  refine ⟨_, _, _, _, _, rfl, rfl, rfl, rfl⟩

example : Spec.Additive (.tab (.put 20 9) : Spec.Op Nat) := trivial

end Verif.HashMem.Props
