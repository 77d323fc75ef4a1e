import Verif.HashMem.Iter
/-
Property C127: the memory of a hash table, and iterating while the table changes.
-/
set_option linter.unusedSectionVars false
namespace Verif.HashMem.Props
open Verif Verif.HashMem
open Verif.Hashtable (Entry)

variable {K : Type} [DecidableEq K]

/-- One operation on a table. -/
def execTab (hf : K → BitVec 64) (m : Mem K) (t : Tab) : Hashtable.Spec.Op K → Res (Mem K × Tab × Hashtable.Spec.Out)
  | .put k v => do let r ← put hf m t k v; return (r.1, r.2.1, .ptr r.2.2)
  | .get k => do let r ← get hf m t (.val k); return (m, t, .ptr r)
  | .containsKey k => do let r ← containsKey hf m t (.val k); return (m, t, .bool r)
  | .remove k => do let r ← remove hf m t (.val k); return (r.1, r.2.1, .ptr r.2.2)
  | .clear => do let r ← clear m t; return (r.1, r.2, .unit)
  | .size => .ok (m, t, .nat (size t))

def execTabs (hf : K → BitVec 64) (m : Mem K) (t : Tab) : List (Hashtable.Spec.Op K) → Res (Mem K × Tab × List Hashtable.Spec.Out)
  | [] => .ok (m, t, [])
  | op :: ops => do
    let r ← execTab hf m t op
    let s ← execTabs hf r.1 r.2.1 ops
    return (s.1, s.2.1, r.2.2 :: s.2.2)

/-- A table made in empty memory and used. -/
def run (hf : K → BitVec 64) (ops : List (Hashtable.Spec.Op K)) : Res (Mem K × Tab × List Hashtable.Spec.Out) :=
  execTabs hf (init ⟨[], []⟩).1 (init (K := K) ⟨[], []⟩).2 ops

/-- Everything is well: the layout, and the map. -/
structure Good (hf : K → BitVec 64) (m : Mem K) (t : Tab) (L : List (Chain K)) (M : Hashtable.Spec.Map K) : Prop where
  rep : Rep m t L
  inv : Hashtable.Inv hf (toTable t L)
  map : Hashtable.abs (toTable t L) = M

theorem put_good {hf : K → BitVec 64} {m : Mem K} {t : Tab} {L : List (Chain K)} {M : Hashtable.Spec.Map K} (g : Good hf m t L M) (k : K) (v : Ptr)
    {m' : Mem K} {t' : Tab} {L' : List (Chain K)} {o : Ptr} (r' : Rep m' t' L')
    (e : Hashtable.put (toTable t L) (hf k) k v = .ok (toTable t' L', o)) :
    Good hf m' t' L' (Hashtable.Spec.insert M k v) ∧ o = Hashtable.Spec.orNull (M k) := by
  obtain ⟨t2, e2, I2, a2⟩ := Hashtable.put_ok g.inv k v
  rw [e] at e2
  injection e2 with e2
  injection e2 with h1 h2
  subst h1
  rw [g.map] at h2
  exact ⟨⟨r', I2, by rw [← g.map]; exact funext a2⟩, h2⟩

theorem remove_good {hf : K → BitVec 64} {m : Mem K} {t : Tab} {L : List (Chain K)} {M : Hashtable.Spec.Map K} (g : Good hf m t L M) (k : K)
    {m' : Mem K} {t' : Tab} {L' : List (Chain K)} {o : Ptr} (r' : Rep m' t' L')
    (e : Hashtable.remove (toTable t L) (hf k) k = .ok (toTable t' L', o)) :
    Good hf m' t' L' (Hashtable.Spec.erase M k) ∧ o = Hashtable.Spec.orNull (M k) := by
  obtain ⟨t2, e2, I2, a2⟩ := Hashtable.remove_ok g.inv k
  rw [e] at e2
  injection e2 with e2
  injection e2 with h1 h2
  subst h1
  rw [g.map] at h2
  exact ⟨⟨r', I2, by rw [← g.map]; exact funext a2⟩, h2⟩

theorem clear_good {hf : K → BitVec 64} {m : Mem K} {t : Tab} {L : List (Chain K)} {M : Hashtable.Spec.Map K} (g : Good hf m t L M)
    {m' : Mem K} {t' : Tab} {L' : List (Chain K)} (r' : Rep m' t' L') (e : Hashtable.clear (toTable t L) = toTable t' L') :
    Good hf m' t' L' Hashtable.Spec.empty := by
  have := Hashtable.clear_ok g.inv
  rw [e] at this
  exact ⟨r', this.1, funext this.2⟩

theorem get_good {hf : K → BitVec 64} {m : Mem K} {t : Tab} {L : List (Chain K)} {M : Hashtable.Spec.Map K} (g : Good hf m t L M) (k : K)
    {key : KeyArg K} (hk : readKey m.nodes key = .ok k) : get hf m t key = .ok (Hashtable.Spec.orNull (M k)) := by
  rw [get_eq g.rep hk, Hashtable.get_ok g.inv k, g.map]

theorem size_good {hf : K → BitVec 64} {m : Mem K} {t : Tab} {L : List (Chain K)} {M : Hashtable.Spec.Map K} (g : Good hf m t L M) :
    Hashtable.Spec.HasSize M (size t) := by
  have := Hashtable.size_ok g.inv
  rw [g.map] at this
  exact this

theorem execTab_ok {hf : K → BitVec 64} {m : Mem K} {t : Tab} {L : List (Chain K)} {M : Hashtable.Spec.Map K} (g : Good hf m t L M)
    (op : Hashtable.Spec.Op K) :
    ∃ m' t' L' M' o, execTab hf m t op = .ok (m', t', o) ∧ Good hf m' t' L' M' ∧ Hashtable.Spec.Step M op M' o := by
  cases op with
  | put k v =>
    obtain ⟨m', t', L', o, e1, r', e2⟩ := put_ok (hf := hf) g.rep k v
    obtain ⟨g', rfl⟩ := put_good g k v r' e2
    exact ⟨m', t', L', _, _, by simp only [execTab, e1, bind, Except.bind, pure, Except.pure], g', .put ..⟩
  | get k => exact ⟨m, t, L, M, _, by simp only [execTab, get_good g k (key := .val k) rfl, bind, Except.bind, pure, Except.pure], g, .get ..⟩
  | containsKey k =>
    exact ⟨m, t, L, M, _, by simp only [execTab, containsKey, get_good g k (key := .val k) rfl, bind, Except.bind, pure, Except.pure]; rfl, g, .containsKey ..⟩
  | remove k =>
    obtain ⟨m', t', L', o, e1, r', e2⟩ := remove_ok (hf := hf) g.rep (k := k) (key := .val k) rfl
    obtain ⟨g', rfl⟩ := remove_good g k r' e2
    exact ⟨m', t', L', _, _, by simp only [execTab, e1, bind, Except.bind, pure, Except.pure], g', .remove ..⟩
  | clear =>
    obtain ⟨m', e1, r', e2⟩ := clear_ok g.rep
    exact ⟨m', _, _, _, _, by simp only [execTab, e1, bind, Except.bind, pure, Except.pure], clear_good g r' e2, .clear ..⟩
  | size => exact ⟨m, t, L, M, _, rfl, g, .size _ _ (size_good g)⟩

theorem execTabs_ok {hf : K → BitVec 64} (ops : List (Hashtable.Spec.Op K)) : ∀ {m : Mem K} {t : Tab} {L : List (Chain K)}
    {M : Hashtable.Spec.Map K}, Good hf m t L M →
    ∃ m' t' L' M' os, execTabs hf m t ops = .ok (m', t', os) ∧ Good hf m' t' L' M' ∧ Hashtable.Spec.Steps M ops M' os := by
  induction ops with
  | nil => exact fun {m t L M} g => ⟨m, t, L, M, [], rfl, g, .nil _⟩
  | cons op ops ih =>
    intro m t L M g
    obtain ⟨m1, t1, L1, M1, o, e1, g1, s1⟩ := execTab_ok g op
    obtain ⟨m2, t2, L2, M2, os, e2, g2, s2⟩ := ih g1
    exact ⟨m2, t2, L2, M2, o :: os, by simp only [execTabs, e1, e2, bind, Except.bind, pure, Except.pure], g2, .cons s1 s2⟩

theorem init_good (hf : K → BitVec 64) : Good hf (init (⟨[], []⟩ : Mem K)).1 (init (⟨[], []⟩ : Mem K)).2 (List.replicate 7 []) Hashtable.Spec.empty where
  rep := init_rep
  inv := Hashtable.init_inv hf
  map := funext Hashtable.abs_init

theorem run_ok (hf : K → BitVec 64) (ops : List (Hashtable.Spec.Op K)) :
    ∃ m t L M os, run hf ops = .ok (m, t, os) ∧ Good hf m t L M ∧ Hashtable.Spec.Steps Hashtable.Spec.empty ops M os :=
  execTabs_ok ops (init_good hf)

/-- **C127 (memory).** Whatever is done with a table, every access goes to memory that is allocated, every answer is the
one of the finite map, and when the table is destroyed every entry and every array ever allocated has been freed exactly
once (freeing twice would be undefined). -/
theorem table_in_memory (hf : K → BitVec 64) (ops : List (Hashtable.Spec.Op K)) :
    ∃ m t M os m', run hf ops = .ok (m, t, os) ∧ Hashtable.Spec.Steps Hashtable.Spec.empty ops M os ∧
      destroy m t = .ok m' ∧ m'.nodes.AllFreed ∧ m'.arrays.AllFreed := by
  obtain ⟨m, t, L, M, os, e, g, s⟩ := run_ok hf ops
  obtain ⟨m', e', h1, h2⟩ := destroy_ok g.rep
  exact ⟨m, t, M, os, m', e, s, e', h1, h2⟩

theorem snocInd {α : Type} {P : List α → Prop} (nil : P []) (append_singleton : ∀ l x, P l → P (l ++ [x])) (l : List α) : P l := by
  have : ∀ l : List α, P l.reverse := by
    intro l
    induction l with
    | nil => exact nil
    | cons x l ih => rw [List.reverse_cons]; exact append_singleton _ _ ih
  simpa using this l.reverse

theorem inj_of_nodup {l : Chain K} (h : (l.map Prod.fst).Nodup) {x y : Nat × Entry K} (hx : x ∈ l) (hy : y ∈ l) (e : x.1 = y.1) : x = y := by
  induction l with
  | nil => cases hx
  | cons z l ih =>
    rw [List.map_cons, List.nodup_cons] at h
    rcases List.mem_cons.1 hx with hx1 | hx1 <;> rcases List.mem_cons.1 hy with hy1 | hy1
    · rw [hx1, hy1]
    · subst hx1; exact absurd (List.mem_map.2 ⟨y, hy1, e.symm⟩) h.1
    · subst hy1; exact absurd (List.mem_map.2 ⟨x, hx1, e⟩) h.1
    · exact ih h.2 hx1 hy1

/-- The number of entries in memory is `size()`, at any time: nothing removed lingers. -/
theorem live_entries (hf : K → BitVec 64) {ops : List (Hashtable.Spec.Op K)} {m : Mem K} {t : Tab} {os : List Hashtable.Spec.Out}
    (h : run hf ops = .ok (m, t, os)) : (m.nodes.filter Option.isSome).length = size t := by
  obtain ⟨m', t', L, M, os', e, g, s⟩ := run_ok hf ops
  rw [h] at e
  injection e with e
  injection e with h1 h2
  injection h2 with h2 h3
  subst h1; subst h2; subst h3
  have hc : size t = L.flatten.length := by
    have := g.inv.count
    rw [flat_toTable, List.length_map] at this
    exact this
  -- the live addresses are `adr L`
  have key : ∀ (h : Heap (Node K)), (h.filter Option.isSome).length = ((List.range h.length).filter (fun a => (h[a]?.getD none).isSome)).length := by
    intro h
    induction h using snocInd with
    | nil => rfl
    | append_singleton h x ih =>
      rw [List.filter_append, List.length_append, List.length_append, ih, List.length_singleton, List.range_succ, List.filter_append, List.length_append]
      congr 1
      · congr 1
        apply List.filter_congr
        intro a ha
        rw [List.getElem?_append_left (List.mem_range.1 ha)]
      · cases x <;> simp
  rw [key, hc, ← List.length_map (as := L.flatten) (f := Prod.fst)]
  apply List.Perm.length_eq
  rw [show List.map Prod.fst L.flatten = adr L from rfl, List.perm_ext_iff_of_nodup (List.Nodup.sublist List.filter_sublist List.nodup_range) g.rep.own.nodup]
  intro a
  rw [List.mem_filter, List.mem_range]
  constructor
  · rintro ⟨hl, hs⟩
    cases hx : m.nodes[a]? with
    | none => rw [hx] at hs; simp at hs
    | some y =>
      cases y with
      | none => rw [hx] at hs; simp at hs
      | some n => exact g.rep.own.live a n hx
  · intro ha
    refine ⟨g.rep.own.lt a ha, ?_⟩
    obtain ⟨x, hx, rfl⟩ := List.mem_map.1 ha
    obtain ⟨c, hc, hxc⟩ := List.mem_flatten.1 hx
    obtain ⟨pre, post, rfl⟩ := List.append_of_mem hxc
    have hs := (Seg_append.1 (g.rep.own.ch _ hc)).2.1
    rw [show m.nodes[x.1]? = _ from hs]; rfl

/-! ### Iterating -/

structure World (K : Type) where
  mem : Mem K
  tab : Tab
  it : It

/-- A client reads the key a key iterator delivers. -/
def look (m : Mem K) (retKey : Bool) : Item → Res (Spec.Out K)
  | .keyOf p => do let k ← readKey m.nodes (.at p); return .key (some k)
  | .value v => .ok (.value v)
  | .null => .ok (Spec.theEnd retKey)

def exec (hf : K → BitVec 64) (w : World K) : Spec.Op K → Res (World K × Spec.Out K)
  | .tab op => do let r ← execTab hf w.mem w.tab op; return (⟨r.1, r.2.1, w.it⟩, .tab r.2.2)
  | .next => do
    let r ← next w.mem w.tab w.it
    let o ← look w.mem w.it.retKey r.2
    return (⟨w.mem, w.tab, r.1⟩, o)
  | .hasNext => do let r ← hasNext w.mem w.tab w.it; return (⟨w.mem, w.tab, r.1⟩, .more r.2)

def execAll (hf : K → BitVec 64) (w : World K) : List (Spec.Op K) → Res (World K × List (Spec.Out K))
  | [] => .ok (w, [])
  | op :: ops => do
    let r ← exec hf w op
    let s ← execAll hf r.1 ops
    return (s.1, r.2 :: s.2)

/-- the keys pending -/
def Todo (L : List (Chain K)) (it : It) (rest : Chain K) (k : K) : Prop := k ∈ (pend L it rest).map (fun x => x.2.key)

theorem pend_nodup {hf : K → BitVec 64} {m : Mem K} {t : Tab} {L : List (Chain K)} {M : Hashtable.Spec.Map K} (g : Good hf m t L M)
    {it : It} {rest : Chain K} (a : At L it rest) : ((pend L it rest).map (fun x => x.2.key)).Nodup := by
  have h := g.inv.nodup
  rw [flat_toTable, List.map_map] at h
  exact List.Nodup.sublist (a.sub.map _) h

theorem look_item {m : Mem K} {retKey : Bool} {p : Nat} {e : Entry K} {q : Option Nat} (h : m.nodes[p]? = some (some (nd e q))) :
    look m retKey (item retKey p (nd e q)) = .ok (Spec.shown retKey e.key e.value) := by
  cases retKey
  · rfl
  · simp only [item, if_true, look, readKey, Heap.load_ok h, bind, Except.bind, pure, Except.pure]
    rfl

/-- The invariant of a permitted iteration. -/
structure Sim (hf : K → BitVec 64) (w : World K) (s : Spec.St K) : Prop where
  ex : ∃ L rest, Good hf w.mem w.tab L s.map ∧ At L w.it rest ∧ ∀ k, s.todo k ↔ Todo L w.it rest k

theorem mem_pend_key {L : List (Chain K)} {it : It} {rest : Chain K} {x : Nat × Entry K} (h : x ∈ pend L it rest) : Todo L it rest x.2.key :=
  List.mem_map.2 ⟨x, h, rfl⟩

theorem exec_ok {hf : K → BitVec 64} {w : World K} {s : Spec.St K} (S : Sim hf w s) {op : Spec.Op K} (hp : Spec.Permitted s op) :
    ∃ w' s' o, exec hf w op = .ok (w', o) ∧ Sim hf w' s' ∧ Spec.Step w.it.retKey s op s' o ∧ w'.it.retKey = w.it.retKey := by
  obtain ⟨L, rest, g, a, hU⟩ := S.ex
  obtain ⟨M, U⟩ := s
  change Good hf w.mem w.tab L M at g
  change ∀ k, U k ↔ Todo L w.it rest k at hU
  have same : ∀ (o : Hashtable.Spec.Op K) m' t' L' M' out, execTab hf w.mem w.tab o = .ok (m', t', out) →
      Good hf m' t' L' M' → Hashtable.Spec.Step M o M' out → (∃ rest', At L' w.it rest' ∧ ∀ k, U k ↔ Todo L' w.it rest' k) →
      ∃ w' s' o', exec hf w (.tab o) = .ok (w', o') ∧ Sim hf w' s' ∧ Spec.Step w.it.retKey ⟨M, U⟩ (.tab o) s' o' ∧ w'.it.retKey = w.it.retKey := by
    intro o m' t' L' M' out e g' st hh
    obtain ⟨rest', a', hU'⟩ := hh
    exact ⟨⟨m', t', w.it⟩, ⟨M', U⟩, .tab out, by simp only [exec, e, bind, Except.bind, pure, Except.pure],
      ⟨L', rest', g', a', hU'⟩, .tab st, rfl⟩
  cases op with
  | tab op =>
    cases op with
    | put k v =>
      have hk : M k ≠ none := hp
      obtain ⟨c, hc⟩ := g.rep.chain (hf k)
      rcases split_hit (hf k) k c with hn | ⟨pre, p, e, post, rfl, hn, he⟩
      · exact absurd (by rw [← g.map]; exact present g.inv hc hn) hk
      · obtain ⟨m', e1, r', e2⟩ := put_hit g.rep v hc hn he
        rw [set_revalue g.rep.own v hc] at r' e2
        obtain ⟨g', ho⟩ := put_good g k v r' e2
        obtain ⟨a', hpd⟩ := a.revalue p v
        refine same (.put k v) m' w.tab _ _ (.ptr e.value) (by simp only [execTab, e1, bind, Except.bind, pure, Except.pure]) g'
          (by rw [ho]; exact .put ..) ⟨_, a', fun x => ?_⟩
        rw [show U x ↔ _ from hU x]
        unfold Todo
        rw [hpd, List.map_map]
        have : (fun x : Nat × Entry K => x.2.key) ∘ revalue p v = fun x => x.2.key := funext (revalue_key p v)
        rw [this]
    | get k =>
      exact same (.get k) w.mem w.tab L M _ (by simp only [execTab, get_good g k (key := .val k) rfl, bind, Except.bind, pure, Except.pure]) g (.get ..) ⟨rest, a, hU⟩
    | containsKey k =>
      exact same (.containsKey k) w.mem w.tab L M _ (by simp only [execTab, containsKey, get_good g k (key := .val k) rfl, bind, Except.bind, pure, Except.pure]; rfl) g (.containsKey ..) ⟨rest, a, hU⟩
    | remove k =>
      have hk : ¬ U k := hp
      obtain ⟨c, hc⟩ := g.rep.chain (hf k)
      rcases split_hit (hf k) k c with hn | ⟨pre, p, e, post, rfl, hn, he⟩
      · obtain ⟨e1, e2⟩ := remove_miss (key := .val k) g.rep rfl hc hn
        obtain ⟨g', ho⟩ := remove_good g k g.rep e2
        exact same (.remove k) w.mem w.tab _ _ (.ptr 0) (by simp only [execTab, e1, bind, Except.bind, pure, Except.pure]) g'
          (by rw [ho]; exact .remove ..) ⟨rest, a, hU⟩
      · obtain ⟨m', e1, r', _, e2⟩ := remove_hit (key := .val k) g.rep rfl hc hn he
        rw [set_filter g.rep.own hc] at r' e2
        obtain ⟨g', ho⟩ := remove_good g k r' e2
        have hmem : (p, e) ∈ L.flatten := List.mem_flatten.2 ⟨_, List.mem_of_getElem? hc, by simp⟩
        have hkey : e.key = k := by
          have hh : e.hash = hf e.key := g.inv.hash e (by rw [flat_toTable]; exact List.mem_map.2 ⟨_, hmem, rfl⟩)
          exact (Hashtable.hit_iff hh).1 he
        have hpp : p ∉ (pend L w.it rest).map Prod.fst := by
          intro hin
          obtain ⟨y, hy, hy1⟩ := List.mem_map.1 hin
          have hyf := a.sub.subset hy
          have : y = (p, e) := by
            have hnd := g.rep.own.nodup
            exact inj_of_nodup hnd hyf hmem hy1
          subst this
          exact hk ((hU k).2 (hkey ▸ mem_pend_key hy))
        obtain ⟨a', hpd⟩ := a.filter hpp
        refine same (.remove k) m' _ _ _ (.ptr e.value) (by simp only [execTab, e1, bind, Except.bind, pure, Except.pure]) g'
          (by rw [ho]; exact .remove ..) ⟨rest, a', fun x => ?_⟩
        rw [show U x ↔ _ from hU x]
        unfold Todo
        rw [hpd]
    | clear =>
      have hk : ∀ k, ¬ U k := hp
      obtain ⟨m', e1, r', e2⟩ := clear_ok g.rep
      have hpd : pend L w.it rest = [] := by
        cases hq : pend L w.it rest with
        | nil => rfl
        | cons x l => exact absurd ((hU x.2.key).2 (mem_pend_key (by rw [hq]; simp))) (hk _)
      have hr : rest = [] := (List.append_eq_nil_iff.1 hpd).1
      subst hr
      refine same .clear m' _ _ _ .unit (by simp only [execTab, e1, bind, Except.bind, pure, Except.pure]) (clear_good g r' e2) (.clear ..)
        ⟨[], ⟨a.entry, fun h => absurd rfl h⟩, fun x => ?_⟩
      have : ¬ Todo (L.map (fun _ => ([] : Chain K))) w.it [] x := by
        have hz : pend (L.map (fun _ => ([] : Chain K))) w.it [] = [] := by
          simp [pend, List.map_const', List.drop_replicate]
        unfold Todo
        rw [hz]; simp
      exact ⟨fun h => absurd h (hk x), fun h => absurd h this⟩
    | size => exact same .size w.mem w.tab L M _ rfl g (.size _ _ (size_good g)) ⟨rest, a, hU⟩
  | next =>
    rcases next_ok g.rep a with ⟨h0, it', rest', e1, a', hp', hk'⟩ | ⟨p, e, l, q, it', rest', h1, hm, e1, a', hp', hk'⟩
    · refine ⟨⟨w.mem, w.tab, it'⟩, ⟨M, U⟩, Spec.theEnd w.it.retKey, by simp only [exec, e1, look, bind, Except.bind, pure, Except.pure],
        ⟨L, rest', g, a', fun k => ?_⟩, .done (fun k hk => ?_), hk'⟩
      · show U k ↔ _
        rw [hU k]; unfold Todo; rw [h0, hp']
      · have := (hU k).1 hk
        unfold Todo at this; rw [h0] at this; simp at this
    · have hnd := pend_nodup g a
      rw [h1, List.map_cons, List.nodup_cons] at hnd
      have hin : (p, e) ∈ L.flatten := a.sub.subset (by rw [h1]; simp)
      refine ⟨⟨w.mem, w.tab, it'⟩, ⟨M, fun x => U x ∧ x ≠ e.key⟩, Spec.shown w.it.retKey e.key e.value,
        by simp only [exec, e1, look_item hm, bind, Except.bind, pure, Except.pure], ⟨L, rest', g, a', fun k => ?_⟩, .next ?_ ?_, hk'⟩
      · show (U k ∧ k ≠ e.key) ↔ _
        rw [show U k ↔ _ from hU k]
        unfold Todo
        rw [h1, hp', List.map_cons, List.mem_cons]
        constructor
        · rintro ⟨h | h, hne⟩
          · exact absurd h hne
          · exact h
        · intro h
          exact ⟨Or.inr h, fun hne => hnd.1 (hne ▸ h)⟩
      · exact (hU _).2 (mem_pend_key (x := (p, e)) (by rw [h1]; simp))
      · have := abs_mem g.inv hin
        rw [g.map] at this; exact this
  | hasNext =>
    obtain ⟨it', rest', e1, a', hp', hn', hk'⟩ := skip_ok g.rep _ w.it rest (Nat.le_refl _) a
    refine ⟨⟨w.mem, w.tab, it'⟩, ⟨M, U⟩, .more it'.entry.isSome, by simp only [exec, hasNext, e1, bind, Except.bind, pure, Except.pure],
      ⟨L, rest', g, a', fun k => ?_⟩, .hasNext ?_, hk'⟩
    · show U k ↔ _
      rw [hU k]; unfold Todo; rw [hp']
    · rw [a'.entry]
      cases rest' with
      | nil =>
        have h0 := hn' rfl
        simp only [hd, hdOr, Option.isSome_none, Bool.false_eq_true, false_iff, not_exists]
        intro k hk
        have := (hU k).1 hk
        unfold Todo at this; rw [h0] at this; simp at this
      | cons x l =>
        simp only [hd, hdOr, Option.isSome_some, true_iff]
        exact ⟨x.2.key, (hU _).2 (mem_pend_key (by rw [← hp']; simp [pend]))⟩

theorem trace_ok {hf : K → BitVec 64} {retKey : Bool} (ops : List (Spec.Op K)) : ∀ {w : World K} {s : Spec.St K}, Sim hf w s → w.it.retKey = retKey →
    ∃ os w' s', execAll hf w (ops.take os.length) = .ok (w', os) ∧ Spec.Trace retKey s ops os s' ∧ Sim hf w' s' := by
  induction ops with
  | nil => exact fun {w s} S _ => ⟨[], w, s, rfl, .nil _, S⟩
  | cons op ops ih =>
    intro w s S hk
    by_cases hp : Spec.Permitted s op
    · obtain ⟨w1, s1, o, e1, S1, st, hk1⟩ := exec_ok S hp
      obtain ⟨os, w2, s2, e2, tr, S2⟩ := ih S1 (hk1.trans hk)
      refine ⟨o :: os, w2, s2, ?_, .cons hp (hk ▸ st) tr, S2⟩
      simp only [List.length_cons, List.take_succ_cons, execAll, e1, e2, bind, Except.bind, pure, Except.pure]
    · exact ⟨[], w, s, rfl, .stop hp, S⟩

/-- **C127 (iterating while the table changes).** Take any table (`before` made it) and a new iterator, over keys or over
values.  As long as the client only replaces values, removes keys already delivered and clears when all are delivered, it
may mix these with `next`, `hasNext` and questions as it likes: no access goes to freed memory, each key the table had at
the beginning is delivered exactly once with the value it has at that moment, then the end is reported, `hasNext`
is right, the table answers as the map, and in the end its destructor frees everything. -/
theorem iterate_and_modify (hf : K → BitVec 64) (before : List (Hashtable.Spec.Op K)) (retKey : Bool) (ops : List (Spec.Op K)) :
    ∃ m t M os0, run hf before = .ok (m, t, os0) ∧ Hashtable.Spec.Steps Hashtable.Spec.empty before M os0 ∧
    ∃ os w' s' m', execAll hf ⟨m, t, iterator retKey⟩ (ops.take os.length) = .ok (w', os) ∧
      Spec.Trace retKey ⟨M, fun k => M k ≠ none⟩ ops os s' ∧
      destroy w'.mem w'.tab = .ok m' ∧ m'.nodes.AllFreed ∧ m'.arrays.AllFreed := by
  obtain ⟨m, t, L, M, os0, e, g, s⟩ := run_ok hf before
  have S : Sim hf ⟨m, t, iterator retKey⟩ ⟨M, fun k => M k ≠ none⟩ := by
    refine ⟨L, [], g, ⟨rfl, fun h => absurd rfl h⟩, fun k => ?_⟩
    have hpd : pend L (iterator retKey) [] = L.flatten := by simp [pend, iterator]
    show M k ≠ none ↔ _
    unfold Todo
    rw [hpd, ← g.map]
    unfold Hashtable.abs
    rw [flat_toTable, Ne, Hashtable.lookup_none]
    constructor
    · intro h
      apply Decidable.byContradiction
      intro hh
      refine h (fun e he hk => hh ?_)
      obtain ⟨x, hx, rfl⟩ := List.mem_map.1 he
      exact List.mem_map.2 ⟨x, hx, hk⟩
    · intro h hh
      obtain ⟨x, hx, hxk⟩ := List.mem_map.1 h
      exact hh x.2 (List.mem_map.2 ⟨x, hx, rfl⟩) hxk
  obtain ⟨os, w', s', e2, tr, S2⟩ := trace_ok ops S rfl
  obtain ⟨L2, _, g2, _⟩ := S2.ex
  obtain ⟨m', e', h1, h2⟩ := destroy_ok g2.rep
  exact ⟨m, t, M, os0, e, s, os, w', s', m', e2, tr, e', h1, h2⟩

end Verif.HashMem.Props
