import Verif.HashMem.Ops
/-
New entries, rehashing, clearing and destroying.
-/
set_option linter.unusedSectionVars false
namespace Verif.HashMem
open Verif
open Verif.Hashtable (Entry Table bucket hit replaceIn unlink findIn bucket_lt)

variable {K : Type} [DecidableEq K]

theorem Own.nil {nodes : Heap (Node K)} {P : List (Chain K)} (o : Own nodes ([] :: P)) : Own nodes P where
  ch := fun c hc => o.ch c (by simp [hc])
  nodup := by have := o.nodup; rwa [adr_cons] at this
  live := fun a n e => by have := o.live a n e; rwa [adr_cons] at this

theorem Own.cons_nil {nodes : Heap (Node K)} {P : List (Chain K)} (o : Own nodes P) : Own nodes ([] :: P) where
  ch := fun c hc => by
    rcases List.mem_cons.1 hc with rfl | hc
    · trivial
    · exact o.ch c hc
  nodup := by rw [adr_cons]; exact o.nodup
  live := fun a n e => by rw [adr_cons]; exact o.live a n e

theorem moveChain_ok (n nda : Nat) (hn : 0 < n) (rest : List (Chain K)) (c : Chain K) : ∀ (fuel : Nat) (m : Mem K) (N : List (Chain K)),
    Own m.nodes (c :: (rest ++ N)) → m.arrays[nda]? = some (some (N.map hd)) → N.length = n → c.length ≤ fuel →
    ∃ nodes N', moveChain n nda fuel m (hd c) = .ok ⟨nodes, m.arrays.set nda (some (N'.map hd))⟩ ∧ Own nodes (rest ++ N') ∧
      N'.length = n ∧ (adr (rest ++ N')).Perm (adr (c :: (rest ++ N))) ∧
      Hashtable.moveChain n (c.map Prod.snd) (N.map (List.map Prod.snd)) = .ok (N'.map (List.map Prod.snd)) := by
  induction c with
  | nil =>
    intro fuel m N o ha hl _
    refine ⟨m.nodes, N, ?_, o.nil, hl, by rw [adr_cons]; exact .refl _, rfl⟩
    rw [set_same ha]
    cases fuel <;> rfl
  | cons x c ih =>
    obtain ⟨p, e⟩ := x
    intro fuel m N o ha hl hf
    cases fuel with
    | zero => simp at hf
    | succ fuel =>
      simp only [List.length_cons, Nat.add_le_add_iff_right] at hf
      have hlt : bucket e.hash n < N.length := by rw [hl]; exact bucket_lt _ hn
      obtain ⟨d, hd'⟩ : ∃ d, N[bucket e.hash n]? = some d := ⟨_, List.getElem?_eq_getElem hlt⟩
      have hp := (o.ch _ (List.mem_cons_self ..)).1
      -- ownership after the move
      have pp : (((p, e) :: c) :: (rest ++ N)).Perm (((p, e) :: c) :: d :: (rest ++ N.eraseIdx (bucket e.hash n))) := by
        refine List.Perm.cons _ ?_
        exact ((perm_get hd').append_left rest).trans List.perm_middle
      have o1 := (o.perm pp).move
      have pq : (c :: ((p, e) :: d) :: (rest ++ N.eraseIdx (bucket e.hash n))).Perm
          (c :: (rest ++ N.set (bucket e.hash n) ((p, e) :: d))) := by
        refine List.Perm.cons _ ?_
        exact (((perm_set ((p, e) :: d) hd').append_left rest).trans List.perm_middle).symm
      have o2 := o1.perm pq
      have ha2 : (m.arrays.set nda (some ((N.set (bucket e.hash n) ((p, e) :: d)).map hd)))[nda]? =
          some (some ((N.set (bucket e.hash n) ((p, e) :: d)).map hd)) := get_set_eq _ (Heap.lt_of_live ha)
      obtain ⟨nodes, N', e1, o3, l3, l4, e2⟩ := ih fuel ⟨m.nodes.set p (some (nd e (hd d))), m.arrays.set nda (some ((N.set (bucket e.hash n) ((p, e) :: d)).map hd))⟩
        (N.set (bucket e.hash n) ((p, e) :: d)) o2 ha2 (by simp [hl]) hf
      have pm : (adr (c :: ((p, e) :: d) :: (rest ++ N.eraseIdx (bucket e.hash n)))).Perm (adr (((p, e) :: c) :: d :: (rest ++ N.eraseIdx (bucket e.hash n)))) := by
        simp only [adr_cons, List.map_cons, List.cons_append]
        exact List.perm_middle
      refine ⟨nodes, N', ?_, o3, l3, l4.trans ((adr_perm pq).symm.trans (pm.trans (adr_perm pp).symm)), ?_⟩
      · have hwr : wr (N.map hd) (bucket e.hash n) (some p) = .ok ((N.set (bucket e.hash n) ((p, e) :: d)).map hd) :=
          wr_map hd ((p, e) :: d) hd'
        simp only [List.set_set] at e1
        have hst := Heap.store_ok (y := nd e (hd d)) hp
        rw [show hd ((p, e) :: c) = some p from rfl, moveChain]
        simp only [Heap.load_ok hp, Heap.load_ok ha, bind, Except.bind]
        rw [show (nd e (hdOr none c)).hash = e.hash from rfl, rd_map hd hd']
        simp only []
        rw [show ({ hash := e.hash, key := (nd e (hdOr none c)).key, value := (nd e (hdOr none c)).value, next := hd d } : Node K) = nd e (hd d) from rfl, hst]
        simp only [hwr, Heap.store_ok ha]
        exact e1
      · have h1 : rd (N.map (List.map Prod.snd)) (bucket e.hash n) = .ok (d.map Prod.snd) := rd_map _ hd'
        have h2 := wr_map (List.map Prod.snd) ((p, e) :: d) hd'
        simp only [List.map_cons] at h2
        simp only [List.map_cons, Hashtable.moveChain, h1, h2, bind, Except.bind]
        exact e2

theorem moveAll_ok (n od nda : Nat) (hn : 0 < n) (hne : od ≠ nda) (full : List (Option Nat)) (rest : List (Chain K)) :
    ∀ (a : Nat) (m : Mem K) (N : List (Chain K)), (full.drop a = rest.map hd) →
    Own m.nodes (rest ++ N) → m.arrays[od]? = some (some full) → m.arrays[nda]? = some (some (N.map hd)) → N.length = n →
    ∃ nodes N', moveAll n od nda rest.length a m = .ok ⟨nodes, m.arrays.set nda (some (N'.map hd))⟩ ∧ Own nodes N' ∧
      N'.length = n ∧ (adr N').Perm (adr (rest ++ N)) ∧
      Hashtable.moveAll n (rest.map (List.map Prod.snd)) (N.map (List.map Prod.snd)) = .ok (N'.map (List.map Prod.snd)) := by
  induction rest with
  | nil =>
    intro a m N _ o ho ha hl
    exact ⟨m.nodes, N, by rw [set_same ha]; rfl, o, hl, .refl _, rfl⟩
  | cons c rest ih =>
    intro a m N hdrop o ho ha hl
    have hget : full[a]? = some (hd c) := by
      have : (full.drop a)[0]? = some (hd c) := by rw [hdrop]; rfl
      simpa using this
    have hdrop' : full.drop (a + 1) = rest.map hd := by
      rw [← List.drop_drop, hdrop]; rfl
    obtain ⟨nodes, N1, e1, o1, l1, q1, e2⟩ := moveChain_ok n nda hn rest c m.nodes.length m N o ha hl (o.len (by simp))
    have hlt := Heap.lt_of_live ha
    obtain ⟨nodes', N2, e3, o3, l3, q3, e4⟩ := ih (a + 1) ⟨nodes, m.arrays.set nda (some (N1.map hd))⟩ N1 hdrop' o1
      (by show (m.arrays.set nda _)[od]? = _
          rw [get_set_ne _ hne]; exact ho) (get_set_eq _ hlt) l1
    refine ⟨nodes', N2, ?_, o3, l3, q3.trans q1, ?_⟩
    · simp only [List.length_cons, moveAll, Heap.load_ok ho, rd_some hget, e1, bind, Except.bind]
      simp only [List.set_set] at e3
      exact e3
    · simp only [List.map_cons, Hashtable.moveAll, e2, bind, Except.bind]
      exact e4

theorem Own.nils {nodes : Heap (Node K)} {P : List (Chain K)} (o : Own nodes P) (n : Nat) : Own nodes (P ++ List.replicate n []) := by
  induction n with
  | zero => simpa using o
  | succ n ih =>
    have := ih.cons_nil
    refine this.perm ?_
    rw [List.replicate_succ]
    exact List.perm_middle.symm

/-- `rehash` -/
theorem rehash_ok {m : Mem K} {t : Tab} {L : List (Chain K)} (r : Rep m t L) :
    ∃ m' t' L', rehash m t = .ok (m', t') ∧ Rep m' t' L' ∧ (adr L').Perm (adr L) ∧ Hashtable.rehash (toTable t L) = .ok (toTable t' L') := by
  have hlt := Heap.lt_of_live r.arr
  have hne : t.data ≠ m.arrays.length := by omega
  have hmap : (List.replicate (t.arrLength * 2 + 1) ([] : Chain K)).map hd = List.replicate (t.arrLength * 2 + 1) none := by
    rw [List.map_replicate]; rfl
  obtain ⟨nodes, N, e1, o1, l1, q1, e2⟩ := moveAll_ok (t.arrLength * 2 + 1) t.data m.arrays.length (by omega) hne (L.map hd) L 0
    ⟨m.nodes, m.arrays ++ [some (List.replicate (t.arrLength * 2 + 1) none)]⟩ (List.replicate (t.arrLength * 2 + 1) [])
    (by simp) (r.own.nils _) (by show (m.arrays ++ _)[t.data]? = _
                                 rw [List.getElem?_append_left hlt]; exact r.arr)
    (by show (m.arrays ++ _)[m.arrays.length]? = _
        rw [hmap]; simp) (by simp)
  rw [r.len] at e1
  have hfree : ((m.arrays ++ [some (List.replicate (t.arrLength * 2 + 1) none)]).set m.arrays.length (some (N.map hd)))[t.data]? =
      some (some (L.map hd)) := by
    rw [get_set_ne _ hne, List.getElem?_append_left hlt]; exact r.arr
  refine ⟨⟨nodes, ((m.arrays ++ [some (List.replicate (t.arrLength * 2 + 1) none)]).set m.arrays.length (some (N.map hd))).set t.data none⟩,
    ⟨m.arrays.length, t.arrLength * 2 + 1, t.dataLength, ((t.arrLength * 2 + 1) * 3 + 3) / 4⟩, N, ?_, ?_, by simpa [adr] using q1, ?_⟩
  · simp only [rehash, Heap.alloc, bind, Except.bind, pure, Except.pure]
    rw [e1]
    simp only [Heap.free_ok hfree]
  · refine ⟨o1, ?_, ?_, l1, by simp⟩
    · show (List.set _ t.data none)[m.arrays.length]? = _
      rw [get_set_ne _ (fun h => hne h.symm), get_set_eq _ (by simp)]
    · intro a x h
      show a = m.arrays.length
      change (List.set _ t.data none)[a]? = _ at h
      by_cases ha : a = m.arrays.length
      · exact ha
      · by_cases hb : a = t.data
        · subst hb
          rw [get_set_eq _ (by simp; omega)] at h
          simp at h
        · rw [get_set_ne _ hb, get_set_ne _ ha] at h
          have hla : a < m.arrays.length := by
            have := (List.getElem?_eq_some_iff.1 h).1
            simp at this; omega
          rw [List.getElem?_append_left hla] at h
          exact absurd (r.only a x h) hb
  · have hm2 : (List.replicate (t.arrLength * 2 + 1) ([] : Chain K)).map (List.map Prod.snd) = List.replicate (t.arrLength * 2 + 1) [] := by
      rw [List.map_replicate]; rfl
    rw [hm2] at e2
    simp only [Hashtable.rehash, toTable, e2, bind, Except.bind, pure, Except.pure]

theorem grow_ok {m : Mem K} {t : Tab} {L : List (Chain K)} (r : Rep m t L) :
    ∃ m' t' L', grow m t = .ok (m', t') ∧ Rep m' t' L' ∧ (adr L').Perm (adr L) ∧ Hashtable.grow (toTable t L) = .ok (toTable t' L') := by
  by_cases h : t.dataLength ≥ t.threshold
  · obtain ⟨m', t', L', e, r', q, e'⟩ := rehash_ok r
    exact ⟨m', t', L', by rw [grow, if_pos h]; exact e, r', q,
      by rw [Hashtable.grow, if_pos (show (toTable t L).dataLength ≥ (toTable t L).threshold from h)]; exact e'⟩
  · exact ⟨m, t, L, by rw [grow, if_neg h], r, .refl _,
      by rw [Hashtable.grow, if_neg (show ¬ (toTable t L).dataLength ≥ (toTable t L).threshold from h)]⟩

/-- `put` on a key that is not there -/
theorem put_miss {hf : K → BitVec 64} {m : Mem K} {t : Tab} {L : List (Chain K)} (r : Rep m t L) {k : K} (v : Ptr)
    {c : Chain K} (hc : L[bucket (hf k) t.arrLength]? = some c) (hn : ∀ x ∈ c, hit (hf k) k x.2 = false) :
    ∃ m' t' L', put hf m t k v = .ok (m', t', 0) ∧ Rep m' t' L' ∧ (∀ a ∈ adr L, a ∈ adr L') ∧ Hashtable.put (toTable t L) (hf k) k v = .ok (toTable t' L', 0) := by
  have hmem : c ∈ L := List.mem_of_getElem? hc
  have hs := r.own.ch _ hmem
  have hw := walk_miss (key := .val k) (prev := none) rfl hn hs (r.own.len hmem)
  obtain ⟨m1, t1, L1, e1, r1, q1, e1'⟩ := grow_ok r
  obtain ⟨d, hd1⟩ := r1.chain (hf k)
  have o := (r1.split hd1).push (e := ⟨hf k, k, v⟩)
  refine ⟨⟨m1.nodes ++ [some (nd ⟨hf k, k, v⟩ (hd d))], m1.arrays.set t1.data
      (some ((L1.set (bucket (hf k) t1.arrLength) ((m1.nodes.length, ⟨hf k, k, v⟩) :: d)).map hd))⟩,
    { t1 with dataLength := t1.dataLength + 1 }, L1.set (bucket (hf k) t1.arrLength) ((m1.nodes.length, ⟨hf k, k, v⟩) :: d), ?_,
    r1.upd hd1 o _, ?_, ?_⟩
  rotate_left
  · intro a ha
    have h1 := (adr_perm (perm_get hd1)).mem_iff.1 (q1.mem_iff.2 ha)
    refine (adr_perm (perm_set _ hd1)).mem_iff.2 ?_
    simp only [adr_cons, List.map_cons, List.cons_append, List.mem_cons, List.mem_append] at h1 ⊢
    exact Or.inr h1
  rotate_left
  · simp only [put, Heap.load_ok r.arr, rd_map hd hc, hw, e1, bind, Except.bind]
    have hwr : wr (L1.map hd) (bucket (hf k) t1.arrLength) (some m1.nodes.length) = _ :=
      wr_map hd ((m1.nodes.length, (⟨hf k, k, v⟩ : Entry K)) :: d) hd1
    simp only [insert, Heap.load_ok r1.arr, rd_map hd hd1, Heap.alloc, hwr, Heap.store_ok r1.arr, bind, Except.bind, pure, Except.pure]
    rfl
  · have hrd : rd (toTable t L).data (bucket (hf k) (toTable t L).arrLength) = .ok (c.map Prod.snd) := rd_map (List.map Prod.snd) hc
    have hrd1 : rd (toTable t1 L1).data (bucket (hf k) (toTable t1 L1).arrLength) = .ok (d.map Prod.snd) := rd_map (List.map Prod.snd) hd1
    have hwr : wr (toTable t1 L1).data (bucket (hf k) (toTable t1 L1).arrLength) (⟨hf k, k, v⟩ :: d.map Prod.snd) = _ :=
      wr_map (List.map Prod.snd) ((m1.nodes.length, (⟨hf k, k, v⟩ : Entry K)) :: d) hd1
    simp only [Hashtable.put, hrd, Hashtable.replaceIn_none.2 (no_hit_map hn), e1', hrd1, hwr, bind, Except.bind, pure, Except.pure]
    rfl

/-- `put` in any case -/
theorem put_ok {hf : K → BitVec 64} {m : Mem K} {t : Tab} {L : List (Chain K)} (r : Rep m t L) (k : K) (v : Ptr) :
    ∃ m' t' L' o, put hf m t k v = .ok (m', t', o) ∧ Rep m' t' L' ∧ Hashtable.put (toTable t L) (hf k) k v = .ok (toTable t' L', o) := by
  obtain ⟨c, hc⟩ := r.chain (hf k)
  rcases split_hit (hf k) k c with hn | ⟨pre, p, e, post, rfl, hn, he⟩
  · obtain ⟨m', t', L', e1, r', _, e2⟩ := put_miss r v hc hn
    exact ⟨m', t', L', 0, e1, r', e2⟩
  · obtain ⟨m', e1, r', e2⟩ := put_hit r v hc hn he
    exact ⟨m', t, _, _, e1, r', e2⟩

/-- `remove` in any case -/
theorem remove_ok {hf : K → BitVec 64} {m : Mem K} {t : Tab} {L : List (Chain K)} (r : Rep m t L) {k : K} {key : KeyArg K}
    (hk : readKey m.nodes key = .ok k) :
    ∃ m' t' L' o, remove hf m t key = .ok (m', t', o) ∧ Rep m' t' L' ∧ Hashtable.remove (toTable t L) (hf k) k = .ok (toTable t' L', o) := by
  obtain ⟨c, hc⟩ := r.chain (hf k)
  rcases split_hit (hf k) k c with hn | ⟨pre, p, e, post, rfl, hn, he⟩
  · obtain ⟨e1, e2⟩ := remove_miss r hk hc hn
    exact ⟨m, t, L, 0, e1, r, e2⟩
  · obtain ⟨m', e1, r', _, e2⟩ := remove_hit r hk hc hn he
    exact ⟨m', _, _, _, e1, r', e2⟩

theorem freeChain_ok (c : Chain K) : ∀ (fuel : Nat) (nodes : Heap (Node K)) (Q : List (Chain K)), Own nodes (c :: Q) → c.length ≤ fuel →
    ∃ nodes', freeChain fuel nodes (hd c) = .ok nodes' ∧ Own nodes' Q := by
  induction c with
  | nil => intro fuel nodes Q o _; exact ⟨nodes, by cases fuel <;> rfl, o.nil⟩
  | cons x c ih =>
    obtain ⟨p, e⟩ := x
    intro fuel nodes Q o hf
    cases fuel with
    | zero => simp at hf
    | succ fuel =>
      simp only [List.length_cons, Nat.add_le_add_iff_right] at hf
      have hp := (o.ch _ (List.mem_cons_self ..)).1
      obtain ⟨nodes', e1, o1⟩ := ih fuel _ Q o.pop hf
      refine ⟨nodes', ?_, o1⟩
      simp only [freeChain, hd, hdOr, Heap.load_ok hp, Heap.free_ok hp, bind, Except.bind, nd]
      exact e1

theorem clearLoop_ok (data : Nat) (rest : List (Chain K)) : ∀ (n : Nat) (m : Mem K),
    Own m.nodes rest → m.arrays[data]? = some (some (List.replicate n none ++ rest.map hd)) →
    ∃ nodes, clearLoop data rest.length n m = .ok ⟨nodes, m.arrays.set data (some (List.replicate (n + rest.length) none))⟩ ∧
      Own nodes ([] : List (Chain K)) := by
  induction rest with
  | nil =>
    intro n m o ha
    refine ⟨m.nodes, ?_, o⟩
    simp only [List.map_nil, List.append_nil] at ha
    simp only [List.length_nil, Nat.add_zero, clearLoop, set_same ha]
  | cons c rest ih =>
    intro n m o ha
    obtain ⟨nodes, e1, o1⟩ := freeChain_ok c m.nodes.length m.nodes rest o (o.len (by simp))
    have hget : (List.replicate n none ++ (c :: rest).map hd)[n]? = some (hd c) := by
      rw [List.getElem?_append_right (by simp)]; simp
    have hset : (List.replicate n none ++ (c :: rest).map hd).set n none = List.replicate (n + 1) none ++ rest.map hd := by
      rw [List.set_append_right _ _ (by simp)]
      simp [List.replicate_succ']
    obtain ⟨nodes', e2, o2⟩ := ih (n + 1) ⟨nodes, m.arrays.set data (some (List.replicate (n + 1) none ++ rest.map hd))⟩ o1
      (get_set_eq _ (Heap.lt_of_live ha))
    refine ⟨nodes', ?_, o2⟩
    simp only [List.length_cons, clearLoop, Heap.load_ok ha, rd_some hget, e1, wr_some _ hget, hset, Heap.store_ok ha, bind, Except.bind]
    simp only [List.set_set] at e2
    rw [e2, show n + (rest.length + 1) = n + 1 + rest.length by omega]

/-- `clear` -/
theorem clear_ok {m : Mem K} {t : Tab} {L : List (Chain K)} (r : Rep m t L) :
    ∃ m', clear m t = .ok (m', { t with dataLength := 0 }) ∧ Rep m' { t with dataLength := 0 } (L.map (fun _ => [])) ∧
      Hashtable.clear (toTable t L) = toTable { t with dataLength := 0 } (L.map (fun _ => [])) := by
  obtain ⟨nodes, e1, o1⟩ := clearLoop_ok t.data L 0 m r.own (by simpa using r.arr)
  have hrep : L.map (fun _ => ([] : Chain K)) = List.replicate L.length [] := List.map_const' ..
  rw [r.len] at e1
  refine ⟨⟨nodes, m.arrays.set t.data (some (List.replicate (0 + t.arrLength) none))⟩, by simp only [clear, e1, bind, Except.bind, pure, Except.pure], ⟨?_, ?_, ?_, by simp [r.len], r.pos⟩, ?_⟩
  · rw [hrep]; simpa using o1.nils L.length
  · show (List.set _ t.data _)[t.data]? = _
    rw [get_set_eq _ (Heap.lt_of_live r.arr), hrep, List.map_replicate, r.len]
    simp [hd, hdOr]
  · intro a x h
    by_cases ha : a = t.data
    · exact ha
    · exact r.only a x (by rw [← get_set_ne _ ha]; exact h)
  · simp [Hashtable.clear, toTable]

theorem none_of_not_live {α : Type} {h : Heap α} (hh : ∀ (a : Nat) (x : α), h[a]? ≠ some (some x)) : h.AllFreed := by
  intro c hc
  obtain ⟨i, hi⟩ := List.getElem?_of_mem hc
  cases c with
  | none => rfl
  | some x => exact absurd hi (hh i x)

/-- The destructor leaves nothing behind. -/
theorem destroy_ok {m : Mem K} {t : Tab} {L : List (Chain K)} (r : Rep m t L) :
    ∃ m', destroy m t = .ok m' ∧ m'.nodes.AllFreed ∧ m'.arrays.AllFreed := by
  obtain ⟨m1, e1, r1, _⟩ := clear_ok r
  refine ⟨⟨m1.nodes, m1.arrays.set t.data none⟩, ?_, ?_, ?_⟩
  · simp only [destroy, e1, bind, Except.bind, pure, Except.pure]
    rw [Heap.free_ok (h := m1.arrays) r1.arr]
  · refine none_of_not_live (fun a x h => ?_)
    have := r1.own.live a x h
    simp [adr, List.map_const'] at this
  · refine none_of_not_live (fun a x h => ?_)
    by_cases ha : a = t.data
    · subst ha
      rw [get_set_eq _ (Heap.lt_of_live r1.arr)] at h
      simp at h
    · change (List.set _ t.data none)[a]? = _ at h
      rw [get_set_ne _ ha] at h
      exact ha (r1.only a x h)

theorem init_rep : Rep (init (⟨[], []⟩ : Mem K)).1 (init (⟨[], []⟩ : Mem K)).2 (List.replicate 7 []) where
  own := by
    have : Own ([] : Heap (Node K)) ([] : List (Chain K)) := ⟨by simp, by simp [adr], by simp⟩
    exact this.nils 7
  arr := rfl
  only := by
    intro a x h
    cases a with
    | zero => rfl
    | succ a => simp [init, Heap.alloc] at h
  len := rfl
  pos := by show 0 < 7; decide

end Verif.HashMem
