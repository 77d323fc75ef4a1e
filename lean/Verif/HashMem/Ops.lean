import Verif.HashMem.Lay
import Verif.Hashtable.Lemmas
/-
The operations of Verif/HashMem/Model.lean do on memory what those of Verif/Hashtable/Model.lean do on lists.
-/
set_option linter.unusedSectionVars false
namespace Verif.HashMem
open Verif
open Verif.Hashtable (Entry Table bucket hit replaceIn unlink findIn bucket_lt)

variable {K : Type} [DecidableEq K]

/-- The memory holds exactly the table `t` with the chains `L`. -/
structure Rep (m : Mem K) (t : Tab) (L : List (Chain K)) : Prop where
  own : Own m.nodes L
  arr : m.arrays[t.data]? = some (some (L.map hd))
  only : ∀ a x, m.arrays[a]? = some (some x) → a = t.data
  len : L.length = t.arrLength
  pos : 0 < t.arrLength

/-- the table as lists -/
def toTable (t : Tab) (L : List (Chain K)) : Table K := ⟨L.map (List.map Prod.snd), t.arrLength, t.dataLength, t.threshold⟩

theorem rd_some {α : Type} {l : List α} {i : Nat} {x : α} (h : l[i]? = some x) : rd l i = .ok x := by
  obtain ⟨hl, e⟩ := List.getElem?_eq_some_iff.1 h
  rw [rd_ok hl, e]

theorem rd_map {α β : Type} (f : α → β) {l : List α} {i : Nat} {x : α} (h : l[i]? = some x) : rd (l.map f) i = .ok (f x) :=
  rd_some (by simp [h])

theorem wr_some {α : Type} {l : List α} {i : Nat} {x : α} (y : α) (h : l[i]? = some x) : wr l i y = .ok (l.set i y) :=
  wr_ok (List.getElem?_eq_some_iff.1 h).1

theorem wr_map {α β : Type} (f : α → β) {l : List α} {i : Nat} {x : α} (y : α) (h : l[i]? = some x) :
    wr (l.map f) i (f y) = .ok ((l.set i y).map f) := by
  rw [wr_some (x := f x) _ (by simp [h]), List.map_set]

/-- the last address of a piece, or what precedes it -/
def lastOr (q : Option Nat) : Chain K → Option Nat
  | [] => q
  | x :: c => lastOr (some x.1) c

theorem hits_eq {nodes : Heap (Node K)} {hash : BitVec 64} {key : KeyArg K} {k : K} (hk : readKey nodes key = .ok k)
    (e : Entry K) (q : Option Nat) : hits nodes hash key (nd e q) = .ok (hit hash k e) := by
  unfold hits hit nd
  by_cases h : e.hash = hash
  · simp only [if_pos h, hk, bind, Except.bind, pure, Except.pure]
    simp [h]
  · simp [h]

theorem walk_miss {nodes : Heap (Node K)} {hash : BitVec 64} {key : KeyArg K} {k : K} (hk : readKey nodes key = .ok k)
    {c : Chain K} (hn : ∀ x ∈ c, hit hash k x.2 = false) : ∀ {n : Nat} {prev : Option Nat}, Seg nodes c none → c.length ≤ n →
    walk nodes hash key n prev (hd c) = .ok none := by
  induction c with
  | nil => intro n prev _ _; cases n <;> rfl
  | cons x c ih =>
    obtain ⟨p, e⟩ := x
    intro n prev hs hl
    cases n with
    | zero => simp at hl
    | succ n =>
      simp only [List.length_cons, Nat.add_le_add_iff_right] at hl
      simp only [walk, hd, hdOr, Heap.load_ok hs.1, hits_eq hk, hn (p, e) (by simp), bind, Except.bind]
      exact ih (fun x hx => hn x (by simp [hx])) hs.2 hl

theorem walk_hit {nodes : Heap (Node K)} {hash : BitVec 64} {key : KeyArg K} {k : K} (hk : readKey nodes key = .ok k)
    {pre post : Chain K} {p : Nat} {e : Entry K} (hn : ∀ x ∈ pre, hit hash k x.2 = false) (he : hit hash k e = true) :
    ∀ {n : Nat} {prev : Option Nat}, Seg nodes (pre ++ (p, e) :: post) none → (pre ++ (p, e) :: post).length ≤ n →
    walk nodes hash key n prev (hd (pre ++ (p, e) :: post)) = .ok (some (lastOr prev pre, p, nd e (hd post))) := by
  induction pre with
  | nil =>
    intro n prev hs hl
    cases n with
    | zero => simp at hl
    | succ n =>
      simp only [List.nil_append] at hs ⊢
      simp only [walk, hd, hdOr, Heap.load_ok hs.1, hits_eq hk, he, bind, Except.bind, pure, Except.pure]
      rfl
  | cons x pre ih =>
    obtain ⟨q, f⟩ := x
    intro n prev hs hl
    cases n with
    | zero => simp at hl
    | succ n =>
      simp only [List.cons_append, List.length_cons, Nat.add_le_add_iff_right] at hl
      simp only [List.cons_append] at hs ⊢
      simp only [walk, hd, hdOr, Heap.load_ok hs.1, hits_eq hk, hn (q, f) (by simp), bind, Except.bind]
      exact ih (fun x hx => hn x (by simp [hx])) hs.2 (by simpa using hl)

/-- a chain has no hit or a first one -/
theorem split_hit (hash : BitVec 64) (k : K) (c : Chain K) : (∀ x ∈ c, hit hash k x.2 = false) ∨
    ∃ pre p e post, c = pre ++ (p, e) :: post ∧ (∀ x ∈ pre, hit hash k x.2 = false) ∧ hit hash k e = true := by
  induction c with
  | nil => simp
  | cons x c ih =>
    cases hx : hit hash k x.2 with
    | true => exact Or.inr ⟨[], x.1, x.2, c, rfl, by simp, hx⟩
    | false =>
      rcases ih with h | ⟨pre, p, e, post, rfl, h1, h2⟩
      · refine Or.inl (fun y hy => ?_)
        rcases List.mem_cons.1 hy with rfl | hy
        · exact hx
        · exact h y hy
      · refine Or.inr ⟨x :: pre, p, e, post, rfl, fun y hy => ?_, h2⟩
        rcases List.mem_cons.1 hy with rfl | hy
        · exact hx
        · exact h1 y hy

theorem replaceIn_split {hash : BitVec 64} {k : K} {v : Nat} {A B : List (Entry K)} {e : Entry K}
    (hn : ∀ x ∈ A, hit hash k x = false) (he : hit hash k e = true) :
    replaceIn hash k v (A ++ e :: B) = some (e.value, A ++ { e with value := v } :: B) := by
  induction A with
  | nil => simp [replaceIn, he]
  | cons x A ih =>
    simp only [List.cons_append, replaceIn, hn x (by simp)]
    rw [ih (fun y hy => hn y (by simp [hy]))]
    rfl

theorem unlink_split {hash : BitVec 64} {k : K} {A B : List (Entry K)} {e : Entry K}
    (hn : ∀ x ∈ A, hit hash k x = false) (he : hit hash k e = true) :
    unlink hash k (A ++ e :: B) = some (e.value, A ++ B) := by
  induction A with
  | nil => simp [unlink, he]
  | cons x A ih =>
    simp only [List.cons_append, unlink, hn x (by simp)]
    rw [ih (fun y hy => hn y (by simp [hy]))]
    rfl

theorem findIn_split {hash : BitVec 64} {k : K} {A B : List (Entry K)} {e : Entry K}
    (hn : ∀ x ∈ A, hit hash k x = false) (he : hit hash k e = true) : findIn hash k (A ++ e :: B) = e.value := by
  induction A with
  | nil => simp [findIn, he]
  | cons x A ih =>
    simp only [List.cons_append, findIn, hn x (by simp)]
    exact ih (fun y hy => hn y (by simp [hy]))

theorem findIn_miss {hash : BitVec 64} {k : K} {A : List (Entry K)}
    (hn : ∀ x ∈ A, hit hash k x = false) : findIn hash k A = 0 := by
  induction A with
  | nil => rfl
  | cons x A ih =>
    simp only [findIn, hn x (by simp)]
    exact ih (fun y hy => hn y (by simp [hy]))

theorem no_hit_map {hash : BitVec 64} {k : K} {c : Chain K} (hn : ∀ x ∈ c, hit hash k x.2 = false) :
    ∀ x ∈ c.map Prod.snd, hit hash k x = false := by
  intro x hx
  obtain ⟨y, hy, rfl⟩ := List.mem_map.1 hx
  exact hn y hy

theorem Rep.chain {m : Mem K} {t : Tab} {L : List (Chain K)} (r : Rep m t L) (hash : BitVec 64) :
    ∃ c, L[bucket hash t.arrLength]? = some c := by
  have : bucket hash t.arrLength < L.length := by rw [r.len]; exact bucket_lt _ r.pos
  exact ⟨_, List.getElem?_eq_getElem this⟩

theorem perm_get {α : Type} {l : List α} {i : Nat} {x : α} (h : l[i]? = some x) : l.Perm (x :: l.eraseIdx i) := by
  induction l generalizing i with
  | nil => simp at h
  | cons y l ih =>
    cases i with
    | zero => simp at h; subst h; exact .refl _
    | succ i =>
      simp only [List.getElem?_cons_succ] at h
      exact ((ih h).cons y).trans (.swap ..)

theorem perm_set {α : Type} {l : List α} {i : Nat} {x : α} (y : α) (h : l[i]? = some x) : (l.set i y).Perm (y :: l.eraseIdx i) :=
  by
  induction l generalizing i with
  | nil => simp at h
  | cons z l ih =>
    cases i with
    | zero => exact .refl _
    | succ i =>
      simp only [List.getElem?_cons_succ] at h
      exact ((ih h).cons z).trans (.swap ..)

/-- one chain of the table changes -/
theorem Rep.upd {m : Mem K} {t : Tab} {L : List (Chain K)} (r : Rep m t L) {i : Nat} {c c' : Chain K} (hc : L[i]? = some c)
    {nodes : Heap (Node K)} (o : Own nodes (c' :: L.eraseIdx i)) (n : Nat) :
    Rep ⟨nodes, m.arrays.set t.data (some ((L.set i c').map hd))⟩ { t with dataLength := n } (L.set i c') where
  own := o.perm (perm_set c' hc).symm
  arr := get_set_eq _ (Heap.lt_of_live r.arr)
  only := by
    intro a x h
    by_cases ha : a = t.data
    · exact ha
    · exact r.only a x (by rw [← get_set_ne _ ha]; exact h)
  len := by simp [r.len]
  pos := r.pos

theorem Rep.split {m : Mem K} {t : Tab} {L : List (Chain K)} (r : Rep m t L) {i : Nat} {c : Chain K} (hc : L[i]? = some c) :
    Own m.nodes (c :: L.eraseIdx i) := r.own.perm (perm_get hc)

theorem set_same {α : Type} {l : List α} {i : Nat} {x : α} (h : l[i]? = some x) : l.set i x = l := by
  apply List.ext_getElem?
  intro j
  by_cases hj : j = i
  · subst hj; rw [get_set_eq _ (List.getElem?_eq_some_iff.1 h).1, h]
  · rw [get_set_ne _ hj]

theorem set_head_same {L : List (Chain K)} {i : Nat} {c c' : Chain K} (hc : L[i]? = some c) (hh : hd c' = hd c) :
    (L.set i c').map hd = L.map hd := by
  rw [List.map_set, hh]
  exact set_same (by simp [hc])

/-- `put` on a key that is there: its value is replaced. -/
theorem put_hit {hf : K → BitVec 64} {m : Mem K} {t : Tab} {L : List (Chain K)} (r : Rep m t L) {k : K} (v : Ptr)
    {pre post : Chain K} {p : Nat} {e : Entry K} (hc : L[bucket (hf k) t.arrLength]? = some (pre ++ (p, e) :: post))
    (hn : ∀ x ∈ pre, hit (hf k) k x.2 = false) (he : hit (hf k) k e = true) :
    ∃ m', put hf m t k v = .ok (m', t, e.value) ∧
      Rep m' t (L.set (bucket (hf k) t.arrLength) (pre ++ (p, { e with value := v }) :: post)) ∧
      Hashtable.put (toTable t L) (hf k) k v =
        .ok (toTable t (L.set (bucket (hf k) t.arrLength) (pre ++ (p, { e with value := v }) :: post)), e.value) := by
  have o := r.split hc
  have hmem : pre ++ (p, e) :: post ∈ L := List.mem_of_getElem? hc
  have hs := r.own.ch _ hmem
  have hw := walk_hit (key := .val k) (prev := none) rfl hn he hs (r.own.len hmem)
  have hp := (Seg_append.1 hs).2.1
  refine ⟨⟨m.nodes.set p (some (nd { e with value := v } (hd post))), m.arrays⟩, ?_, ?_, ?_⟩
  · simp only [put, Heap.load_ok r.arr, rd_map hd hc, hw, Heap.store_ok hp, bind, Except.bind, pure, Except.pure]
    rfl
  · have := r.upd hc (o.setVal (e' := { e with value := v })) t.dataLength
    rw [set_head_same hc (by cases pre <;> rfl), set_same r.arr] at this
    exact this
  · have hrd : rd (toTable t L).data (bucket (hf k) (toTable t L).arrLength) = .ok ((pre ++ (p, e) :: post).map Prod.snd) :=
      rd_map (List.map Prod.snd) hc
    have hrp := replaceIn_split (v := v) (B := post.map Prod.snd) (no_hit_map hn) he
    have hwr := wr_map (List.map Prod.snd) (pre ++ (p, { e with value := v }) :: post) hc
    simp only [List.map_append, List.map_cons] at hrd hwr
    simp only [Hashtable.put, hrd, hrp, bind, Except.bind, pure, Except.pure]
    rw [show (toTable t L).data = L.map (List.map Prod.snd) from rfl, show (toTable t L).arrLength = t.arrLength from rfl, hwr]
    rfl

/-- `get` -/
theorem get_eq {hf : K → BitVec 64} {m : Mem K} {t : Tab} {L : List (Chain K)} (r : Rep m t L) {k : K} {key : KeyArg K}
    (hk : readKey m.nodes key = .ok k) :
    get hf m t key = Hashtable.get (toTable t L) (hf k) k := by
  obtain ⟨c, hc⟩ := r.chain (hf k)
  have hmem : c ∈ L := List.mem_of_getElem? hc
  have hs := r.own.ch _ hmem
  have hrd : rd (toTable t L).data (bucket (hf k) (toTable t L).arrLength) = .ok (c.map Prod.snd) := rd_map (List.map Prod.snd) hc
  rcases split_hit (hf k) k c with hn | ⟨pre, p, e, post, rfl, hn, he⟩
  · have hw := walk_miss (prev := none) hk hn hs (r.own.len hmem)
    simp only [get, hk, Heap.load_ok r.arr, rd_map hd hc, hw, Hashtable.get, hrd, bind, Except.bind, pure, Except.pure]
    rw [findIn_miss (no_hit_map hn)]
  · have hw := walk_hit (prev := none) hk hn he hs (r.own.len hmem)
    simp only [List.map_append, List.map_cons] at hrd
    simp only [get, hk, Heap.load_ok r.arr, rd_map hd hc, hw, Hashtable.get, hrd, bind, Except.bind, pure, Except.pure]
    rw [findIn_split (no_hit_map hn) he]
    rfl

/-- `remove` of a key that is not there -/
theorem remove_miss {hf : K → BitVec 64} {m : Mem K} {t : Tab} {L : List (Chain K)} (r : Rep m t L) {k : K} {key : KeyArg K}
    (hk : readKey m.nodes key = .ok k) {c : Chain K} (hc : L[bucket (hf k) t.arrLength]? = some c) (hn : ∀ x ∈ c, hit (hf k) k x.2 = false) :
    remove hf m t key = .ok (m, t, 0) ∧ Hashtable.remove (toTable t L) (hf k) k = .ok (toTable t L, 0) := by
  have hmem : c ∈ L := List.mem_of_getElem? hc
  have hs := r.own.ch _ hmem
  have hrd : rd (toTable t L).data (bucket (hf k) (toTable t L).arrLength) = .ok (c.map Prod.snd) := rd_map (List.map Prod.snd) hc
  have hw := walk_miss (prev := none) hk hn hs (r.own.len hmem)
  constructor
  · simp only [remove, hk, Heap.load_ok r.arr, rd_map hd hc, hw, bind, Except.bind, pure, Except.pure]
  · simp only [Hashtable.remove, hrd, Hashtable.unlink_none.2 (no_hit_map hn), bind, Except.bind, pure, Except.pure]
    rfl

theorem snoc_cases {α : Type} (l : List α) : l = [] ∨ ∃ a x, l = a ++ [x] := by
  rcases List.eq_nil_or_concat l with h | ⟨a, x, h⟩
  · exact Or.inl h
  · exact Or.inr ⟨a, x, by simpa using h⟩

theorem lastOr_snoc (q : Option Nat) (c : Chain K) (x : Nat × Entry K) : lastOr q (c ++ [x]) = some x.1 := by
  induction c generalizing q with
  | nil => rfl
  | cons y c ih => exact ih _

/-- `remove` of a key that is there: its entry is unlinked and deleted. -/
theorem remove_hit {hf : K → BitVec 64} {m : Mem K} {t : Tab} {L : List (Chain K)} (r : Rep m t L) {k : K} {key : KeyArg K}
    (hk : readKey m.nodes key = .ok k) {pre post : Chain K} {p : Nat} {e : Entry K}
    (hc : L[bucket (hf k) t.arrLength]? = some (pre ++ (p, e) :: post))
    (hn : ∀ x ∈ pre, hit (hf k) k x.2 = false) (he : hit (hf k) k e = true) :
    ∃ m', remove hf m t key = .ok (m', { t with dataLength := t.dataLength - 1 }, e.value) ∧
      Rep m' { t with dataLength := t.dataLength - 1 } (L.set (bucket (hf k) t.arrLength) (pre ++ post)) ∧
      m'.nodes[p]? = some none ∧
      Hashtable.remove (toTable t L) (hf k) k =
        .ok (toTable { t with dataLength := t.dataLength - 1 } (L.set (bucket (hf k) t.arrLength) (pre ++ post)), e.value) := by
  have o := r.split hc
  have hmem : pre ++ (p, e) :: post ∈ L := List.mem_of_getElem? hc
  have hs := r.own.ch _ hmem
  have hw := walk_hit (prev := none) hk hn he hs (r.own.len hmem)
  have hp := (Seg_append.1 hs).2.1
  have hlist : Hashtable.remove (toTable t L) (hf k) k =
        .ok (toTable { t with dataLength := t.dataLength - 1 } (L.set (bucket (hf k) t.arrLength) (pre ++ post)), e.value) := by
    have hrd : rd (toTable t L).data (bucket (hf k) (toTable t L).arrLength) = .ok ((pre ++ (p, e) :: post).map Prod.snd) :=
      rd_map (List.map Prod.snd) hc
    have hrp := unlink_split (B := post.map Prod.snd) (no_hit_map hn) he
    have hwr := wr_map (List.map Prod.snd) (pre ++ post) hc
    simp only [List.map_append, List.map_cons] at hrd hwr
    simp only [Hashtable.remove, hrd, hrp, bind, Except.bind, pure, Except.pure]
    rw [show (toTable t L).data = L.map (List.map Prod.snd) from rfl, show (toTable t L).arrLength = t.arrLength from rfl, hwr]
    rfl
  have hplt := Heap.lt_of_live hp
  rcases snoc_cases pre with rfl | ⟨pre', ⟨q, f⟩, rfl⟩
  · simp only [List.nil_append, lastOr] at *
    refine ⟨⟨m.nodes.set p none, m.arrays.set t.data (some ((L.set (bucket (hf k) t.arrLength) post).map hd))⟩, ?_, r.upd hc o.pop _,
      get_set_eq _ hplt, hlist⟩
    simp only [remove, hk, Heap.load_ok r.arr, rd_map hd hc, hw, relink, nd, wr_map hd post hc, Heap.store_ok r.arr, Heap.free_ok hp,
      bind, Except.bind, pure, Except.pure]
  · simp only [lastOr_snoc, List.append_assoc, List.cons_append, List.nil_append] at *
    have hq := (Seg_append.1 hs).2.1
    have hqp : q ≠ p := by
      have := r.own.chain_nodup hmem
      simp only [List.map_append, List.map_cons, List.nodup_append, List.nodup_cons, List.mem_cons, not_or] at this
      exact this.2.1.1.1
    have hp' : (m.nodes.set q (some (nd f (hd post))))[p]? = some (some (nd e (hd post))) := by
      rw [get_set_ne _ (fun h => hqp h.symm)]; exact hp
    refine ⟨⟨(m.nodes.set q (some (nd f (hd post)))).set p none, m.arrays⟩, ?_, ?_, get_set_eq _ (by simpa using hplt), hlist⟩
    · simp only [remove, hk, Heap.load_ok r.arr, rd_map hd hc, hw, relink, Heap.load_ok hq, Heap.store_ok hq, bind, Except.bind, pure, Except.pure]
      have := Heap.free_ok hp'
      simp only [nd, hd] at this ⊢
      rw [this]
    · have := r.upd hc o.cut (t.dataLength - 1)
      rw [set_head_same hc (by cases pre' <;> rfl), set_same r.arr] at this
      exact this

end Verif.HashMem
