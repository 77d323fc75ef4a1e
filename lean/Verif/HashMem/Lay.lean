import Verif.HashMem.Model
/-
Where the entries are: chains of addresses with their entries.
-/
namespace Verif.HashMem
open Verif
open Verif.Hashtable (Entry)

variable {K : Type}

/-- a chain: the addresses of its entries and their content -/
abbrev Chain (K : Type) := List (Nat × Entry K)

/-- the first address of a chain, or what follows it -/
def hdOr (q : Option Nat) : Chain K → Option Nat
  | [] => q
  | x :: _ => some x.1

def hd (c : Chain K) : Option Nat := hdOr none c

/-- an entry in memory -/
def nd (e : Entry K) (q : Option Nat) : Node K := ⟨e.hash, e.key, e.value, q⟩

/-- a piece of a chain, `q` is the `next` of its last entry -/
def Seg (nodes : Heap (Node K)) : Chain K → Option Nat → Prop
  | [], _ => True
  | (a, e) :: c, q => nodes[a]? = some (some (nd e (hdOr q c))) ∧ Seg nodes c q

theorem hdOr_append (q : Option Nat) (c d : Chain K) : hdOr q (c ++ d) = hdOr (hdOr q d) c := by
  cases c <;> rfl

theorem Seg_append {nodes : Heap (Node K)} {c d : Chain K} {q : Option Nat} :
    Seg nodes (c ++ d) q ↔ Seg nodes c (hdOr q d) ∧ Seg nodes d q := by
  induction c with
  | nil => simp [Seg]
  | cons x c ih =>
    obtain ⟨a, e⟩ := x
    simp only [List.cons_append, Seg, ih, hdOr_append, and_assoc]

theorem Seg_frame {nodes nodes' : Heap (Node K)} {c : Chain K} {q : Option Nat} (h : Seg nodes c q)
    (hf : ∀ a ∈ c.map Prod.fst, nodes'[a]? = nodes[a]?) : Seg nodes' c q := by
  induction c with
  | nil => trivial
  | cons x c ih =>
    obtain ⟨a, e⟩ := x
    exact ⟨by rw [hf a (by simp)]; exact h.1, ih h.2 (fun b hb => hf b (by simp [hb]))⟩

/-- the addresses of some chains -/
def adr (P : List (Chain K)) : List Nat := P.flatten.map Prod.fst

theorem adr_cons (c : Chain K) (P : List (Chain K)) : adr (c :: P) = c.map Prod.fst ++ adr P := by simp [adr]

theorem adr_perm {P Q : List (Chain K)} (h : P.Perm Q) : (adr P).Perm (adr Q) := (h.flatten).map _

/-- The live entries are exactly those of the chains `P`, nothing is shared. -/
structure Own (nodes : Heap (Node K)) (P : List (Chain K)) : Prop where
  ch : ∀ c ∈ P, Seg nodes c none
  nodup : (adr P).Nodup
  live : ∀ a n, nodes[a]? = some (some n) → a ∈ adr P

theorem Own.perm {nodes : Heap (Node K)} {P Q : List (Chain K)} (o : Own nodes P) (h : P.Perm Q) : Own nodes Q where
  ch := fun c hc => o.ch c (h.mem_iff.2 hc)
  nodup := ((adr_perm h).nodup_iff).1 o.nodup
  live := fun a n e => (adr_perm h).mem_iff.1 (o.live a n e)

theorem Seg_lt {nodes : Heap (Node K)} {c : Chain K} {q : Option Nat} (h : Seg nodes c q) : ∀ a ∈ c.map Prod.fst, a < nodes.length := by
  induction c with
  | nil => simp
  | cons x c ih =>
    obtain ⟨a, e⟩ := x
    intro b hb
    simp only [List.map_cons, List.mem_cons] at hb
    rcases hb with rfl | hb
    · exact Heap.lt_of_live h.1
    · exact ih h.2 b hb

theorem Own.lt {nodes : Heap (Node K)} {P : List (Chain K)} (o : Own nodes P) : ∀ a ∈ adr P, a < nodes.length := by
  intro a ha
  obtain ⟨x, hx, rfl⟩ := List.mem_map.1 ha
  obtain ⟨c, hc, hxc⟩ := List.mem_flatten.1 hx
  exact Seg_lt (o.ch c hc) x.1 (List.mem_map.2 ⟨x, hxc, rfl⟩)

theorem Own.chain_nodup {nodes : Heap (Node K)} {P : List (Chain K)} (o : Own nodes P) {c : Chain K} (hc : c ∈ P) :
    (c.map Prod.fst).Nodup := by
  obtain ⟨s, t, rfl⟩ := List.append_of_mem hc
  have := o.nodup
  simp only [adr, List.flatten_append, List.flatten_cons, List.map_append, List.nodup_append] at this
  exact this.2.1.1

/-- a chain is no longer than the heap -/
theorem Own.len {nodes : Heap (Node K)} {P : List (Chain K)} (o : Own nodes P) {c : Chain K} (hc : c ∈ P) : c.length ≤ nodes.length := by
  have h := (o.chain_nodup hc).length_le_of_subset (l₂ := List.range nodes.length) (by
    intro a ha
    exact List.mem_range.2 (Seg_lt (o.ch c hc) a ha))
  simpa using h

theorem get_set_ne {α : Type} {l : List α} {i j : Nat} (x : α) (h : j ≠ i) : (l.set i x)[j]? = l[j]? := by
  rw [List.getElem?_set]; rw [if_neg (fun e => h e.symm)]

theorem get_set_eq {α : Type} {l : List α} {i : Nat} (x : α) (h : i < l.length) : (l.set i x)[i]? = some x := by
  rw [List.getElem?_set]; simp [h]

/-- the first entry of a chain moves to the front of another one -/
theorem Own.move {nodes : Heap (Node K)} {p : Nat} {e : Entry K} {c d : Chain K} {Q : List (Chain K)}
    (o : Own nodes (((p, e) :: c) :: d :: Q)) :
    Own (nodes.set p (some (nd e (hd d)))) (c :: ((p, e) :: d) :: Q) := by
  have hn := o.nodup
  simp only [adr_cons, List.map_cons, List.cons_append, List.nodup_cons, List.mem_append, not_or] at hn
  obtain ⟨⟨hpc, hpd, hpQ⟩, hn'⟩ := hn
  have hlt : p < nodes.length := o.lt p (by simp [adr_cons])
  have fr : ∀ a, a ≠ p → (nodes.set p (some (nd e (hd d))))[a]? = nodes[a]? := fun a ha => get_set_ne _ ha
  refine ⟨?_, ?_, ?_⟩
  · intro x hx
    simp only [List.mem_cons] at hx
    rcases hx with rfl | rfl | hx
    · exact Seg_frame (o.ch ((p, e) :: x) (by simp)).2 (fun a ha => fr a (fun h => hpc (h ▸ ha)))
    · refine ⟨get_set_eq _ hlt, ?_⟩
      exact Seg_frame (o.ch d (by simp)) (fun a ha => fr a (fun h => hpd (h ▸ ha)))
    · refine Seg_frame (o.ch x (by simp [hx])) (fun a ha => fr a (fun h => hpQ ?_))
      subst h
      obtain ⟨y, hy, he⟩ := List.mem_map.1 ha
      exact List.mem_map.2 ⟨y, List.mem_flatten.2 ⟨x, hx, hy⟩, he⟩
  · have : (adr (c :: ((p, e) :: d) :: Q)).Perm (adr (((p, e) :: c) :: d :: Q)) := by
      simp only [adr_cons, List.map_cons, List.cons_append]
      exact List.perm_middle
    exact this.nodup_iff.2 o.nodup
  · intro a n h
    have hm : a ∈ adr (((p, e) :: c) :: d :: Q) := by
      by_cases ha : a = p
      · subst ha; simp [adr_cons]
      · rw [fr a ha] at h; exact o.live a n h
    simp only [adr_cons, List.map_cons, List.cons_append, List.mem_cons, List.mem_append] at hm ⊢
    rcases hm with h | h | h | h <;> simp [h]

/-- another value in an entry -/
theorem Own.setVal {nodes : Heap (Node K)} {p : Nat} {e e' : Entry K} {pre post : Chain K} {Q : List (Chain K)}
    (o : Own nodes ((pre ++ (p, e) :: post) :: Q)) :
    Own (nodes.set p (some (nd e' (hd post)))) ((pre ++ (p, e') :: post) :: Q) := by
  have hn := o.nodup
  simp only [adr_cons, List.map_append, List.map_cons, List.append_assoc, List.cons_append] at hn
  have hn2 := (List.perm_middle.nodup_iff).1 hn
  simp only [List.nodup_cons, List.mem_append, not_or] at hn2
  obtain ⟨⟨hp1, hp2, hpQ⟩, _⟩ := hn2
  have hlt : p < nodes.length := o.lt p (by simp [adr_cons])
  have fr : ∀ a, a ≠ p → (nodes.set p (some (nd e' (hd post))))[a]? = nodes[a]? := fun a ha => get_set_ne _ ha
  refine ⟨?_, ?_, ?_⟩
  · intro x hx
    simp only [List.mem_cons] at hx
    rcases hx with rfl | hx
    · have h := Seg_append.1 (o.ch _ (List.mem_cons_self ..))
      refine Seg_append.2 ⟨Seg_frame h.1 (fun a ha => fr a (fun h => hp1 (h ▸ ha))), get_set_eq _ hlt, ?_⟩
      exact Seg_frame h.2.2 (fun a ha => fr a (fun h => hp2 (h ▸ ha)))
    · refine Seg_frame (o.ch x (by simp [hx])) (fun a ha => fr a (fun h => hpQ ?_))
      subst h
      obtain ⟨y, hy, he⟩ := List.mem_map.1 ha
      exact List.mem_map.2 ⟨y, List.mem_flatten.2 ⟨x, hx, hy⟩, he⟩
  · simpa only [adr_cons, List.map_append, List.map_cons, List.append_assoc, List.cons_append] using hn
  · intro a n h
    have hm : a ∈ adr ((pre ++ (p, e) :: post) :: Q) := by
      by_cases ha : a = p
      · subst ha; simp [adr_cons]
      · rw [fr a ha] at h; exact o.live a n h
    simpa only [adr_cons, List.map_append, List.map_cons, List.append_assoc, List.cons_append] using hm

/-- a new entry -/
theorem Own.push {nodes : Heap (Node K)} {e : Entry K} {d : Chain K} {Q : List (Chain K)} (o : Own nodes (d :: Q)) :
    Own (nodes ++ [some (nd e (hd d))]) (((nodes.length, e) :: d) :: Q) := by
  have hlt := o.lt
  have hnew : nodes.length ∉ adr (d :: Q) := fun h => absurd (hlt _ h) (by omega)
  have fr : ∀ a, a ∈ adr (d :: Q) → (nodes ++ [some (nd e (hd d))])[a]? = nodes[a]? :=
    fun a ha => List.getElem?_append_left (hlt a ha)
  have memof : ∀ x ∈ d :: Q, ∀ a ∈ x.map Prod.fst, a ∈ adr (d :: Q) := by
    intro x hx a ha
    obtain ⟨y, hy, he⟩ := List.mem_map.1 ha
    exact List.mem_map.2 ⟨y, List.mem_flatten.2 ⟨x, hx, hy⟩, he⟩
  refine ⟨?_, ?_, ?_⟩
  · intro x hx
    rcases List.mem_cons.1 hx with rfl | hx
    · exact ⟨by simp [hd], Seg_frame (o.ch d (by simp)) (fun a ha => fr a (memof d (by simp) a ha))⟩
    · exact Seg_frame (o.ch x (by simp [hx])) (fun a ha => fr a (memof x (by simp [hx]) a ha))
  · have : adr (((nodes.length, e) :: d) :: Q) = nodes.length :: adr (d :: Q) := by simp [adr_cons]
    rw [this]; exact List.nodup_cons.2 ⟨hnew, o.nodup⟩
  · intro a n h
    have : adr (((nodes.length, e) :: d) :: Q) = nodes.length :: adr (d :: Q) := by simp [adr_cons]
    rw [this]
    by_cases ha : a < nodes.length
    · rw [List.getElem?_append_left ha] at h
      exact List.mem_cons_of_mem _ (o.live a n h)
    · have := (List.getElem?_eq_some_iff.1 h).1
      simp at this
      have : a = nodes.length := by omega
      simp [this]

/-- the first entry of a chain is deleted -/
theorem Own.pop {nodes : Heap (Node K)} {p : Nat} {e : Entry K} {c : Chain K} {Q : List (Chain K)}
    (o : Own nodes (((p, e) :: c) :: Q)) : Own (nodes.set p none) (c :: Q) := by
  have hn := o.nodup
  simp only [adr_cons, List.map_cons, List.cons_append, List.nodup_cons, List.mem_append, not_or] at hn
  obtain ⟨⟨hpc, hpQ⟩, hn'⟩ := hn
  have fr : ∀ a, a ≠ p → (nodes.set p none)[a]? = nodes[a]? := fun a ha => get_set_ne _ ha
  refine ⟨?_, by rw [adr_cons]; exact hn', ?_⟩
  · intro x hx
    rcases List.mem_cons.1 hx with rfl | hx
    · exact Seg_frame (o.ch ((p, e) :: x) (by simp)).2 (fun a ha => fr a (fun h => hpc (h ▸ ha)))
    · refine Seg_frame (o.ch x (by simp [hx])) (fun a ha => fr a (fun h => hpQ ?_))
      subst h
      obtain ⟨y, hy, he⟩ := List.mem_map.1 ha
      exact List.mem_map.2 ⟨y, List.mem_flatten.2 ⟨x, hx, hy⟩, he⟩
  · intro a n h
    by_cases ha : a = p
    · subst ha
      rw [List.getElem?_set] at h
      split at h
      · split at h <;> simp at h
      · rename_i hh; exact absurd rfl hh
    · rw [fr a ha] at h
      have hm := o.live a n h
      simp only [adr_cons, List.map_cons, List.cons_append, List.mem_cons, List.mem_append] at hm ⊢
      rcases hm with h | h | h
      · exact absurd h ha
      · exact Or.inl h
      · exact Or.inr h

/-- an entry that is not the first of its chain is unlinked and deleted -/
theorem Own.cut {nodes : Heap (Node K)} {p q : Nat} {e f : Entry K} {pre post : Chain K} {Q : List (Chain K)}
    (o : Own nodes ((pre ++ (q, f) :: (p, e) :: post) :: Q)) :
    Own ((nodes.set q (some (nd f (hd post)))).set p none) ((pre ++ (q, f) :: post) :: Q) := by
  have hn := o.nodup
  have hsplit : ∀ a, a ∈ adr ((pre ++ (q, f) :: (p, e) :: post) :: Q) ↔ a = p ∨ a ∈ adr ((pre ++ (q, f) :: post) :: Q) := by
    intro a
    simp only [adr_cons, List.map_append, List.map_cons, List.mem_append, List.mem_cons]
    constructor
    · rintro ((h | h | h | h) | h) <;> simp [h]
    · rintro (h | (h | h | h) | h) <;> simp [h]
  have hperm : (adr ((pre ++ (q, f) :: (p, e) :: post) :: Q)).Perm (p :: adr ((pre ++ (q, f) :: post) :: Q)) := by
    simp only [adr_cons, List.map_append, List.map_cons, List.append_assoc, List.cons_append]
    have := List.perm_middle (l₁ := List.map Prod.fst pre ++ [q]) (l₂ := List.map Prod.fst post ++ adr Q) (a := p)
    simpa using this
  have hn2 := hperm.nodup_iff.1 hn
  obtain ⟨hp, hn3⟩ := List.nodup_cons.1 hn2
  have hqp : q ≠ p := by
    rintro rfl; exact hp (by simp [adr_cons])
  have hqn : q ∉ pre.map Prod.fst ∧ q ∉ post.map Prod.fst ∧ q ∉ adr Q := by
    simp only [adr_cons, List.map_append, List.map_cons, List.append_assoc, List.cons_append] at hn3
    have := (List.perm_middle.nodup_iff).1 hn3
    simp only [List.nodup_cons, List.mem_append, not_or] at this
    exact this.1
  have hpn : p ∉ pre.map Prod.fst ∧ p ∉ post.map Prod.fst ∧ p ∉ adr Q := by
    simp only [adr_cons, List.map_append, List.map_cons, List.mem_append, List.mem_cons, not_or] at hp
    exact ⟨hp.1.1, hp.1.2.2, hp.2⟩
  have hltq : q < nodes.length := o.lt q (by simp [adr_cons])
  have fr : ∀ a, a ≠ p → a ≠ q → ((nodes.set q (some (nd f (hd post)))).set p none)[a]? = nodes[a]? :=
    fun a ha hb => by rw [get_set_ne _ ha, get_set_ne _ hb]
  have gq : ((nodes.set q (some (nd f (hd post)))).set p none)[q]? = some (some (nd f (hd post))) := by
    rw [get_set_ne _ hqp, get_set_eq _ hltq]
  refine ⟨?_, hn3, ?_⟩
  · intro x hx
    rcases List.mem_cons.1 hx with rfl | hx
    · have h := Seg_append.1 (o.ch _ (List.mem_cons_self ..))
      refine Seg_append.2 ⟨Seg_frame h.1 (fun a ha => fr a (fun h => hpn.1 (h ▸ ha)) (fun h => hqn.1 (h ▸ ha))), gq, ?_⟩
      exact Seg_frame h.2.2.2 (fun a ha => fr a (fun h => hpn.2.1 (h ▸ ha)) (fun h => hqn.2.1 (h ▸ ha)))
    · have hmem : ∀ a ∈ x.map Prod.fst, a ∈ adr Q := by
        intro a ha
        obtain ⟨y, hy, he⟩ := List.mem_map.1 ha
        exact List.mem_map.2 ⟨y, List.mem_flatten.2 ⟨x, hx, hy⟩, he⟩
      exact Seg_frame (o.ch x (by simp [hx])) (fun a ha => fr a (fun h => hpn.2.2 (h ▸ hmem a ha)) (fun h => hqn.2.2 (h ▸ hmem a ha)))
  · intro a n h
    by_cases ha : a = p
    · subst ha
      rw [List.getElem?_set] at h
      split at h
      · split at h <;> simp at h
      · rename_i hh; exact absurd rfl hh
    · by_cases hb : a = q
      · subst hb; simp [adr_cons]
      · rw [fr a ha hb] at h
        rcases (hsplit a).1 (o.live a n h) with h' | h'
        · exact absurd h' ha
        · exact h'

end Verif.HashMem
