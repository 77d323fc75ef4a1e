import Verif.LinkedList.Nf
/-
Doubly linked chains in memory.
-/
namespace Verif.LinkedList
open Verif Verif.Undo Verif.Undo.Spec

def headA (ns : List (Nat × Nat)) (n : Nat) : Nat :=
  match ns with
  | [] => n
  | (e, _) :: _ => e

def lastA (p : Nat) : List (Nat × Nat) → Nat
  | [] => p
  | (e, _) :: r => lastA e r

/-- the nodes (address, data) are linked in this order; `p` comes before and `n` after them -/
def Seg (m : Mem Nat) : Nat → List (Nat × Nat) → Nat → Prop
  | _, [], _ => True
  | p, (e, d) :: r, n => m e = p ∧ m (e + 1) = headA r n ∧ m (e + 2) = d ∧ Seg m e r n

theorem lastA_append (p : Nat) (a b : List (Nat × Nat)) : lastA p (a ++ b) = lastA (lastA p a) b := by
  induction a generalizing p with
  | nil => rfl
  | cons x a ih => exact ih x.1

theorem headA_append (a b : List (Nat × Nat)) (n : Nat) : headA (a ++ b) n = headA a (headA b n) := by
  cases a <;> rfl

theorem seg_append (m : Mem Nat) (p : Nat) (a b : List (Nat × Nat)) (n : Nat) :
    Seg m p (a ++ b) n ↔ Seg m p a (headA b n) ∧ Seg m (lastA p a) b n := by
  induction a generalizing p with
  | nil => simp [Seg, lastA]
  | cons x a ih =>
    obtain ⟨e, d⟩ := x
    simp only [List.cons_append, Seg, headA_append, ih, lastA]
    constructor
    · rintro ⟨h1, h2, h3, h4, h5⟩; exact ⟨⟨h1, h2, h3, h4⟩, h5⟩
    · rintro ⟨⟨h1, h2, h3, h4⟩, h5⟩; exact ⟨h1, h2, h3, h4, h5⟩

theorem seg_frame {m m' : Mem Nat} {p n : Nat} {ns : List (Nat × Nat)} (h : ∀ x ∈ ns, ∀ f, f < 3 → m' (x.1 + f) = m (x.1 + f))
    (hs : Seg m p ns n) : Seg m' p ns n := by
  induction ns generalizing p with
  | nil => trivial
  | cons x ns ih =>
    obtain ⟨e, d⟩ := x
    obtain ⟨h1, h2, h3, h4⟩ := hs
    have k := h (e, d) (List.mem_cons_self ..)
    exact ⟨(k 0 (by omega)).trans h1, (k 1 (by omega)).trans h2, (k 2 (by omega)).trans h3,
      ih (fun x hx => h x (List.mem_cons_of_mem _ hx)) h4⟩

structure RepM (brk : Nat) (m : Mem Nat) (ns : List (Nat × Nat)) : Prop where
  start : m 1 = headA ns 0
  lend : m 2 = lastA 0 ns
  cnt : m 4 = ns.length % 2 ^ 32
  seg : Seg m 0 ns 0
  addr : ∀ n ∈ ns, 8 ≤ n.1 ∧ n.1 % 3 = 2 ∧ n.1 + 3 ≤ brk
  nodup : (ns.map Prod.fst).Nodup
  zero : ∀ a, brk ≤ a → m a = 0
  brkOk : 8 ≤ brk ∧ brk % 3 = 2

theorem RepM.mono {brk brk' : Nat} {m : Mem Nat} {ns : List (Nat × Nat)} (h : RepM brk m ns) (hb : brk ≤ brk') (hk : brk' % 3 = 2) :
    RepM brk' m ns :=
  ⟨h.start, h.lend, h.cnt, h.seg, fun n hn => by have := h.addr n hn; omega, h.nodup, fun a ha => h.zero a (by omega),
    by have := h.brkOk; omega, hk⟩

theorem repM_empty : RepM 8 (fun _ => 0) [] :=
  ⟨rfl, rfl, rfl, trivial, by simp, by simp, fun _ _ => rfl, by decide⟩

theorem mem_addr {ns : List (Nat × Nat)} {x : Nat × Nat} (h : x ∈ ns) : x.1 ∈ ns.map Prod.fst := List.mem_map_of_mem h

theorem nodup_mid {A B : List (Nat × Nat)} {t : Nat × Nat} (h : ((A ++ t :: B).map Prod.fst).Nodup) :
    (∀ x ∈ A, x.1 ≠ t.1) ∧ (∀ x ∈ B, x.1 ≠ t.1) ∧ (A.map Prod.fst).Nodup ∧ (B.map Prod.fst).Nodup ∧ (∀ x ∈ A, ∀ y ∈ B, x.1 ≠ y.1) := by
  rw [List.map_append, List.map_cons, List.nodup_append] at h
  obtain ⟨h1, h2, h3⟩ := h
  rw [List.nodup_cons] at h2
  refine ⟨fun x hx => h3 _ (mem_addr hx) _ (List.mem_cons_self ..), fun x hx e => h2.1 (e ▸ mem_addr hx), h1, h2.2, ?_⟩
  intro x hx y hy
  exact h3 _ (mem_addr hx) _ (List.mem_cons_of_mem _ (mem_addr hy))

theorem nodup_of {A B : List (Nat × Nat)} (h1 : (A.map Prod.fst).Nodup) (h2 : (B.map Prod.fst).Nodup) (h3 : ∀ x ∈ A, ∀ y ∈ B, x.1 ≠ y.1) :
    ((A ++ B).map Prod.fst).Nodup := by
  rw [List.map_append, List.nodup_append]
  refine ⟨h1, h2, ?_⟩
  intro a ha b hb
  obtain ⟨x, hx, rfl⟩ := List.mem_map.1 ha
  obtain ⟨y, hy, rfl⟩ := List.mem_map.1 hb
  exact h3 x hx y hy

theorem headA_ne {ns : List (Nat × Nat)} {n t : Nat} (hn : n ≠ t) (h : ∀ x ∈ ns, x.1 ≠ t) : headA ns n ≠ t := by
  cases ns with
  | nil => exact hn
  | cons x ns => exact h x (List.mem_cons_self ..)

theorem headA_zero {ns : List (Nat × Nat)} (h : ∀ x ∈ ns, 8 ≤ x.1) : headA ns 0 = 0 ↔ ns = [] := by
  cases ns with
  | nil => simp [headA]
  | cons x ns =>
    have := h x (List.mem_cons_self ..)
    simp [headA]; omega

theorem W_cons (m : Mem Nat) (p v : Nat) (l : List (Nat × Nat)) : W m ((p, v) :: l) = W (upd m p v) l := rfl
theorem W_nil (m : Mem Nat) : W m [] = m := rfl
theorem upd_eq (m : Mem Nat) (p v : Nat) : upd m p v p = v := if_pos rfl
theorem upd_ne (m : Mem Nat) (p v a : Nat) (h : a ≠ p) : upd m p v a = m a := if_neg h

theorem rep_add {brk : Nat} {m : Mem Nat} {ns : List (Nat × Nat)} (h : RepM brk m ns) (d : Nat) :
    RepM (brk + 3) (W m (addStores (m 2) (m 1) (m 4) brk d)) (ns ++ [(brk, d)]) := by
  obtain ⟨hs, he, hc, hseg, ha, hn, hz, hb1, hb2⟩ := h
  have hz1 := hz (brk + 1) (by omega)
  have hnd : ((ns ++ [(brk, d)]).map Prod.fst).Nodup :=
    nodup_of hn (by simp) (by intro x hx y hy; simp at hy; subst hy; have := ha x hx; simp; omega)
  have hadr : ∀ n ∈ ns ++ [(brk, d)], 8 ≤ n.1 ∧ n.1 % 3 = 2 ∧ n.1 + 3 ≤ brk + 3 := by
    intro n hn
    rcases List.mem_append.1 hn with hn | hn
    · have := ha n hn; omega
    · simp at hn; subst hn; simp; omega
  have hcnt : (ns.length % 2 ^ 32 + 1) % 2 ^ 32 = (ns ++ [(brk, d)]).length % 2 ^ 32 := by simp
  rcases List.eq_nil_or_concat ns with rfl | ⟨A, ⟨l, dl⟩, rfl⟩
  · have e1 : m 2 = 0 := he
    have e2 : m 1 = 0 := hs
    simp only [addStores, endStores, e1, e2, bne_self_eq_false, Bool.false_eq_true, if_false, beq_self_eq_true, if_true, List.append_nil,
      List.cons_append, List.nil_append, W_cons, W_nil, aStart, aEnd, aCount, Nat.add_zero] at *
    refine ⟨?_, ?_, ?_, ⟨?_, ?_, ?_, trivial⟩, hadr, hnd, ?_, by omega, by omega⟩
    · simp only [upd, aStart]; simp [headA]
    · simp only [upd, aEnd]; simp [lastA]
    · simp only [upd, aCount]; simp [hc]
    · simp only [upd]; rw [if_neg (by omega), if_neg (by omega), if_neg (by omega), if_pos trivial]
    · simp only [upd]; rw [if_neg (by omega), if_neg (by omega), if_neg (by omega), if_neg (by omega), if_neg (by omega)]; exact hz1
    · simp only [upd]; rw [if_neg (by omega), if_neg (by omega), if_neg (by omega), if_neg (by omega), if_pos trivial]
    · intro a hab
      simp only [upd]; rw [if_neg (by omega), if_neg (by omega), if_neg (by omega), if_neg (by omega), if_neg (by omega)]; exact hz a (by omega)
  · have hl := ha (l, dl) (by simp)
    simp only at hl
    have e1 : m 2 = l := by rw [he, List.concat_eq_append, lastA_append]; rfl
    have e2 : ¬ m 1 = 0 := by
      rw [hs, headA_zero (fun x hx => (ha x hx).1)]; simp
    rw [List.concat_eq_append] at *
    have e1' : (l != 0) = true := by simp; omega
    have e2' : (m 1 == 0) = false := by simpa using e2
    rw [seg_append] at hseg
    obtain ⟨sA, sl1, sl2, sl3, _⟩ := hseg
    obtain ⟨nd1, _, nd2, _, _⟩ := nodup_mid hn
    simp only [addStores, endStores, e1, e1', e2', if_true, if_false, Bool.false_eq_true, List.cons_append, List.nil_append, Nat.add_zero, aEnd, aCount, aStart]
    generalize hst : ((brk + 2, d) :: (brk, l) :: (l + 1, brk) :: (brk, l) :: (2, brk) :: [(4, (m 4 + 1) % 2 ^ 32)] : List (Nat × Nat)) = st
    have skip : ∀ a, a ≠ brk + 2 → a ≠ brk → a ≠ l + 1 → a ≠ 2 → a ≠ 4 → W m st a = m a := by
      intro a h1 h2 h3 h4 h5
      refine W_skip _ _ _ ?_
      intro w hw
      rw [← hst] at hw
      simp only [List.mem_cons, List.nil_append, List.not_mem_nil, or_false] at hw
      rcases hw with rfl | rfl | rfl | rfl | rfl | rfl <;> simp only <;> omega
    have v : ∀ a, W m st a = if a = 4 then (m 4 + 1) % 2 ^ 32 else if a = 2 then brk else if a = brk then l else if a = l + 1 then brk else if a = brk then l else if a = brk + 2 then d else m a := by
      intro a; rw [← hst]; rfl
    refine ⟨?_, ?_, ?_, ?_, hadr, hnd, ?_, by omega, by omega⟩
    · rw [skip 1 (by omega) (by omega) (by omega) (by omega) (by omega), hs]
      simp only [headA_append]
      cases A <;> rfl
    · rw [v, if_neg (by decide), if_pos rfl, lastA_append]; rfl
    · rw [v, if_pos rfl, hc]; exact hcnt
    · rw [List.append_assoc, seg_append, List.singleton_append]
      refine ⟨seg_frame ?_ sA, ?_, ?_, ?_, ?_, ?_, ?_, trivial⟩
      · intro x hx f hf
        have h1 := ha x (by simp [hx])
        have h2 := nd1 x hx
        simp only at h2
        exact skip _ (by omega) (by omega) (by omega) (by omega) (by omega)
      · rw [skip _ (by omega) (by omega) (by omega) (by omega) (by omega)]; exact sl1
      · rw [v, if_neg (by omega), if_neg (by omega), if_neg (by omega), if_pos rfl]; rfl
      · rw [skip _ (by omega) (by omega) (by omega) (by omega) (by omega)]; exact sl3
      · rw [v, if_neg (by omega), if_neg (by omega), if_pos rfl]
      · rw [skip _ (by omega) (by omega) (by omega) (by omega) (by omega)]; exact hz1
      · rw [v, if_neg (by omega), if_neg (by omega), if_neg (by omega), if_neg (by omega), if_neg (by omega), if_pos rfl]
    · intro a hab
      rw [skip _ (by omega) (by omega) (by omega) (by omega) (by omega)]; exact hz a (by omega)

theorem rep_bef {brk : Nat} {m : Mem Nat} {A B : List (Nat × Nat)} {t dt : Nat} (h : RepM brk m (A ++ (t, dt) :: B)) (d : Nat) :
    RepM (brk + 3) (W m ((brk + 2, d) :: befStores (m t) (m 1) (m 4) t brk)) (A ++ (brk, d) :: (t, dt) :: B) := by
  obtain ⟨hs, he, hc, hseg, ha, hn, hz, hb1, hb2⟩ := h
  have ht := ha (t, dt) (by simp)
  simp only at ht
  obtain ⟨nd1, nd2, nd3, nd4, nd5⟩ := nodup_mid hn
  simp only at nd1 nd2
  have hnd : ((A ++ (brk, d) :: (t, dt) :: B).map Prod.fst).Nodup := by
    refine nodup_of nd3 ?_ ?_
    · simp only [List.map_cons, List.nodup_cons, List.mem_cons, List.mem_map, not_or, not_exists, not_and]
      refine ⟨⟨by omega, ?_⟩, ?_, nd4⟩
      · intro x hx; have := ha x (by simp [hx]); omega
      · intro x hx; exact nd2 x hx
    · intro x hx y hy
      have := ha x (by simp [hx])
      rcases List.mem_cons.1 hy with rfl | hy
      · simp only; omega
      · rcases List.mem_cons.1 hy with rfl | hy
        · exact nd1 x hx
        · exact nd5 x hx y hy
  have hadr : ∀ n ∈ A ++ (brk, d) :: (t, dt) :: B, 8 ≤ n.1 ∧ n.1 % 3 = 2 ∧ n.1 + 3 ≤ brk + 3 := by
    intro n hn
    rcases List.mem_append.1 hn with hn | hn
    · have := ha n (by simp [hn]); omega
    · rcases List.mem_cons.1 hn with rfl | hn
      · simp only; omega
      · have := ha n (List.mem_append_right _ hn); omega
  have hcnt : ((A ++ (t, dt) :: B).length % 2 ^ 32 + 1) % 2 ^ 32 = (A ++ (brk, d) :: (t, dt) :: B).length % 2 ^ 32 := by
    simp only [List.length_append, List.length_cons]; omega
  rw [seg_append] at hseg
  obtain ⟨sA, st1, st2, st3, sB⟩ := hseg
  rcases List.eq_nil_or_concat A with rfl | ⟨A', ⟨l, dl⟩, rfl⟩
  · have e0 : m t = 0 := st1
    have e1 : m 1 = t := hs
    simp only [befStores, e0, e1, beq_self_eq_true, bne_self_eq_false, if_true, if_false, Bool.false_eq_true, List.cons_append, List.nil_append,
      Nat.add_zero, aStart, aCount, List.append_nil]
    generalize hst : ((brk + 2, d) :: (1, brk) :: (brk, 0) :: (brk + 1, t) :: (t, brk) :: [(4, (m 4 + 1) % 2 ^ 32)] : List (Nat × Nat)) = st
    have v : ∀ a, W m st a = if a = 4 then (m 4 + 1) % 2 ^ 32 else if a = t then brk else if a = brk + 1 then t else if a = brk then 0 else
        if a = 1 then brk else if a = brk + 2 then d else m a := by intro a; rw [← hst]; rfl
    have skip : ∀ a, a ≠ 4 → a ≠ t → a ≠ brk + 1 → a ≠ brk → a ≠ 1 → a ≠ brk + 2 → W m st a = m a := by
      intro a h1 h2 h3 h4 h5 h6
      rw [v, if_neg h1, if_neg h2, if_neg h3, if_neg h4, if_neg h5, if_neg h6]
    refine ⟨?_, ?_, ?_, ?_, hadr, hnd, ?_, by omega, by omega⟩
    · rw [v, if_neg (by omega), if_neg (by omega), if_neg (by omega), if_neg (by omega), if_pos rfl]; rfl
    · rw [skip _ (by omega) (by omega) (by omega) (by omega) (by omega) (by omega), he]; rfl
    · rw [v, if_pos rfl, hc]; exact hcnt
    · refine ⟨?_, ?_, ?_, ?_, ?_, ?_, seg_frame ?_ sB⟩
      · rw [v, if_neg (by omega), if_neg (by omega), if_neg (by omega), if_pos rfl]
      · rw [v, if_neg (by omega), if_neg (by omega), if_pos rfl]; rfl
      · rw [v, if_neg (by omega), if_neg (by omega), if_neg (by omega), if_neg (by omega), if_neg (by omega), if_pos rfl]
      · rw [v, if_neg (by omega), if_pos rfl]
      · rw [skip _ (by omega) (by omega) (by omega) (by omega) (by omega) (by omega)]; exact st2
      · rw [skip _ (by omega) (by omega) (by omega) (by omega) (by omega) (by omega)]; exact st3
      · intro x hx f hf
        have h1 := ha x (by simp [hx])
        have h2 := nd2 x hx
        exact skip _ (by omega) (by omega) (by omega) (by omega) (by omega) (by omega)
    · intro a hab
      rw [skip _ (by omega) (by omega) (by omega) (by omega) (by omega) (by omega)]; exact hz a (by omega)
  · rw [List.concat_eq_append] at *
    have hl := ha (l, dl) (by simp)
    simp only at hl
    have ndl := nd1 (l, dl) (by simp)
    simp only at ndl
    have e0 : m t = l := by rw [st1, lastA_append]; rfl
    have e1 : ¬ m 1 = t := by
      rw [hs, List.append_assoc, List.singleton_append, headA_append]
      exact headA_ne ndl (fun x hx => nd1 x (by simp [hx]))
    have e0' : (l != 0) = true := by simp; omega
    have e1' : (m 1 == t) = false := by simpa using e1
    rw [seg_append] at sA
    obtain ⟨sA, sl1, sl2, sl3, _⟩ := sA
    have hn2 : ((A' ++ (l, dl) :: (t, dt) :: B).map Prod.fst).Nodup := by
      rw [List.append_assoc] at hn; exact hn
    obtain ⟨nl1, nl2, _, _, _⟩ := nodup_mid hn2
    simp only at nl1 nl2
    simp only [befStores, e0, e0', e1', if_true, if_false, Bool.false_eq_true, List.cons_append, List.nil_append,
      Nat.add_zero, aStart, aCount, List.append_nil]
    generalize hst : ((brk + 2, d) :: (brk, l) :: (brk + 1, t) :: (l + 1, brk) :: (t, brk) :: [(4, (m 4 + 1) % 2 ^ 32)] : List (Nat × Nat)) = st
    have v : ∀ a, W m st a = if a = 4 then (m 4 + 1) % 2 ^ 32 else if a = t then brk else if a = l + 1 then brk else if a = brk + 1 then t else
        if a = brk then l else if a = brk + 2 then d else m a := by intro a; rw [← hst]; rfl
    have skip : ∀ a, a ≠ 4 → a ≠ t → a ≠ l + 1 → a ≠ brk + 1 → a ≠ brk → a ≠ brk + 2 → W m st a = m a := by
      intro a h1 h2 h3 h4 h5 h6
      rw [v, if_neg h1, if_neg h2, if_neg h3, if_neg h4, if_neg h5, if_neg h6]
    refine ⟨?_, ?_, ?_, ?_, hadr, hnd, ?_, by omega, by omega⟩
    · rw [skip _ (by omega) (by omega) (by omega) (by omega) (by omega) (by omega), hs]
      cases A' <;> rfl
    · rw [skip _ (by omega) (by omega) (by omega) (by omega) (by omega) (by omega), he]; simp only [lastA_append, lastA]
    · rw [v, if_pos rfl, hc]; exact hcnt
    · rw [seg_append, seg_append]
      refine ⟨⟨seg_frame ?_ sA, ?_, ?_, ?_, trivial⟩, ?_, ?_, ?_, ?_, ?_, ?_, seg_frame ?_ sB⟩
      · intro x hx f hf
        have h1 := ha x (by simp [hx])
        have h2 := nd1 x (by simp [hx])
        have h3 := nl1 x hx
        exact skip _ (by omega) (by omega) (by omega) (by omega) (by omega) (by omega)
      · rw [skip _ (by omega) (by omega) (by omega) (by omega) (by omega) (by omega)]; exact sl1
      · rw [v, if_neg (by omega), if_neg (by omega), if_pos rfl]; rfl
      · rw [skip _ (by omega) (by omega) (by omega) (by omega) (by omega) (by omega)]; exact sl3
      · rw [v, if_neg (by omega), if_neg (by omega), if_neg (by omega), if_neg (by omega), if_pos rfl, lastA_append]; rfl
      · rw [v, if_neg (by omega), if_neg (by omega), if_neg (by omega), if_pos rfl]; rfl
      · rw [v, if_neg (by omega), if_neg (by omega), if_neg (by omega), if_neg (by omega), if_neg (by omega), if_pos rfl]
      · rw [v, if_neg (by omega), if_pos rfl]
      · rw [skip _ (by omega) (by omega) (by omega) (by omega) (by omega) (by omega)]; exact st2
      · rw [skip _ (by omega) (by omega) (by omega) (by omega) (by omega) (by omega)]; exact st3
      · intro x hx f hf
        have h1 := ha x (by simp [hx])
        have h2 := nd2 x hx
        have h3 := nl2 x (by simp [hx])
        exact skip _ (by omega) (by omega) (by omega) (by omega) (by omega) (by omega)
    · intro a hab
      rw [skip _ (by omega) (by omega) (by omega) (by omega) (by omega) (by omega)]; exact hz a (by omega)

theorem rep_rem {brk : Nat} {m : Mem Nat} {A B : List (Nat × Nat)} {t dt : Nat} (h : RepM brk m (A ++ (t, dt) :: B)) :
    RepM brk (W m (remStores (m t) (m (t + 1)) (m 1) (m 2) (m 4) t)) (A ++ B) := by
  obtain ⟨hs, he, hc, hseg, ha, hn, hz, hb1, hb2⟩ := h
  have ht := ha (t, dt) (by simp)
  simp only at ht
  obtain ⟨nd1, nd2, nd3, nd4, nd5⟩ := nodup_mid hn
  simp only at nd1 nd2
  have hnd : ((A ++ B).map Prod.fst).Nodup := nodup_of nd3 nd4 nd5
  have hadr : ∀ n ∈ A ++ B, 8 ≤ n.1 ∧ n.1 % 3 = 2 ∧ n.1 + 3 ≤ brk := by
    intro n hn
    refine ha n ?_
    rcases List.mem_append.1 hn with hn | hn
    · simp [hn]
    · simp [hn]
  have hcnt : ((A ++ (t, dt) :: B).length % 2 ^ 32 + 2 ^ 32 - 1) % 2 ^ 32 = (A ++ B).length % 2 ^ 32 := by
    simp only [List.length_append, List.length_cons]; omega
  rw [seg_append] at hseg
  obtain ⟨sA, st1, st2, st3, sB⟩ := hseg
  rcases List.eq_nil_or_concat A with rfl | ⟨A', ⟨l, dl⟩, rfl⟩
  · have e0 : m t = 0 := st1
    have e1 : m 1 = t := hs
    cases B with
    | nil =>
      have e2 : m (t + 1) = 0 := st2
      have e3 : m 2 = t := he
      simp only [remStores, e0, e1, e2, e3, beq_self_eq_true, bne_self_eq_false, if_true, if_false, Bool.false_eq_true, List.cons_append, List.nil_append,
        Nat.add_zero, aStart, aEnd, aCount, List.append_nil]
      generalize hst : ((1, 0) :: (2, 0) :: (t, 0) :: (t + 1, 0) :: [(4, (m 4 + 2 ^ 32 - 1) % 2 ^ 32)] : List (Nat × Nat)) = st
      have v : ∀ a, W m st a = if a = 4 then (m 4 + 2 ^ 32 - 1) % 2 ^ 32 else if a = t + 1 then 0 else if a = t then 0 else
        if a = 2 then 0 else if a = 1 then 0 else m a := by intro a; rw [← hst]; rfl
      refine ⟨?_, ?_, ?_, trivial, hadr, hnd, ?_, by omega, by omega⟩
      · rw [v, if_neg (by omega), if_neg (by omega), if_neg (by omega), if_neg (by omega), if_pos rfl]; rfl
      · rw [v, if_neg (by omega), if_neg (by omega), if_neg (by omega), if_pos rfl]; rfl
      · rw [v, if_pos rfl, hc]; exact hcnt
      · intro a hab
        rw [v, if_neg (by omega), if_neg (by omega), if_neg (by omega), if_neg (by omega), if_neg (by omega)]; exact hz a hab
    | cons r B' =>
      obtain ⟨r, dr⟩ := r
      have hr := ha (r, dr) (by simp)
      simp only at hr
      have ndr := nd2 (r, dr) (by simp)
      simp only at ndr
      have e2 : m (t + 1) = r := st2
      have e2' : (r != 0) = true := by simp; omega
      have e3 : ¬ m 2 = t := by
        rw [he, lastA_append]
        show ¬ lastA r B' = t
        have key : ∀ (L : List (Nat × Nat)) (x : Nat), x ≠ t → (∀ y ∈ L, y.1 ≠ t) → lastA x L ≠ t := by
          intro L
          induction L with
          | nil => intro x hx _; exact hx
          | cons y L ih => intro x _ hy; exact ih y.1 (hy y (List.mem_cons_self ..)) (fun z hz => hy z (List.mem_cons_of_mem _ hz))
        exact key B' r ndr (fun y hy => nd2 y (by simp [hy]))
      have e3' : (m 2 == t) = false := by simpa using e3
      simp only [remStores, e0, e1, e2, e2', e3', beq_self_eq_true, bne_self_eq_false, if_true, if_false, Bool.false_eq_true, List.cons_append, List.nil_append,
        Nat.add_zero, aStart, aEnd, aCount, List.append_nil]
      generalize hst : ((r, 0) :: (1, r) :: (t, 0) :: (t + 1, 0) :: [(4, (m 4 + 2 ^ 32 - 1) % 2 ^ 32)] : List (Nat × Nat)) = st
      have v : ∀ a, W m st a = if a = 4 then (m 4 + 2 ^ 32 - 1) % 2 ^ 32 else if a = t + 1 then 0 else if a = t then 0 else
        if a = 1 then r else if a = r then 0 else m a := by intro a; rw [← hst]; rfl
      have skip : ∀ a, a ≠ 4 → a ≠ t + 1 → a ≠ t → a ≠ 1 → a ≠ r → W m st a = m a := by
        intro a h1 h2 h3 h4 h5
        rw [v, if_neg h1, if_neg h2, if_neg h3, if_neg h4, if_neg h5]
      obtain ⟨sr1, sr2, sr3, sB⟩ := sB
      have hn2 : (((r, dr) :: B').map Prod.fst).Nodup := nd4
      have nr : ∀ x ∈ B', x.1 ≠ r := by
        intro x hx e
        simp only [List.map_cons, List.nodup_cons] at hn2
        exact hn2.1 (e ▸ mem_addr hx)
      refine ⟨?_, ?_, ?_, ⟨?_, ?_, ?_, seg_frame ?_ sB⟩, hadr, hnd, ?_, by omega, by omega⟩
      · rw [v, if_neg (by omega), if_neg (by omega), if_neg (by omega), if_pos rfl]; rfl
      · rw [skip _ (by omega) (by omega) (by omega) (by omega) (by omega), he]; rfl
      · rw [v, if_pos rfl, hc]; exact hcnt
      · rw [v, if_neg (by omega), if_neg (by omega), if_neg (by omega), if_neg (by omega), if_pos rfl]
      · rw [skip _ (by omega) (by omega) (by omega) (by omega) (by omega)]; exact sr2
      · rw [skip _ (by omega) (by omega) (by omega) (by omega) (by omega)]; exact sr3
      · intro x hx f hf
        have h1 := ha x (by simp [hx])
        have h2 := nd2 x (by simp [hx])
        have h3 := nr x hx
        exact skip _ (by omega) (by omega) (by omega) (by omega) (by omega)
      · intro a hab
        rw [skip _ (by omega) (by omega) (by omega) (by omega) (by omega)]; exact hz a hab
  · rw [List.concat_eq_append] at *
    have hl := ha (l, dl) (by simp)
    simp only at hl
    have ndl := nd1 (l, dl) (by simp)
    simp only at ndl
    have e0 : m t = l := by rw [st1, lastA_append]; rfl
    have e1 : ¬ m 1 = t := by
      rw [hs, List.append_assoc, List.singleton_append, headA_append]
      exact headA_ne ndl (fun x hx => nd1 x (by simp [hx]))
    have e0' : (l != 0) = true := by simp; omega
    have e1' : (m 1 == t) = false := by simpa using e1
    rw [seg_append] at sA
    obtain ⟨sA, sl1, sl2, sl3, _⟩ := sA
    have hn2 : ((A' ++ (l, dl) :: (t, dt) :: B).map Prod.fst).Nodup := by
      rw [List.append_assoc] at hn; exact hn
    obtain ⟨nl1, nl2, _, _, _⟩ := nodup_mid hn2
    simp only at nl1 nl2
    cases B with
    | nil =>
      have e2 : m (t + 1) = 0 := st2
      have e3 : m 2 = t := by rw [he, lastA_append]; rfl
      simp only [remStores, e0, e0', e1', e2, e3, beq_self_eq_true, bne_self_eq_false, if_true, if_false, Bool.false_eq_true, List.cons_append, List.nil_append,
        Nat.add_zero, aStart, aEnd, aCount, List.append_nil] at hadr hnd hcnt ⊢
      generalize hst : ((l + 1, 0) :: (2, l) :: (t, 0) :: (t + 1, 0) :: [(4, (m 4 + 2 ^ 32 - 1) % 2 ^ 32)] : List (Nat × Nat)) = st
      have v : ∀ a, W m st a = if a = 4 then (m 4 + 2 ^ 32 - 1) % 2 ^ 32 else if a = t + 1 then 0 else if a = t then 0 else
        if a = 2 then l else if a = l + 1 then 0 else m a := by intro a; rw [← hst]; rfl
      have skip : ∀ a, a ≠ 4 → a ≠ t + 1 → a ≠ t → a ≠ 2 → a ≠ l + 1 → W m st a = m a := by
        intro a h1 h2 h3 h4 h5
        rw [v, if_neg h1, if_neg h2, if_neg h3, if_neg h4, if_neg h5]
      refine ⟨?_, ?_, ?_, ?_, hadr, hnd, ?_, by omega, by omega⟩
      · rw [skip _ (by omega) (by omega) (by omega) (by omega) (by omega), hs]
        cases A' <;> rfl
      · rw [v, if_neg (by omega), if_neg (by omega), if_neg (by omega), if_pos rfl, lastA_append]; rfl
      · rw [v, if_pos rfl, hc]; exact hcnt
      · rw [seg_append]
        refine ⟨seg_frame ?_ sA, ?_, ?_, ?_, trivial⟩
        · intro x hx f hf
          have h1 := ha x (by simp [hx])
          have h2 := nd1 x (by simp [hx])
          have h3 := nl1 x hx
          exact skip _ (by omega) (by omega) (by omega) (by omega) (by omega)
        · rw [skip _ (by omega) (by omega) (by omega) (by omega) (by omega)]; exact sl1
        · rw [v, if_neg (by omega), if_neg (by omega), if_neg (by omega), if_neg (by omega), if_pos rfl]; rfl
        · rw [skip _ (by omega) (by omega) (by omega) (by omega) (by omega)]; exact sl3
      · intro a hab
        rw [skip _ (by omega) (by omega) (by omega) (by omega) (by omega)]; exact hz a hab
    | cons r B' =>
      obtain ⟨r, dr⟩ := r
      have hr := ha (r, dr) (by simp)
      simp only at hr
      have ndr := nd2 (r, dr) (by simp)
      simp only at ndr
      have nlr := nl2 (r, dr) (by simp)
      simp only at nlr
      have e2 : m (t + 1) = r := st2
      have e2' : (r != 0) = true := by simp; omega
      have e3 : ¬ m 2 = t := by
        rw [he, lastA_append]
        show ¬ lastA r B' = t
        have key : ∀ (L : List (Nat × Nat)) (x : Nat), x ≠ t → (∀ y ∈ L, y.1 ≠ t) → lastA x L ≠ t := by
          intro L
          induction L with
          | nil => intro x hx _; exact hx
          | cons y L ih => intro x _ hy; exact ih y.1 (hy y (List.mem_cons_self ..)) (fun z hz => hy z (List.mem_cons_of_mem _ hz))
        exact key B' r ndr (fun y hy => nd2 y (by simp [hy]))
      have e3' : (m 2 == t) = false := by simpa using e3
      simp only [remStores, e0, e0', e1', e2, e2', e3', beq_self_eq_true, bne_self_eq_false, if_true, if_false, Bool.false_eq_true, List.cons_append, List.nil_append,
        Nat.add_zero, aStart, aEnd, aCount, List.append_nil]
      generalize hst : ((l + 1, r) :: (r, l) :: (t, 0) :: (t + 1, 0) :: [(4, (m 4 + 2 ^ 32 - 1) % 2 ^ 32)] : List (Nat × Nat)) = st
      have v : ∀ a, W m st a = if a = 4 then (m 4 + 2 ^ 32 - 1) % 2 ^ 32 else if a = t + 1 then 0 else if a = t then 0 else
        if a = r then l else if a = l + 1 then r else m a := by intro a; rw [← hst]; rfl
      have skip : ∀ a, a ≠ 4 → a ≠ t + 1 → a ≠ t → a ≠ r → a ≠ l + 1 → W m st a = m a := by
        intro a h1 h2 h3 h4 h5
        rw [v, if_neg h1, if_neg h2, if_neg h3, if_neg h4, if_neg h5]
      obtain ⟨sr1, sr2, sr3, sB⟩ := sB
      have nr : ∀ x ∈ B', x.1 ≠ r := by
        intro x hx e
        simp only [List.map_cons, List.nodup_cons] at nd4
        exact nd4.1 (e ▸ mem_addr hx)
      refine ⟨?_, ?_, ?_, ?_, hadr, hnd, ?_, by omega, by omega⟩
      · rw [skip _ (by omega) (by omega) (by omega) (by omega) (by omega), hs]
        cases A' <;> rfl
      · rw [skip _ (by omega) (by omega) (by omega) (by omega) (by omega), he]; simp only [lastA_append, lastA]
      · rw [v, if_pos rfl, hc]; exact hcnt
      · rw [seg_append, seg_append]
        refine ⟨⟨seg_frame ?_ sA, ?_, ?_, ?_, trivial⟩, ?_, ?_, ?_, seg_frame ?_ sB⟩
        · intro x hx f hf
          have h1 := ha x (by simp [hx])
          have h2 := nd1 x (by simp [hx])
          have h3 := nl1 x hx
          have h4 := nd5 x (by simp [hx]) (r, dr) (by simp)
          simp only at h4
          exact skip _ (by omega) (by omega) (by omega) (by omega) (by omega)
        · rw [skip _ (by omega) (by omega) (by omega) (by omega) (by omega)]; exact sl1
        · rw [v, if_neg (by omega), if_neg (by omega), if_neg (by omega), if_neg (by omega), if_pos rfl]; rfl
        · rw [skip _ (by omega) (by omega) (by omega) (by omega) (by omega)]; exact sl3
        · rw [v, if_neg (by omega), if_neg (by omega), if_neg (by omega), if_pos rfl, lastA_append]; rfl
        · rw [skip _ (by omega) (by omega) (by omega) (by omega) (by omega)]; exact sr2
        · rw [skip _ (by omega) (by omega) (by omega) (by omega) (by omega)]; exact sr3
        · intro x hx f hf
          have h1 := ha x (by simp [hx])
          have h2 := nd2 x (by simp [hx])
          have h3 := nl2 x (by simp [hx])
          have h4 := nr x hx
          exact skip _ (by omega) (by omega) (by omega) (by omega) (by omega)
      · intro a hab
        rw [skip _ (by omega) (by omega) (by omega) (by omega) (by omega)]; exact hz a hab

/-- assigning the data of one element -/
theorem rep_data {brk : Nat} {m : Mem Nat} {A B : List (Nat × Nat)} {t dt : Nat} (h : RepM brk m (A ++ (t, dt) :: B)) (d : Nat) :
    RepM brk (upd m (t + 2) d) (A ++ (t, d) :: B) := by
  obtain ⟨hs, he, hc, hseg, ha, hn, hz, hb1, hb2⟩ := h
  have ht := ha (t, dt) (by simp)
  simp only at ht
  obtain ⟨nd1, nd2, nd3, nd4, nd5⟩ := nodup_mid hn
  simp only at nd1 nd2
  rw [seg_append] at hseg
  obtain ⟨sA, st1, st2, st3, sB⟩ := hseg
  have skip : ∀ a, a ≠ t + 2 → upd m (t + 2) d a = m a := fun a h => if_neg h
  refine ⟨?_, ?_, ?_, ?_, ?_, ?_, ?_, by omega, by omega⟩
  · rw [skip _ (by omega), hs]; cases A <;> rfl
  · rw [skip _ (by omega), he]; simp only [lastA_append, lastA]
  · rw [skip _ (by omega), hc]; simp
  · rw [seg_append]
    refine ⟨seg_frame ?_ sA, ?_, ?_, ?_, seg_frame ?_ sB⟩
    · intro x hx f hf
      have h1 := ha x (by simp [hx])
      have h2 := nd1 x hx
      exact skip _ (by omega)
    · rw [skip _ (by omega)]; exact st1
    · rw [skip _ (by omega)]; exact st2
    · exact if_pos rfl
    · intro x hx f hf
      have h1 := ha x (by simp [hx])
      have h2 := nd2 x hx
      exact skip _ (by omega)
  · intro n hn
    rcases List.mem_append.1 hn with hn | hn
    · exact ha n (by simp [hn])
    · rcases List.mem_cons.1 hn with rfl | hn
      · exact ht
      · exact ha n (by simp [hn])
  · simpa using hn
  · intro a hab
    rw [skip _ (by omega)]; exact hz a hab

end Verif.LinkedList
