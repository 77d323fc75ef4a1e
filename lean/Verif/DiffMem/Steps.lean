import Verif.DiffMem.Diags
/-
The backtrace in memory: the chain of steps that `backtrace` returns, its printing and its deletion.
-/
namespace Verif.DiffMem
open Verif Verif.Diff

variable {α : Type}

theorem opAtH_ok {H0 : Heap Diag} (c : Ctx α) (fuel : Nat) {H : Heap Diag} {a : Int → Option Nat} {t : Tab} (h : Rep H0 H a t)
    {k : Int} {p : Nat} (hk : a k = some p) {i : Nat} {o : DOp} {t' : Tab} (he : opAt c fuel t k i = .ok (o, t')) :
    ∃ H' a', opAtH c fuel H p i = .ok (o, H') ∧ Rep H0 H' a' t' ∧ Le a a' := by
  unfold opAt at he
  unfold opAtH
  rw [Heap.load_ok (h.live k p hk)]
  simp only [bind, Except.bind, pure, Except.pure] at he ⊢
  by_cases hi : i = 0
  · rw [if_pos hi] at he ⊢
    simp only [Except.ok.injEq, Prod.mk.injEq] at he
    obtain ⟨rfl, rfl⟩ := he
    exact ⟨H, a, rfl, h, Le.refl a⟩
  · rw [if_neg hi] at he ⊢
    rw [objU_ok h hk, objV_ok h hk]
    cases e1 : objectU c k i with
    | error f => rw [e1] at he; cases he
    | ok o1 =>
    cases e2 : objectV c k i with
    | error f => rw [e1, e2] at he; cases he
    | ok o2 =>
    rw [e1, e2] at he
    simp only at he ⊢
    cases eq : c.eqv o1 o2 with
    | true =>
      rw [eq] at he
      simp only [if_true, Except.ok.injEq, Prod.mk.injEq] at he ⊢
      obtain ⟨rfl, rfl⟩ := he
      exact ⟨H, a, ⟨rfl, rfl⟩, h, Le.refl a⟩
    | false =>
      rw [eq] at he
      simp only [Bool.false_eq_true, if_false] at he ⊢
      cases em : entry c fuel t k i with
      | error f => rw [em] at he; cases he
      | ok m =>
      obtain ⟨m, t1⟩ := m
      rw [em] at he
      simp only at he
      obtain ⟨H1, a1, g1, r1, l1⟩ := entryH_ok H0 c fuel H a t k p i m t1 h hk em
      cases ew : entry c fuel t1 (below k) (leftIdx k i) with
      | error f => rw [ew] at he; cases he
      | ok w =>
      obtain ⟨w, t2⟩ := w
      rw [ew] at he
      simp only at he
      obtain ⟨H2, a2, g2, r2, l2⟩ := leftH_ok (entryH_ok H0 c fuel) r1 (l1 _ _ hk) ew
      cases en : entry c fuel t2 k (i - 1) with
      | error f => rw [en] at he; cases he
      | ok n =>
      obtain ⟨n, t3⟩ := n
      rw [en] at he
      simp only at he
      obtain ⟨H3, a3, g3, r3, l3⟩ := entryH_ok H0 c fuel H2 a2 t2 k p (i - 1) n t3 r2 (l2 _ _ (l1 _ _ hk)) en
      refine ⟨H3, a3, ?_, ?_, (l1.trans l2).trans l3⟩
      · rw [g1]; simp only; rw [g2]; simp only; rw [g3]; simp only
        split at he
        · rename_i hc
          rw [if_pos hc]
          simp only [Except.ok.injEq, Prod.mk.injEq] at he
          rw [he.1]
        · rename_i hc
          rw [if_neg hc]
          split at he
          · rename_i hc'
            rw [if_pos hc']
            simp only [Except.ok.injEq, Prod.mk.injEq] at he
            rw [he.1]
          · rename_i hc'
            rw [if_neg hc']
            simp only [Except.ok.injEq, Prod.mk.injEq] at he
            rw [he.1]
      · have : t3 = t' := by
          split at he
          · simp only [Except.ok.injEq, Prod.mk.injEq] at he; exact he.2
          · split at he
            · simp only [Except.ok.injEq, Prod.mk.injEq] at he; exact he.2
            · simp only [Except.ok.injEq, Prod.mk.injEq] at he; exact he.2
        rw [← this]; exact r3

/-- the next diagonal in memory is the next diagonal of the table -/
def NextIs (a : Int → Option Nat) : Option (Int × Nat) → Option (Nat × Nat) → Prop
  | none, none => True
  | some (k, i), some (p, j) => a k = some p ∧ i = j
  | _, _ => False

theorem moveH_ok {H0 : Heap Diag} (c : Ctx α) {H : Heap Diag} {a : Int → Option Nat} {t : Tab} (h : Rep H0 H a t)
    {k : Int} {p : Nat} (hk : a k = some p) {i : Nat} {o : DOp} {s : Step α} {nx : Option (Int × Nat)} (he : move c k i o = .ok (s, nx)) :
    ∃ H' a' nx', moveH c H p i o = .ok (s, H', nx') ∧ Rep H0 H' a' t ∧ Le a a' ∧ NextIs a' nx nx' := by
  have hl := h.live k p hk
  cases o with
  | equal =>
    simp only [move, Except.ok.injEq, Prod.mk.injEq] at he
    obtain ⟨rfl, rfl⟩ := he
    exact ⟨H, a, _, rfl, h, Le.refl a, hk, rfl⟩
  | start =>
    simp only [move, Except.ok.injEq, Prod.mk.injEq] at he
    obtain ⟨rfl, rfl⟩ := he
    exact ⟨H, a, _, rfl, h, Le.refl a, trivial⟩
  | modified =>
    simp only [move, moveH] at he ⊢
    rw [objU_ok h hk, objV_ok h hk]
    cases e1 : objectU c k i with
    | error f => rw [e1] at he; cases he
    | ok o1 =>
    cases e2 : objectV c k i with
    | error f => rw [e1, e2] at he; cases he
    | ok o2 =>
    rw [e1, e2] at he
    simp only [bind, Except.bind, pure, Except.pure, Except.ok.injEq, Prod.mk.injEq] at he
    obtain ⟨rfl, rfl⟩ := he
    exact ⟨H, a, _, rfl, h, Le.refl a, hk, rfl⟩
  | add =>
    simp only [move, moveH] at he ⊢
    rw [objV_ok h hk, Heap.load_ok hl]
    cases e2 : objectV c k i with
    | error f => rw [e2] at he; cases he
    | ok o2 =>
    rw [e2] at he
    simp only [bind, Except.bind, pure, Except.pure, Except.ok.injEq, Prod.mk.injEq] at he ⊢
    obtain ⟨rfl, rfl⟩ := he
    obtain ⟨Ha, aa, qa, ga, ra, ba, la⟩ := aboveH_ok h hk
    obtain ⟨Hb, ab, qb, gb, rb, bb, lb⟩ := belowH_ok h hk
    by_cases h0 : k = 0
    · rw [if_pos h0, if_pos h0, gb]
      exact ⟨Hb, ab, _, rfl, rb, lb, bb, rfl⟩
    · rw [if_neg h0, if_neg h0]
      by_cases h1 : k ≥ 0
      · rw [if_pos h1, if_pos h1, gb]
        exact ⟨Hb, ab, _, rfl, rb, lb, bb, rfl⟩
      · rw [if_neg h1, if_neg h1, ga]
        exact ⟨Ha, aa, _, rfl, ra, la, ba, rfl⟩
  | delete =>
    simp only [move, moveH] at he ⊢
    rw [objV_ok h hk, Heap.load_ok hl]
    cases e2 : objectV c k i with
    | error f => rw [e2] at he; cases he
    | ok o2 =>
    rw [e2] at he
    simp only [bind, Except.bind, pure, Except.pure, Except.ok.injEq, Prod.mk.injEq] at he ⊢
    obtain ⟨rfl, rfl⟩ := he
    obtain ⟨Ha, aa, qa, ga, ra, ba, la⟩ := aboveH_ok h hk
    obtain ⟨Hb, ab, qb, gb, rb, bb, lb⟩ := belowH_ok h hk
    by_cases h0 : k = 0
    · rw [if_pos h0, if_pos h0, ga]
      exact ⟨Ha, aa, _, rfl, ra, la, ba, rfl⟩
    · rw [if_neg h0, if_neg h0]
      by_cases h1 : k ≥ 0
      · rw [if_pos h1, if_pos h1, ga]
        exact ⟨Ha, aa, _, rfl, ra, la, ba, rfl⟩
      · rw [if_neg h1, if_neg h1, gb]
        exact ⟨Hb, ab, _, rfl, rb, lb, bb, rfl⟩

/-- the steps `backtrace` has allocated so far, the latest first -/
structure Pile (B0 B : Heap (BT α)) (ps : List Nat) (l : List (Step α)) : Prop where
  cells : ps = (List.range' B0.length l.length).reverse
  all : B = B0 ++ l.reverse.map fun s => some ⟨s, none, none⟩

theorem Pile.push {B0 B : Heap (BT α)} {ps : List Nat} {l : List (Step α)} (h : Pile B0 B ps l) (s : Step α) :
    Pile B0 (B ++ [some ⟨s, none, none⟩]) (B.length :: ps) (s :: l) := by
  have hl : B.length = B0.length + l.length := by rw [h.all]; simp
  refine ⟨?_, by rw [h.all]; simp⟩
  rw [h.cells, hl]
  simp only [List.length_cons]
  rw [List.range'_concat, List.reverse_append]
  simp

theorem backLoop_ok {H0 : Heap Diag} {B0 : Heap (BT α)} (c : Ctx α) (ef : Nat) : ∀ (fuel : Nat) (H : Heap Diag) (a : Int → Option Nat) (t : Tab)
    (B : Heap (BT α)) (k : Int) (p i : Nat) (ps : List Nat) (st r : List (Step α)), Rep H0 H a t → a k = some p → Pile B0 B ps st →
    backtrace c ef fuel t k i st = .ok r →
    ∃ H' a' t' B' ps', backLoop c ef fuel H B p i ps = .ok (H', B', ps') ∧ Rep H0 H' a' t' ∧ Le a a' ∧ Pile B0 B' ps' r := by
  intro fuel
  induction fuel with
  | zero => intro H a t B k p i ps st r _ _ _ he; cases he
  | succ n ih =>
    intro H a t B k p i ps st r h hk hp he
    simp only [backtrace] at he
    simp only [backLoop]
    cases e1 : opAt c ef t k i with
    | error f => rw [e1] at he; cases he
    | ok o =>
    obtain ⟨o, t1⟩ := o
    rw [e1] at he
    simp only [bind, Except.bind, pure, Except.pure] at he ⊢
    obtain ⟨H1, a1, g1, r1, l1⟩ := opAtH_ok c ef h hk e1
    rw [g1]
    simp only
    cases e2 : move c k i o with
    | error f => rw [e2] at he; cases he
    | ok m =>
    obtain ⟨s, nx⟩ := m
    rw [e2] at he
    simp only at he
    obtain ⟨H2, a2, nx', g2, r2, l2, hn⟩ := moveH_ok c r1 (l1 _ _ hk) e2
    rw [g2]
    have hpush := hp.push s
    cases nx with
    | none =>
      cases nx' with
      | some x => exact hn.elim
      | none =>
        simp only [Except.ok.injEq] at he
        subst he
        exact ⟨H2, a2, t1, _, _, rfl, r2, l1.trans l2, hpush⟩
    | some kk =>
      obtain ⟨k', i'⟩ := kk
      cases nx' with
      | none => exact hn.elim
      | some x =>
        obtain ⟨p', j'⟩ := x
        obtain ⟨hk', rfl⟩ := hn
        simp only at he ⊢
        obtain ⟨H3, a3, t3, B3, ps3, g3, r3, l3, hp3⟩ := ih H2 a2 t1 _ k' p' i' _ _ r r2 hk' hpush he
        exact ⟨H3, a3, t3, B3, ps3, g3, r3, (l1.trans l2).trans l3, hp3⟩

/-! ### Chains -/

/-- the steps at the addresses `ps`, each linked to the next -/
def Chain (B : Heap (BT α)) : List Nat → List (Step α) → Prop
  | [], [] => True
  | p :: ps, s :: l => (∃ b, B[p]? = some (some b) ∧ b.step = s ∧ b.next = ps.head?) ∧ Chain B ps l
  | _, _ => False

theorem Chain.length {B : Heap (BT α)} : ∀ {ps : List Nat} {l : List (Step α)}, Chain B ps l → ps.length = l.length
  | [], [], _ => rfl
  | _ :: ps, _ :: l, h => by simp [Chain.length h.2]
  | [], _ :: _, h => h.elim
  | _ :: _, [], h => h.elim

theorem Chain.congr {B B' : Heap (BT α)} : ∀ {ps : List Nat} {l : List (Step α)}, Chain B ps l → (∀ p ∈ ps, B'[p]? = B[p]?) → Chain B' ps l
  | [], [], _, _ => trivial
  | p :: ps, s :: l, h, hb => ⟨by
      obtain ⟨b, e, h1⟩ := h.1
      exact ⟨b, by rw [hb p (by simp), e], h1⟩, Chain.congr h.2 fun q hq => hb q (by simp [hq])⟩
  | [], _ :: _, h, _ => h.elim
  | _ :: _, [], h, _ => h.elim

theorem Chain.live {B : Heap (BT α)} : ∀ {ps : List Nat} {l : List (Step α)}, Chain B ps l → ∀ p ∈ ps, ∃ b, B[p]? = some (some b)
  | [], [], _, p, hp => by simp at hp
  | p :: ps, s :: l, h, q, hq => by
    rcases List.mem_cons.1 hq with rfl | hq
    · obtain ⟨b, e, _⟩ := h.1; exact ⟨b, e⟩
    · exact Chain.live h.2 q hq
  | [], _ :: _, h, _, _ => h.elim
  | _ :: _, [], h, _, _ => h.elim

/-- what is not linked yet -/
def Loose (B : Heap (BT α)) (ps : List Nat) (l : List (Step α)) : Prop :=
  ps.length = l.length ∧ ∀ (i p : Nat) (s : Step α), ps[i]? = some p → l[i]? = some s → ∃ b : BT α, B[p]? = some (some b) ∧ b.step = s ∧ b.next = none

theorem link_ok : ∀ (rest : List Nat) (B : Heap (BT α)) (p : Nat) (s : Step α) (l : List (Step α)), (p :: rest).Nodup →
    Loose B (p :: rest) (s :: l) → ∃ B', link B p rest = .ok B' ∧ Chain B' (p :: rest) (s :: l) ∧ B'.length = B.length ∧
      ∀ q, q ∉ p :: rest → B'[q]? = B[q]? := by
  intro rest
  induction rest with
  | nil =>
    intro B p s l _ h
    obtain ⟨hlen, h⟩ := h
    have hl : l = [] := by simpa using hlen.symm
    subst hl
    obtain ⟨b, e, e1, e2⟩ := h 0 p s rfl rfl
    exact ⟨B, rfl, ⟨⟨b, e, e1, e2⟩, trivial⟩, rfl, fun q _ => rfl⟩
  | cons q rest ih =>
    intro B p s l hnd h
    obtain ⟨hlen, h⟩ := h
    cases l with
    | nil => simp at hlen
    | cons s' l =>
    obtain ⟨b, e, e1, e2⟩ := h 0 p s rfl rfl
    obtain ⟨b', e', e1', e2'⟩ := h 1 q s' rfl rfl
    have hpq : p ≠ q := by intro hh; subst hh; simp at hnd
    have hpr : p ∉ rest := by intro hh; simp [hh] at hnd
    have hqr : q ∉ rest := by intro hh; simp [hh] at hnd
    have hp := Heap.lt_of_live e
    have hq := Heap.lt_of_live e'
    simp only [link]
    rw [Heap.load_ok e]
    simp only [bind, Except.bind]
    rw [Heap.store_ok e]
    simp only
    have e3 : (B.set p (some { b with next := some q }))[q]? = some (some b') := by rw [List.getElem?_set_ne hpq, e']
    rw [Heap.load_ok e3]
    simp only
    rw [Heap.store_ok e3]
    simp only
    obtain ⟨B', g, hc, hl', hf⟩ := ih ((B.set p (some { b with next := some q })).set q (some { b' with prev := some p })) q s' l
      (List.nodup_cons.1 hnd).2 (by
        refine ⟨by simpa using hlen, ?_⟩
        intro i r x hr hx
        cases i with
        | zero =>
          simp only [List.getElem?_cons_zero, Option.some.injEq] at hr hx
          subst hr; subst hx
          exact ⟨{ b' with prev := some p }, by rw [List.getElem?_set_self (by simpa using hq)], e1', e2'⟩
        | succ i =>
          simp only [List.getElem?_cons_succ] at hr hx
          have hrm : r ∈ rest := List.mem_of_getElem? hr
          obtain ⟨x', g1, g2, g3⟩ := h (i + 2) r x (by simpa using hr) (by simpa using hx)
          refine ⟨x', ?_, g2, g3⟩
          rw [List.getElem?_set_ne (by rintro rfl; exact hqr hrm), List.getElem?_set_ne (by rintro rfl; exact hpr hrm), g1])
    refine ⟨B', g, ⟨⟨{ b with next := some q }, ?_, e1, rfl⟩, hc⟩, by rw [hl']; simp, ?_⟩
    · rw [hf p (by simp [hpq, hpr]), List.getElem?_set_ne (Ne.symm hpq), List.getElem?_set_self hp]
    · intro x hx
      simp only [List.mem_cons, not_or] at hx
      rw [hf x (by simp [hx.2.1, hx.2.2]), List.getElem?_set_ne (Ne.symm hx.2.1), List.getElem?_set_ne (Ne.symm hx.1)]

theorem Pile.loose {B0 B : Heap (BT α)} {ps : List Nat} {l : List (Step α)} (h : Pile B0 B ps l) : Loose B ps l ∧ ps.Nodup ∧
    (∀ p, p ∈ ps ↔ B0.length ≤ p ∧ p < B.length) ∧ ∀ p, p < B0.length → B[p]? = B0[p]? := by
  have hl : B.length = B0.length + l.length := by rw [h.all]; simp
  refine ⟨⟨by rw [h.cells]; simp, ?_⟩, ?_, ?_, ?_⟩
  · intro i p s hp hs
    have hi : i < l.length := (List.getElem?_eq_some_iff.1 hs).1
    rw [h.cells, List.getElem?_reverse (by simpa using hi), List.getElem?_range' (by simp; omega)] at hp
    simp only [List.length_range', Nat.one_mul, Option.some.injEq] at hp
    refine ⟨⟨s, none, none⟩, ?_, rfl, rfl⟩
    rw [h.all, List.getElem?_append_right (by omega), List.getElem?_map]
    have : p - B0.length = l.length - 1 - i := by omega
    rw [this, List.getElem?_reverse (by omega)]
    have : l.length - 1 - (l.length - 1 - i) = i := by omega
    rw [this, hs]; rfl
  · rw [h.cells]; exact List.pairwise_reverse.2 ((List.nodup_range' (s := B0.length) (n := l.length)).imp Ne.symm)
  · intro p
    rw [h.cells, List.mem_reverse, List.mem_range']
    constructor
    · rintro ⟨i, h1, rfl⟩; omega
    · rintro ⟨h1, h2⟩; exact ⟨p - B0.length, by omega, by omega⟩
  · intro p hp
    rw [h.all, List.getElem?_append_left hp]

theorem printFrom_ok (sh : Show α) {B : Heap (BT α)} : ∀ (ps : List Nat) (p : Nat) (l : List (Step α)) (fuel : Nat), Chain B (p :: ps) l →
    ps.length < fuel → printFrom sh fuel B p = .ok (l.flatMap (printStep sh)) := by
  intro ps
  induction ps with
  | nil =>
    intro p l fuel h hf
    cases l with
    | nil => exact h.elim
    | cons s l =>
    obtain ⟨⟨b, e, e1, e2⟩, h'⟩ := h
    cases l with
    | cons _ _ => exact h'.elim
    | nil =>
    cases fuel with
    | zero => simp at hf
    | succ fuel =>
    simp only [printFrom]
    rw [Heap.load_ok e]
    simp only [bind, Except.bind, e2, List.head?_nil, pure, Except.pure, e1]
    simp
  | cons q ps ih =>
    intro p l fuel h hf
    cases l with
    | nil => exact h.elim
    | cons s l =>
    obtain ⟨⟨b, e, e1, e2⟩, h'⟩ := h
    cases fuel with
    | zero => simp at hf
    | succ fuel =>
    simp only [printFrom]
    rw [Heap.load_ok e]
    simp only [bind, Except.bind, e2, List.head?_cons, pure, Except.pure, e1]
    rw [ih q l fuel h' (by simp at hf; omega)]
    simp

theorem deleteStep_ok : ∀ (ps : List Nat) (p : Nat) (l : List (Step α)) (B : Heap (BT α)) (fuel : Nat), Chain B (p :: ps) l → (p :: ps).Nodup →
    ps.length < fuel → ∃ B', deleteStep fuel B p = .ok B' ∧ B'.length = B.length ∧ (∀ q ∈ p :: ps, B'[q]? = some none) ∧
      ∀ q, q ∉ p :: ps → B'[q]? = B[q]? := by
  intro ps
  induction ps with
  | nil =>
    intro p l B fuel h hn hf
    cases l with
    | nil => exact h.elim
    | cons s l =>
    obtain ⟨⟨b, e, e1, e2⟩, h'⟩ := h
    cases fuel with
    | zero => simp at hf
    | succ fuel =>
    simp only [deleteStep]
    rw [Heap.load_ok e]
    simp only [bind, Except.bind, e2, List.head?_nil]
    refine ⟨_, Heap.free_ok e, by simp, ?_, ?_⟩
    · intro q hq
      simp only [List.mem_singleton] at hq
      subst hq
      rw [List.getElem?_set_self (Heap.lt_of_live e)]
    · intro q hq
      simp only [List.mem_singleton] at hq
      rw [List.getElem?_set_ne (Ne.symm hq)]
  | cons r ps ih =>
    intro p l B fuel h hn hf
    cases l with
    | nil => exact h.elim
    | cons s l =>
    obtain ⟨⟨b, e, e1, e2⟩, h'⟩ := h
    cases fuel with
    | zero => simp at hf
    | succ fuel =>
    obtain ⟨hpn, hn'⟩ := List.nodup_cons.1 hn
    obtain ⟨B1, g1, g2, g3, g4⟩ := ih r l B fuel h' hn' (by simp at hf; omega)
    simp only [deleteStep]
    rw [Heap.load_ok e]
    simp only [bind, Except.bind, e2, List.head?_cons]
    rw [g1]
    simp only
    have e3 : B1[p]? = some (some b) := by rw [g4 p hpn, e]
    refine ⟨_, Heap.free_ok e3, by simp [g2], ?_, ?_⟩
    · intro q hq
      rcases List.mem_cons.1 hq with rfl | hq
      · rw [List.getElem?_set_self (Heap.lt_of_live e3)]
      · rw [List.getElem?_set_ne (by rintro rfl; exact hpn hq), g3 q hq]
    · intro q hq
      simp only [List.mem_cons, not_or] at hq
      rw [List.getElem?_set_ne (Ne.symm hq.1), g4 q (by simp [hq.2.1, hq.2.2])]

/-! ### The diagonal of the last element -/

theorem climb_ok {H0 : Heap Diag} {t : Tab} : ∀ (n : Nat) (H : Heap Diag) (a : Int → Option Nat) (k : Int) (p : Nat), Rep H0 H a t → a k = some p →
    ∃ H' a' q, climb n H p = .ok (q, H') ∧ Rep H0 H' a' t ∧ a' (if k ≥ 0 then k + n else k - n) = some q := by
  intro n
  induction n with
  | zero => intro H a k p h hk; exact ⟨H, a, p, rfl, h, by split <;> simpa using hk⟩
  | succ n ih =>
    intro H a k p h hk
    obtain ⟨H1, a1, q1, g1, r1, b1, l1⟩ := aboveH_ok h hk
    obtain ⟨H2, a2, q2, g2, r2, b2⟩ := ih H1 a1 (above k) q1 r1 b1
    refine ⟨H2, a2, q2, ?_, r2, ?_⟩
    · simp only [climb]; rw [g1]; exact g2
    · have : (if above k ≥ 0 then above k + (n : Int) else above k - n) = if k ≥ 0 then k + (n + 1 : Nat) else k - (n + 1 : Nat) := by
        unfold above
        split <;> split <;> (try split) <;> push_cast <;> omega
      rw [← this]; exact b2

theorem findDiag_ok (c : Ctx α) (H0 : Heap Diag) :
    ∃ H a p, findDiag c H0 = .ok (p, H) ∧ Rep H0 H a tab0 ∧ a (c.v.length - c.u.length) = some p := by
  have h0 : Rep H0 (H0 ++ [some (newDiag .u .v 0)]) (fun k => if k = 0 then some H0.length else none) tab0 := by
    refine ⟨?_, ?_, ?_, ?_, ?_, ?_, by simp⟩
    · intro k p e
      split at e
      · rename_i hk; subst hk
        cases e
        simp [newDiag, su, sv, below, above, tab0]
      · cases e
    · intro k k' p e e'
      split at e
      · split at e'
        · omega
        · cases e'
      · cases e
    · intro k _; rfl
    · intro k p hk e
      rw [if_neg hk] at e; cases e
    · intro k p e
      split at e
      · cases e; omega
      · cases e
    · intro p hp
      rw [List.getElem?_append_left hp]
  unfold findDiag
  simp only [Heap.alloc]
  by_cases hl : (c.v.length : Int) - c.u.length ≥ 0
  · rw [if_pos hl]
    obtain ⟨H, a, q, g, r, e⟩ := climb_ok ((c.v.length : Int) - c.u.length).toNat _ _ 0 H0.length h0 rfl
    refine ⟨H, a, q, g, r, ?_⟩
    rw [if_pos (by omega)] at e
    rw [← e]; congr 1; omega
  · rw [if_neg hl]
    obtain ⟨H1, a1, q1, g1, r1, b1, l1⟩ := belowH_ok (k := 0) (p := H0.length) h0 rfl
    obtain ⟨H, a, q, g, r, e⟩ := climb_ok (-((c.v.length : Int) - c.u.length) - 1).toNat H1 a1 (-1) q1 r1 b1
    refine ⟨H, a, q, ?_, r, ?_⟩
    · simp only [g1, bind, Except.bind]; exact g
    · rw [if_neg (by omega)] at e
      rw [← e]; congr 1; omega

end Verif.DiffMem
