import Verif.Hashtable.Spec
set_option linter.unusedSimpArgs false
set_option linter.unusedSectionVars false
namespace Verif.Hashtable
open Verif

variable {K : Type} [DecidableEq K]

/-- All entries of the table. -/
def flat (t : Table K) : List (Entry K) := t.data.flatten

/-- Representation invariant, relative to the hash function of the keys. -/
structure Inv (h : K → BitVec 64) (t : Table K) : Prop where
  len : t.data.length = t.arrLength
  pos : 0 < t.arrLength
  place : ∀ i c, t.data[i]? = some c → ∀ e ∈ c, bucket e.hash t.arrLength = i
  hash : ∀ e ∈ flat t, e.hash = h e.key
  nodup : ((flat t).map Entry.key).Nodup
  count : t.dataLength = (flat t).length
  load : t.dataLength ≤ t.threshold
  thr1 : t.threshold * 4 ≤ t.arrLength * 3 + 3
  thr2 : t.arrLength * 3 ≤ t.threshold * 4 + 3

/-- Lookup in a list of entries. -/
def lookup (l : List (Entry K)) (k : K) : Option Ptr := (l.find? (fun e => decide (e.key = k))).map Entry.value

/-- The map a table stands for. -/
def abs (t : Table K) : Spec.Map K := lookup (flat t)

theorem lookup_nil (k : K) : lookup [] k = none := rfl

theorem lookup_cons (e : Entry K) (l : List (Entry K)) (k : K) :
    lookup (e :: l) k = if e.key = k then some e.value else lookup l k := by
  unfold lookup
  rw [List.find?_cons]
  by_cases h : e.key = k <;> simp [h]

theorem lookup_none {l : List (Entry K)} {k : K} : lookup l k = none ↔ ∀ e ∈ l, e.key ≠ k := by
  unfold lookup
  simp

theorem lookup_perm {l l' : List (Entry K)} (p : l.Perm l') (nd : (l.map Entry.key).Nodup) (k : K) :
    lookup l k = lookup l' k := by
  induction p with
  | nil => rfl
  | cons x _ ih =>
    rw [lookup_cons, lookup_cons, ih (by simp at nd; exact nd.2)]
  | swap x y l =>
    simp at nd
    rw [lookup_cons, lookup_cons, lookup_cons, lookup_cons]
    by_cases h1 : x.key = k <;> by_cases h2 : y.key = k
    · exact absurd (h2.trans h1.symm) (by simpa using nd.1.1)
    · simp [h1, h2]
    · simp [h1, h2]
    · simp [h1, h2]
  | trans p1 _ ih1 ih2 =>
    rw [ih1 nd, ih2 ((p1.map _).nodup_iff.1 nd)]

theorem flatten_set {α} (d : List (List α)) (i : Nat) (c : List α) (h : d[i]? = some c) :
    ∃ R, d.flatten.Perm (c ++ R) ∧ (∀ c', (d.set i c').flatten.Perm (c' ++ R)) ∧
      (∀ x, x ∈ R → ∃ j, j ≠ i ∧ ∃ c', d[j]? = some c' ∧ x ∈ c') := by
  induction d generalizing i with
  | nil => simp at h
  | cons a d ih =>
    cases i with
    | zero =>
      simp at h; subst h
      refine ⟨d.flatten, by simp, by simp, ?_⟩
      intro x hx
      rw [List.mem_flatten] at hx
      obtain ⟨c', hc, hx⟩ := hx
      obtain ⟨j, hj⟩ := List.mem_iff_getElem?.1 hc
      exact ⟨j + 1, by omega, c', by simpa using hj, hx⟩
    | succ i =>
      simp at h
      obtain ⟨R, p1, p2, p3⟩ := ih i h
      refine ⟨a ++ R, ?_, ?_, ?_⟩
      · rw [List.flatten_cons]
        exact (p1.append_left a).trans (by rw [← List.append_assoc, ← List.append_assoc]; exact List.perm_append_comm.append_right R)
      · intro c'
        rw [List.set_cons_succ, List.flatten_cons]
        exact ((p2 c').append_left a).trans (by rw [← List.append_assoc, ← List.append_assoc]; exact List.perm_append_comm.append_right R)
      · intro x hx
        rw [List.mem_append] at hx
        rcases hx with hx | hx
        · exact ⟨0, by omega, a, rfl, hx⟩
        · obtain ⟨j, hj, c', hc, hx⟩ := p3 x hx
          exact ⟨j + 1, by omega, c', by simpa using hc, hx⟩

theorem bucket_lt (hash : BitVec 64) {n : Nat} (h : 0 < n) : bucket hash n < n := Nat.mod_lt _ h

theorem rd_bucket {h : K → BitVec 64} {t : Table K} (I : Inv h t) (hash : BitVec 64) :
    ∃ c, rd t.data (bucket hash t.arrLength) = .ok c ∧ t.data[bucket hash t.arrLength]? = some c := by
  have hl : bucket hash t.arrLength < t.data.length := by rw [I.len]; exact bucket_lt hash I.pos
  exact ⟨_, rd_ok hl, List.getElem?_eq_getElem hl⟩

/-- In the chain of `k` a hit is the same as an equal key. -/
theorem hit_iff {h : K → BitVec 64} {k : K} {e : Entry K} (he : e.hash = h e.key) :
    hit (h k) k e = true ↔ e.key = k := by
  unfold hit
  rw [Bool.and_eq_true, beq_iff_eq, decide_eq_true_eq]
  constructor
  · exact fun x => x.2
  · intro hk; exact ⟨by rw [he, hk], hk⟩

theorem replaceIn_none {hash : BitVec 64} {k : K} {v : Ptr} {c : List (Entry K)} :
    replaceIn hash k v c = none ↔ ∀ e ∈ c, hit hash k e = false := by
  induction c with
  | nil => simp [replaceIn]
  | cons e r ih =>
    unfold replaceIn
    by_cases hh : hit hash k e = true
    · simp [hh]
    · simp only [hh]
      simp at hh
      simp [ih, hh]

theorem replaceIn_some {hash : BitVec 64} {k : K} {v old : Ptr} {c c' : List (Entry K)}
    (hr : replaceIn hash k v c = some (old, c')) :
    ∃ e A B, c = A ++ e :: B ∧ hit hash k e = true ∧ e.value = old ∧ c' = A ++ { e with value := v } :: B := by
  induction c generalizing c' with
  | nil => simp [replaceIn] at hr
  | cons e r ih =>
    unfold replaceIn at hr
    by_cases hh : hit hash k e = true
    · rw [if_pos hh] at hr
      injection hr with hr
      injection hr with h1 h2
      exact ⟨e, [], r, rfl, hh, h1, by rw [← h2]; rfl⟩
    · rw [if_neg hh] at hr
      cases hq : replaceIn hash k v r with
      | none => rw [hq] at hr; cases hr
      | some p =>
        rw [hq] at hr
        simp only [Option.map_some] at hr
        injection hr with hr
        injection hr with h1 h2
        obtain ⟨x, A, B, e1, e2, e3, e4⟩ := ih (c' := p.2) (by rw [hq, ← h1])
        exact ⟨x, e :: A, B, by rw [e1]; rfl, e2, e3, by rw [← h2, e4]; rfl⟩

theorem unlink_none {hash : BitVec 64} {k : K} {c : List (Entry K)} :
    unlink hash k c = none ↔ ∀ e ∈ c, hit hash k e = false := by
  induction c with
  | nil => simp [unlink]
  | cons e r ih =>
    unfold unlink
    by_cases hh : hit hash k e = true
    · simp [hh]
    · simp only [hh]
      simp at hh
      simp [ih, hh]

theorem unlink_some {hash : BitVec 64} {k : K} {old : Ptr} {c c' : List (Entry K)}
    (hr : unlink hash k c = some (old, c')) :
    ∃ e A B, c = A ++ e :: B ∧ hit hash k e = true ∧ e.value = old ∧ c' = A ++ B := by
  induction c generalizing c' with
  | nil => simp [unlink] at hr
  | cons e r ih =>
    unfold unlink at hr
    by_cases hh : hit hash k e = true
    · rw [if_pos hh] at hr
      injection hr with hr
      injection hr with h1 h2
      exact ⟨e, [], r, rfl, hh, h1, by rw [← h2]; rfl⟩
    · rw [if_neg hh] at hr
      cases hq : unlink hash k r with
      | none => rw [hq] at hr; cases hr
      | some p =>
        rw [hq] at hr
        simp only [Option.map_some] at hr
        injection hr with hr
        injection hr with h1 h2
        obtain ⟨x, A, B, e1, e2, e3, e4⟩ := ih (c' := p.2) (by rw [hq, ← h1])
        exact ⟨x, e :: A, B, by rw [e1]; rfl, e2, e3, by rw [← h2, e4]; rfl⟩

theorem findIn_eq {h : K → BitVec 64} {k : K} {c : List (Entry K)} (hc : ∀ e ∈ c, e.hash = h e.key) :
    findIn (h k) k c = Spec.orNull (lookup c k) := by
  induction c with
  | nil => rfl
  | cons e r ih =>
    have he := hit_iff (k := k) (hc e (by simp))
    rw [lookup_cons]
    unfold findIn
    by_cases hk : e.key = k
    · rw [if_pos (he.2 hk), if_pos hk]; rfl
    · rw [if_neg (fun x => hk (he.1 x)), if_neg hk]
      exact ih (fun e he => hc e (by simp [he]))

theorem mem_flat_of_chain {t : Table K} {i : Nat} {c : List (Entry K)} (hc : t.data[i]? = some c)
    {e : Entry K} (he : e ∈ c) : e ∈ flat t :=
  List.mem_flatten.2 ⟨c, List.mem_of_getElem? hc, he⟩

/-- A key can only be in its own chain. -/
theorem lookup_chain {h : K → BitVec 64} {t : Table K} (I : Inv h t) (k : K) {c : List (Entry K)}
    (hc : t.data[bucket (h k) t.arrLength]? = some c) : lookup c k = abs t k := by
  obtain ⟨R, p1, _, p3⟩ := flatten_set _ _ _ hc
  have hR : lookup R k = none := by
    rw [lookup_none]
    intro e he hk
    obtain ⟨j, hj, c', hc', hx⟩ := p3 e he
    have h1 := I.place j c' hc' e hx
    have h2 := I.hash e (mem_flat_of_chain hc' hx)
    rw [h2, hk] at h1
    exact hj h1.symm
  unfold abs
  rw [lookup_perm (l := flat t) p1 I.nodup]
  clear p1 p3 hc
  induction c with
  | nil => rw [List.nil_append, hR]; rfl
  | cons e r ih => rw [List.cons_append, lookup_cons, lookup_cons, ih]

theorem lookup_append_none {l m : List (Entry K)} {k : K} (h : lookup l k = none) :
    lookup (l ++ m) k = lookup m k := by
  induction l with
  | nil => rfl
  | cons e r ih =>
    rw [lookup_cons] at h
    rw [List.cons_append, lookup_cons]
    by_cases hk : e.key = k
    · rw [if_pos hk] at h; cases h
    · rw [if_neg hk] at h ⊢; exact ih h

/-! ### rehash -/

theorem moveChain_ok (n : Nat) (hn : 0 < n) (c : List (Entry K)) : ∀ (nd : List (List (Entry K))),
    nd.length = n → (∀ i c, nd[i]? = some c → ∀ e ∈ c, bucket e.hash n = i) →
    ∃ nd', moveChain n c nd = .ok nd' ∧ nd'.length = n ∧
      (∀ i c, nd'[i]? = some c → ∀ e ∈ c, bucket e.hash n = i) ∧ nd'.flatten.Perm (c ++ nd.flatten) := by
  induction c with
  | nil => intro nd hl hp; exact ⟨nd, rfl, hl, hp, by simp⟩
  | cons e r ih =>
    intro nd hl hp
    have hlt : bucket e.hash n < nd.length := by rw [hl]; exact bucket_lt _ hn
    have hg := List.getElem?_eq_getElem hlt
    obtain ⟨R, p1, p2, _⟩ := flatten_set nd _ _ hg
    obtain ⟨nd', h1, h2, h3, h4⟩ := ih (nd.set (bucket e.hash n) (e :: nd[bucket e.hash n])) (by simp [hl]) (by
      intro i c hc x hx
      rw [List.getElem?_set] at hc
      by_cases hi : bucket e.hash n = i
      · rw [if_pos hi, if_pos hlt] at hc
        injection hc with hc
        rw [← hc] at hx
        rcases List.mem_cons.1 hx with rfl | hx
        · exact hi
        · rw [← hi]; exact hp _ _ hg x hx
      · rw [if_neg hi] at hc
        exact hp i c hc x hx)
    refine ⟨nd', ?_, h2, h3, ?_⟩
    · simp only [moveChain, rd_ok hlt, wr_ok hlt, bind, Except.bind]
      exact h1
    · refine h4.trans ?_
      refine ((p2 _).append_left r).trans ?_
      rw [List.cons_append]
      exact List.perm_middle.trans (List.Perm.cons e (p1.symm.append_left r))

theorem moveAll_ok (n : Nat) (hn : 0 < n) (d : List (List (Entry K))) : ∀ (nd : List (List (Entry K))),
    nd.length = n → (∀ i c, nd[i]? = some c → ∀ e ∈ c, bucket e.hash n = i) →
    ∃ nd', moveAll n d nd = .ok nd' ∧ nd'.length = n ∧
      (∀ i c, nd'[i]? = some c → ∀ e ∈ c, bucket e.hash n = i) ∧ nd'.flatten.Perm (d.flatten ++ nd.flatten) := by
  induction d with
  | nil => intro nd hl hp; exact ⟨nd, rfl, hl, hp, by simp⟩
  | cons c r ih =>
    intro nd hl hp
    obtain ⟨nd1, a1, a2, a3, a4⟩ := moveChain_ok n hn c nd hl hp
    obtain ⟨nd2, b1, b2, b3, b4⟩ := ih nd1 a2 a3
    refine ⟨nd2, ?_, b2, b3, ?_⟩
    · simp only [moveAll, a1, bind, Except.bind]; exact b1
    · refine b4.trans ?_
      refine (a4.append_left _).trans ?_
      rw [List.flatten_cons, ← List.append_assoc]
      exact List.perm_append_comm.append_right _

theorem rehash_ok {h : K → BitVec 64} {t : Table K} (I : Inv h t) :
    ∃ t', rehash t = .ok t' ∧ Inv h t' ∧ (flat t').Perm (flat t) ∧ t'.dataLength = t.dataLength ∧
      t.threshold < t'.threshold := by
  obtain ⟨nd, a1, a2, a3, a4⟩ := moveAll_ok (t.arrLength * 2 + 1) (by omega) t.data
    (List.replicate (t.arrLength * 2 + 1) []) (by simp) (by
      intro i c hc e he
      have := List.mem_of_getElem? hc
      rw [List.mem_replicate] at this
      rw [this.2] at he; simp at he)
  have hp : nd.flatten.Perm (flat t) := by
    refine a4.trans ?_
    have : ∀ n, (List.replicate n ([] : List (Entry K))).flatten = [] := by intro n; simp
    rw [this, List.append_nil]; exact List.Perm.refl _
  refine ⟨Table.mk nd (t.arrLength * 2 + 1) t.dataLength (((t.arrLength * 2 + 1) * 3 + 3) / 4), by simp only [rehash, a1, bind, Except.bind]; rfl, ?_, hp, rfl, ?_⟩
  · have h1 := I.load
    have h2 := I.thr1
    have h3 := I.pos
    refine ⟨a2, by simp, a3, ?_, ?_, ?_, ?_, ?_, ?_⟩
    · intro e he; exact I.hash e (hp.mem_iff.1 he)
    · exact ((hp.map _).nodup_iff).2 I.nodup
    · show t.dataLength = nd.flatten.length
      rw [hp.length_eq]; exact I.count
    · simp only; omega
    · simp only; omega
    · simp only; omega
  · have h2 := I.thr1
    have h3 := I.pos
    simp only; omega

/-! ### operations -/

theorem init_inv (h : K → BitVec 64) : Inv h (init : Table K) := by
  have hf : flat (init : Table K) = [] := by simp [flat, init]
  refine ⟨rfl, by simp [init], ?_, ?_, ?_, ?_, ?_, by simp [init], by simp [init]⟩
  · intro i c hc e he
    have := List.mem_of_getElem? hc
    simp [init] at this
    rw [this] at he; simp at he
  · rw [hf]; simp
  · rw [hf]; simp
  · rw [hf]; rfl
  · simp [init]

theorem abs_init (k : K) : abs (init : Table K) k = none := by
  have hf : flat (init : Table K) = [] := by simp [flat, init]
  unfold abs; rw [hf]; rfl

theorem get_ok {h : K → BitVec 64} {t : Table K} (I : Inv h t) (k : K) :
    get t (h k) k = .ok (Spec.orNull (abs t k)) := by
  obtain ⟨c, hr, hc⟩ := rd_bucket I (h k)
  simp only [get, hr, bind, Except.bind, pure, Except.pure]
  rw [findIn_eq (h := h) (fun e he => I.hash e (mem_flat_of_chain hc he)), lookup_chain I k hc]

/-- Storing a new chain `c'` at position `i`, whose entries are those of the old chain up to
the given permutation facts, keeps placement. -/
theorem place_set {t : Table K} {i : Nat} {c' : List (Entry K)}
    (hp : ∀ i c, t.data[i]? = some c → ∀ e ∈ c, bucket e.hash t.arrLength = i)
    (hc' : ∀ e ∈ c', bucket e.hash t.arrLength = i) :
    ∀ j d, (t.data.set i c')[j]? = some d → ∀ e ∈ d, bucket e.hash t.arrLength = j := by
  intro j d hd e he
  rw [List.getElem?_set] at hd
  by_cases hij : i = j
  · rw [if_pos hij] at hd
    split at hd
    · injection hd with hd
      rw [← hd] at he
      rw [← hij]; exact hc' e he
    · cases hd
  · rw [if_neg hij] at hd
    exact hp j d hd e he

theorem lookup_of_mem {l : List (Entry K)} (nd : (l.map Entry.key).Nodup) {e : Entry K} (he : e ∈ l) :
    lookup l e.key = some e.value := by
  induction l with
  | nil => cases he
  | cons a r ih =>
    rw [lookup_cons]
    simp at nd
    rcases List.mem_cons.1 he with rfl | hr
    · simp
    · have : a.key ≠ e.key := fun x => nd.1 e hr x.symm
      rw [if_neg this]; exact ih nd.2 hr

theorem put_ok {h : K → BitVec 64} {t : Table K} (I : Inv h t) (k : K) (v : Ptr) :
    ∃ t', put t (h k) k v = .ok (t', Spec.orNull (abs t k)) ∧ Inv h t' ∧
      ∀ x, abs t' x = Spec.insert (abs t) k v x := by
  obtain ⟨c, hr, hc⟩ := rd_bucket I (h k)
  have hcl : bucket (h k) t.arrLength < t.data.length := by rw [I.len]; exact bucket_lt _ I.pos
  have hch : ∀ e ∈ c, e.hash = h e.key := fun e he => I.hash e (mem_flat_of_chain hc he)
  have hlk := lookup_chain I k hc
  unfold put
  simp only [hr, bind, Except.bind, pure, Except.pure]
  cases hq : replaceIn (h k) k v c with
  | some p =>
    obtain ⟨old, c'⟩ := p
    obtain ⟨e, A, B, e1, e2, e3, e4⟩ := replaceIn_some hq
    have hek : e.key = k := (hit_iff (hch e (by rw [e1]; simp))).1 e2
    have hmem : e ∈ flat t := mem_flat_of_chain hc (by rw [e1]; simp)
    have habs : abs t k = some old := by
      unfold abs; rw [← hek, lookup_of_mem I.nodup hmem, e3]
    simp only [wr_ok hcl]
    refine ⟨_, by rw [habs]; rfl, ?_⟩
    obtain ⟨R, p1, p2, _⟩ := flatten_set _ _ _ hc
    -- old and new entries, up to order
    have q1 : (flat t).Perm (e :: (A ++ B ++ R)) := by
      refine p1.trans ?_
      rw [e1, List.append_assoc, List.cons_append, List.append_assoc]
      exact List.perm_middle
    have q2 : ((t.data.set (bucket (h k) t.arrLength) c').flatten).Perm ({ e with value := v } :: (A ++ B ++ R)) := by
      refine (p2 c').trans ?_
      rw [e4, List.append_assoc, List.cons_append, List.append_assoc]
      exact List.perm_middle
    have qk : (List.map Entry.key ({ e with value := v } :: (A ++ B ++ R))) = List.map Entry.key (e :: (A ++ B ++ R)) := rfl
    have nd1 : (List.map Entry.key (e :: (A ++ B ++ R))).Nodup := ((q1.map _).nodup_iff).1 I.nodup
    have nd2 : (List.map Entry.key ((t.data.set (bucket (h k) t.arrLength) c').flatten)).Nodup :=
      ((q2.map _).nodup_iff).2 (by rw [qk]; exact nd1)
    constructor
    · refine ⟨by simp [I.len], I.pos, ?_, ?_, nd2, ?_, I.load, I.thr1, I.thr2⟩
      · apply place_set I.place
        intro x hx
        rw [e4] at hx
        rcases List.mem_append.1 hx with hx | hx
        · exact I.place _ _ hc x (by rw [e1]; simp [hx])
        · rcases List.mem_cons.1 hx with rfl | hx
          · exact I.place _ _ hc e (by rw [e1]; simp)
          · exact I.place _ _ hc x (by rw [e1]; simp [hx])
      · intro x hx
        have hx2 := q2.mem_iff.1 hx
        rcases List.mem_cons.1 hx2 with rfl | hx2
        · exact I.hash e hmem
        · exact I.hash x (q1.mem_iff.2 (by simp only [List.mem_cons]; exact .inr hx2))
      · show t.dataLength = ((t.data.set (bucket (h k) t.arrLength) c').flatten).length
        rw [q2.length_eq, I.count, q1.length_eq]; rfl
    · intro x
      show lookup ((t.data.set (bucket (h k) t.arrLength) c').flatten) x = _
      rw [lookup_perm q2 nd2, lookup_cons]
      unfold Spec.insert abs
      rw [lookup_perm q1 I.nodup, lookup_cons, hek]
      by_cases hx : x = k
      · subst hx; simp
      · have : ¬ k = x := fun e => hx e.symm
        simp [hx, this]
  | none =>
    have hno : ∀ e ∈ c, e.key ≠ k := by
      intro e he hek
      have := replaceIn_none.1 hq e he
      rw [(hit_iff (hch e he)).2 hek] at this
      cases this
    have habs : abs t k = none := by rw [← hlk, lookup_none]; exact hno
    -- the table the entry goes into
    have hstep : ∃ t1, grow t = .ok t1 ∧ Inv h t1 ∧
        (flat t1).Perm (flat t) ∧ t1.dataLength = t.dataLength ∧ t1.dataLength < t1.threshold := by
      unfold grow
      by_cases hth : t.dataLength ≥ t.threshold
      · rw [if_pos hth]
        obtain ⟨t1, a, b, c, d, e⟩ := rehash_ok I
        exact ⟨t1, a, b, c, d, by have := I.load; omega⟩
      · rw [if_neg hth]
        exact ⟨t, rfl, I, List.Perm.refl _, rfl, by omega⟩
    obtain ⟨t1, s1, I1, s2, s3, s4⟩ := hstep
    obtain ⟨c1, hr1, hc1⟩ := rd_bucket I1 (h k)
    have hcl1 : bucket (h k) t1.arrLength < t1.data.length := by rw [I1.len]; exact bucket_lt _ I1.pos
    simp only [s1, hr1, wr_ok hcl1]
    refine ⟨_, by rw [habs]; rfl, ?_⟩
    obtain ⟨R, p1, p2, _⟩ := flatten_set _ _ _ hc1
    have q2 : ((t1.data.set (bucket (h k) t1.arrLength) ({ hash := h k, key := k, value := v } :: c1)).flatten).Perm
        ({ hash := h k, key := k, value := v } :: flat t) := by
      refine (p2 _).trans ?_
      rw [List.cons_append]
      exact List.Perm.cons _ (p1.symm.trans s2)
    have hnk : ∀ e ∈ flat t, e.key ≠ k := by
      have := habs; unfold abs at this; rw [lookup_none] at this; exact this
    have nd2 : (List.map Entry.key ((t1.data.set (bucket (h k) t1.arrLength) ({ hash := h k, key := k, value := v } :: c1)).flatten)).Nodup := by
      refine ((q2.map _).nodup_iff).2 ?_
      rw [List.map_cons, List.nodup_cons]
      refine ⟨?_, I.nodup⟩
      intro hm
      obtain ⟨e, he, hk⟩ := List.mem_map.1 hm
      exact hnk e he hk
    constructor
    · refine ⟨by simp [I1.len], I1.pos, ?_, ?_, nd2, ?_, by simp only; omega, I1.thr1, I1.thr2⟩
      · apply place_set I1.place
        intro x hx
        rcases List.mem_cons.1 hx with rfl | hx
        · rfl
        · exact I1.place _ _ hc1 x hx
      · intro x hx
        have hx2 := q2.mem_iff.1 hx
        rcases List.mem_cons.1 hx2 with rfl | hx2
        · rfl
        · exact I.hash x hx2
      · show t1.dataLength + 1 = ((t1.data.set (bucket (h k) t1.arrLength) ({ hash := h k, key := k, value := v } :: c1)).flatten).length
        rw [q2.length_eq, s3, I.count]; rfl
    · intro x
      show lookup ((t1.data.set (bucket (h k) t1.arrLength) ({ hash := h k, key := k, value := v } :: c1)).flatten) x = _
      rw [lookup_perm q2 nd2, lookup_cons]
      unfold Spec.insert abs
      by_cases hx : x = k
      · subst hx; simp
      · have : ¬ k = x := fun e => hx e.symm
        simp [hx, this]

theorem remove_ok {h : K → BitVec 64} {t : Table K} (I : Inv h t) (k : K) :
    ∃ t', remove t (h k) k = .ok (t', Spec.orNull (abs t k)) ∧ Inv h t' ∧
      ∀ x, abs t' x = Spec.erase (abs t) k x := by
  obtain ⟨c, hr, hc⟩ := rd_bucket I (h k)
  have hcl : bucket (h k) t.arrLength < t.data.length := by rw [I.len]; exact bucket_lt _ I.pos
  have hch : ∀ e ∈ c, e.hash = h e.key := fun e he => I.hash e (mem_flat_of_chain hc he)
  have hlk := lookup_chain I k hc
  unfold remove
  simp only [hr, bind, Except.bind, pure, Except.pure]
  cases hq : unlink (h k) k c with
  | none =>
    have habs : abs t k = none := by
      rw [← hlk, lookup_none]
      intro e he hek
      have := unlink_none.1 hq e he
      rw [(hit_iff (hch e he)).2 hek] at this
      cases this
    refine ⟨t, by rw [habs]; rfl, I, ?_⟩
    intro x
    unfold Spec.erase
    by_cases hx : x = k
    · subst hx; simp [habs]
    · simp [hx]
  | some p =>
    obtain ⟨old, c'⟩ := p
    obtain ⟨e, A, B, e1, e2, e3, e4⟩ := unlink_some hq
    have hek : e.key = k := (hit_iff (hch e (by rw [e1]; simp))).1 e2
    have hmem : e ∈ flat t := mem_flat_of_chain hc (by rw [e1]; simp)
    have habs : abs t k = some old := by
      unfold abs; rw [← hek, lookup_of_mem I.nodup hmem, e3]
    simp only [wr_ok hcl]
    refine ⟨_, by rw [habs]; rfl, ?_⟩
    obtain ⟨R, p1, p2, _⟩ := flatten_set _ _ _ hc
    have q1 : (flat t).Perm (e :: (A ++ B ++ R)) := by
      refine p1.trans ?_
      rw [e1, List.append_assoc, List.cons_append, List.append_assoc]
      exact List.perm_middle
    have q2 : ((t.data.set (bucket (h k) t.arrLength) c').flatten).Perm (A ++ B ++ R) := by
      refine (p2 c').trans ?_
      rw [e4]
    have nd1 : (List.map Entry.key (e :: (A ++ B ++ R))).Nodup := ((q1.map _).nodup_iff).1 I.nodup
    have nd1' := nd1
    rw [List.map_cons, List.nodup_cons] at nd1'
    have nd2 : (List.map Entry.key ((t.data.set (bucket (h k) t.arrLength) c').flatten)).Nodup :=
      ((q2.map _).nodup_iff).2 nd1'.2
    have hcount := I.count
    rw [q1.length_eq, List.length_cons] at hcount
    constructor
    · refine ⟨by simp [I.len], I.pos, ?_, ?_, nd2, ?_, by have := I.load; simp only; omega, I.thr1, I.thr2⟩
      · apply place_set I.place
        intro x hx
        rw [e4] at hx
        rcases List.mem_append.1 hx with hx | hx
        · exact I.place _ _ hc x (by rw [e1]; simp [hx])
        · exact I.place _ _ hc x (by rw [e1]; simp [hx])
      · intro x hx
        have hx2 := q2.mem_iff.1 hx
        exact I.hash x (q1.mem_iff.2 (by simp only [List.mem_cons]; exact .inr hx2))
      · show t.dataLength - 1 = ((t.data.set (bucket (h k) t.arrLength) c').flatten).length
        rw [q2.length_eq]; omega
    · intro x
      show lookup ((t.data.set (bucket (h k) t.arrLength) c').flatten) x = _
      rw [lookup_perm q2 nd2]
      unfold Spec.erase abs
      rw [lookup_perm q1 I.nodup, lookup_cons, hek]
      by_cases hx : x = k
      · subst hx
        rw [if_pos rfl, lookup_none]
        intro y hy hyk
        exact nd1'.1 (List.mem_map.2 ⟨y, hy, by rw [hyk, hek]⟩)
      · have : ¬ k = x := fun e => hx e.symm
        simp [hx, this]

theorem clear_ok {h : K → BitVec 64} {t : Table K} (I : Inv h t) :
    Inv h (clear t) ∧ ∀ x, abs (clear t) x = none := by
  have hf : flat (clear t) = [] := by
    unfold flat clear
    simp only
    rw [List.flatten_eq_nil_iff]
    intro l hl
    obtain ⟨_, _, rfl⟩ := List.mem_map.1 hl
    rfl
  refine ⟨⟨by simp [clear, I.len], I.pos, ?_, ?_, ?_, ?_, by simp [clear], I.thr1, I.thr2⟩, ?_⟩
  · intro i c hc e he
    simp [clear] at hc
    rw [hc.2] at he
    cases he
  · rw [hf]; simp
  · rw [hf]; simp
  · rw [hf]; rfl
  · intro x; unfold abs; rw [hf]; rfl

theorem size_ok {h : K → BitVec 64} {t : Table K} (I : Inv h t) : Spec.HasSize (abs t) (size t) := by
  refine ⟨(flat t).map Entry.key, I.nodup, ?_, by rw [List.length_map]; exact I.count.symm⟩
  intro k
  constructor
  · intro hk
    obtain ⟨e, he, rfl⟩ := List.mem_map.1 hk
    unfold abs
    rw [lookup_of_mem I.nodup he]
    simp
  · intro hk
    apply Decidable.byContradiction
    intro hn
    apply hk
    unfold abs
    rw [lookup_none]
    intro e he hek
    exact hn (List.mem_map.2 ⟨e, he, hek⟩)

/-! ### iterator -/

/-- The entries an iterator still has to deliver. -/
def pending (it : Iter K) : List (Entry K) := it.entry ++ (it.table.data.drop it.index).flatten

theorem skip_ok (it : Iter K) (hl : it.table.data.length = it.table.arrLength) :
    ∃ it', skip it = .ok it' ∧ pending it' = pending it ∧ it'.table = it.table ∧
      (it'.entry = [] → pending it' = []) := by
  fun_induction skip it with
  | case2 it hc =>
    refine ⟨it, rfl, rfl, rfl, ?_⟩
    intro he
    have hi : it.table.arrLength ≤ it.index := by
      apply Decidable.byContradiction
      intro hn; exact hc ⟨he, by omega⟩
    unfold pending
    rw [he, List.drop_eq_nil_of_le (by omega)]; rfl
  | case1 it hc ih =>
    have hlt : it.index < it.table.data.length := by rw [hl]; exact hc.2
    obtain ⟨it', a, b, c, d⟩ := ih it.table.data[it.index] hl
    refine ⟨it', ?_, ?_, c, d⟩
    · simp only [rd_ok hlt, bind, Except.bind]; exact a
    · rw [b]
      unfold pending
      simp only [hc.1, List.nil_append]
      rw [List.drop_eq_getElem_cons hlt, List.flatten_cons]

end Verif.Hashtable
