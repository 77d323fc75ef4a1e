import Verif.Prefs.LineLemmas
import Verif.Hashtable.Props
import Verif.Lists.TokenizerProps
import Verif.Lists.StringListProps
import Verif.Charset.Utf8Lemmas
set_option linter.unusedVariables false
set_option linter.unusedSimpArgs false
/-
Preferences: the invariant between calls.
-/
namespace Verif.Prefs.Lemmas
open Verif Verif.Str Verif.Prefs Verif.Prefs.Spec Verif.Str.SearchProps Verif.Str.PartProps
open Verif.Hashtable (Table Ptr nullptr Entry flat lookup pending)

/-- the object stands for the map `m` and owns every live string exactly once -/
structure Inv (h : List Ch → BitVec 64) (p : Prefs) (m : Map) : Prop where
  table : Hashtable.Inv h p.table
  absent : ∀ k, m k = none → Hashtable.abs p.table k = none
  present : ∀ k v, m k = some v → ∃ a s, Hashtable.abs p.table k = some (a + 1) ∧ p.heap[a]? = some (some s) ∧ WF s ∧ chars s = v
  inj : ∀ k k' a, Hashtable.abs p.table k = some a → Hashtable.abs p.table k' = some a → k = k'
  live : ∀ (a : Nat) s, p.heap[a]? = some (some s) → ∃ k, Hashtable.abs p.table k = some (a + 1)
  noBreak : ∀ k v, m k = some v → cCR ∉ v ∧ cLF ∉ v

theorem inv_new (h : List Ch → BitVec 64) : Inv h Prefs.new (fun _ => none) where
  table := Hashtable.init_inv h
  absent := fun k _ => Hashtable.abs_init k
  present := by intro k v e; cases e
  inj := by intro k k' a e; rw [show Prefs.new.table = Hashtable.init from rfl, Hashtable.abs_init] at e; cases e
  live := by intro a s e; simp [Prefs.new] at e
  noBreak := by intro k v e; cases e

theorem get_cases {h : List Ch → BitVec 64} {p : Prefs} {m : Map} (I : Inv h p m) (k : List Ch) :
    (m k = none ∧ Hashtable.get p.table (h k) k = .ok nullptr) ∨
    ∃ v a s, m k = some v ∧ Hashtable.get p.table (h k) k = .ok (a + 1) ∧ p.heap.load a = .ok s ∧ WF s ∧ chars s = v ∧
      p.heap[a]? = some (some s) ∧ Hashtable.abs p.table k = some (a + 1) := by
  rw [Hashtable.get_ok I.table]
  cases hm : m k with
  | none => left; exact ⟨rfl, by rw [I.absent k hm]; rfl⟩
  | some v =>
    right
    obtain ⟨a, s, e, l, w, c⟩ := I.present k v hm
    exact ⟨v, a, s, rfl, by rw [e]; rfl, Heap.load_ok l, w, c, l, e⟩

theorem setValue_ok {h : List Ch → BitVec 64} {p : Prefs} {m : Map} (I : Inv h p m) (k : List Ch) {v : Str} (hv : WF v)
    (hl : (chars v).getLast? ≠ some cCR) :
    ∃ q, setValue h p k v = .ok q ∧ Inv h q (step m (.setValue k (chars v))).1 := by
  obtain ⟨t, e1, w1, c1⟩ := flatten_ok hv hl
  obtain ⟨s, e2, w2, c2, _⟩ := copyCtor_ok w1
  obtain ⟨t', e3, T, ab⟩ := Hashtable.put_ok I.table k (p.heap.length + 1)
  have habk : Hashtable.abs t' k = some (p.heap.length + 1) := by rw [ab]; simp [Hashtable.Spec.insert]
  have habn : ∀ x, x ≠ k → Hashtable.abs t' x = Hashtable.abs p.table x := by intro x hx; rw [ab]; simp [Hashtable.Spec.insert, hx]
  have hcs : chars s = oneLine (chars v) := by rw [c2, c1]
  -- the cell freed, if any
  have hlt : ∀ x a, Hashtable.abs p.table x = some (a + 1) → a < p.heap.length := by
    intro x a e
    cases hm : m x with
    | none => rw [I.absent x hm] at e; cases e
    | some w =>
      obtain ⟨b, s, e', l, _⟩ := I.present x w hm
      rw [e] at e'; injection e' with e'
      have : a = b := Nat.succ.inj e'
      rw [this]; exact Heap.lt_of_live l
  obtain ⟨heap', e4, hp1, hp2⟩ : ∃ heap', deleteOld (p.heap.alloc s).1 (Hashtable.Spec.orNull (Hashtable.abs p.table k)) = .ok heap' ∧
      heap'[p.heap.length]? = some (some s) ∧
      ∀ a, a < p.heap.length → (Hashtable.abs p.table k = some (a + 1) → heap'[a]? = some none) ∧
        (Hashtable.abs p.table k ≠ some (a + 1) → heap'[a]? = p.heap[a]?) := by
    rcases get_cases I k with ⟨hm, _⟩ | ⟨w, a, s', hm, _, _, _, _, l, e⟩
    · rw [I.absent k hm]
      refine ⟨_, rfl, by simp [Heap.alloc], ?_⟩
      intro a ha
      exact ⟨(by intro e; cases e), fun _ => by simp [Heap.alloc, List.getElem?_append_left ha]⟩
    · rw [e]
      have hal := Heap.lt_of_live l
      have hlive : (p.heap.alloc s).1[a]? = some (some s') := by simp [Heap.alloc, List.getElem?_append_left hal, l]
      refine ⟨(p.heap.alloc s).1.set a none, ?_, ?_, ?_⟩
      · show deleteOld (p.heap.alloc s).1 (a + 1) = _
        unfold deleteOld nullptr
        rw [if_neg (Nat.succ_ne_zero a), Nat.add_sub_cancel]
        exact Heap.free_ok hlive
      · rw [List.getElem?_set_ne (by omega)]; simp [Heap.alloc]
      · intro b hb
        constructor
        · intro x
          injection x with x
          have : a = b := Nat.succ.inj x
          subst this
          rw [List.getElem?_set_self (by simp [Heap.alloc]; omega)]
        · intro x
          have : a ≠ b := fun y => x (by rw [y])
          rw [List.getElem?_set_ne this]
          simp [Heap.alloc, List.getElem?_append_left hb]
  have hlen : ∀ a, p.heap.length < a → heap'[a]? = none ∨ heap'[a]? = some none := by
    intro a ha
    have : heap'.length ≤ p.heap.length + 1 := by
      unfold deleteOld at e4
      split at e4
      · injection e4 with e4; subst e4; simp [Heap.alloc]
      · unfold Heap.free at e4
        split at e4
        · injection e4 with e4; subst e4; simp [Heap.alloc]
        · cases e4
    left; exact List.getElem?_eq_none (by omega)
  refine ⟨⟨t', heap'⟩, ?_, ?_⟩
  · simp only [setValue, e1, e2, bind, Except.bind, pure, Except.pure]
    have ha : (p.heap.alloc s).2 = p.heap.length := rfl
    simp only [ha, e3, e4]
  · simp only [step]
    refine ⟨T, ?_, ?_, ?_, ?_, ?_⟩
    · intro x hx
      by_cases hk : x = k
      · rw [if_pos hk] at hx; cases hx
      · rw [if_neg hk] at hx
        rw [habn x hk]; exact I.absent x hx
    · intro x w hx
      by_cases hk : x = k
      · rw [if_pos hk] at hx
        injection hx with hx
        rw [hk]
        exact ⟨_, s, habk, hp1, w2, by rw [hcs, hx]⟩
      · rw [if_neg hk] at hx
        obtain ⟨a, s', e, l, w', c⟩ := I.present x w hx
        refine ⟨a, s', by rw [habn x hk]; exact e, ?_, w', c⟩
        rw [(hp2 a (Heap.lt_of_live l)).2 (fun y => hk (I.inj x k _ e y))]
        exact l
    · intro x y a ex ey
      by_cases hx : x = k
      · by_cases hy : y = k
        · rw [hx, hy]
        · rw [hx, habk] at ex
          rw [habn y hy] at ey
          injection ex with ex
          rw [← ex] at ey
          exact absurd (hlt _ _ ey) (by omega)
      · by_cases hy : y = k
        · rw [hy, habk] at ey
          rw [habn x hx] at ex
          injection ey with ey
          rw [← ey] at ex
          exact absurd (hlt _ _ ex) (by omega)
        · rw [habn x hx] at ex
          rw [habn y hy] at ey
          exact I.inj x y a ex ey
    · intro a s' l
      rcases Nat.lt_trichotomy a p.heap.length with ha | ha | ha
      · by_cases hka : Hashtable.abs p.table k = some (a + 1)
        · have := (hp2 a ha).1 hka
          simp only at l; rw [this] at l; cases l
        · have := (hp2 a ha).2 hka
          simp only at l; rw [this] at l
          obtain ⟨x, hx⟩ := I.live a s' l
          refine ⟨x, ?_⟩
          rw [habn x (fun y => hka (by rw [← y]; exact hx))]; exact hx
      · exact ⟨k, by rw [ha]; exact habk⟩
      · simp only at l
        rcases hlen a ha with hh | hh <;> rw [hh] at l <;> cases l
    · intro x w hx
      by_cases hk : x = k
      · rw [if_pos hk] at hx
        injection hx with hx
        rw [← hx]; exact oneLine_noBreak _
      · rw [if_neg hk] at hx
        exact I.noBreak x w hx

theorem hasValue_ok {h : List Ch → BitVec 64} {p : Prefs} {m : Map} (I : Inv h p m) (k : List Ch) :
    hasValue h p k = .ok (m k).isSome := by
  rcases get_cases I k with ⟨hm, e⟩ | ⟨v, a, s, hm, e, _⟩
  · simp [hasValue, e, hm, bind, Except.bind, pure, Except.pure]
  · simp [hasValue, e, hm, bind, Except.bind, pure, Except.pure, nullptr]

theorem value_ok {h : List Ch → BitVec 64} {p : Prefs} {m : Map} (I : Inv h p m) (k : List Ch) :
    ∃ r, value h p k = .ok r ∧ WF r ∧ chars r = (m k).getD [] := by
  rcases get_cases I k with ⟨hm, e⟩ | ⟨v, a, s, hm, e, l, w, c, _⟩
  · exact ⟨Verif.Str.empty, by simp [value, e, bind, Except.bind, pure, Except.pure], empty_wf, by rw [hm, empty_chars]; rfl⟩
  · obtain ⟨r, e2, w2, c2, _⟩ := copyCtor_ok w
    refine ⟨r, ?_, w2, by rw [c2, c, hm]; rfl⟩
    simp only [value, e, bind, Except.bind, pure, Except.pure]
    rw [if_neg (by simp [nullptr]), Nat.add_sub_cancel, l]
    exact e2

theorem valueOr_ok {h : List Ch → BitVec 64} {p : Prefs} {m : Map} (I : Inv h p m) (k : List Ch) {d : Str} (hd : WF d) :
    ∃ r, valueOr h p k d = .ok r ∧ WF r ∧ Out.text (chars r) = (step m (.valueOr k (chars d))).2 := by
  obtain ⟨rd, e3, w3, c3, _⟩ := copyCtor_ok hd
  rcases get_cases I k with ⟨hm, e⟩ | ⟨v, a, s, hm, e, l, w, c, _⟩
  · refine ⟨rd, ?_, w3, by simp only [step]; rw [hm, c3]⟩
    simp only [valueOr, e, bind, Except.bind, pure, Except.pure]
    rw [if_pos trivial]; exact e3
  · simp only [valueOr, e, bind, Except.bind, pure, Except.pure]
    rw [if_neg (by simp [nullptr]), Nat.add_sub_cancel, l]
    have hlen := chars_length w
    simp only
    by_cases h0 : s.len = 0
    · rw [if_pos h0]
      have : v = [] := by rw [← c]; exact List.eq_nil_of_length_eq_zero (by omega)
      exact ⟨rd, e3, w3, by simp only [step]; rw [hm, c3, this]⟩
    · rw [if_neg h0]
      obtain ⟨r, e2, w2, c2, _⟩ := copyCtor_ok w
      refine ⟨r, e2, w2, ?_⟩
      simp only [step]
      rw [hm, c2, c]
      cases v with
      | nil => rw [c] at hlen; simp at hlen; omega
      | cons x l => rfl

/-! ### keys -/

theorem keysLoop_ok (l : List (Entry (List Ch))) : ∀ (fuel : Nat) (it : Hashtable.Iter (List Ch)),
    it.table.data.length = it.table.arrLength → pending it = l → l.length < fuel → keysLoop fuel it = .ok (l.map Entry.key) := by
  induction l with
  | nil =>
    intro fuel it hl hp hf
    obtain ⟨fuel, rfl⟩ : ∃ n, fuel = n + 1 := ⟨fuel - 1, by omega⟩
    obtain ⟨it1, it2, it3, e, e1, e2, _⟩ := Hashtable.Props.hasNext_exact it hl
    obtain ⟨it', e3, _⟩ := Hashtable.Props.next_ok it hl
    rw [e1] at e3; injection e3 with e3; injection e3 with _ e3
    rw [hp] at e3
    unfold keysLoop
    simp only [e2, e3, bind, Except.bind, pure, Except.pure]
    rfl
  | cons a l ih =>
    intro fuel it hl hp hf
    obtain ⟨fuel, rfl⟩ : ∃ n, fuel = n + 1 := ⟨fuel - 1, by omega⟩
    obtain ⟨it2, e2, p2, t2, n2⟩ := Hashtable.skip_ok it hl
    obtain ⟨it3, e3, p3, t3⟩ := Hashtable.Props.next_ok it2 (by rw [t2]; exact hl)
    have hne : Hashtable.hasNext it = .ok (it2, true) := by
      simp only [Hashtable.hasNext, e2, bind, Except.bind, pure, Except.pure]
      congr 2
      cases he : it2.entry with
      | nil => have := n2 he; rw [p2, hp] at this; cases this
      | cons _ _ => rfl
    rw [p2, hp] at e3 p3
    unfold keysLoop
    simp only [hne, e3, bind, Except.bind, pure, Except.pure, List.head?_cons]
    rw [ih fuel it3 (by rw [t3, t2]; exact hl) p3 (by simp at hf; omega)]
    rfl

theorem keys_ok {h : List Ch → BitVec 64} {p : Prefs} {m : Map} (I : Inv h p m) :
    ∃ ks, keys p = .ok ks ∧ ks.Nodup ∧ ∀ k, k ∈ ks ↔ m k ≠ none := by
  have hp : pending (Hashtable.iterator p.table) = flat p.table := by simp [pending, Hashtable.iterator, flat]
  have hs : Hashtable.size p.table = (flat p.table).length := I.table.count
  refine ⟨(flat p.table).map Entry.key, keysLoop_ok _ _ _ I.table.len hp (by omega), I.table.nodup, ?_⟩
  intro k
  have key : Hashtable.abs p.table k = none ↔ m k = none := by
    constructor
    · intro e
      cases hm : m k with
      | none => rfl
      | some v => obtain ⟨a, s, e', _⟩ := I.present k v hm; rw [e] at e'; cases e'
    · exact I.absent k
  rw [ne_eq, ← key]
  constructor
  · intro hk
    obtain ⟨e, he, rfl⟩ := List.mem_map.1 hk
    unfold Hashtable.abs
    rw [Hashtable.lookup_of_mem I.table.nodup he]
    simp
  · intro hk
    apply Decidable.byContradiction
    intro hn
    apply hk
    unfold Hashtable.abs
    rw [Hashtable.lookup_none]
    intro e he hek
    exact hn (List.mem_map.2 ⟨e, he, hek⟩)

/-! ### destructor -/

theorem deleteAll_ok {h : List Ch → BitVec 64} {p : Prefs} {m : Map} (I : Inv h p m) (ks : List (List Ch)) :
    ∀ (heap : Heap Str), heap.length = p.heap.length → ks.Nodup →
      (∀ k ∈ ks, ∃ a s, Hashtable.abs p.table k = some (a + 1) ∧ heap[a]? = some (some s)) →
      ∃ heap', deleteAll h p.table ks heap = .ok heap' ∧
        ∀ a s, heap'[a]? = some (some s) → heap[a]? = some (some s) ∧ ∀ k ∈ ks, Hashtable.abs p.table k ≠ some (a + 1) := by
  induction ks with
  | nil => intro heap hl _ hk; exact ⟨heap, rfl, fun a s e => ⟨e, by simp⟩⟩
  | cons k ks ih =>
    intro heap hl hn hk
    obtain ⟨a, s, e, l⟩ := hk k (by simp)
    rw [List.nodup_cons] at hn
    have hfree : deleteOld heap (a + 1) = .ok (heap.set a none) := by
      unfold deleteOld nullptr
      rw [if_neg (Nat.succ_ne_zero a), Nat.add_sub_cancel]; exact Heap.free_ok l
    obtain ⟨heap', e2, h2⟩ := ih (heap.set a none) (by simpa using hl) hn.2 (by
      intro x hx
      obtain ⟨b, t, eb, lb⟩ := hk x (by simp [hx])
      refine ⟨b, t, eb, ?_⟩
      rw [List.getElem?_set_ne]
      · exact lb
      · intro hab
        subst hab
        have := I.inj k x _ e eb
        exact hn.1 (by rw [this]; exact hx))
    refine ⟨heap', ?_, ?_⟩
    · simp only [deleteAll, Hashtable.get_ok I.table, e, Hashtable.Spec.orNull, bind, Except.bind, hfree]
      exact e2
    · intro b t hb
      obtain ⟨h3, h4⟩ := h2 b t hb
      have hne : a ≠ b := by
        intro hab
        subst hab
        rw [List.getElem?_set_self (Heap.lt_of_live l)] at h3; cases h3
      rw [List.getElem?_set_ne hne] at h3
      refine ⟨h3, ?_⟩
      intro x hx
      rcases List.mem_cons.1 hx with rfl | hx
      · rw [e]; intro y; injection y with y; exact hne (Nat.succ.inj y)
      · exact h4 x hx

theorem destroy_ok {h : List Ch → BitVec 64} {p : Prefs} {m : Map} (I : Inv h p m) :
    ∃ heap, destroy h p = .ok heap ∧ heap.AllFreed := by
  obtain ⟨ks, e, nd, hk⟩ := keys_ok I
  obtain ⟨heap, e2, h2⟩ := deleteAll_ok I ks p.heap rfl nd (by
    intro k hk'
    cases hm : m k with
    | none => exact absurd hm ((hk k).1 hk')
    | some v => obtain ⟨a, s, x, y, _⟩ := I.present k v hm; exact ⟨a, s, x, y⟩)
  refine ⟨heap, by simp only [destroy, e, e2, bind, Except.bind], ?_⟩
  intro c hc
  cases c with
  | none => rfl
  | some s =>
    exfalso
    obtain ⟨a, ha⟩ := List.mem_iff_getElem?.1 hc
    obtain ⟨h3, h4⟩ := h2 a s ha
    obtain ⟨k, hk2⟩ := I.live a s h3
    refine h4 k ?_ hk2
    rw [hk]
    intro hm
    rw [I.absent k hm] at hk2; cases hk2

end Verif.Prefs.Lemmas
