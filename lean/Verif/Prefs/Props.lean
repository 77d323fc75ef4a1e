import Verif.Prefs.FileLemmas
import Verif.Num.Props
import Verif.Str.CmpProps
set_option linter.unusedVariables false
set_option linter.unusedSimpArgs false
/-
C44: Preferences survive saving and loading. C66: Preferences are a map with typed access.
-/
namespace Verif.Prefs.Props
open Verif Verif.Str Verif.Prefs Verif.Prefs.Spec Verif.Prefs.Lemmas

/-- Calls of the interface; text arguments are strings, keys their contents. -/
inductive Call where
  | setValue (key : List Ch) (value : Str)
  | hasValue (key : List Ch)
  | value (key : List Ch)
  | valueOr (key : List Ch) (default : Str)

/-- Arguments are proper strings; a value must not end with a carriage return (see `setValue_cr_reads_behind`). -/
def Call.Ok : Call → Prop
  | .setValue _ v => Str.WF v ∧ (chars v).getLast? ≠ some 0x0D
  | .valueOr _ d => Str.WF d
  | _ => True

def Call.op : Call → Op
  | .setValue k v => .setValue k (chars v)
  | .hasValue k => .hasValue k
  | .value k => .value k
  | .valueOr k d => .valueOr k (chars d)

def exec (h : List Ch → BitVec 64) (p : Prefs) : Call → Res (Prefs × Out)
  | .setValue k v => do let q ← setValue h p k v; return (q, .unit)
  | .hasValue k => do let b ← hasValue h p k; return (p, .bool b)
  | .value k => do let s ← value h p k; return (p, .text (chars s))
  | .valueOr k d => do let s ← valueOr h p k d; return (p, .text (chars s))

def run (h : List Ch → BitVec 64) : List Call → Prefs → Res (Prefs × List Out)
  | [], p => .ok (p, [])
  | c :: cs, p => do
    let r ← exec h p c
    let s ← run h cs r.1
    return (s.1, r.2 :: s.2)

theorem exec_ok {h : List Ch → BitVec 64} {p : Prefs} {m : Map} (I : Inv h p m) (c : Call) (hc : c.Ok) :
    ∃ q, exec h p c = .ok (q, (step m c.op).2) ∧ Inv h q (step m c.op).1 := by
  cases c with
  | setValue k v =>
    obtain ⟨q, e, J⟩ := setValue_ok I k hc.1 hc.2
    exact ⟨q, by simp only [exec, e, bind, Except.bind, pure, Except.pure]; rfl, J⟩
  | hasValue k => exact ⟨p, by simp only [exec, hasValue_ok I, bind, Except.bind, pure, Except.pure]; rfl, I⟩
  | value k =>
    obtain ⟨r, e, w, c⟩ := value_ok I k
    exact ⟨p, by simp only [exec, e, c, bind, Except.bind, pure, Except.pure]; rfl, I⟩
  | valueOr k d =>
    obtain ⟨r, e, w, c⟩ := valueOr_ok I k hc
    exact ⟨p, by simp only [exec, e, c, bind, Except.bind, pure, Except.pure]; rfl, I⟩

theorem run_ok {h : List Ch → BitVec 64} (cs : List Call) : ∀ {p : Prefs} {m : Map}, Inv h p m → (∀ c ∈ cs, c.Ok) →
    ∃ q, run h cs p = .ok (q, (steps m (cs.map Call.op)).2) ∧ Inv h q (steps m (cs.map Call.op)).1 := by
  induction cs with
  | nil => intro p m I _; exact ⟨p, rfl, I⟩
  | cons c cs ih =>
    intro p m I hc
    obtain ⟨q, e, J⟩ := exec_ok I c (hc c (by simp))
    obtain ⟨q', e', J'⟩ := ih J (fun x hx => hc x (by simp [hx]))
    refine ⟨q', ?_, J'⟩
    simp only [run, e, e', bind, Except.bind, pure, Except.pure]
    rfl

/-- states reachable from the empty object by permitted calls, with the map they stand for -/
def Reached (h : List Ch → BitVec 64) (p : Prefs) (m : Map) : Prop :=
  ∃ cs outs, (∀ c ∈ cs, c.Ok) ∧ run h cs Prefs.new = .ok (p, outs) ∧ m = (steps (fun _ => none) (cs.map Call.op)).1

theorem reached_inv {h : List Ch → BitVec 64} {p : Prefs} {m : Map} (r : Reached h p m) : Inv h p m := by
  obtain ⟨cs, outs, hc, e, rfl⟩ := r
  obtain ⟨q, e', J⟩ := run_ok cs (inv_new h) hc
  rw [e] at e'; cases e'; exact J

/-- **C66 (history, partial).** Whatever the hash function of the keys is, every history of permitted calls on a new
object answers exactly as a map does whose values have their line breaks replaced by `\n` (two characters); it never
touches freed or foreign memory. -/
theorem history_partial (h : List Ch → BitVec 64) (cs : List Call) (hc : ∀ c ∈ cs, c.Ok) :
    ∃ p, run h cs Prefs.new = .ok (p, (steps (fun _ => none) (cs.map Call.op)).2) := by
  obtain ⟨p, e, _⟩ := run_ok cs (inv_new h) hc
  exact ⟨p, e⟩

/-- **C66 (destruction).** After every history the destructor deletes each stored string exactly once: no double
deletion, nothing left. -/
theorem destructor_frees_all {h : List Ch → BitVec 64} {p : Prefs} {m : Map} (r : Reached h p m) :
    ∃ heap, destroy h p = .ok heap ∧ heap.AllFreed := destroy_ok (reached_inv r)

/-- the map in a file on top of the map in memory -/
def over (m m0 : Map) : Map := fun k => (m k).or (m0 k)

theorem overlay_eq {m m0 : Map} {ks : List (List Ch)} (hk : ∀ k, k ∈ ks ↔ m k ≠ none) : overlay m ks m0 = over m m0 := by
  funext x
  unfold overlay over
  cases hm : m x with
  | none => rw [if_neg (by rw [hk]; simp [hm])]; rfl
  | some v => rw [if_pos (by rw [hk]; simp [hm])]; rfl

/-- `q` gives the answers of the map `m` -/
def Answers (h : List Ch → BitVec 64) (q : Prefs) (m : Map) : Prop :=
  ∀ cs : List Call, (∀ c ∈ cs, c.Ok) → ∃ q', run h cs q = .ok (q', (steps m (cs.map Call.op)).2)

/-- **C44 (partial).** Preferences with plain keys and plain values: what `save` writes, `load` reads back. Loading
into an object which already has entries keeps those with other keys and overwrites those with the same keys. -/
theorem save_load_partial {h : List Ch → BitVec 64} {p p0 : Prefs} {m m0 : Map} (r : Reached h p m) (r0 : Reached h p0 m0)
    (hp : ∀ k v, m k = some v → PlainKey k ∧ PlainValue v) :
    ∃ bytes q, save h p = .ok bytes ∧ load h p0 bytes = .ok q ∧ Answers h q (over m m0) := by
  have I := reached_inv r
  obtain ⟨ks, nd, hk, e⟩ := save_ok I
  have hks : ∀ k ∈ ks, PlainKey k ∧ PlainValue ((m k).getD []) := by
    intro k hk'
    cases hm : m k with
    | none => exact absurd hm ((hk k).1 hk')
    | some v => exact hp k v hm
  obtain ⟨q, e2, J⟩ := load_ok ks (fun k x => (hks k x).1) (fun k x => (hks k x).2) (reached_inv r0)
  refine ⟨_, q, e, e2, ?_⟩
  rw [overlay_eq hk] at J
  intro cs hc
  obtain ⟨q', e3, _⟩ := run_ok cs J hc
  exact ⟨q', e3⟩

/-- **C44 (partial, pairs).** Every plain pair stored is found unchanged after `save` and `load` into a new object, and
no other keys appear. -/
theorem pairs_survive_partial {h : List Ch → BitVec 64} {p : Prefs} {m : Map} (r : Reached h p m)
    (hp : ∀ k v, m k = some v → PlainKey k ∧ PlainValue v) :
    ∃ bytes q, save h p = .ok bytes ∧ load h Prefs.new bytes = .ok q ∧
      (∀ k v, m k = some v → ∃ s, value h q k = .ok s ∧ chars s = v) ∧ ∀ k, hasValue h q k = .ok (m k).isSome := by
  have I := reached_inv r
  obtain ⟨ks, nd, hk, e⟩ := save_ok I
  have hks : ∀ k ∈ ks, PlainKey k ∧ PlainValue ((m k).getD []) := by
    intro k hk'
    cases hm : m k with
    | none => exact absurd hm ((hk k).1 hk')
    | some v => exact hp k v hm
  obtain ⟨q, e2, J⟩ := load_ok ks (fun k x => (hks k x).1) (fun k x => (hks k x).2) (inv_new h)
  rw [overlay_eq hk] at J
  have ho : ∀ k, over m (fun _ => none) k = m k := by intro k; simp [over]
  refine ⟨_, q, e, e2, ?_, ?_⟩
  · intro k v hv
    obtain ⟨s, e3, w, c⟩ := value_ok J k
    exact ⟨s, e3, by rw [c, ho, hv]; rfl⟩
  · intro k; rw [hasValue_ok J, ho]

/-! ### typed values -/

theorem numeral_chars {l : List Ch} {z : Int} (h : Num.Props.IsIntNumeral l z) : l ≠ [] ∧ ∀ c ∈ l, isDigit c ∨ c = 0x2d := by
  unfold Num.Props.IsIntNumeral at h
  split at h
  · obtain ⟨m, rfl, _, hm, _⟩ := h
    refine ⟨by simp, ?_⟩
    intro c hc
    rcases List.mem_cons.1 hc with rfl | hc
    · exact .inr rfl
    · exact .inl (hm c hc)
  · exact ⟨h.1, fun c hc => .inl (h.2.1 c hc)⟩

theorem plain_digit {c : Ch} (h : isDigit c ∨ c = 0x2d) : c ≠ 0x0D ∧ c ≠ 0x0A ∧ c ≠ 0 ∧ c ≠ 0x5C ∧ isWhitespace c = false := by
  rcases h with h | rfl
  · have : ∀ d : Ch, isDigit d = true → 0x30 ≤ d.toNat ∧ d.toNat ≤ 0x39 := by
      intro d hd
      simp only [isDigit, decide_eq_true_eq] at hd
      exact hd
    obtain ⟨a, b⟩ := this c h
    have hc : c = BitVec.ofNat 16 c.toNat := by simp
    generalize c.toNat = n at *
    subst hc
    have : ∀ n, n < 0x3A → 0x30 ≤ n → BitVec.ofNat 16 n ≠ 0x0D ∧ BitVec.ofNat 16 n ≠ 0x0A ∧ BitVec.ofNat 16 n ≠ 0 ∧
        BitVec.ofNat 16 n ≠ 0x5C ∧ isWhitespace (BitVec.ofNat 16 n) = false := by decide
    exact this n (by omega) a
  · decide

/-- numerals are plain values -/
theorem plain_numeral {l : List Ch} {z : Int} (h : Num.Props.IsIntNumeral l z) : PlainValue l := by
  obtain ⟨_, hc⟩ := numeral_chars h
  refine ⟨fun x => (plain_digit (hc _ x)).1 rfl, fun x => (plain_digit (hc _ x)).2.1 rfl, fun x => (plain_digit (hc _ x)).2.2.1 rfl,
    ?_, ?_, ?_, ?_⟩
  · rintro ⟨a, b, rfl⟩
    exact (plain_digit (hc 0x5C (by simp))).2.2.2.1 rfl
  · intro c hh hw
    rw [(plain_digit (hc c (List.mem_of_mem_head? hh))).2.2.2.2] at hw; cases hw
  · intro c hh hw
    rw [(plain_digit (hc c (List.mem_of_getLast? hh))).2.2.2.2] at hw; cases hw
  · intro hh
    exact absurd rfl (plain_digit (hc _ (List.mem_of_getLast? hh))).2.2.2.1

theorem plain_bool (b : Bool) : PlainValue (if b then [0x74, 0x72, 0x75, 0x65] else [0x66, 0x61, 0x6c, 0x73, 0x65]) := by
  have key : ∀ l : List Ch, (l.all fun c => decide (c ≠ 0x0D ∧ c ≠ 0x0A ∧ c ≠ 0 ∧ c ≠ 0x5C ∧ isWhitespace c = false)) = true → PlainValue l := by
    intro l hl
    rw [List.all_eq_true] at hl
    have hl : ∀ c ∈ l, _ := fun c hc => of_decide_eq_true (hl c hc)
    refine ⟨fun x => (hl _ x).1 rfl, fun x => (hl _ x).2.1 rfl, fun x => (hl _ x).2.2.1 rfl, ?_, ?_, ?_, ?_⟩
    · rintro ⟨a, b, rfl⟩
      exact (hl 0x5C (by simp)).2.2.2.1 rfl
    · intro c hh hw
      rw [(hl c (List.mem_of_mem_head? hh)).2.2.2.2] at hw; cases hw
    · intro c hh hw
      rw [(hl c (List.mem_of_getLast? hh)).2.2.2.2] at hw; cases hw
    · intro hh
      exact absurd rfl (hl _ (List.mem_of_getLast? hh)).2.2.2.1
  cases b <;> exact key _ (by decide)

theorem reached_step {h : List Ch → BitVec 64} {p q : Prefs} {m : Map} {k : List Ch} {v : Str} (r : Reached h p m) (hv : Str.WF v)
    (hl : (chars v).getLast? ≠ some 0x0D) (e : setValue h p k v = .ok q) : Reached h q (step m (.setValue k (chars v))).1 := by
  obtain ⟨cs, outs, hc, e0, rfl⟩ := r
  have hrun : ∀ (cs : List Call) (p0 : Prefs) (outs : List Out), run h cs p0 = .ok (p, outs) →
      run h (cs ++ [.setValue k v]) p0 = .ok (q, outs ++ [.unit]) := by
    intro cs
    induction cs with
    | nil =>
      intro p0 outs e0
      simp only [run, Except.ok.injEq, Prod.mk.injEq] at e0
      obtain ⟨rfl, rfl⟩ := e0
      simp only [List.nil_append, run, exec, e, bind, Except.bind, pure, Except.pure]
    | cons c cs ih =>
      intro p0 outs e0
      simp only [run, List.cons_append] at e0 ⊢
      cases hx : exec h p0 c with
      | error f => rw [hx] at e0; simp [bind, Except.bind] at e0
      | ok r =>
        rw [hx] at e0
        simp only [bind, Except.bind] at e0 ⊢
        cases hy : run h cs r.1 with
        | error f => rw [hy] at e0; simp at e0
        | ok s =>
          rw [hy] at e0
          simp only [pure, Except.pure, Except.ok.injEq, Prod.mk.injEq] at e0
          obtain ⟨e1, rfl⟩ := e0
          rw [ih r.1 s.2 (by rw [hy, ← e1])]
          rfl
  have hst : ∀ (os : List Op) (m0 : Map) (o : Op), (steps m0 (os ++ [o])).1 = (step (steps m0 os).1 o).1 := by
    intro os
    induction os with
    | nil => intro m0 o; rfl
    | cons a os ih => intro m0 o; simp only [List.cons_append, steps]; exact ih _ o
  refine ⟨cs ++ [.setValue k v], outs ++ [.unit], ?_, hrun cs _ _ e0, ?_⟩
  · intro c hc'
    rcases List.mem_append.1 hc' with hc' | hc'
    · exact hc c hc'
    · rw [List.mem_singleton] at hc'; subst hc'; exact ⟨hv, hl⟩
  · rw [List.map_append, List.map_singleton, hst]; rfl

/-- **C66 (integers, partial).** After `setValue(key, int64)`, for every integer but the smallest and every history before,
`valueInt` of this key yields the integer, whatever the default, and other keys keep their value; the stored text is the
decimal numeral. -/
theorem int_roundtrip_partial {h : List Ch → BitVec 64} {p : Prefs} {m : Map} (r : Reached h p m) (k : List Ch) (z : Int)
    (h1 : Num.minInt64 < z) (h2 : z ≤ Num.maxInt64) :
    ∃ q t, setInt h p k z = .ok q ∧ Num.Props.IsIntNumeral t z ∧ Reached h q (fun x => if x = k then some t else m x) ∧
      ∀ d, valueInt h q k d = .ok z := by
  obtain ⟨t, e1, ht⟩ := Num.Props.valueOf_partial z h1 h2
  obtain ⟨s, e2, w2, c2⟩ := EditProps.constructed t
  have hpl := plain_numeral ht
  have hcr : (chars s).getLast? ≠ some 0x0D := by
    rw [c2]; intro hx; exact hpl.1 (List.mem_of_getLast? hx)
  obtain ⟨q, e3, J⟩ := setValue_ok (reached_inv r) k w2 hcr
  have R := reached_step r w2 hcr e3
  simp only [step, c2, oneLine_id (l := t) hpl.1 hpl.2.1] at R
  refine ⟨q, t, by simp only [setInt, e1, e2, bind, Except.bind]; exact e3, ht, R, ?_⟩
  intro d
  obtain ⟨v, e4, w4, c4⟩ := value_ok (reached_inv R) k
  simp only [if_true, Option.getD_some] at c4
  have hlen := chars_length w4
  have hne := List.length_pos_iff.2 (numeral_chars ht).1
  simp only [valueInt, e4, bind, Except.bind]
  rw [if_neg (by rw [← hlen, c4]; omega), c4, Num.Props.toInt_numeral ht h1 h2]
  rfl

/-- **C66 (booleans).** After `setValue(key, bool)` `valueBool` of this key yields the value, whatever the default; other
keys keep their value. -/
theorem bool_roundtrip {h : List Ch → BitVec 64} {p : Prefs} {m : Map} (r : Reached h p m) (k : List Ch) (b : Bool) :
    ∃ q t, setBool h p k b = .ok q ∧ Reached h q (fun x => if x = k then some t else m x) ∧ ∀ d, valueBool h q k d = .ok b := by
  have hpl := plain_bool b
  obtain ⟨t, ht⟩ : ∃ t : List Ch, t = (if b then [0x74, 0x72, 0x75, 0x65] else [0x66, 0x61, 0x6c, 0x73, 0x65]) := ⟨_, rfl⟩
  rw [← ht] at hpl
  obtain ⟨s, e2, w2, c2⟩ := EditProps.constructed t
  have hcr : (chars s).getLast? ≠ some 0x0D := by
    rw [c2]; intro hx; exact hpl.1 (List.mem_of_getLast? hx)
  obtain ⟨q, e3, J⟩ := setValue_ok (reached_inv r) k w2 hcr
  have R := reached_step r w2 hcr e3
  simp only [step, c2, oneLine_id (l := t) hpl.1 hpl.2.1] at R
  refine ⟨q, t, by unfold setBool; rw [← ht]; simp only [e2, bind, Except.bind]; exact e3, R, ?_⟩
  intro d
  obtain ⟨v, e4, w4, c4⟩ := value_ok (reached_inv R) k
  simp only [if_true, Option.getD_some] at c4
  have hlen := chars_length w4
  obtain ⟨tr, e5, w5, c5⟩ := EditProps.constructed [0x74, 0x72, 0x75, 0x65]
  simp only [valueBool, e4, bind, Except.bind]
  rw [if_neg (by rw [← hlen, c4, ht]; cases b <;> simp), e5]
  simp only
  rw [CmpProps.equals_iff w4 w5, c4, c5, ht]
  cases b <;> rfl

/-- `valueInt` and `valueBool` of a missing key or an empty value yield the default. -/
theorem typed_default {h : List Ch → BitVec 64} {p : Prefs} {m : Map} (r : Reached h p m) (k : List Ch)
    (hk : m k = none ∨ m k = some []) : (∀ d, valueInt h p k d = .ok d) ∧ ∀ d, valueBool h p k d = .ok d := by
  obtain ⟨v, e, w, c⟩ := value_ok (reached_inv r) k
  have hlen := chars_length w
  have h0 : v.len = 0 := by
    rw [← hlen, c]
    rcases hk with hk | hk <;> rw [hk] <;> rfl
  constructor <;> intro d <;> simp only [valueInt, valueBool, e, bind, Except.bind, if_pos h0, pure, Except.pure]

/-- `valueInt` of text starting with something which is neither a digit nor `-` yields the default. -/
theorem int_default_on_text {h : List Ch → BitVec 64} {p : Prefs} {m : Map} (r : Reached h p m) (k : List Ch) (l t : List Ch) (c : Ch)
    (hl : ∀ c ∈ l, isDigit c) (hb : (Num.Props.natVal l : Int) ≤ Num.maxInt64) (hc : isDigit c = false) (hc2 : c ≠ 0x2d)
    (hk : m k = some (l ++ c :: t)) : ∀ d, valueInt h p k d = .ok d := by
  obtain ⟨v, e, w, cv⟩ := value_ok (reached_inv r) k
  have hlen := chars_length w
  rw [hk] at cv
  simp only [Option.getD_some] at cv
  intro d
  simp only [valueInt, e, bind, Except.bind]
  rw [if_neg (by rw [← hlen, cv]; simp), cv, Num.Props.toInt_bad_char l t c hl hb hc hc2]
  rfl

end Verif.Prefs.Props
