import Verif.Tags.Model
import Verif.Lists.TokenizerProps
import Verif.Lists.StringListProps
import Verif.Charset.Utf8Props
/-
C105: the tags of a file.
-/
namespace Verif.Tags.Props
open Verif Verif.Charset Verif.Tags

/-! ### Specification -/

/-- What the calls mean for a file with the tags `L`; `granted` is whether the system lets the attribute be written. -/
def ideal (L : List Text) (granted : Bool) : Call → List Text × Answer
  | .get => (L, .tags L)
  | .set M => if granted then (M, .status .ok) else (L, .status .no)
  | .add t => if t ∈ L then (L, .status .ok) else if granted then (L ++ [t], .status .ok) else (L, .status .no)
  | .remove t => if t ∈ L then (if granted then (L.filter (fun x => x ≠ t), .status .ok) else (L, .status .no)) else (L, .status .ok)

/-- the states and answers of a whole history -/
def idealRun (L : List Text) : List (Call × Env) → List (List Text) × List Answer
  | [] => ([], [])
  | (c, env) :: h =>
    let r := ideal L env.writes c
    let p := idealRun r.1 h
    (r.1 :: p.1, r.2 :: p.2)

/-- texts that can be tags -/
structure Tag (t : Text) : Prop where
  filled : t ≠ []
  noComma : (44 : Ch) ∉ t
  noNul : (0 : Ch) ∉ t
  noMark : t.head? ≠ some 0xFEFF

def CallTags : Call → Prop
  | .get => True
  | .set M => ∀ t ∈ M, Tag t
  | .add t => Tag t
  | .remove _ => True

/-- bytes of a text in UTF-8 -/
def bytes (t : Text) : Nat := (t.map (fun c => if c.toNat < 0x80 then 1 else if c.toNat < 0x800 then 2 else 3)).sum

/-- the tags of a file, with a comma between any two of them, take at most 4096 bytes -/
def Fits (L : List Text) : Prop := (L.map bytes).sum + (L.length - 1) ≤ 4096

/-! ### Proofs -/

theorem bytes_flatMap (t : Text) : (t.flatMap enc1).length = bytes t := by
  induction t with
  | nil => rfl
  | cons c t ih => rw [List.flatMap_cons, List.length_append, ih, enc1_length]; simp [bytes]

theorem bytes_append (s t : Text) : bytes (s ++ t) = bytes s + bytes t := by simp [bytes]

theorem bytes_join (L : List Text) : bytes ([44].intercalate L) = (L.map bytes).sum + (L.length - 1) := by
  induction L with
  | nil => rfl
  | cons x L ih =>
    cases L with
    | nil => simp
    | cons y L =>
      rw [List.intercalate_cons_cons, bytes_append, bytes_append, ih]
      have : bytes [44] = 1 := by decide
      simp only [List.map_cons, List.sum_cons, List.length_cons, this]
      omega

theorem mem_join (L : List Text) (c : Ch) (h : c ∈ [44].intercalate L) : c = 44 ∨ ∃ t ∈ L, c ∈ t := by
  induction L with
  | nil => simp at h
  | cons x L ih =>
    cases L with
    | nil => right; exact ⟨x, by simp, by simpa using h⟩
    | cons y L =>
      rw [List.intercalate_cons_cons, List.mem_append, List.mem_append] at h
      rcases h with (h | h) | h
      · right; exact ⟨x, by simp, h⟩
      · left; simpa using h
      · rcases ih h with h | ⟨t, ht, h⟩
        · exact .inl h
        · exact .inr ⟨t, by simp [ht], h⟩

theorem head_join (x : Text) (L : List Text) (hx : x ≠ []) : ([44].intercalate (x :: L)).head? = x.head? := by
  cases L with
  | nil => simp
  | cons y L =>
    rw [List.intercalate_cons_cons]
    cases x with
    | nil => exact absurd rfl hx
    | cons c x => rfl

theorem words_join (L : List Text) (h : ∀ t ∈ L, t ≠ [] ∧ (44 : Ch) ∉ t) :
    Lists.split ([44].intercalate L) 44 = .ok L := by
  rw [Lists.TokenizerProps.split_spec]
  congr 1
  unfold Lists.TokenizerProps.words
  induction L with
  | nil => simp
  | cons x L ih =>
    have hx : ∀ y ∈ x, (fun y => decide (y ∈ [(44 : Ch)])) y = false := by
      intro y hy; simp; intro e; subst e; exact (h x (by simp)).2 hy
    have ih := ih (fun y hy => h y (by simp [hy]))
    have hne : (!x.isEmpty) = true := by simp [(h x (by simp)).1]
    cases L with
    | nil => rw [List.intercalate_singleton, List.splitOnP_eq_singleton hx]; simp [(h x (by simp)).1]
    | cons y L =>
      rw [List.intercalate_cons_cons, List.append_assoc, List.singleton_append]
      rw [List.splitOnP_append_cons _ _ (by simp), List.splitOnP_eq_singleton hx]
      rw [List.singleton_append, List.filter_cons, if_pos hne, ih]

/-- the attribute of a file with the tags `L` -/
def Holds (a : Attr) (L : List Text) : Prop := (a = none ∧ L = []) ∨ a = some (([44].intercalate L).flatMap enc1)

theorem set_eq (a : Attr) (env : Env) (M : List Text) : setTags a env M =
    .ok (if env.writes then some (([44].intercalate M).flatMap enc1) else a, if env.writes then .ok else .no) := by
  rw [setTags, utf8Encode_eq]
  cases h : env.writes <;> simp [setxattr, h]

theorem getTags_decoded (v : List Byte) (s : Text) (w : Bool) (h0 : v ≠ []) (hl : v.length ≤ 4096)
    (hd : utf8Decode (v ++ [0]) = .ok s) : getTags (some v) ⟨true, w⟩ = Lists.split s 44 := by
  have : v.length > 0 := List.length_pos_iff.2 h0
  simp only [getTags, getxattr, hl, hd, this, if_true]

theorem flatMap_enc1_ne (t : Text) (h : t ≠ []) : t.flatMap enc1 ≠ [] := by
  cases t with
  | nil => exact absurd rfl h
  | cons c t =>
    intro e
    have := congrArg List.length e
    rw [List.flatMap_cons, List.length_append, enc1_length] at this
    revert this
    (repeat' split) <;> simp

theorem join_ne (x : Text) (L : List Text) (hx : x ≠ []) : [44].intercalate (x :: L) ≠ [] := by
  intro e
  have := head_join x L hx
  rw [e] at this
  cases x with
  | nil => exact hx rfl
  | cons c x => cases this

theorem get_ok (a : Attr) (L : List Text) (w : Bool) (h : Holds a L) (ht : ∀ t ∈ L, Tag t) (hf : Fits L) :
    getTags a ⟨true, w⟩ = .ok L := by
  rcases h with ⟨rfl, rfl⟩ | rfl
  · rfl
  · cases L with
    | nil => rfl
    | cons x L =>
      have hj := join_ne x L (ht x (by simp)).filled
      rw [getTags_decoded _ ([44].intercalate (x :: L)) _ (flatMap_enc1_ne _ hj) ?_ ?_]
      · exact words_join _ (fun t h => ⟨(ht t h).filled, (ht t h).noComma⟩)
      · rw [bytes_flatMap, bytes_join]; exact hf
      · refine Utf8Props.roundtrip_partial _ _ [] ?_ ?_ (utf8Encode_eq _)
        · intro hm
          rcases mem_join _ _ hm with h | ⟨t, h1, h2⟩
          · revert h; decide
          · exact (ht t h1).noNul h2
        · rw [head_join _ _ (ht x (by simp)).filled]; exact (ht x (by simp)).noMark

theorem step_ok (a : Attr) (L : List Text) (w : Bool) (c : Call) (h : Holds a L) (ht : ∀ t ∈ L, Tag t) (hf : Fits L) (hc : CallTags c) :
    ∃ a', step a ⟨true, w⟩ c = .ok (a', (ideal L w c).2) ∧ Holds a' (ideal L w c).1 ∧ ∀ t ∈ (ideal L w c).1, Tag t := by
  have hg := get_ok a L w h ht hf
  have keep : ∀ M : List Text, (∀ t ∈ M, Tag t) → Holds (if w = true then some (([44].intercalate M).flatMap enc1) else a) (if w then M else L) ∧
      ∀ t ∈ (if w then M else L), Tag t := by
    intro M hM
    cases w
    · exact ⟨h, ht⟩
    · exact ⟨.inr rfl, hM⟩
  have fold : ∀ (M : List Text), (if w then (M, Answer.status .ok) else (L, .status .no)) = (if w then M else L, .status (if w then .ok else .no)) := by
    intro M; cases w <;> rfl
  cases c with
  | get => exact ⟨a, by simp [step, hg, ideal, Except.map], h, ht⟩
  | set M =>
    simp only [ideal, fold]
    exact ⟨_, by rw [step, set_eq]; rfl, (keep M hc).1, (keep M hc).2⟩
  | add t =>
    by_cases hm : t ∈ L
    · exact ⟨a, by simp [step, addTag, hg, hm, ideal, Except.map], by simpa [ideal, hm] using h, by simpa [ideal, hm] using ht⟩
    · simp only [ideal, hm, if_false, fold]
      have hM : ∀ x ∈ L ++ [t], Tag x := by
        intro x hx
        rcases List.mem_append.1 hx with hx | hx
        · exact ht x hx
        · rw [List.mem_singleton.1 hx]; exact hc
      refine ⟨_, ?_, (keep _ hM).1, (keep _ hM).2⟩
      simp [step, addTag, hg, hm, set_eq, Except.map]
  | remove t =>
    by_cases hm : t ∈ L
    · simp only [ideal, hm, if_true, fold]
      have hM : ∀ x ∈ L.filter (fun x => decide (x ≠ t)), Tag x := fun x hx => ht x (List.mem_filter.1 hx).1
      refine ⟨_, ?_, (keep _ hM).1, (keep _ hM).2⟩
      have e : L.filter (fun x => x != t) = L.filter (fun x => decide (x ≠ t)) := by
        congr 1; funext x; cases h : x == t <;> simp_all [bne]
      simp only [step, removeTag, hg, List.contains_iff_mem.2 hm, if_true, e, set_eq, Except.map]
    · exact ⟨a, by simp [step, removeTag, hg, hm, ideal, Except.map], by simpa [ideal, hm] using h, by simpa [ideal, hm] using ht⟩

theorem run_ok (h : List (Call × Env)) (a : Attr) (L : List Text) (hh : Holds a L) (ht : ∀ t ∈ L, Tag t) (hf : Fits L)
    (hc : ∀ p ∈ h, CallTags p.1 ∧ p.2.reads = true) (hs : ∀ M ∈ (idealRun L h).1, Fits M) :
    ∃ a', run a h = .ok (a', (idealRun L h).2) := by
  induction h generalizing a L with
  | nil => exact ⟨a, rfl⟩
  | cons p h ih =>
    obtain ⟨c, r, w⟩ := p
    have h1 := hc (c, ⟨r, w⟩) (by simp)
    have hr : r = true := h1.2
    subst hr
    obtain ⟨a1, e1, h2, h3⟩ := step_ok a L w c hh ht hf h1.1
    obtain ⟨a2, e2⟩ := ih a1 (ideal L w c).1 h2 h3 (hs _ (by simp [idealRun])) (fun p hp => hc p (by simp [hp]))
      (fun M hM => hs M (by simp [idealRun, hM]))
    exact ⟨a2, by simp [run, e1, e2, idealRun, Except.map]⟩

/-! ### Theorems -/

/-- **C105** Any history of getTags, setTags, addTag and removeTag on a file, whatever the system lets be written, answers as the list of
its tags does.  Missing: texts that are empty, contain a comma or NUL or begin with U+FEFF, more than 4096 bytes of tags, and files whose
attribute cannot be read but written (all shown below). -/
theorem history_partial (h : List (Call × Env)) (hc : ∀ p ∈ h, CallTags p.1 ∧ p.2.reads = true)
    (hs : ∀ M ∈ (idealRun [] h).1, Fits M) : ∃ a, run none h = .ok (a, (idealRun [] h).2) :=
  run_ok h none [] (.inl ⟨rfl, rfl⟩) (by simp) (by simp [Fits]) hc hs

/-- A case: two tags, one twice, one refused, one removed. -/
example : ∃ h : List (Call × Env), (∀ p ∈ h, CallTags p.1 ∧ p.2.reads = true) ∧ (∀ M ∈ (idealRun [] h).1, Fits M) ∧
    (idealRun [] h).2 = [.status .ok, .status .ok, .status .ok, .status .no, .tags [[97], [98, 8364]], .status .ok, .tags [[98, 8364]]] := by
  refine ⟨[(.add [97], ⟨true, true⟩), (.add [98, 8364], ⟨true, true⟩), (.add [97], ⟨true, false⟩), (.add [99], ⟨true, false⟩), (.get, ⟨true, true⟩),
    (.remove [97], ⟨true, true⟩), (.get, ⟨true, false⟩)], ?_, ?_, by decide⟩
  · have t1 : Tag [97] := ⟨by decide, by decide, by decide, by decide⟩
    have t2 : Tag [98, 8364] := ⟨by decide, by decide, by decide, by decide⟩
    have t3 : Tag [99] := ⟨by decide, by decide, by decide, by decide⟩
    intro p hp
    simp only [List.mem_cons, List.not_mem_nil, or_false] at hp
    rcases hp with rfl | rfl | rfl | rfl | rfl | rfl | rfl
    · exact ⟨t1, rfl⟩
    · exact ⟨t2, rfl⟩
    · exact ⟨t1, rfl⟩
    · exact ⟨t3, rfl⟩
    · exact ⟨trivial, rfl⟩
    · exact ⟨trivial, rfl⟩
    · exact ⟨trivial, rfl⟩
  · intro M hM
    have : ((idealRun [] [(.add [97], ⟨true, true⟩), (.add [98, 8364], ⟨true, true⟩), (.add [97], ⟨true, false⟩), (.add [99], ⟨true, false⟩),
      (.get, ⟨true, true⟩), (.remove [97], ⟨true, true⟩), (.get, ⟨true, false⟩)]).1.all
        (fun M => decide ((M.map bytes).sum + (M.length - 1) ≤ 4096))) = true := by decide
    have := List.all_eq_true.1 this M hM
    simpa [Fits] using this

/-- **C105** What `setTags` stores is read back by `getTags`. -/
theorem set_get_partial (a : Attr) (L : List Text) (ht : ∀ t ∈ L, Tag t) (hf : Fits L) (w : Bool) :
    ∃ a', setTags a ⟨true, true⟩ L = .ok (a', .ok) ∧ getTags a' ⟨true, w⟩ = .ok L :=
  ⟨_, set_eq _ _ _, get_ok _ L w (.inr rfl) ht hf⟩

/-- Violation: more than 4096 bytes of tags are stored, reported as stored and not read again, and the next `addTag` erases them. -/
theorem long_lists_lost (a : Attr) (L : List Text) (h : ¬ Fits L) (t : Text) (w : Bool) :
    ∃ a', setTags a ⟨true, true⟩ L = .ok (a', .ok) ∧ getTags a' ⟨true, w⟩ = .ok [] ∧
      addTag a' ⟨true, true⟩ t = .ok (some (t.flatMap enc1), .ok) := by
  have hg : ∀ w, getTags (some (([44].intercalate L).flatMap enc1)) ⟨true, w⟩ = .ok [] := by
    intro w
    have : ¬ (([44].intercalate L).flatMap enc1).length ≤ 4096 := by rw [bytes_flatMap, bytes_join]; exact h
    simp only [getTags, getxattr, this, if_false, if_true]
  refine ⟨_, set_eq _ _ _, hg w, ?_⟩
  simp only [addTag, if_true, hg, List.contains_nil, set_eq]
  simp

example : ¬ Fits (List.replicate 3000 [97]) ∧ ∀ t ∈ List.replicate 3000 [(97 : Ch)], Tag t := by
  refine ⟨?_, fun t h => ?_⟩
  · have h1 : ∀ n, ((List.replicate n [(97 : Ch)]).map bytes).sum = n := by
      intro n
      rw [List.map_replicate, show bytes [(97 : Ch)] = 1 by decide, List.sum_replicate_nat]; omega
    rw [Fits, h1, List.length_replicate]; decide
  · rw [List.eq_of_mem_replicate h]; exact ⟨by decide, by decide, by decide, by decide⟩

/-- Violation: when the attribute may be written but not read, `addTag` erases the other tags. -/
theorem unreadable_erased (a : Attr) (t : Text) : addTag a ⟨false, true⟩ t = .ok (some (t.flatMap enc1), .ok) := by
  simp only [addTag, getTags, getxattr, set_eq]
  simp

/-- What is read never contains a comma. -/
theorem get_no_comma (a : Attr) (env : Env) (L : List Text) (h : getTags a env = .ok L) : ∀ t ∈ L, t ≠ [] ∧ (44 : Ch) ∉ t := by
  unfold getTags at h
  split at h
  · cases h; simp
  · split at h
    · split at h
      · cases h
      · exact Lists.StringListProps.split_parts_free _ _ _ h
    · cases h; simp

/-- Violation: a tag with a comma (or an empty one) is never found again: `removeTag` does nothing and says eOK, … -/
theorem comma_never_removed (a : Attr) (env : Env) (t : Text) (ht : t = [] ∨ (44 : Ch) ∈ t) (L : List Text) (h : getTags a env = .ok L) :
    removeTag a env t = .ok (a, .ok) := by
  have : t ∉ L := by
    intro hm
    have := get_no_comma a env L h t hm
    rcases ht with h | h
    · exact this.1 h
    · exact this.2 h
  simp [removeTag, h, this]

/-- … and `addTag` stores it again at every call. -/
theorem comma_added_again (a : Attr) (env : Env) (t : Text) (ht : t = [] ∨ (44 : Ch) ∈ t) (L : List Text) (h : getTags a env = .ok L) :
    addTag a env t = setTags a env (L ++ [t]) := by
  have : t ∉ L := by
    intro hm
    have := get_no_comma a env L h t hm
    rcases ht with h | h
    · exact this.1 h
    · exact this.2 h
  simp [addTag, h, this]

/-- It comes back as several tags, doubled when it is added twice. -/
theorem comma_doubles (x y : Text) (hx : Tag x) (hy : Tag y) (hf : Fits [x, y, x, y]) :
    run none [(.add (x ++ 44 :: y), ⟨true, true⟩), (.get, ⟨true, true⟩), (.add (x ++ 44 :: y), ⟨true, true⟩), (.get, ⟨true, true⟩)] =
      .ok (some ((x ++ 44 :: y ++ 44 :: x ++ 44 :: y).flatMap enc1), [.status .ok, .tags [x, y], .status .ok, .tags [x, y, x, y]]) := by
  have e1 : [44].intercalate [x ++ 44 :: y] = [44].intercalate [x, y] := by simp [List.intercalate]
  have e2 : [44].intercalate ([x, y] ++ [x ++ 44 :: y]) = [44].intercalate [x, y, x, y] := by simp [List.intercalate]
  have e3 : x ++ 44 :: y ++ 44 :: x ++ 44 :: y = [44].intercalate [x, y, x, y] := by simp [List.intercalate]
  have hf2 : Fits [x, y] := by simp [Fits] at hf ⊢; omega
  have t2 : ∀ t ∈ [x, y], Tag t := by
    intro t h; simp only [List.mem_cons, List.not_mem_nil, or_false] at h; rcases h with rfl | rfl <;> assumption
  have t4 : ∀ t ∈ [x, y, x, y], Tag t := by
    intro t h; simp only [List.mem_cons, List.not_mem_nil, or_false] at h; rcases h with rfl | rfl | rfl | rfl <;> assumption
  have g1 := get_ok (some (([44].intercalate [x, y]).flatMap enc1)) [x, y] true (.inr rfl) t2 hf2
  have g2 := get_ok (some (([44].intercalate [x, y, x, y]).flatMap enc1)) [x, y, x, y] true (.inr rfl) t4 hf
  have a1 : addTag none ⟨true, true⟩ (x ++ 44 :: y) = .ok (some (([44].intercalate [x, y]).flatMap enc1), .ok) := by
    rw [comma_added_again none ⟨true, true⟩ _ (.inr (by simp)) [] rfl, List.nil_append, set_eq, e1]; rfl
  have a2 : addTag (some (([44].intercalate [x, y]).flatMap enc1)) ⟨true, true⟩ (x ++ 44 :: y) =
      .ok (some (([44].intercalate [x, y, x, y]).flatMap enc1), .ok) := by
    rw [comma_added_again _ ⟨true, true⟩ _ (.inr (by simp)) _ g1, set_eq, e2]; rfl
  rw [e3]
  simp only [run, step, a1, g1, a2, g2, Except.map]

example : Tag [97] ∧ Tag [98] ∧ Fits [[97], [98], [97], [98]] :=
  ⟨⟨by decide, by decide, by decide, by decide⟩, ⟨by decide, by decide, by decide, by decide⟩, by unfold Fits; decide⟩

/-- Violation: an attribute of another program that ends inside a character is read beyond the end of the buffer. -/
theorem truncated_attribute (l : Text) (h0 : (0 : Ch) ∉ l) (hb : l.head? ≠ some 0xFEFF) (hf : bytes l ≤ 4095) (w : Bool) :
    getTags (some (l.flatMap enc1 ++ [0xC3])) ⟨true, w⟩ = .error .ub := by
  have h1 : (l.flatMap enc1 ++ [0xC3]).length ≤ 4096 := by rw [List.length_append, bytes_flatMap]; simp; omega
  have h2 : utf8Decode (l.flatMap enc1 ++ [0xC3] ++ [0]) = .error .ub := by
    rw [List.append_assoc]; exact Utf8Props.truncated_reads_outside l h0 hb
  have h3 : (l.flatMap enc1 ++ [(0xC3 : Byte)]).length > 0 := by simp
  simp only [getTags, getxattr, if_true, h1, h3, h2]

end Verif.Tags.Props
