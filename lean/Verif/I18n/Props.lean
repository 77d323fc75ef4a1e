import Verif.I18n.Model
import Verif.I18n.Spec
import Verif.Prefs.Props
import Verif.Serializer.Props
/-
Property C86: translations.
-/
set_option linter.unusedSimpArgs false
set_option linter.unusedVariables false
namespace Verif.I18n
open Verif Verif.Str Verif.Prefs Verif.Prefs.Spec Verif.I18n.Spec
open Verif.Charset.Utf8Props (standardBytes)
open Verif.Serializer.Spec (leBytes)
open Verif.Prefs.Props (Reached reached_inv reached_step)
open Verif.Prefs.Lemmas (setValue_ok valueOr_ok oneLine_id)

/-- a text as the characters of a `String` -/
abbrev txt (l : List Char) : List Ch := Charset.Utf8Props.ofChars l

theorem u32_bound {b : List Byte} {o v : Nat} (h : U32At b o v) : o + 4 ≤ b.length := by
  have := congrArg List.length h.bytes
  simp [leBytes] at this
  omega

theorem u32_read {b : List Byte} {o v : Nat} (h : U32At b o v) (hb : b.length < 2 ^ 32) :
    Serializer.deserializeLE32 (b ++ [0]) o = .ok (BitVec.ofNat 32 v) := by
  have hl := u32_bound h
  have e : b ++ [0] = b.take o ++ leBytes 4 (BitVec.ofNat 32 v) ++ (b.drop (o + 4) ++ [0]) := by
    rw [← h.bytes, List.append_assoc, ← List.append_assoc (List.take 4 _), ← List.drop_drop, List.take_append_drop, ← List.append_assoc,
      List.take_append_drop]
  have := Serializer.deserializeLE32_spec (b.take o) (b.drop (o + 4) ++ [0]) (BitVec.ofNat 32 v)
    (by rw [← e, List.length_append, List.length_singleton]; omega)
  rw [← e, List.length_take, Nat.min_eq_left (by omega)] at this
  exact this

theorem u32_unique {b : List Byte} {o v w : Nat} (h : U32At b o v) (g : U32At b o w) (hb : b.length < 2 ^ 32) : v = w := by
  have := (u32_read h hb).symm.trans (u32_read g hb)
  injection this with this
  have := congrArg BitVec.toNat this
  rw [BitVec.toNat_ofNat, BitVec.toNat_ofNat, Nat.mod_eq_of_lt h.small, Nat.mod_eq_of_lt g.small] at this
  exact this

/-- decoding the text of an entry -/
theorem stringAt_ok {b : List Byte} {off : Nat} {l : List Char} (hp : Plain l) (hoff : off + (standardBytes l).length ≤ b.length)
    (h : (b.drop off).take (standardBytes l).length = standardBytes l) :
    ∃ s, stringAt (b ++ [0]) off (standardBytes l).length = .ok s ∧ WF s ∧ chars s = txt l := by
  have ht : ((b ++ [0]).drop off).take (standardBytes l).length = standardBytes l := by
    rw [List.drop_append_of_le_length (by omega), List.take_append_of_le_length (by rw [List.length_drop]; omega)]; exact h
  have hd := (Charset.Utf8Props.decode_standard l [] hp.1 hp.2.1 hp.2.2).1
  obtain ⟨s, e, w, c, _⟩ := ofChars_ok (txt l)
  refine ⟨s, ?_, w, c⟩
  simp only [stringAt, bytesAt]
  rw [if_pos (by rw [List.length_append, List.length_singleton]; omega), ht]
  simp only [bind, Except.bind, hd]
  exact e

/-- the record of one entry as it is read -/
structure RecOk (b : List Byte) (r : Record) (e : List Char × List Char) : Prop where
  ol : r.origLength.toNat = (standardBytes e.1).length
  tl : r.transLength.toNat = (standardBytes e.2).length
  ob : r.origOffset.toNat + (standardBytes e.1).length ≤ b.length
  tb : r.transOffset.toNat + (standardBytes e.2).length ≤ b.length
  ot : (b.drop r.origOffset.toNat).take (standardBytes e.1).length = standardBytes e.1
  tt : (b.drop r.transOffset.toNat).take (standardBytes e.2).length = standardBytes e.2

theorem ofNat_toNat {v : Nat} (h : v < 2 ^ 32) : (BitVec.ofNat 32 v).toNat = v := by
  rw [BitVec.toNat_ofNat, Nat.mod_eq_of_lt h]

theorem addr {T i k : Nat} (h : T + 8 * i + k < 2 ^ 32) :
    (BitVec.ofNat 32 T + BitVec.ofNat 32 (8 * i) + BitVec.ofNat 32 k).toNat = T + 8 * i + k := by
  simp only [BitVec.toNat_add, BitVec.toNat_ofNat]
  omega

theorem readRecord_ok {b : List Byte} {O T i : Nat} {e : List Char × List Char} (hb : b.length < 2 ^ 32) (h1 : TextEntry b O i e.1) (h2 : TextEntry b T i e.2) :
    ∃ r, readRecord (b ++ [0]) (BitVec.ofNat 32 O) (BitVec.ofNat 32 T) (BitVec.ofNat 32 (8 * i)) = .ok r ∧ RecOk b r e := by
  obtain ⟨o1, a1, a2, a4, a3⟩ := h1
  obtain ⟨o2, b1, b2, b4, b3⟩ := h2
  have q1 := u32_bound a2
  have q2 := u32_bound b2
  have e0 : ∀ X : BitVec 32, X + 0 = X := by intro X; simp
  have f1 := addr (T := O) (i := i) (k := 4) (by omega)
  have f2 := addr (T := T) (i := i) (k := 4) (by omega)
  have f3 : (BitVec.ofNat 32 O + BitVec.ofNat 32 (8 * i)).toNat = O + 8 * i := by
    simp only [BitVec.toNat_add, BitVec.toNat_ofNat]; omega
  have f4 : (BitVec.ofNat 32 T + BitVec.ofNat 32 (8 * i)).toNat = T + 8 * i := by
    simp only [BitVec.toNat_add, BitVec.toNat_ofNat]; omega
  refine ⟨⟨BitVec.ofNat 32 o1, BitVec.ofNat 32 (standardBytes e.1).length, BitVec.ofNat 32 o2, BitVec.ofNat 32 (standardBytes e.2).length⟩, ?_, ?_⟩
  · unfold readRecord
    rw [f3, f4, show ((4 : BitVec 32)) = BitVec.ofNat 32 4 from rfl, f1, f2, u32_read a1 hb, u32_read a2 hb, u32_read b1 hb, u32_read b2 hb]
    rfl
  · refine ⟨ofNat_toNat a1.small, ofNat_toNat b1.small, ?_, ?_, ?_, ?_⟩
    · rw [ofNat_toNat a2.small]; exact a4
    · rw [ofNat_toNat b2.small]; exact b4
    · rw [ofNat_toNat a2.small]; exact a3
    · rw [ofNat_toNat b2.small]; exact b3

theorem readRecords_ok {b : List Byte} {O T : Nat} {es : List (List Char × List Char)} (hb : b.length < 2 ^ 32)
    (h : ∀ i (h : i < es.length), TextEntry b O i es[i].1 ∧ TextEntry b T i es[i].2) :
    ∀ (n i : Nat) (rs : List Record), i + n = es.length → rs.length = i → (∀ j (h1 : j < rs.length) (h2 : j < es.length), RecOk b rs[j] es[j]) →
      ∃ rs', readRecords (b ++ [0]) (BitVec.ofNat 32 O) (BitVec.ofNat 32 T) n (BitVec.ofNat 32 (8 * i)) rs = .ok rs' ∧ rs'.length = es.length ∧
        ∀ j (h1 : j < rs'.length) (h2 : j < es.length), RecOk b rs'[j] es[j] := by
  intro n
  induction n with
  | zero => intro i rs hn hl hr; exact ⟨rs, rfl, by omega, hr⟩
  | succ n ih =>
    intro i rs hn hl hr
    obtain ⟨t1, t2⟩ := h i (by omega)
    obtain ⟨r, e, hrec⟩ := readRecord_ok hb t1 t2
    simp only [readRecords, e, bind, Except.bind]
    have e8 : (BitVec.ofNat 32 (8 * i) + 8 : BitVec 32) = BitVec.ofNat 32 (8 * (i + 1)) := by
      rw [show (8 : BitVec 32) = BitVec.ofNat 32 8 from rfl, ← BitVec.ofNat_add]; rfl
    rw [e8]
    apply ih (i + 1) (rs ++ [r]) (by omega) (by simp; omega)
    intro j h1 h2
    by_cases hj : j < rs.length
    · rw [List.getElem_append_left hj]; exact hr j hj h2
    · simp only [List.length_append, List.length_singleton] at h1
      have : j = rs.length := by omega
      subst this
      rw [List.getElem_append_right (by omega)]
      simp only [Nat.sub_self, List.getElem_cons_zero]
      have : es[rs.length] = es[i] := by congr 1
      rw [this]; exact hrec

/-- the map after the entries -/
def entered (m : Map) (es : List (List Char × List Char)) : Map :=
  es.foldl (fun m e => (step m (.setValue (txt e.1) (txt e.2))).1) m

theorem getLast_txt {l : List Char} (hp : Plain l) (h : l.getLast? ≠ some '\r') : (txt l).getLast? ≠ some 0x0D := by
  intro e
  simp only [txt, Charset.Utf8Props.ofChars, List.getLast?_map, Option.map_eq_some_iff] at e
  obtain ⟨c, hc, e⟩ := e
  have hm := hp.1 c (List.mem_of_getLast? hc)
  have e := congrArg BitVec.toNat e
  simp at e
  apply h
  rw [hc]
  congr 1
  apply Char.ext
  apply UInt32.toNat.inj
  show c.toNat = '\r'.toNat
  have : '\r'.toNat = 13 := rfl
  omega

theorem process_ok (h : List Ch → BitVec 64) {b : List Byte} (es : List (List Char × List Char)) :
    ∀ (rs : List Record) (p : Prefs) (m : Map), Reached h p m → rs.length = es.length →
      (∀ j (h1 : j < rs.length) (h2 : j < es.length), RecOk b rs[j] es[j]) → (∀ e ∈ es, Plain e.1 ∧ Plain e.2 ∧ e.2.getLast? ≠ some '\r') →
      ∃ q, process h (b ++ [0]) rs p = .ok q ∧ Reached h q (entered m es) := by
  induction es with
  | nil =>
    intro rs p m r hl _ _
    have : rs = [] := List.eq_nil_of_length_eq_zero hl
    subst this
    exact ⟨p, rfl, r⟩
  | cons e es ih =>
    intro rs p m r hl hr hp
    cases rs with
    | nil => simp at hl
    | cons x rs =>
      obtain ⟨p1, p2, p3⟩ := hp e (by simp)
      have hx := hr 0 (by simp) (by simp)
      simp only [List.getElem_cons_zero] at hx
      obtain ⟨s1, e1, w1, c1⟩ := stringAt_ok p1 hx.ob hx.ot
      obtain ⟨s2, e2, w2, c2⟩ := stringAt_ok p2 hx.tb hx.tt
      have hcr : (chars s2).getLast? ≠ some 0x0D := by rw [c2]; exact getLast_txt p2 p3
      obtain ⟨q, e3, J⟩ := setValue_ok (reached_inv r) (chars s1) w2 hcr
      have r' := reached_step r w2 hcr e3
      simp only [process, hx.ol, hx.tl, e1, e2, e3, bind, Except.bind]
      rw [c1, c2] at r'
      obtain ⟨q', e4, r4⟩ := ih rs q _ r' (by simpa using hl) (fun j h1 h2 => hr (j + 1) (by simpa using h1) (by simpa using h2))
        (fun y hy => hp y (by simp [hy]))
      exact ⟨q', e4, r4⟩

/-- Every catalogue is read completely and safely: each entry sets the translation of its text. -/
theorem appendMo_ok (h : List Ch → BitVec 64) (p : Prefs) (m : Map) (r : Reached h p m) (b : List Byte) (es : List (List Char × List Char))
    (hb : IsMo b es) (hp : ∀ e ∈ es, Plain e.1 ∧ Plain e.2 ∧ e.2.getLast? ≠ some '\r') :
    ∃ q, appendMo h p b = .ok q ∧ Reached h q (entered m es) := by
  obtain ⟨hs, hm, hv, hc, O, T, hO, hT, ht⟩ := hb
  have hl := u32_bound hT
  obtain ⟨rs, e, hlen, hrs⟩ := readRecords_ok hs ht es.length 0 [] (by omega) rfl (by intro j h1; simp at h1)
  obtain ⟨q, e2, r2⟩ := process_ok h es rs p m r hlen hrs hp
  refine ⟨q, ?_, r2⟩
  have key : body h p (b ++ [0]) (BitVec.ofNat 32 0x950412de) (BitVec.ofNat 32 0) (BitVec.ofNat 32 es.length) (BitVec.ofNat 32 O) (BitVec.ofNat 32 T) = .ok q := by
    unfold body
    rw [if_neg (by decide), if_neg (by decide), ofNat_toNat hc.small]
    have e' : readRecords (b ++ [0]) (BitVec.ofNat 32 O) (BitVec.ofNat 32 T) es.length 0 [] = .ok rs := e
    simp only [e', bind, Except.bind]
    exact e2
  unfold appendMo
  rw [if_neg (by omega)]
  simp only [u32_read hm hs, u32_read hv hs, u32_read hc hs, u32_read hO hs, u32_read hT hs, bind, Except.bind]
  exact key

theorem txt_inj {l k : List Char} (hl : ∀ c ∈ l, c.toNat < 0x10000) (hk : ∀ c ∈ k, c.toNat < 0x10000) (e : txt l = txt k) : l = k := by
  induction l generalizing k with
  | nil => cases k with
    | nil => rfl
    | cons d k => simp [txt, Charset.Utf8Props.ofChars] at e
  | cons c l ih => cases k with
    | nil => simp [txt, Charset.Utf8Props.ofChars] at e
    | cons d k =>
      simp only [txt, Charset.Utf8Props.ofChars, List.map_cons, List.cons.injEq] at e
      have e1 := congrArg BitVec.toNat e.1
      have h1 := hl c (by simp)
      have h2 := hk d (by simp)
      simp at e1
      have : c = d := by
        apply Char.ext
        apply UInt32.toNat.inj
        show c.toNat = d.toNat
        omega
      rw [this, ih (fun x hx => hl x (by simp [hx])) (fun x hx => hk x (by simp [hx])) e.2]

theorem entered_none (m : Map) (es : List (List Char × List Char)) (hp : ∀ e ∈ es, Plain e.1) (key : List Char) (hk : ∀ c ∈ key, c.toNat < 0x10000) :
    entered m es (txt key) = match es.reverse.find? (fun e => e.1 == key) with
      | some e => some (oneLine (txt e.2))
      | none => m (txt key) := by
  induction es generalizing m with
  | nil => rfl
  | cons e es ih =>
    have := ih (step m (.setValue (txt e.1) (txt e.2))).1 (fun x hx => hp x (by simp [hx]))
    rw [show entered m (e :: es) = entered (step m (.setValue (txt e.1) (txt e.2))).1 es from rfl, this, List.reverse_cons, List.find?_append]
    cases hf : es.reverse.find? (fun e => e.1 == key) with
    | some x => rfl
    | none =>
      simp only [Option.none_or, List.find?_cons, List.find?_nil]
      by_cases he : e.1 = key
      · simp [step, he]
      · have : txt key ≠ txt e.1 := fun x => he (txt_inj (hp e (by simp)).1 hk x.symm)
        have hb : (e.1 == key) = false := by simpa using he
        simp [step, hb, this]

/-- The translation in a bundle as it is: line breaks have become `\\n` (two characters). -/
theorem translate_exact (h : List Ch → BitVec 64) (b : List Byte) (es : List (List Char × List Char)) (hb : IsMo b es)
    (hp : ∀ e ∈ es, Plain e.1 ∧ Plain e.2 ∧ e.2.getLast? ≠ some '\r') :
    ∃ q, appendMo h Prefs.new b = .ok q ∧ ∀ (key : List Char) (k : Str), (∀ c ∈ key, c.toNat < 0x10000) → WF k → chars k = txt key →
      ∃ r, translate h q k = .ok r ∧ chars r = (match es.reverse.find? (fun e => e.1 == key) with
        | some e => if e.2 = [] then txt key else oneLine (txt e.2)
        | none => txt key) := by
  have r0 : Reached h Prefs.new (fun _ => none) := ⟨[], [], by simp, rfl, rfl⟩
  obtain ⟨q, e, r⟩ := appendMo_ok h Prefs.new _ r0 b es hb hp
  refine ⟨q, e, ?_⟩
  intro key k hk wk ck
  obtain ⟨s, e1, w1, c1⟩ := valueOr_ok (reached_inv r) (chars k) wk
  refine ⟨s, e1, ?_⟩
  simp only [step, Out.text.injEq] at c1
  rw [c1, ck, entered_none _ es (fun e he => (hp e he).1) key hk]
  cases hf : es.reverse.find? (fun e => e.1 == key) with
  | none => rfl
  | some x =>
    have hx : x ∈ es := by
      have := List.mem_of_find?_eq_some hf
      simpa using this
    by_cases h2 : x.2 = []
    · simp only [h2, if_true]; rfl
    · simp only [h2, if_false]
      have : oneLine (txt x.2) ≠ [] := by
        cases hx2 : x.2 with
        | nil => exact absurd hx2 h2
        | cons c l =>
          simp only [txt, Charset.Utf8Props.ofChars, List.map_cons]
          cases hl : List.map (fun c : Char => BitVec.ofNat 16 c.toNat) l with
          | nil => unfold oneLine; split <;> simp
          | cons d l' =>
            unfold oneLine
            split
            · simp
            · split <;> simp
      cases ho : oneLine (txt x.2) with
      | nil => exact absurd ho this
      | cons c l => rfl

theorem txt_mem {l : List Char} (hl : ∀ c ∈ l, c.toNat < 0x10000) {d : Char} (hd : d.toNat < 0x10000) (h : BitVec.ofNat 16 d.toNat ∈ txt l) : d ∈ l := by
  simp only [txt, Charset.Utf8Props.ofChars, List.mem_map] at h
  obtain ⟨c, hc, e⟩ := h
  have e := congrArg BitVec.toNat e
  have := hl c hc
  simp at e
  have : c = d := by
    apply Char.ext
    apply UInt32.toNat.inj
    show c.toNat = d.toNat
    omega
  rw [← this]; exact hc

/-- **C86 (partial).** After reading a catalogue, every text is translated as the catalogue says, and texts
without translation stay as they are.  Missing: translations with line breaks (`line_break`), texts with characters above
U+FFFF or NUL (plural forms). -/
theorem translate_partial (h : List Ch → BitVec 64) (b : List Byte) (es : List (List Char × List Char)) (hb : IsMo b es)
    (hp : ∀ e ∈ es, Plain e.1 ∧ Plain e.2 ∧ '\r' ∉ e.2 ∧ '\n' ∉ e.2) :
    ∃ q, appendMo h Prefs.new b = .ok q ∧ ∀ (key : List Char) (k : Str), (∀ c ∈ key, c.toNat < 0x10000) → WF k → chars k = txt key →
      ∃ r, translate h q k = .ok r ∧ chars r = txt (translation es key) := by
  obtain ⟨q, e, ht⟩ := translate_exact h b es hb (fun e he => ⟨(hp e he).1, (hp e he).2.1, fun hl => (hp e he).2.2.1 (List.mem_of_getLast? hl)⟩)
  refine ⟨q, e, ?_⟩
  intro key k hk wk ck
  obtain ⟨r, e1, c1⟩ := ht key k hk wk ck
  refine ⟨r, e1, ?_⟩
  rw [c1]
  unfold translation
  cases hf : es.reverse.find? (fun e => e.1 == key) with
  | none => rfl
  | some x =>
    have hx : x ∈ es := by
      have := List.mem_of_find?_eq_some hf
      simpa using this
    simp only
    by_cases h2 : x.2 = []
    · rw [if_pos h2, if_pos h2]
    · rw [if_neg h2, if_neg h2]
      obtain ⟨_, p2, p3, p4⟩ := hp x hx
      exact oneLine_id (fun hm => p3 (txt_mem p2.1 (by decide) hm)) (fun hm => p4 (txt_mem p2.1 (by decide) hm))

/-- **C86 fails** for a translation with a line break: the text has a backslash and an n in its place. -/
theorem line_break (h : List Ch → BitVec 64) (b : List Byte) (key a c : List Char) (hb : IsMo b [(key, a ++ '\n' :: c)])
    (hk : Plain key) (ha : Plain (a ++ '\n' :: c)) (h1 : '\r' ∉ a ++ '\n' :: c) (h2 : '\n' ∉ a ++ c) :
    ∃ q, appendMo h Prefs.new b = .ok q ∧ ∀ k : Str, WF k → chars k = txt key →
      ∃ r, translate h q k = .ok r ∧ chars r = txt (a ++ '\\' :: 'n' :: c) := by
  obtain ⟨q, e, ht⟩ := translate_exact h b _ hb (by
    intro e he
    rw [List.mem_singleton] at he
    subst he
    exact ⟨hk, ha, fun hl => h1 (List.mem_of_getLast? hl)⟩)
  refine ⟨q, e, ?_⟩
  intro k wk ck
  obtain ⟨r, e1, c1⟩ := ht key k hk.1 wk ck
  refine ⟨r, e1, ?_⟩
  rw [c1]
  simp only [List.reverse_singleton, List.find?_cons, beq_self_eq_true]
  rw [if_neg (by simp)]
  have hr : ∀ x ∈ a ++ '\n' :: c, x.toNat < 0x10000 := ha.1
  have hs : ∀ (a c : List Char), (∀ x ∈ a ++ '\n' :: c, x.toNat < 0x10000) → '\r' ∉ a ++ '\n' :: c → '\n' ∉ a ++ c →
      oneLine (txt (a ++ '\n' :: c)) = txt (a ++ '\\' :: 'n' :: c) := by
    intro a
    induction a with
    | nil =>
      intro c hb h1 h2
      have hc : oneLine (txt c) = txt c := oneLine_id
        (fun hm => h1 (by have := txt_mem (l := c) (fun x hx => hb x (by simp [hx])) (d := '\r') (by decide) hm; simp [this]))
        (fun hm => h2 (by have := txt_mem (l := c) (fun x hx => hb x (by simp [hx])) (d := '\n') (by decide) hm; simp [this]))
      show oneLine ((0x0A : Ch) :: txt c) = 0x5C :: 0x6E :: txt c
      cases hcc : txt c with
      | nil => rfl
      | cons d l =>
        rw [hcc] at hc
        rw [oneLine, if_neg (by intro x; exact absurd x.1 (by decide)), if_pos (Or.inr rfl), hc]
    | cons x a ih =>
      intro c hb h1 h2
      have hx : (BitVec.ofNat 16 x.toNat : Ch) ≠ 0x0D ∧ (BitVec.ofNat 16 x.toNat : Ch) ≠ 0x0A := by
        constructor
        · intro e
          have hm : (BitVec.ofNat 16 '\r'.toNat : Ch) ∈ txt [x] := by
            simp only [txt, Charset.Utf8Props.ofChars, List.map_cons, List.map_nil, List.mem_singleton]; rw [e]; rfl
          have := txt_mem (l := [x]) (by intro y hy; rw [List.mem_singleton] at hy; subst hy; exact hb y (by simp)) (by decide) hm
          rw [List.mem_singleton] at this; subst this; simp at h1
        · intro e
          have hm : (BitVec.ofNat 16 '\n'.toNat : Ch) ∈ txt [x] := by
            simp only [txt, Charset.Utf8Props.ofChars, List.map_cons, List.map_nil, List.mem_singleton]; rw [e]; rfl
          have := txt_mem (l := [x]) (by intro y hy; rw [List.mem_singleton] at hy; subst hy; exact hb y (by simp)) (by decide) hm
          rw [List.mem_singleton] at this; subst this; simp at h2
      have ih := ih c (fun y hy => hb y (by simp only [List.cons_append, List.mem_cons]; right; exact hy))
        (fun hm => h1 (by simp only [List.cons_append, List.mem_cons]; right; exact hm))
        (fun hm => h2 (by simp only [List.cons_append, List.mem_cons]; right; exact hm))
      have e1 : txt (x :: a ++ '\n' :: c) = BitVec.ofNat 16 x.toNat :: txt (a ++ '\n' :: c) := rfl
      have e2 : txt (x :: a ++ '\\' :: 'n' :: c) = BitVec.ofNat 16 x.toNat :: txt (a ++ '\\' :: 'n' :: c) := rfl
      rw [e1, e2, ← ih]
      generalize (BitVec.ofNat 16 x.toNat : Ch) = y at hx
      cases hcc : txt (a ++ '\n' :: c) with
      | nil =>
        simp only [oneLine]
        rw [if_neg (not_or.2 hx)]
      | cons d l => rw [oneLine, if_neg (fun hh => hx.1 hh.1), if_neg (not_or.2 hx)]
  exact hs a c hr h1 h2

/-- Another file is ignored. -/
theorem other_file (h : List Ch → BitVec 64) (p : Prefs) (b : List Byte) (v : Nat) (hl : 20 ≤ b.length) (hs : b.length < 2 ^ 32) (hv : U32At b 0 v)
    (hm : v ≠ 0x950412de) : appendMo h p b = .ok p := by
  have any : ∀ o, o + 4 ≤ b.length → ∃ x, Serializer.deserializeLE32 (b ++ [0]) o = .ok x := by
    intro o ho
    have g : ∀ i, i < b.length → ∃ x, (b ++ [0])[i]? = some x := fun i hi =>
      ⟨_, List.getElem?_eq_getElem (by rw [List.length_append]; omega)⟩
    obtain ⟨x0, e0⟩ := g o (by omega)
    obtain ⟨x1, e1⟩ := g (o + 1) (by omega)
    obtain ⟨x2, e2⟩ := g (o + 2) (by omega)
    obtain ⟨x3, e3⟩ := g (o + 3) (by omega)
    exact ⟨_, Serializer.deserializeLE32_get _ o x0 x1 x2 x3 (by omega) e0 e1 e2 e3⟩
  obtain ⟨x1, e1⟩ := any 4 (by omega)
  obtain ⟨x2, e2⟩ := any 8 (by omega)
  obtain ⟨x3, e3⟩ := any 12 (by omega)
  obtain ⟨x4, e4⟩ := any 16 (by omega)
  unfold appendMo
  rw [if_neg (by omega)]
  simp only [u32_read hv hs, e1, e2, e3, e4, bind, Except.bind]
  unfold body
  rw [if_pos]
  intro e
  have := congrArg BitVec.toNat e
  rw [ofNat_toNat hv.small] at this
  exact hm this

/-- A file of up to 18 bytes is read behind its end. -/
theorem short_file (h : List Ch → BitVec 64) (p : Prefs) (b : List Byte) (h0 : 0 < b.length) (hl : b.length < 19) : appendMo h p b = .error .ub := by
  have rd_cases : ∀ i, rd (b ++ [0]) i = .error .ub ∨ ∃ x, rd (b ++ [0]) i = .ok x := by
    intro i; unfold rd; cases (b ++ [0])[i]? with
    | none => left; rfl
    | some x => right; exact ⟨x, rfl⟩
  have any : ∀ o, Serializer.deserializeLE32 (b ++ [0]) o = .error .ub ∨ ∃ x, Serializer.deserializeLE32 (b ++ [0]) o = .ok x := by
    intro o
    unfold Serializer.deserializeLE32
    rcases rd_cases (Serializer.ix32 o 3) with e | ⟨x3, e3⟩
    · left; rw [e]; rfl
    rcases rd_cases (Serializer.ix32 o 2) with e | ⟨x2, e2⟩
    · left; rw [e3]; simp only [bind, Except.bind]; rw [e]
    rcases rd_cases (Serializer.ix32 o 1) with e | ⟨x1, e1⟩
    · left; rw [e3]; simp only [bind, Except.bind]; rw [e2]; simp only; rw [e]
    rcases rd_cases (Serializer.ix32 o 0) with e | ⟨x0, e0⟩
    · left; rw [e3]; simp only [bind, Except.bind]; rw [e2]; simp only; rw [e1]; simp only; rw [e]
    right; rw [e3, e2, e1, e0]; exact ⟨_, rfl⟩
  have last : Serializer.deserializeLE32 (b ++ [0]) 16 = .error .ub := by
    have : rd (b ++ [0]) (Serializer.ix32 16 3) = .error .ub := by
      unfold rd Serializer.ix32
      rw [List.getElem?_eq_none (by simp; omega)]
    unfold Serializer.deserializeLE32
    rw [this]; rfl
  unfold appendMo
  rw [if_neg (by omega)]
  simp only [bind, Except.bind]
  rcases any 0 with e | ⟨x, e⟩
  · rw [e]
  rw [e]; simp only
  rcases any 4 with e | ⟨x, e⟩
  · rw [e]
  rw [e]; simp only
  rcases any 8 with e | ⟨x, e⟩
  · rw [e]
  rw [e]; simp only
  rcases any 12 with e | ⟨x, e⟩
  · rw [e]
  rw [e]; simp only
  rw [last]

/-- A table that lies behind the end of the file is read nevertheless. -/
theorem table_outside (h : List Ch → BitVec 64) (p : Prefs) (b : List Byte) (n O T : Nat) (hs : b.length < 2 ^ 32) (hm : U32At b 0 0x950412de)
    (hv : U32At b 4 0) (hn : U32At b 8 n) (h0 : 0 < n) (hO : U32At b 12 O) (hT : U32At b 16 T) (ho : b.length < O + 3) (ho' : O + 4 ≤ 2 ^ 32) :
    appendMo h p b = .error .ub := by
  have hl := u32_bound hT
  obtain ⟨k, rfl⟩ : ∃ k, n = k + 1 := ⟨n - 1, by omega⟩
  have key : body h p (b ++ [0]) (BitVec.ofNat 32 0x950412de) (BitVec.ofNat 32 0) (BitVec.ofNat 32 (k + 1)) (BitVec.ofNat 32 O) (BitVec.ofNat 32 T) = .error .ub := by
    unfold body
    rw [if_neg (by decide), if_neg (by decide), ofNat_toNat hn.small]
    have : readRecord (b ++ [0]) (BitVec.ofNat 32 O) (BitVec.ofNat 32 T) 0 = .error .ub := by
      unfold readRecord
      have e0 : (BitVec.ofNat 32 O + 0).toNat = O := by
        rw [show (BitVec.ofNat 32 O + 0 : BitVec 32) = BitVec.ofNat 32 O from BitVec.add_zero _]; exact ofNat_toNat hO.small
      rw [e0]
      have : rd (b ++ [0]) (Serializer.ix32 O 3) = .error .ub := by
        unfold rd Serializer.ix32
        rw [Nat.mod_eq_of_lt (by omega), List.getElem?_eq_none (by simp; omega)]
      unfold Serializer.deserializeLE32
      rw [this]; rfl
    simp only [readRecords, this, bind, Except.bind]
  unfold appendMo
  rw [if_neg (by omega)]
  simp only [u32_read hm hs, u32_read hv hs, u32_read hn hs, u32_read hO hs, u32_read hT hs, bind, Except.bind]
  exact key

/-- a catalogue with one entry: "Yes" is "Ja" -/
def sample : List Byte :=
  [0xde, 0x12, 0x04, 0x95, 0, 0, 0, 0, 1, 0, 0, 0, 20, 0, 0, 0, 28, 0, 0, 0, 3, 0, 0, 0, 36, 0, 0, 0, 2, 0, 0, 0, 40, 0, 0, 0,
   0x59, 0x65, 0x73, 0, 0x4a, 0x61, 0]

theorem sample_ok : IsMo sample [(['Y', 'e', 's'], ['J', 'a'])] ∧ Plain ['Y', 'e', 's'] ∧ Plain ['J', 'a'] := by
  refine ⟨⟨by decide, ⟨by decide, by decide +kernel⟩, ⟨by decide, by decide +kernel⟩, ⟨by decide, by decide +kernel⟩, 20, 28,
    ⟨by decide, by decide +kernel⟩, ⟨by decide, by decide +kernel⟩, ?_⟩, by unfold Plain; decide, by unfold Plain; decide⟩
  intro i h
  have : i = 0 := by simpa using h
  subst this
  show TextEntry sample 20 0 ['Y', 'e', 's'] ∧ TextEntry sample 28 0 ['J', 'a']
  clear h
  exact ⟨⟨36, ⟨by decide, by decide +kernel⟩, ⟨by decide, by decide +kernel⟩, by decide +kernel, by decide +kernel⟩,
    ⟨40, ⟨by decide, by decide +kernel⟩, ⟨by decide, by decide +kernel⟩, by decide +kernel, by decide +kernel⟩⟩

end Verif.I18n
