import Verif.Str.Concat
import Verif.Str.EditProps
/-
Property C131: building text with `+`, `+=` and `<<`.
-/
namespace Verif.Str.ConcatProps
open Verif Verif.Str Verif.Str.Concat Verif.Str.HashProps Verif.Num.Props

/-! ### Specification -/

/-- `u` is the text item `i` stands for when the text on the left is `t`: a text stands for its characters, the text on the left for what
it contains at that moment, an integer for its decimal numeral, a double for its text (C95), a character for itself. -/
def Stands (t : List Ch) : Item → List Ch → Prop
  | .text x, u => u = chars x
  | .self, u => u = t
  | .int64 z, u => IsIntNumeral u z
  | .uint64 n, u => IsNumeral u n
  | .int32 z, u => IsIntNumeral u z
  | .uint32 n, u => IsNumeral u n
  | .double x, u => u = DoubleText.valueOf x
  | .char b, u => u = [BitVec.ofNat 16 b.toNat]
  | .ch c, u => u = [c]

/-- `r` is `t` followed by what the items stand for, in order. -/
inductive Joined : List Ch → List Item → List Ch → Prop where
  | nil {t} : Joined t [] t
  | cons {t i is u r} : Stands t i u → Joined (t ++ u) is r → Joined t (i :: is) r

/-- what can be passed: existing strings, numbers of the type; `char` must be ASCII, `int64` not the smallest -/
def Fits : Item → Prop
  | .text x => WF x
  | .self => True
  | .int64 z => Num.minInt64 < z ∧ z ≤ Num.maxInt64
  | .uint64 n => n < 2 ^ 64
  | .int32 z => -2 ^ 31 ≤ z ∧ z < 2 ^ 31
  | .uint32 n => n < 2 ^ 32
  | .double _ => True
  | .char b => b.toNat < 128
  | .ch _ => True

/-! ### Lemmas -/

theorem append_clean {s t r : Str} (hs : WF s) (ht : WF t) (cs : Clean s) (e : append s t = .ok r) :
    WF r ∧ chars r = chars s ++ chars t ∧ Clean r := by
  obtain ⟨r', e', w, c, h⟩ := append_ok hs ht
  rw [e'] at e; cases e
  refine ⟨w, c, ?_⟩
  rcases h with h | h
  · exact .inl h
  · rw [h]; exact cs

theorem temp_ok {v : Res (List Ch)} {l : List Ch} (h : v = .ok l) : ∃ t, temp v = .ok t ∧ WF t ∧ chars t = l ∧ t.hash = 0 := by
  obtain ⟨t, e, w, c, hh, _⟩ := ofChars_ok l
  exact ⟨t, by rw [h]; exact e, w, c, hh⟩

theorem charOf_ascii {b : Byte} (h : b.toNat < 128) : charOf b = BitVec.ofNat 16 b.toNat := by
  unfold charOf
  rw [BitVec.signExtend_eq_setWidth_of_msb_false]
  · apply BitVec.eq_of_toNat_eq; simp
  · rw [BitVec.msb_eq_decide]; simp; omega

theorem charOf_high {b : Byte} (h : 128 ≤ b.toNat) : (charOf b).toNat = 0xFF00 + b.toNat := by
  unfold charOf
  have := b.isLt
  rw [BitVec.toNat_signExtend, BitVec.msb_eq_decide]
  rw [if_pos (by simpa using h)]
  simp [BitVec.toNat_setWidth]
  omega

/-- one `<<` with text `l` from a temporary -/
theorem out_temp {s : Str} (hs : WF s) (cs : Clean s) {v : Res (List Ch)} {l : List Ch} (h : v = .ok l) :
    ∃ r, (do let t ← temp v; append s t) = .ok r ∧ WF r ∧ Clean r ∧ chars r = chars s ++ l := by
  obtain ⟨t, e, w, c, _⟩ := temp_ok h
  obtain ⟨r, e2, _⟩ := append_ok hs w
  obtain ⟨w', c', cl⟩ := append_clean hs w cs e2
  exact ⟨r, by simp only [e, bind, Except.bind, e2], w', cl, by rw [c', c]⟩

theorem out_ok {s : Str} (hs : WF s) (cs : Clean s) (i : Item) (hi : Fits i) :
    ∃ r u, out s i = .ok r ∧ Stands (chars s) i u ∧ WF r ∧ Clean r ∧ chars r = chars s ++ u := by
  cases i with
  | text t =>
    obtain ⟨r, e, _⟩ := append_ok hs (show WF t from hi)
    obtain ⟨w, c, cl⟩ := append_clean hs hi cs e
    exact ⟨r, chars t, e, rfl, w, cl, c⟩
  | self =>
    obtain ⟨r, e, w, c, h⟩ := appendSelf_ok hs
    exact ⟨r, chars s, e, rfl, w, by rcases h with h | h; exacts [.inl h, h ▸ cs], c⟩
  | int64 z =>
    obtain ⟨l, e, hl⟩ := valueOf_partial z hi.1 hi.2
    obtain ⟨r, e2, w, cl, c⟩ := out_temp hs cs e
    exact ⟨r, l, e2, hl, w, cl, c⟩
  | uint64 n =>
    obtain ⟨l, e, hl⟩ := valueOfU_spec n
    obtain ⟨r, e2, w, cl, c⟩ := out_temp hs cs e
    exact ⟨r, l, e2, hl, w, cl, c⟩
  | int32 z =>
    have h1 : -2 ^ 31 ≤ z := hi.1
    have h2 : z < 2 ^ 31 := hi.2
    obtain ⟨l, e, hl⟩ := valueOf_partial z (by simp only [Num.minInt64]; omega) (by simp only [Num.maxInt64]; omega)
    obtain ⟨r, e2, w, cl, c⟩ := out_temp hs cs e
    exact ⟨r, l, e2, hl, w, cl, c⟩
  | uint32 n =>
    have h2 : n < 2 ^ 32 := hi
    obtain ⟨l, e, hl⟩ := valueOf_partial (n : Int) (by simp only [Num.minInt64]; omega) (by simp only [Num.maxInt64]; omega)
    obtain ⟨r, e2, w, cl, c⟩ := out_temp hs cs e
    refine ⟨r, l, e2, ?_, w, cl, c⟩
    unfold IsIntNumeral at hl
    rw [if_neg (by omega)] at hl
    exact hl
  | double x =>
    obtain ⟨r, e2, w, cl, c⟩ := out_temp hs cs (v := .ok (DoubleText.valueOf x)) rfl
    exact ⟨r, _, e2, rfl, w, cl, c⟩
  | char b =>
    obtain ⟨r, e, w, c, h, _⟩ := appendChar_ok hs (charOf b)
    exact ⟨r, [charOf b], e, by rw [charOf_ascii hi]; rfl, w, .inl h, c⟩
  | ch c =>
    obtain ⟨r, e, w, c', h, _⟩ := appendChar_ok hs c
    exact ⟨r, [c], e, rfl, w, .inl h, c'⟩

/-! ### Theorems -/

/-- **C131** (partial) A chain `s << a << b << …` (and `s += a`) leaves in `s` its old text followed by what the operands stand for, in
order, whatever their number, and a string that is hashed correctly (C07).  Missing: `char`s that are not ASCII (`char_high`) and the
smallest int64 (`int64_min`). -/
theorem outs_partial (is : List Item) : ∀ {s : Str}, WF s → Clean s → (∀ i ∈ is, Fits i) →
    ∃ r, outs s is = .ok r ∧ Joined (chars s) is (chars r) ∧ WF r ∧ Clean r := by
  induction is with
  | nil => intro s hs cs _; exact ⟨s, rfl, .nil, hs, cs⟩
  | cons i is ih =>
    intro s hs cs h
    obtain ⟨r, u, e, st, w, cl, c⟩ := out_ok hs cs i (h i (by simp))
    obtain ⟨q, e2, j, w2, c2⟩ := ih w cl (fun k hk => h k (by simp [hk]))
    exact ⟨q, by simp only [outs, e, bind, Except.bind, e2], .cons st (c ▸ j), w2, c2⟩

/-- non-vacuity: the text `x=` followed by a number, itself, a character and a double -/
example : WF empty ∧ Clean empty ∧
    ∀ i ∈ [Item.ch 0x78, .char 0x3D, .int64 (-12), .self, .uint64 7, .double Fp.zero], Fits i := by
  refine ⟨empty_wf, .inl rfl, ?_⟩
  intro i hi
  simp only [List.mem_cons, List.not_mem_nil, or_false] at hi
  rcases hi with rfl | rfl | rfl | rfl | rfl | rfl <;> simp [Fits, Num.minInt64, Num.maxInt64]

/-- the result of the chain, for this beginning: `x=-12x=-12` -/
theorem outs_example : (outs empty [.ch 0x78, .char 0x3D, .int64 (-12), .self]).toOption.map chars =
    some [0x78, 0x3D, 0x2D, 0x31, 0x32, 0x78, 0x3D, 0x2D, 0x31, 0x32] := by decide +kernel

/-- **C131** `left + right` is a new string with the text of `left` followed by the text of `right`. -/
theorem plus_spec {l r : Str} (hl : WF l) (hr : WF r) (cl : Clean l) :
    ∃ s, plus l r = .ok s ∧ chars s = chars l ++ chars r ∧ WF s ∧ Clean s := by
  obtain ⟨c, e, w, hc, hh, _⟩ := copyCtor_ok hl
  have cc : Clean c := by unfold Clean at *; rw [hh, hc]; exact cl
  obtain ⟨s, e2, _⟩ := append_ok w hr
  obtain ⟨w2, c2, cl2⟩ := append_clean w hr cc e2
  exact ⟨s, by simp only [plus, e, bind, Except.bind, e2], by rw [c2, hc], w2, cl2⟩

/-- **C131** `+` is associative, and the empty text is neutral. -/
theorem plus_assoc {a b c : Str} (ha : WF a) (hb : WF b) (hc : WF c) (ca : Clean a) (cb : Clean b) :
    ∃ ab bc s t, plus a b = .ok ab ∧ plus ab c = .ok s ∧ plus b c = .ok bc ∧ plus a bc = .ok t ∧ chars s = chars t := by
  obtain ⟨ab, e1, h1, w1, c1⟩ := plus_spec ha hb ca
  obtain ⟨bc, e2, h2, w2, c2⟩ := plus_spec hb hc cb
  obtain ⟨s, e3, h3, _⟩ := plus_spec w1 hc c1
  obtain ⟨t, e4, h4, _⟩ := plus_spec ha w2 ca
  exact ⟨ab, bc, s, t, e1, e3, e2, e4, by rw [h3, h1, h4, h2, List.append_assoc]⟩

theorem plus_empty {a : Str} (ha : WF a) (ca : Clean a) :
    ∃ s t, plus a empty = .ok s ∧ plus empty a = .ok t ∧ chars s = chars a ∧ chars t = chars a := by
  obtain ⟨s, e1, h1, _⟩ := plus_spec ha empty_wf ca
  obtain ⟨t, e2, h2, _⟩ := plus_spec empty_wf ha (.inl rfl)
  exact ⟨s, t, e1, e2, by rw [h1, empty_chars, List.append_nil], by rw [h2, empty_chars, List.nil_append]⟩

/-- **C131** (partial) `int64 + text` and `text + int64`: the number appears as its decimal numeral. -/
theorem plus_int_partial (z : Int) {s : Str} (hs : WF s) (h1 : Num.minInt64 < z) (h2 : z ≤ Num.maxInt64) :
    ∃ n a b, IsIntNumeral n z ∧ plusLeft (Num.valueOf z) s = .ok a ∧ chars a = n ++ chars s ∧
      plusRight s (Num.valueOf z) = .ok b ∧ chars b = chars s ++ n := by
  obtain ⟨n, e, hn⟩ := valueOf_partial z h1 h2
  obtain ⟨t, et, wt, ct, _⟩ := temp_ok e
  obtain ⟨a, ea, _, ca, _⟩ := append_ok wt hs
  obtain ⟨c, ec, wc, hc, hh, _⟩ := copyCtor_ok hs
  obtain ⟨b, eb, _, cb, _⟩ := append_ok wc wt
  exact ⟨n, a, b, hn, by simp only [plusLeft, et, bind, Except.bind, ea], by rw [ca, ct],
    by simp only [plusRight, ec, et, bind, Except.bind, eb], by rw [cb, hc, ct]⟩

example : ∃ (z : Int) (s : Str), WF s ∧ Num.minInt64 < z ∧ z ≤ Num.maxInt64 :=
  ⟨-500, empty, empty_wf, by decide, by decide⟩

/-- **C131** `double + text` and `text + double` -/
theorem plus_double (x : Fp.F64) {s : Str} (hs : WF s) :
    ∃ a b, plusLeft (.ok (DoubleText.valueOf x)) s = .ok a ∧ chars a = DoubleText.valueOf x ++ chars s ∧
      plusRight s (.ok (DoubleText.valueOf x)) = .ok b ∧ chars b = chars s ++ DoubleText.valueOf x := by
  obtain ⟨t, et, wt, ct, _⟩ := temp_ok (v := .ok (DoubleText.valueOf x)) rfl
  obtain ⟨a, ea, _, ca, _⟩ := append_ok wt hs
  obtain ⟨c, ec, wc, hc, hh, _⟩ := copyCtor_ok hs
  obtain ⟨b, eb, _, cb, _⟩ := append_ok wc wt
  exact ⟨a, b, by simp only [plusLeft, et, bind, Except.bind, ea], by rw [ca, ct],
    by simp only [plusRight, ec, et, bind, Except.bind, eb], by rw [cb, hc, ct]⟩

/-- Violation of C131: an `int8` on either side of `+` is not written as a number; the character with that code is put there instead. -/
theorem int8_is_a_character (b : Byte) {s : Str} (hs : WF s) :
    ∃ l r, plusLeft8 b s = .ok l ∧ chars l = charOf b :: chars s ∧ plusRight8 s b = .ok r ∧ chars r = chars s ++ [charOf b] := by
  obtain ⟨x, ex, wx, cx, _⟩ := appendChar_ok empty_wf (charOf b)
  obtain ⟨l, el, _, cl, _⟩ := append_ok wx hs
  obtain ⟨c, ec, wc, hc, _⟩ := copyCtor_ok hs
  obtain ⟨r, er, _, cr, _⟩ := appendChar_ok wc (charOf b)
  exact ⟨l, r, by simp only [plusLeft8, ex, bind, Except.bind, el], by rw [cl, cx, empty_chars]; rfl,
    by simp only [plusRight8, ec, bind, Except.bind, er], by rw [cr, hc]⟩

/-- … and this character is never the numeral of the number, for no value of the type. -/
theorem int8_never_numeral (b : Byte) : ¬ IsIntNumeral [charOf b] b.toInt := by
  revert b
  intro b h
  unfold IsIntNumeral at h
  split at h
  · obtain ⟨m, e, hn⟩ := h
    have hm : m = [] := (List.cons.inj e).2.symm
    exact hn.1 hm
  · rename_i hz
    obtain ⟨_, hd, _, hv⟩ := h
    have hb : b.toNat < 128 := by
      rw [BitVec.toInt_eq_toNat_cond] at hz
      split at hz <;> omega
    have hi : b.toInt.natAbs = b.toNat := by
      rw [BitVec.toInt_eq_toNat_of_lt (by omega)]; rfl
    rw [charOf_ascii hb] at hd hv
    rw [hi] at hv
    have := hd _ (List.mem_singleton.2 rfl)
    revert hv this
    have key : ∀ n < 128, natVal [BitVec.ofNat 16 n] = n → isDigit (BitVec.ofNat 16 n) = true → False := by decide +kernel
    exact key _ hb

/-- Violation of C131: a `char` that is not ASCII becomes a character of the range U+FF80 to U+FFFF, in no character set the one that was
meant: `text << c` with the byte of `ä` in Windows-1252 (0xE4) appends U+FFE4. -/
theorem char_high (b : Byte) (h : 128 ≤ b.toNat) {s : Str} (hs : WF s) :
    ∃ r c, out s (.char b) = .ok r ∧ chars r = chars s ++ [c] ∧ c.toNat = 0xFF00 + b.toNat := by
  obtain ⟨r, e, _, c, _⟩ := appendChar_ok hs (charOf b)
  exact ⟨r, charOf b, e, c, charOf_high h⟩

/-- Violation of C131: `<<` and `+` with the smallest int64 overflow. -/
theorem int64_min (s : Str) : out s (.int64 Num.minInt64) = .error .ub ∧ plusLeft (Num.valueOf Num.minInt64) s = .error .ub := by
  have h : Num.valueOf Num.minInt64 = .error .ub := valueOf_min_overflows
  simp only [out, plusLeft, temp, h, bind, Except.bind, and_self]

end Verif.Str.ConcatProps
