import Verif.Url.Model
import Verif.Num.IntegerProps
import Verif.Charset.Utf8Props
/-
C41: URL encoding.
-/
namespace Verif.Url.Props
open Verif Verif.Str Verif.Num Verif.Url

/-- The parts of URL-encoded text and the byte each stands for (RFC 3986 / form encoding). -/
inductive Token where
  | lit (c : Ch)
  | plus
  | pct (h l : Ch)

/-- Hexadecimal digits, either case. -/
def IsHex (c : Ch) : Prop := (0x30 ≤ c.toNat ∧ c.toNat ≤ 0x39) ∨ (0x41 ≤ c.toNat ∧ c.toNat ≤ 0x46) ∨ (0x61 ≤ c.toNat ∧ c.toNat ≤ 0x66)

def hexVal (c : Ch) : Nat :=
  if c.toNat ≤ 0x39 then c.toNat - 0x30 else if c.toNat ≤ 0x46 then c.toNat - 0x41 + 10 else c.toNat - 0x61 + 10

def Token.ok : Token → Prop
  | .lit c => c.toNat < 0x80 ∧ c ≠ 0x25 ∧ c ≠ 0x2B
  | .plus => True
  | .pct h l => IsHex h ∧ IsHex l

def Token.text : Token → List Ch
  | .lit c => [c]
  | .plus => [0x2B]
  | .pct h l => [0x25, h, l]

def Token.byte : Token → Byte
  | .lit c => BitVec.ofNat 8 c.toNat
  | .plus => 0x20
  | .pct h l => BitVec.ofNat 8 (16 * hexVal h + hexVal l)

theorem hexDigit_eq {c : Ch} (h : IsHex c) : hexDigit c = hexVal c := by
  unfold hexDigit hexVal isDigit
  rcases h with h | h | h <;> simp <;> (repeat' split) <;> omega

theorem pct_byte {h l : Ch} (hh : IsHex h) (hl : IsHex l) : (BitVec.ofInt 8 (fromHex [h, l]) : Byte) = BitVec.ofNat 8 (16 * hexVal h + hexVal l) := by
  rw [IntegerProps.fromHex_spec]
  have e : IntegerProps.hexValue [h, l] = 16 * hexVal h + hexVal l := by
    simp only [IntegerProps.hexValue, List.foldl_cons, List.foldl_nil, hexDigit_eq hh, hexDigit_eq hl]; omega
  have hb1 := IntegerProps.hexDigit_lt h
  have hb2 := IntegerProps.hexDigit_lt l
  rw [hexDigit_eq hh] at hb1
  rw [hexDigit_eq hl] at hb2
  rw [e, BitVec.toInt_eq_toNat_of_lt (by rw [BitVec.toNat_ofNat]; omega)]
  apply BitVec.eq_of_toNat_eq
  rw [BitVec.toNat_ofInt, BitVec.toNat_ofNat, BitVec.toNat_ofNat]
  omega

theorem urlLoop_step (t : Token) (ht : t.ok) (pre post : List Ch) (out : List Byte) (hcap : out.length < (pre ++ (t.text ++ post)).length) :
    urlLoop (pre ++ (t.text ++ post)) pre.length out = urlLoop (pre ++ (t.text ++ post)) (pre.length + t.text.length) (out ++ [t.byte]) := by
  cases t with
  | lit c =>
    simp only [Token.text, Token.byte, List.cons_append, List.nil_append, List.length_cons, List.length_nil] at hcap ⊢
    have e : (pre ++ c :: post)[pre.length]'(by simp) = c := by simp
    rw [urlLoop, dif_pos (by simp)]
    simp only [e]
    rw [if_neg ht.2.1, if_neg ht.2.2, emit_ok hcap]
    simp only [bind, Except.bind]
    have : (c.setWidth 8 : Byte) = BitVec.ofNat 8 c.toNat := by
      apply BitVec.eq_of_toNat_eq; simp
    rw [this]
  | plus =>
    simp only [Token.text, Token.byte, List.cons_append, List.nil_append, List.length_cons, List.length_nil] at hcap ⊢
    have e : (pre ++ (0x2B : Ch) :: post)[pre.length]'(by simp) = 0x2B := by simp
    rw [urlLoop, dif_pos (by simp)]
    simp only [e]
    rw [if_neg (by decide), if_pos trivial, emit_ok hcap]
    rfl
  | pct h l =>
    simp only [Token.text, Token.byte, List.cons_append, List.nil_append, List.length_cons, List.length_nil] at hcap ⊢
    have e : (pre ++ (0x25 : Ch) :: h :: l :: post)[pre.length]'(by simp) = 0x25 := by simp
    rw [urlLoop, dif_pos (by simp)]
    simp only [e]
    rw [if_pos trivial, emit_ok hcap]
    simp only [bind, Except.bind]
    have : ((pre ++ (0x25 : Ch) :: h :: l :: post).take (pre.length + 3)).drop (pre.length + 1) = [h, l] := by
      simp [List.take_append, List.drop_append]
    rw [this, pct_byte ht.1 ht.2]

theorem urlLoop_tokens (ts : List Token) (hts : ∀ t ∈ ts, t.ok) : ∀ (pre : List Ch) (out : List Byte), out.length ≤ pre.length →
    urlLoop (pre ++ ts.flatMap Token.text) pre.length out = .ok (out ++ ts.map Token.byte) := by
  induction ts with
  | nil => intro pre out _; rw [urlLoop]; simp
  | cons t ts ih =>
    intro pre out hl
    have hpos : 0 < t.text.length := by cases t <;> simp [Token.text]
    rw [List.flatMap_cons, urlLoop_step t (hts t (by simp)) pre _ out (by simp; omega)]
    have := ih (fun t ht => hts t (by simp [ht])) (pre ++ t.text) (out ++ [t.byte]) (by simp; omega)
    rw [List.append_assoc, List.length_append] at this
    rw [this]; simp

/-- **C41** URL-encoded text, however each byte was written (literally, as `+`, as `%XX` in either case), is
decoded to the text whose UTF-8 bytes it spells. -/
theorem urlDecode_tokens (ts : List Token) (hts : ∀ t ∈ ts, t.ok) (l : List Ch) (h0 : (0 : Ch) ∉ l) (hb : l.head? ≠ some 0xFEFF)
    (hl : Charset.utf8Encode l = .ok (ts.map Token.byte)) :
    urlDecode (ts.flatMap Token.text) = .ok l := by
  have := urlLoop_tokens ts hts [] [] (by simp)
  simp only [List.nil_append, List.length_nil] at this
  simp only [urlDecode, this, bind, Except.bind]
  split
  · exact Charset.Utf8Props.roundtrip_partial l _ _ h0 hb hl
  · next h =>
    simp at h
    subst h
    cases l with
    | nil => rfl
    | cons c l =>
      rw [Charset.utf8Encode_eq] at hl
      injection hl with hl
      exfalso
      have := congrArg List.length hl
      simp [Charset.enc1_length] at this
      split at this
      · omega
      · split at this <;> omega

example : ∀ t ∈ [Token.lit 0x61, .plus, .pct 0x43 0x33, .pct 0x61 0x34], t.ok := by
  intro t ht
  simp at ht
  rcases ht with rfl | rfl | rfl | rfl <;> simp [Token.ok, IsHex]

example : Charset.utf8Encode [0x61, 0x20, 0xE4] = .ok ([Token.lit 0x61, .plus, .pct 0x43 0x33, .pct 0x61 0x34].map Token.byte) := by decide +kernel

/-- the token `URLEncode` writes for an ASCII character -/
def tok (c : Ch) : Token := if c = 0x20 then .plus else if c = 0x25 then .pct 0x32 0x35 else if c = 0x2B then .pct 0x32 0x42 else .lit c

/-- **C41** (partial: ASCII text without NUL.)  Decoding undoes encoding. -/
theorem url_roundtrip_partial (s : List Ch) (h : ∀ c ∈ s, 0 < c.toNat ∧ c.toNat < 0x80) : urlDecode (urlEncode s) = .ok s := by
  have e : urlEncode s = (s.map tok).flatMap Token.text := by
    rw [urlEncode, List.flatMap_map]
    congr 1
    funext c
    unfold encChar tok
    (repeat' split) <;> rfl
  rw [e]
  apply urlDecode_tokens
  · intro t ht
    simp only [List.mem_map] at ht
    obtain ⟨c, hc, rfl⟩ := ht
    unfold tok
    split
    · trivial
    · split
      · simp [Token.ok, IsHex]
      · split
        · simp [Token.ok, IsHex]
        · next h1 h2 => exact ⟨(h c hc).2, by assumption, by assumption⟩
  · intro hm; have := (h _ hm).1; revert this; decide
  · cases s with
    | nil => simp
    | cons c s =>
      intro e
      simp at e
      subst e
      have := (h 0xFEFF (by simp)).2
      revert this; decide
  · rw [Charset.utf8Encode_eq]
    congr 1
    induction s with
    | nil => rfl
    | cons c s ih =>
      have hc := h c (by simp)
      have h1 : Charset.enc1 c = [c.setWidth 8] := by rw [Charset.enc1, if_pos hc.2]
      have h2 : (tok c).byte = c.setWidth 8 := by
        unfold tok
        split
        · next e => subst e; decide
        · split
          · next e => subst e; decide
          · split
            · next e => subst e; decide
            · apply BitVec.eq_of_toNat_eq; simp [Token.byte]
      simp only [List.flatMap_cons, List.map_cons, h1, h2]
      rw [ih (fun d hd => h d (by simp [hd])) (by
        rw [urlEncode, List.flatMap_map]
        congr 1
        funext c
        unfold encChar tok
        (repeat' split) <;> rfl)]
      rfl

example : ∀ c ∈ ([0x61, 0x20, 0x2B, 0x25] : List Ch), 0 < c.toNat ∧ c.toNat < 0x80 := by
  intro c hc; simp at hc; rcases hc with rfl | rfl | rfl | rfl <;> decide

/-- Violation of C41 (and of memory safety): "ä" is not percent-encoded and decodes by reading outside
the buffer. -/
theorem url_umlaut : urlEncode [0xE4] = [0xE4] ∧ urlDecode (urlEncode [0xE4]) = .error .ub := by decide +kernel

/-- Violation of C41: other characters are silently replaced: U+0141 'Ł' becomes 'A'. -/
theorem url_replaced : urlDecode (urlEncode [0x0141]) = .ok [0x41] := by decide +kernel

/-- A `%` not followed by two hexadecimal digits is read as a NUL byte and cuts the text. -/
theorem url_bad_percent : urlDecode [0x61, 0x25, 0x7A, 0x7A, 0x62] = .ok [0x61] := by decide +kernel

theorem encChar_cases (c : Ch) : (c = 0x20 ∧ encChar c = [0x2B]) ∨ (c = 0x25 ∧ encChar c = [0x25, 0x32, 0x35]) ∨
    (c = 0x2B ∧ encChar c = [0x25, 0x32, 0x42]) ∨ (c ≠ 0x25 ∧ c ≠ 0x2B ∧ encChar c = [c]) := by
  by_cases h1 : c = 0x20
  · left; subst h1; decide
  · by_cases h2 : c = 0x25
    · right; left; subst h2; decide
    · by_cases h3 : c = 0x2B
      · right; right; left; subst h3; decide
      · right; right; right
        exact ⟨h2, h3, by rw [encChar, if_neg h1, if_neg h2, if_neg h3]⟩

/-- The encoder's output is injective on all strings, so no information is lost by it. -/
theorem urlEncode_injective (s t : List Ch) (h : urlEncode s = urlEncode t) : s = t := by
  induction s generalizing t with
  | nil =>
    cases t with
    | nil => rfl
    | cons d t =>
      simp only [urlEncode, List.flatMap_nil, List.flatMap_cons] at h
      rcases encChar_cases d with ⟨_, e⟩ | ⟨_, e⟩ | ⟨_, e⟩ | ⟨_, _, e⟩ <;> rw [e] at h <;> simp at h
  | cons c s ih =>
    cases t with
    | nil =>
      simp only [urlEncode, List.flatMap_nil, List.flatMap_cons] at h
      rcases encChar_cases c with ⟨_, e⟩ | ⟨_, e⟩ | ⟨_, e⟩ | ⟨_, _, e⟩ <;> rw [e] at h <;> simp at h
    | cons d t =>
      simp only [urlEncode, List.flatMap_cons] at h
      have hcd : c = d ∧ urlEncode s = urlEncode t := by
        unfold urlEncode
        rcases encChar_cases c with ⟨h1, e⟩ | ⟨h1, e⟩ | ⟨h1, e⟩ | ⟨h1, h2, e⟩ <;>
        rcases encChar_cases d with ⟨h1', e'⟩ | ⟨h1', e'⟩ | ⟨h1', e'⟩ | ⟨h1', h2', e'⟩ <;>
        rw [e, e'] at h <;>
        simp only [List.cons_append, List.nil_append, List.cons.injEq] at h <;>
        first
        | exact ⟨h1.trans h1'.symm, h.2⟩
        | exact ⟨h1.trans h1'.symm, h.2.2.2⟩
        | exact h
        | exact absurd h.1 (by decide)
        | exact absurd h.2.2.1 (by decide)
        | exact absurd h.1.symm (by assumption)
        | exact absurd h.1 (by assumption)
      rw [hcd.1, ih t hcd.2]

end Verif.Url.Props
