import Verif.Base64.Lemmas
/-
Property theorems for src/core/Base64.cpp (C02, C03).
-/
namespace Verif.Base64
open Verif

/-- C03: `Base64::encode` never faults and returns the RFC 4648 text. -/
theorem encode_rfc4648 (d : Buf) : encode d = .ok (Spec.encode d) := by
  have h := encodeLoop_eq d ((d.length / 3 + 1) * 4) 0 [] (by simp; omega)
  simp only [encode, h, bind, Except.bind, List.nil_append, List.drop_zero]
  rw [if_neg]
  · rfl
  · rw [specEncode_length]; omega

/-- C03: the length of the text is `4 * ceil(n / 3)`. -/
theorem encode_length (d out : Buf) (h : encode d = .ok out) : out.length = 4 * ((d.length + 2) / 3) := by
  rw [encode_rfc4648] at h
  cases h
  exact specEncode_length d

/-- The characters RFC 4648 allows. -/
def isAlphabet (c : Byte) : Prop := ∃ n, n < 64 ∧ c = Spec.letter n

/-- C03: letters of the alphabet, then exactly `(3 - n mod 3) mod 3` padding characters. -/
theorem encode_shape (d out : Buf) (h : encode d = .ok out) :
    ∃ body, out = body ++ List.replicate ((3 - d.length % 3) % 3) 61#8 ∧ ∀ c ∈ body, isAlphabet c := by
  rw [encode_rfc4648] at h
  cases h
  have L : ∀ n k, isAlphabet (Spec.letter (Spec.sextet n k)) := fun n k => ⟨_, sextet_lt n k, rfl⟩
  have key : ∀ d : List Byte, ∃ body, Spec.encode d = body ++ List.replicate ((3 - d.length % 3) % 3) 61#8 ∧
      ∀ c ∈ body, isAlphabet c := by
    intro d
    fun_induction Spec.encode d with
    | case1 => exact ⟨[], by simp, by simp⟩
    | case2 a n => exact ⟨[_, _], rfl, by simp [L]⟩
    | case3 a b n => exact ⟨[_, _, _], rfl, by simp [L]⟩
    | case4 a b c t n ih =>
      obtain ⟨body, hb, hA⟩ := ih
      refine ⟨Spec.letter (Spec.sextet n 0) :: Spec.letter (Spec.sextet n 1) ::
        Spec.letter (Spec.sextet n 2) :: Spec.letter (Spec.sextet n 3) :: body, ?_, ?_⟩
      · have : ((a :: b :: c :: t).length) % 3 = t.length % 3 := by
          show (t.length + 3) % 3 = _
          rw [Nat.add_mod_right]
        rw [hb, this]; rfl
      · simp [L]; exact hA
  exact key d

/-- C02, what the code does on every input: decoding the encoded text returns the data,
followed by one surplus zero byte whenever the text was padded (Base64.cpp:151-158 and
160-167 store the byte before leaving the loop). -/
theorem decode_encode_actual (d out : Buf) (he : encode d = .ok out) (hsz : out.length * 3 < 2 ^ 31) :
    decode out = .ok (d ++ (if d.length % 3 = 0 then [] else [0#8])) := by
  rw [encode_rfc4648] at he
  cases he
  rw [decode, if_pos hsz]
  have hl := specEncode_length d
  rw [decodeLoop_eq _ _ d 0 [] rfl (by rw [hl]; simp; omega)]
  simp [surplus]

/-- C02 for the inputs on which it holds: the number of bytes is a multiple of three.
(The full statement `decode (encode d) = d` for every `d` is refuted below.) -/
theorem decode_encode_partial (d out : Buf) (he : encode d = .ok out) (h3 : d.length % 3 = 0)
    (hsz : out.length * 3 < 2 ^ 31) : decode out = .ok d := by
  rw [decode_encode_actual d out he hsz]; simp [h3]

/-- C02 is violated by the code: *every* array whose length is not a multiple of three
comes back one byte longer. -/
theorem decode_encode_violated (d out : Buf) (he : encode d = .ok out) (h3 : d.length % 3 ≠ 0)
    (hsz : out.length * 3 < 2 ^ 31) : decode out ≠ .ok d := by
  rw [decode_encode_actual d out he hsz]
  simp [h3]

/-- Still, no information is lost: encoding is injective. -/
theorem encode_injective (d e : Buf) (h : encode d = encode e) (hd : d.length < 2 ^ 28)
    (he : e.length < 2 ^ 28) : d = e := by
  have hd' := encode_rfc4648 d
  have he' := encode_rfc4648 e
  have ld := specEncode_length d
  have le := specEncode_length e
  have a := decode_encode_actual d _ hd' (by omega)
  have b := decode_encode_actual e _ he' (by omega)
  have hS : Spec.encode d = Spec.encode e := by
    rw [hd', he'] at h; injection h
  rw [hS, b] at a
  injection a with a
  -- the padding count of the common text determines the length class
  obtain ⟨p1, s1, A1⟩ := encode_shape d _ hd'
  obtain ⟨p2, s2, A2⟩ := encode_shape e _ he'
  have hlen : d.length = e.length := by
    have hcount := congrArg List.length a
    simp only [List.length_append] at hcount
    have q : ∀ (p1 p2 : List Byte) (m n : Nat), p1 ++ List.replicate m 61#8 = p2 ++ List.replicate n 61#8 →
        (∀ c ∈ p1, isAlphabet c) → (∀ c ∈ p2, isAlphabet c) → m ≤ n := by
      intro p1 p2 m n h a1 a2
      apply Decidable.byContradiction
      intro hmn
      have hl := congrArg List.length h
      simp at hl
      have : (p2 ++ List.replicate n 61#8)[p1.length]? = some 61#8 := by
        rw [← h, List.getElem?_append_right (by omega)]
        rw [List.getElem?_replicate, if_pos (by omega)]
      rw [List.getElem?_append_left (by omega)] at this
      obtain ⟨k, hk, e⟩ := a2 _ (List.mem_of_getElem? this)
      have : ∀ k : Fin 64, (61#8 : Byte) ≠ Spec.letter k.val := by decide +kernel
      exact this ⟨k, hk⟩ e
    rw [hS] at s1
    have m1 := q _ _ _ _ (s1.symm.trans s2) A1 A2
    have m2 := q _ _ _ _ (s2.symm.trans s1) A2 A1
    have : d.length % 3 = e.length % 3 := by omega
    rw [this] at hcount
    omega
  have h3 := congrArg (List.take d.length) a
  rw [hlen] at h3
  simpa [← hlen] using h3.symm

/-- Decoding any text whose length is a multiple of four stays inside all buffers. -/
theorem decode_safe (t : Buf) (h4 : t.length % 4 = 0) (hsz : t.length * 3 < 2 ^ 31) :
    ∃ r, decode t = .ok r ∧ r.length ≤ t.length * 3 / 4 := by
  rw [decode, if_pos hsz]
  simpa using decodeLoop_total t (t.length * 3 / 4) h4 0 [] rfl (by omega) (by simp)

/-- …but a text whose length is not a multiple of four is read beyond its end (UB): the
smallest witness is a single letter. -/
theorem decode_reads_outside : decode [65#8] = .error .ub := by decide +kernel

/-! Non-vacuity: RFC 4648 test vectors, and a padded text with its surplus byte. -/
example : encode [0x66#8, 0x6f#8, 0x6f#8, 0x62#8] =
    .ok [0x5A#8, 0x6D#8, 0x39#8, 0x76#8, 0x59#8, 0x67#8, 0x3D#8, 0x3D#8] := by rw [encode_rfc4648]; decide
example : decode [0x5A#8, 0x6D#8, 0x39#8, 0x76#8, 0x59#8, 0x67#8, 0x3D#8, 0x3D#8] =
    .ok [0x66#8, 0x6f#8, 0x6f#8, 0x62#8, 0#8] := by decide +kernel
example : ∃ out, encode [1#8, 2#8, 3#8] = .ok out ∧ [1#8, 2#8, 3#8].length % 3 = 0 ∧ out.length * 3 < 2 ^ 31 :=
  ⟨_, encode_rfc4648 _, by decide, by decide⟩

end Verif.Base64
