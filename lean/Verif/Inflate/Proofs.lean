import Verif.Inflate.Stream
/-
The whole stream.
-/
namespace Verif.Inflate
open Verif

/-- no block with fixed codes copies from 32 KiB or more after the beginning of the output -/
def Block.Near (out : List Byte) : Block → Prop
  | .fixed toks => toksNear out toks
  | _ => True

def StreamNear (out : List Byte) : List Block → Prop
  | [] => True
  | b :: bs => b.Near out ∧ StreamNear (b.expand out) bs

/-- what a block adds to the output in this implementation -/
def Block.wrapExpand (out : List Byte) : Block → List Byte
  | .fixed toks => Inflate.wrapExpand out toks
  | b => b.expand out

def wrapDecoded (out : List Byte) (bs : List Block) : List Byte := bs.foldl Block.wrapExpand out

/-- the header of RFC 1950: deflate, window of at most 32 KiB, no dictionary, check bits -/
def HeaderOk (cmf flg : Byte) : Prop :=
  cmf.toNat % 16 = 8 ∧ cmf.toNat / 16 ≤ 7 ∧ flg.toNat / 32 % 2 = 0 ∧ (cmf.toNat * 256 + flg.toNat) % 31 = 0

instance (cmf flg : Byte) : Decidable (HeaderOk cmf flg) := by unfold HeaderOk; infer_instance

/-- the state after a block: `n` bits consumed, the output is `o` -/
def Done (s : St) (n : Nat) (o : List Byte) (s' : St) : Prop := ∃ mb, Step { s with maxBits := mb } n o s'

theorem Step.done {s s' : St} {n : Nat} {o : List Byte} (h : Step s n o s') : Done s n o s' := ⟨s.maxBits, h⟩

theorem toks_le (toks : List Tok) (lit dist : Nat → List Bool) (h : ∀ t ∈ toks, 1 ≤ (tokBits lit dist t).length) :
    toks.length ≤ (toks.flatMap (tokBits lit dist)).length := by
  induction toks with
  | nil => simp
  | cons t ts ih =>
    have h1 := h t (by simp)
    have h2 := ih (fun t ht => h t (List.mem_cons_of_mem _ ht))
    rw [List.flatMap_cons, List.length_append, List.length_cons]; omega

theorem bits_le (s : St) : s.bits.length ≤ 8 * s.comp.length := by
  unfold St.bits; rw [List.length_drop, bitsOf_length]; omega

theorem tokBits_pos (lit dist : Nat → List Bool) (t : Tok) (h : match t with | .lit b => 1 ≤ (lit b.toNat).length | .copy n _ => 1 ≤ (lit (row lengthTable n).1).length) :
    1 ≤ (tokBits lit dist t).length := by
  cases t with
  | lit b => exact h
  | copy n d => simp only [tokBits, List.length_append] at h ⊢; omega

theorem toksOk_len (out : List Byte) (toks : List Tok) (h : toksOk out toks) : ∀ t ∈ toks, ∃ o, tokOk o t := by
  induction toks generalizing out with
  | nil => intro t ht; simp at ht
  | cons t ts ih =>
    intro t' ht
    rcases List.mem_cons.1 ht with h1 | h1
    · exact ⟨out, h1 ▸ h.1⟩
    · exact ih _ h.2 t' h1

theorem block_ok (b : Block) (s : St) (hf : Fit s) (hp : 3 ≤ s.pos) (hok : b.Ok (s.pos - 3) s.out) (r : List Bool) (h : s.bits = b.bits ++ r) :
    ∃ s', block b.type s = .ok s' ∧ Done s b.bits.length (b.wrapExpand s.out) s' := by
  have hle : b.bits.length ≤ 8 * s.comp.length := by
    have := bits_le s
    rw [h, List.length_append] at this; omega
  cases b with
  | stored pad bytes =>
    obtain ⟨h1, h2, h3⟩ := hok
    obtain ⟨s', e1, e2⟩ := stored_ok pad bytes s hf h1 (by omega) h3 r _ rfl h
    exact ⟨s', e1, e2.done⟩
  | fixed toks =>
    have hok' : toksOk s.out toks := hok
    have hcount : toks.length ≤ (toks.flatMap (tokBits (codeWord fixedLit) (codeWord fixedDist))).length := by
      apply toks_le
      intro t ht
      apply tokBits_pos
      cases t with
      | lit b => have := fixedWord_pos b.toNat (by have := b.isLt; omega); simp only; omega
      | copy n d =>
        obtain ⟨o, h3, h258, _⟩ := toksOk_len _ _ hok' _ ht
        have := fixedWord_pos (row lengthTable n).1 (by have := row_len_sym n h3 h258; omega)
        simp only; omega
    have hl : toks.length < limit s := by
      unfold limit
      have : (Block.fixed toks).bits.length = (toks.flatMap (tokBits (codeWord fixedLit) (codeWord fixedDist))).length + (codeWord fixedLit 256).length := by
        exact List.length_append
      omega
    obtain ⟨s', e1, e2⟩ := fixedBlock_ok toks (limit s) s hf (by omega) hok' hl r _ rfl h
    exact ⟨s', e1, e2.done⟩
  | dyn hd toks =>
    obtain ⟨hd_ok, htoks, hcoded⟩ := hok
    have h' : s.bits = hd.bits ++ ((toks.flatMap (tokBits (codeWord hd.litLens) (codeWord hd.distLens)) ++ codeWord hd.litLens 256) ++ r) := by
      rw [h]; show (_ ++ _) ++ r = _; rw [List.append_assoc]
    obtain ⟨tl, td, e1, e2, e3⟩ := dynTrees_ok hd hd_ok s hf.bit _ h'
    have hcount : toks.length ≤ (toks.flatMap (tokBits (codeWord hd.litLens) (codeWord hd.distLens))).length := by
      apply toks_le
      intro t ht
      apply tokBits_pos
      have := hcoded t ht
      cases t with
      | lit b => simp only; rw [codeWord_length]; have : hd.litLens.getD b.toNat 0 ≠ 0 := this; omega
      | copy n d => simp only; rw [codeWord_length]; have := this.1; omega
    have hbl : (Block.dyn hd toks).bits.length = hd.bits.length + (toks.flatMap (tokBits (codeWord hd.litLens) (codeWord hd.distLens)) ++ codeWord hd.litLens 256).length := by
      exact List.length_append
    have hl : toks.length < limit s := by
      unfold limit
      rw [hbl, List.length_append] at hle
      omega
    have hhead : 14 ≤ hd.bits.length := by unfold Dyn.bits; simp only [List.length_append, numBits_length]; omega
    obtain ⟨s1, hs1⟩ : ∃ s1, s1 = { s.adv hd.bits.length with maxBits := 15 } := ⟨_, rfl⟩
    have st1 : Step { s with maxBits := 15 } hd.bits.length s.out s1 := by
      rw [hs1]
      exact Step.adv { s with maxBits := 15 } ⟨hf.bit, hf.null, hf.cap⟩ hd.bits.length
    have ho := st1.out
    have hf1 := st1.fit ⟨hf.bit, hf.null, hf.cap⟩
    have hpos : s1.pos = s.pos + hd.bits.length := st1.pos
    have hb1 : s1.bits = s.bits.drop hd.bits.length := st1.bits
    obtain ⟨s2, f1, f2⟩ := dynLoop_ok e2 e3 hd_ok.endCoded toks (limit s) s1 hf1 (by omega) (by rw [hs1]; exact Nat.le_refl _) (by rw [ho]; exact htoks) hcoded hl r _ rfl
      (by rw [hb1, h', drop_left _ _ _ rfl])
    refine ⟨s2, ?_, 15, ?_⟩
    · show dynBlock s = _
      unfold dynBlock
      rw [e1]
      simp only [bind, Except.bind]
      rw [← hs1]; exact f1
    · have := st1.trans f2
      rw [ho] at this
      rw [hbl]
      exact this

/-- three bits in front of every block -/
theorem oneBlock_ok (b : Block) (final : Bool) (s : St) (hf : Fit s) (hl : s.last = false) (hok : b.Ok s.pos s.out) (r : List Bool)
    (h : s.bits = b.encode final ++ r) :
    ∃ s', oneBlock s = .ok s' ∧ Done { s with last := final } (b.encode final).length (b.wrapExpand s.out) s' := by
  have ht : b.type < 3 := by cases b <;> simp [Block.type]
  have henc : b.encode final = final :: b.type.testBit 0 :: (b.type / 2).testBit 0 :: b.bits := rfl
  rw [henc] at h
  simp only [List.cons_append] at h
  unfold oneBlock
  rw [nextBit_ok s hf.bit h]
  simp only [bind, Except.bind]
  have b1 : (s.adv 1).bits = b.type.testBit 0 :: (b.type / 2).testBit 0 :: (b.bits ++ r) := by rw [bits_adv, h]; rfl
  rw [nextBit_ok _ (adv_bit _ _) b1]
  simp only
  have b2 : ((s.adv 1).adv 1).bits = (b.type / 2).testBit 0 :: (b.bits ++ r) := by rw [bits_adv, b1]; rfl
  rw [nextBit_ok _ (adv_bit _ _) b2]
  simp only [adv_adv, testBit0]
  have b3 : (s.adv 3).bits = b.bits ++ r := by
    have := b2
    rw [adv_adv] at this
    rw [show (3 : Nat) = 1 + 1 + 1 from rfl, ← adv_adv, bits_adv, this]; rfl
  rw [show b.type % 2 + b.type / 2 % 2 * 2 = b.type by omega]
  have hlast : (if final.toNat = 1 then true else (s.adv (1 + 1 + 1)).last) = final := by
    cases final with
    | true => rfl
    | false => exact hl
  rw [hlast]
  obtain ⟨s1, hs1⟩ : ∃ s1, s1 = { s.adv 3 with last := final } := ⟨_, rfl⟩
  have st : Step { s with last := final } 3 s.out s1 := by
    rw [hs1]
    exact Step.adv { s with last := final } ⟨hf.bit, hf.null, hf.cap⟩ 3
  have ho := st.out
  have hpos : s1.pos = s.pos + 3 := st.pos
  obtain ⟨s2, e1, mb, e2⟩ := block_ok b s1 (st.fit ⟨hf.bit, hf.null, hf.cap⟩) (by omega) (by rw [ho, hpos]; exact hok) r (by rw [hs1]; exact b3)
  refine ⟨s2, ?_, mb, ?_⟩
  · rw [← e1, hs1]
  · have st' : Step { { s with last := final } with maxBits := mb } 3 s.out { s1 with maxBits := mb } := by
      rw [hs1]
      exact Step.adv { { s with last := final } with maxBits := mb } ⟨hf.bit, hf.null, hf.cap⟩ 3
    have := st'.trans e2
    rw [ho] at this
    rw [henc]
    simp only [List.length_cons]
    rw [show b.bits.length + 1 + 1 + 1 = 3 + b.bits.length by omega]
    exact this

theorem encode_cons (b : Block) (bs : List Block) (h : bs ≠ []) : encode (b :: bs) = b.encode false ++ encode bs := by
  cases bs with
  | nil => exact absurd rfl h
  | cons _ _ => rfl

theorem Block.encode_len (b : Block) (f : Bool) : 3 ≤ (b.encode f).length := by
  unfold Block.encode
  simp only [List.cons_append, List.length_cons, List.length_append, numBits_length]; omega

theorem fold_length (f : List Byte → Tok → List Byte) (hf : ∀ o t, (f o t).length = (expand1 o t).length) (hg : ∀ a b t, a.length = b.length → (expand1 a t).length = (expand1 b t).length)
    (ts : List Tok) (a b : List Byte) (h : a.length = b.length) : (ts.foldl f a).length = (ts.foldl expand1 b).length := by
  induction ts generalizing a b with
  | nil => exact h
  | cons t ts ih => exact ih _ _ (by rw [hf]; exact hg _ _ _ h)

theorem expand1_length (a b : List Byte) (t : Tok) (h : a.length = b.length) : (expand1 a t).length = (expand1 b t).length := by
  cases t <;> simp [expand1, copyFrom_length, h]

theorem wrapExpand_length (out : List Byte) (b : Block) : (b.wrapExpand out).length = (b.expand out).length := by
  cases b with
  | stored _ _ => rfl
  | dyn _ _ => rfl
  | fixed toks => exact fold_length wrapExpand1 (fun o t => by cases t <;> simp [wrapExpand1, expand1, copyFrom_length]) expand1_length toks out out rfl

theorem Block.expand_congr (x y : List Byte) (h : x.length = y.length) (b : Block) : (b.expand x).length = (b.expand y).length := by
  cases b with
  | stored _ _ => simp [Block.expand, h]
  | dyn _ toks => exact fold_length expand1 (fun _ _ => rfl) expand1_length toks x y h
  | fixed toks => exact fold_length expand1 (fun _ _ => rfl) expand1_length toks x y h

theorem Block.ok_congr (p : Nat) (x y : List Byte) (h : x.length = y.length) (b : Block) (ok : b.Ok p x) : b.Ok p y := by
  cases b with
  | stored _ _ => exact ok
  | dyn _ toks => exact ⟨ok.1, toksOk_congr _ _ h _ ok.2.1, ok.2.2⟩
  | fixed toks => exact toksOk_congr _ _ h _ ok

theorem streamOk_congr (p : Nat) (x y : List Byte) (h : x.length = y.length) (bs : List Block) (ok : StreamOk p x bs) : StreamOk p y bs := by
  induction bs generalizing p x y with
  | nil => exact ok
  | cons b bs ih =>
    cases bs with
    | nil => exact b.ok_congr p x y h ok
    | cons b' bs' => exact ⟨b.ok_congr p x y h ok.1, ih _ _ _ (b.expand_congr x y h) ok.2⟩

theorem wrapDecoded_near (p : Nat) (out : List Byte) (bs : List Block) (ok : StreamOk p out bs) (h : StreamNear out bs) : wrapDecoded out bs = decoded out bs := by
  induction bs generalizing p out with
  | nil => rfl
  | cons b bs ih =>
    have hb : b.Ok p out := by cases bs with | nil => exact ok | cons _ _ => exact ok.1
    have e : b.wrapExpand out = b.expand out := by
      cases b with
      | stored _ _ => rfl
      | dyn _ _ => rfl
      | fixed toks => exact wrapExpand_near out toks hb h.1
    show wrapDecoded (b.wrapExpand out) bs = decoded (b.expand out) bs
    rw [e]
    cases bs with
    | nil => rfl
    | cons b' bs' => exact ih _ _ ok.2 h.2

theorem inflateLoop_ok (bs : List Block) (fuel : Nat) (s : St) (hf : Fit s) (hl : s.last = false) (hok : StreamOk s.pos s.out bs)
    (hfuel : bs.length ≤ fuel) (r : List Bool) (h : s.bits = encode bs ++ r) :
    ∃ s' mb, inflateLoop fuel s = .ok { s' with eof := true } ∧
      Step { s with last := true, maxBits := mb } (encode bs).length (wrapDecoded s.out bs) s' := by
  induction bs generalizing fuel s with
  | nil => exact absurd hok id
  | cons b bs ih =>
    obtain ⟨fuel, rfl⟩ : ∃ f, fuel = f + 1 := ⟨fuel - 1, by simp at hfuel; omega⟩
    simp only [List.length_cons] at hfuel
    cases hbs : bs with
    | nil =>
      subst hbs
      obtain ⟨s1, e1, mb, e2⟩ := oneBlock_ok b true s hf hl hok r h
      refine ⟨s1, mb, ?_, e2⟩
      unfold inflateLoop
      rw [e1]
      simp only [bind, Except.bind, pure, Except.pure]
      rw [if_pos e2.same.2.2.1]
    | cons b' bs' =>
      have hne : bs ≠ [] := by rw [hbs]; simp
      have hok' : b.Ok s.pos s.out ∧ StreamOk (s.pos + (b.encode false).length) (b.expand s.out) bs := by rw [hbs] at hok ⊢; exact hok
      rw [← hbs]
      rw [encode_cons b bs hne, List.append_assoc] at h
      obtain ⟨s1, e1, mb, e2⟩ := oneBlock_ok b false s hf hl hok'.1 _ h
      have hl1 : s1.last = false := e2.same.2.2.1
      have ho := e2.out
      have hp1 : s1.pos = s.pos + (b.encode false).length := e2.pos
      have hbits : s1.bits = s.bits.drop (b.encode false).length := e2.bits
      obtain ⟨s2, mb2, f1, f2⟩ := ih fuel s1 (e2.fit ⟨hf.bit, hf.null, hf.cap⟩) hl1 (by rw [hp1]; exact streamOk_congr _ _ _ (by rw [ho, wrapExpand_length]) _ hok'.2) (by omega)
        (by rw [hbits, h, drop_left _ _ _ rfl])
      refine ⟨s2, mb2, ?_, ?_⟩
      · rw [inflateLoop, e1]
        simp only [bind, Except.bind]
        rw [hl1]
        exact f1
      · have e2' : Step { s with last := true, maxBits := mb2 } (b.encode false).length (b.wrapExpand s.out) { s1 with last := true, maxBits := mb2 } := by
          obtain ⟨c, hc, hle, rfl⟩ := e2
          exact ⟨c, hc, hle, rfl⟩
        have := e2'.trans f2
        rw [encode_cons b bs hne, List.length_append]
        show Step _ _ (wrapDecoded (b.wrapExpand s.out) bs) _
        rw [ho] at this
        exact this

theorem blocks_le (bs : List Block) : bs.length ≤ (encode bs).length := by
  induction bs with
  | nil => simp
  | cons b bs ih =>
    cases bs with
    | nil => have := b.encode_len true; simp only [List.length_singleton, encode]; omega
    | cons b' bs =>
      have := b.encode_len false
      rw [encode_cons b _ (by simp), List.length_append, List.length_cons]; omega

/-- from a given position in the input -/
theorem inflateFrom_ok (bs : List Block) (s : St) (hf : Fit s) (hl : s.last = false) (hok : StreamOk s.pos s.out bs)
    (r : List Bool) (h : s.bits = encode bs ++ r) :
    ∃ s' mb, inflateLoop (limit s) s = .ok { s' with eof := true } ∧ Step { s with last := true, maxBits := mb } (encode bs).length (wrapDecoded s.out bs) s' := by
  refine inflateLoop_ok bs (limit s) s hf hl hok ?_ r h
  have h1 := bits_le s
  have h2 := blocks_le bs
  rw [h, List.length_append] at h1
  unfold limit; omega

end Verif.Inflate
