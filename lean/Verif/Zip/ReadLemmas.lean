import Verif.Zip.Model
import Verif.Zip.Spec
import Verif.Serializer.Props
import Verif.Charset.Utf8Props
import Verif.Inflate.Props
/-
Lemmas about the reading side of Verif.Zip.Model.
-/
namespace Verif.Zip
open Verif

theorem bind_ok {α β : Type} (a : α) (f : α → Res β) : (Except.ok a >>= f) = f a := rfl

theorem le_length (n v : Nat) : (le n v).length = n := by simp [le, Serializer.Spec.leBytes]

theorem u32_small {n : Nat} (h : n < 2 ^ 32) : u32 n = n := Nat.mod_eq_of_lt h

theorem read32 {b : List Byte} (p q : List Byte) (v : Nat) (hb : b = p ++ le 4 v ++ q) {o : Nat} (ho : p.length = o) (hl : b.length ≤ 2 ^ 32) :
    Serializer.deserializeLE32 b o = .ok (BitVec.ofNat 32 v) := by
  subst hb ho
  exact Serializer.deserializeLE32_spec p q _ hl

theorem read16 {b : List Byte} (p q : List Byte) (v : Nat) (hb : b = p ++ le 2 v ++ q) {o : Nat} (ho : p.length = o) (hl : b.length ≤ 2 ^ 32) :
    Serializer.deserializeLE16 b o = .ok (BitVec.ofNat 16 v) := by
  subst hb ho
  exact Serializer.deserializeLE16_spec p q _ hl

theorem drop_split {w b : List Byte} {o : Nat} (h : w <+: b.drop o) (ho : o ≤ b.length) : ∃ p q, b = p ++ w ++ q ∧ p.length = o := by
  obtain ⟨q, hq⟩ := h
  exact ⟨b.take o, q, by rw [List.append_assoc, hq, List.take_append_drop], by simp; omega⟩

theorem prefix_length {w b : List Byte} {o : Nat} (h : w <+: b.drop o) : w.length ≤ b.length - o := by
  have := h.length_le
  simpa using this

theorem readInto_full {bytes buffer : List Byte} {p : Nat} (h : p + (buffer.length - 1) ≤ bytes.length) (h0 : 0 < buffer.length) :
    readInto bytes p buffer = (bytes.drop p).take (buffer.length - 1) ++ [buffer[buffer.length - 1]] := by
  unfold readInto
  have hl : ((bytes.drop p).take (buffer.length - 1)).length = buffer.length - 1 := by simp; omega
  simp only [hl]
  congr 1
  rw [List.drop_eq_getElem_cons (by omega)]
  congr 1
  apply List.drop_eq_nil_of_le
  omega

theorem readInto_prefix {bytes w : List Byte} {p : Nat} (h : w <+: bytes.drop p) : readInto bytes p (zeros w.length) = w ++ [0] := by
  unfold readInto
  have hw : (bytes.drop p).take w.length = w := by
    obtain ⟨q, hq⟩ := h
    rw [← hq, List.take_left]
  have hz : (zeros w.length).length - 1 = w.length := by simp [zeros]
  rw [hz, hw]
  simp [zeros]

/-! ### the end record -/

theorem bytes4 (w : List Byte) (h : w.length = 4) : ∃ v : BitVec 32, w = Serializer.Spec.leBytes 4 v := by
  match w, h with
  | [a, b, c, d], _ =>
  refine ⟨BitVec.ofNat 32 (a.toNat + 256 * b.toNat + 65536 * c.toNat + 16777216 * d.toNat), ?_⟩
  have ha := a.isLt
  have hb := b.isLt
  have hc := c.isLt
  have hd := d.isLt
  simp only [Serializer.Spec.leBytes, Serializer.Spec.byteOf, List.range_succ, List.range_zero, List.nil_append, List.map_cons, List.map_nil,
    List.cons_append, BitVec.toNat_ofNat]
  rw [Nat.mod_eq_of_lt (a := a.toNat + 256 * b.toNat + 65536 * c.toNat + 16777216 * d.toNat) (by omega)]
  have e : ∀ (x : Byte) (n : Nat), n % 256 = x.toNat → x = BitVec.ofNat 8 n := by
    intro x n hx
    apply BitVec.eq_of_toNat_eq
    simp [hx]
  rw [← e a _ (by omega), ← e b _ (by omega), ← e c _ (by omega), ← e d _ (by omega)]

theorem sig_iff {w q : List Byte} (hw : w.length = 4) (hl : (w ++ q).length ≤ 2 ^ 32) :
    ∃ v, Serializer.deserializeLE32 (w ++ q) 0 = .ok v ∧ (v = 0x06054b50 ↔ w = le 4 0x06054b50) := by
  obtain ⟨v, rfl⟩ := bytes4 w hw
  refine ⟨v, Serializer.deserializeLE32_spec [] q v hl, ?_⟩
  constructor
  · rintro rfl; rfl
  · intro h
    have h1 := Serializer.deserializeLE32_spec [] [] v (by simp [Serializer.Spec.leBytes])
    have h2 := Serializer.deserializeLE32_spec [] [] (0x06054b50 : BitVec 32) (by simp [Serializer.Spec.leBytes])
    have h' : Serializer.Spec.leBytes 4 v = Serializer.Spec.leBytes 4 (0x06054b50 : BitVec 32) := h
    rw [h', h2] at h1
    injection h1 with h1
    exact h1.symm

/-- one round of the search, inside the file -/
theorem search_step {bytes : List Byte} (n : Nat) (buf : List Byte) (hb : buf.length = 23) (h0 : buf[22] = 0) (p : Nat) (hp : u32 (n + 1) = p)
    (hle : p + 22 ≤ bytes.length) :
    search bytes (n + 1) buf =
      if le 4 0x06054b50 <+: bytes.drop p then .ok (some ((bytes.drop p).take 22 ++ [0])) else search bytes n ((bytes.drop p).take 22 ++ [0]) := by
  have hr : readInto bytes p buf = (bytes.drop p).take 22 ++ [0] := by
    rw [readInto_full (by omega) (by omega)]
    simp only [hb, h0]
  have hsplit : (bytes.drop p).take 22 = (bytes.drop p).take 4 ++ ((bytes.drop p).drop 4).take 18 := by
    conv => lhs; rw [show (22 : Nat) = 4 + 18 from rfl, List.take_add]
  have hw : ((bytes.drop p).take 4).length = 4 := by simp; omega
  obtain ⟨v, hv, hiff⟩ := sig_iff (w := (bytes.drop p).take 4) (q := ((bytes.drop p).drop 4).take 18 ++ [0]) hw (by simp; omega)
  have hv' : Serializer.deserializeLE32 ((bytes.drop p).take 22 ++ [0]) 0 = .ok v := by rw [hsplit, List.append_assoc]; exact hv
  rw [search]
  simp only [hp, hr, hv', bind, Except.bind, pure, Except.pure]
  have hpre : le 4 0x06054b50 <+: bytes.drop p ↔ (bytes.drop p).take 4 = le 4 0x06054b50 := by
    constructor
    · rintro ⟨q, hq⟩
      rw [← hq]
      exact List.take_left' (le_length _ _)
    · intro h
      rw [← h]
      exact List.take_prefix _ _
  by_cases h : v = 0x06054b50
  · rw [if_pos h, if_pos (hpre.2 (hiff.1 h))]
  · rw [if_neg h, if_neg (fun hh => h (hiff.2 (hpre.1 hh)))]

theorem search_down {bytes : List Byte} (endPos : Nat) (hsig : le 4 0x06054b50 <+: bytes.drop endPos)
    (hlast : ∀ p, endPos < p → p + 22 ≤ bytes.length → ¬ le 4 0x06054b50 <+: bytes.drop p) (hpos : 0 < endPos) (hlen : bytes.length < 2 ^ 32) :
    ∀ (d : Nat) (buf : List Byte) (hb : buf.length = 23), buf[22] = 0 → endPos + d + 22 ≤ bytes.length →
      search bytes (endPos + d) buf = .ok (some ((bytes.drop endPos).take 22 ++ [0])) := by
  intro d
  induction d with
  | zero =>
    intro buf hb h0 hle
    obtain ⟨n, rfl⟩ : ∃ n, endPos = n + 1 := ⟨endPos - 1, by omega⟩
    rw [Nat.add_zero, search_step n buf hb h0 (n + 1) (u32_small (by omega)) (by omega), if_pos hsig]
  | succ d ih =>
    intro buf hb h0 hle
    rw [← Nat.add_assoc, search_step (endPos + d) buf hb h0 (endPos + d + 1) (u32_small (by omega)) (by omega), if_neg (hlast _ (by omega) (by omega))]
    have hl : ((bytes.drop (endPos + d + 1)).take 22).length = 22 := by simp; omega
    exact ih _ (by rw [List.length_append, hl]; rfl) (by rw [List.getElem_append_right (by omega)]; simp [hl]) (by omega)

theorem zeros_last : (zeros 22)[22]'(by simp [zeros]) = 0 := by decide

theorem endRecord_length (disks : List Byte) (c s p : Nat) (comment : List Byte) (h : disks.length = 6) :
    (endRecord disks c s p comment).length = 22 + comment.length := by
  simp [endRecord, le_length, h]; omega

theorem search_ok {bytes : List Byte} {ms dirPos endPos disks comment} (h : Records bytes ms dirPos endPos disks comment) :
    search bytes (rounds bytes.length) (zeros 22) = .ok (some ((bytes.drop endPos).take 22 ++ [0])) := by
  have hlen : bytes.length = endPos + 22 + comment.length := by
    have := congrArg List.length h.tail.2
    rw [endRecord_length _ _ _ _ _ h.disksLen, List.length_drop] at this
    have := h.tail.1
    omega
  have hsz := h.size
  have hsig : le 4 0x06054b50 <+: bytes.drop endPos := by
    rw [h.tail.2, endRecord]
    simp only [List.append_assoc]
    exact List.prefix_append _ _
  have hseek : u32 (u32 bytes.length + (2 ^ 32 - 22)) = bytes.length - 22 := by
    rw [u32_small hsz]
    unfold u32
    omega
  unfold rounds
  simp only [hseek]
  by_cases hz : bytes.length - 22 = 0
  · have he : endPos = 0 := by omega
    subst he
    rw [if_pos hz]
    obtain ⟨n, hn⟩ : ∃ n, 2 ^ 32 = n + 1 := ⟨2 ^ 32 - 1, by omega⟩
    rw [hn, search_step n (zeros 22) (by simp [zeros]) zeros_last 0 (by rw [← hn]; rfl) (by omega), if_pos hsig]
  · rw [if_neg hz]
    have hpos : 0 < endPos := by
      rcases Nat.eq_zero_or_pos endPos with h0 | h0
      · have := h.front h0
        subst this
        simp at hlen
        omega
      · exact h0
    have := search_down endPos hsig h.last hpos hsz (bytes.length - 22 - endPos) (zeros 22) (by simp [zeros]) zeros_last (by omega)
    rw [show endPos + (bytes.length - 22 - endPos) = bytes.length - 22 by omega] at this
    exact this

/-! ### the directory -/

theorem text_ok {b : List Byte} (p q : List Byte) (t : List Ch) (ht : TextOk t) (hb : b = p ++ utf8 t ++ q) (hq : q ≠ []) {o n : Nat}
    (ho : p.length = o) (hn : (utf8 t).length = n) : text b o n = .ok t := by
  subst hb ho hn
  have hq' : 0 < q.length := List.length_pos_iff.2 hq
  unfold text
  rw [if_pos (by simp only [List.length_append]; omega)]
  rw [List.append_assoc, List.drop_left, List.take_left]
  exact Charset.utf8Decode_ok t [] ht.1 ht.2.1

/-- what `open` keeps of a member -/
def Member.entry (m : Member) : Entry :=
  { Entry.new m.name with
    extra := m.extra, comment := m.comment, uncompressedSize := .ofNat 32 m.data.length, compressedSize := .ofNat 32 m.packed.length,
    headerOffset := .ofNat 32 m.offset }

theorem ofNat_toNat16 {n : Nat} (h : n < 2 ^ 16) : (BitVec.ofNat 16 n).toNat = n := by simp; omega
theorem ofNat_toNat32 {n : Nat} (h : n < 2 ^ 32) : (BitVec.ofNat 32 n).toNat = n := by simp; omega

theorem dirRecord_length (m : Member) (h : m.Shape) :
    m.dirRecord.length = 46 + (utf8 m.name).length + (utf8 m.extra).length + (utf8 m.comment).length := by
  simp [Member.dirRecord, le_length, h.dirHead, h.dirAttr]; omega

theorem dirEntry_ok {dict : List Byte} (p q : List Byte) (m : Member) (hm : m.Shape) (hd : dict = p ++ m.dirRecord ++ q) (hq : q ≠ [])
    (hl : dict.length ≤ 2 ^ 32) : dirEntry dict p.length = .ok (m.entry, (p ++ m.dirRecord).length) := by
  have hq' : 0 < q.length := List.length_pos_iff.2 hq
  have hlen := dirRecord_length m hm
  have hdl : dict.length = p.length + m.dirRecord.length + q.length := by subst hd; simp; omega
  have h1 := hm.dirHead
  have h2 := hm.dirAttr
  have n1 := ofNat_toNat16 hm.name.2.2
  have n2 := ofNat_toNat16 hm.extra.2.2
  have n3 := ofNat_toNat16 hm.comment.2.2
  have L := le_length
  generalize hN : utf8 m.name = N at *
  generalize hE : utf8 m.extra = E at *
  generalize hC : utf8 m.comment = C at *
  have hrec : m.dirRecord = m.dirHead ++ le 4 m.packed.length ++ le 4 m.data.length ++ le 2 N.length ++ le 2 E.length ++ le 2 C.length ++
      m.dirAttr ++ le 4 m.offset ++ N ++ E ++ C := by rw [← hN, ← hE, ← hC]; rfl
  unfold dirEntry
  rw [u32_small (n := p.length + 20) (by omega), u32_small (n := p.length + 24) (by omega), u32_small (n := p.length + 28) (by omega),
    u32_small (n := p.length + 30) (by omega), u32_small (n := p.length + 32) (by omega), u32_small (n := p.length + 42) (by omega),
    u32_small (n := p.length + 46) (by omega)]
  rw [read32 (p ++ m.dirHead) (le 4 m.data.length ++ le 2 N.length ++ le 2 E.length ++ le 2 C.length ++ m.dirAttr ++ le 4 m.offset ++ N ++ E ++ C ++ q)
    m.packed.length (by simp [hd, hrec]) (by simp [h1]) hl]
  rw [read32 (p ++ m.dirHead ++ le 4 m.packed.length) (le 2 N.length ++ le 2 E.length ++ le 2 C.length ++ m.dirAttr ++ le 4 m.offset ++ N ++ E ++ C ++ q)
    m.data.length (by simp [hd, hrec]) (by simp [h1, L]) hl]
  rw [read16 (p ++ m.dirHead ++ le 4 m.packed.length ++ le 4 m.data.length) (le 2 E.length ++ le 2 C.length ++ m.dirAttr ++ le 4 m.offset ++ N ++ E ++ C ++ q)
    N.length (by simp [hd, hrec]) (by simp [h1, L]) hl]
  rw [read16 (p ++ m.dirHead ++ le 4 m.packed.length ++ le 4 m.data.length ++ le 2 N.length) (le 2 C.length ++ m.dirAttr ++ le 4 m.offset ++ N ++ E ++ C ++ q)
    E.length (by simp [hd, hrec]) (by simp [h1, L]) hl]
  rw [read16 (p ++ m.dirHead ++ le 4 m.packed.length ++ le 4 m.data.length ++ le 2 N.length ++ le 2 E.length) (m.dirAttr ++ le 4 m.offset ++ N ++ E ++ C ++ q)
    C.length (by simp [hd, hrec]) (by simp [h1, L]) hl]
  rw [read32 (p ++ m.dirHead ++ le 4 m.packed.length ++ le 4 m.data.length ++ le 2 N.length ++ le 2 E.length ++ le 2 C.length ++ m.dirAttr)
    (N ++ E ++ C ++ q) m.offset (by simp [hd, hrec]) (by simp [h1, h2, L]) hl]
  simp only [bind, Except.bind, pure, Except.pure]
  rw [n1, n2, n3]
  rw [u32_small (n := p.length + 46 + N.length) (by omega), u32_small (n := p.length + 46 + N.length + E.length) (by omega),
    u32_small (n := p.length + 46 + N.length + E.length + C.length) (by omega)]
  rw [text_ok (p ++ m.dirHead ++ le 4 m.packed.length ++ le 4 m.data.length ++ le 2 N.length ++ le 2 E.length ++ le 2 C.length ++ m.dirAttr ++ le 4 m.offset)
    (E ++ C ++ q) m.name hm.name (by simp [hd, hrec, hN]) (by simp [hq]) (by simp [h1, h2, L]) (by rw [hN])]
  simp only []
  rw [text_ok (p ++ m.dirHead ++ le 4 m.packed.length ++ le 4 m.data.length ++ le 2 N.length ++ le 2 E.length ++ le 2 C.length ++ m.dirAttr ++ le 4 m.offset ++ N)
    (C ++ q) m.extra hm.extra (by simp [hd, hrec, hE]) (by simp [hq]) (by simp [h1, h2, L]; omega) (by rw [hE])]
  simp only []
  rw [text_ok (p ++ m.dirHead ++ le 4 m.packed.length ++ le 4 m.data.length ++ le 2 N.length ++ le 2 E.length ++ le 2 C.length ++ m.dirAttr ++ le 4 m.offset ++ N ++ E)
    q m.comment hm.comment (by simp [hd, hrec, hC]) hq (by simp [h1, h2, L]; omega) (by rw [hC])]
  simp only [Except.ok.injEq, Prod.mk.injEq]
  refine ⟨rfl, ?_⟩
  rw [List.length_append, hlen]
  omega

theorem dirLoop_ok {dict : List Byte} (q : List Byte) (hq : q ≠ []) (hl : dict.length ≤ 2 ^ 32) : ∀ (ms : List Member) (p : List Byte) (es : List Entry),
    (∀ m ∈ ms, m.Shape) → dict = p ++ ms.flatMap Member.dirRecord ++ q → dirLoop dict ms.length p.length es = .ok (es ++ ms.map Member.entry) := by
  intro ms
  induction ms with
  | nil => intro p es _ _; simp [dirLoop]
  | cons m ms ih =>
    intro p es hs hd
    have hm := hs m List.mem_cons_self
    rw [List.length_cons, dirLoop, dirEntry_ok p (ms.flatMap Member.dirRecord ++ q) m hm (by simp [hd]) (by simp [hq]) hl]
    simp only [bind, Except.bind]
    rw [ih (p ++ m.dirRecord) _ (fun x hx => hs x (List.mem_cons_of_mem _ hx)) (by simp [hd])]
    simp

theorem openZip_gen {bytes : List Byte} {ms dirPos endPos disks comment} (h : Records bytes ms dirPos endPos disks comment) :
    openZip bytes = .ok ((ms.take (ms.length % 2 ^ 16)).map Member.entry) := by
  have hsz := h.size
  have hlen : bytes.length = endPos + 22 + comment.length := by
    have := congrArg List.length h.tail.2
    rw [endRecord_length _ _ _ _ _ h.disksLen, List.length_drop] at this
    have := h.tail.1
    omega
  unfold openZip
  rw [u32_small hsz, if_neg (by omega), search_ok h]
  simp only [bind, Except.bind]
  have ht : (bytes.drop endPos).take 22 = le 4 0x06054b50 ++ disks ++ le 2 ms.length ++ le 4 (ms.flatMap Member.dirRecord).length ++ le 4 dirPos ++
      le 2 comment.length := by
    rw [h.tail.2, endRecord]
    rw [List.take_left' (by simp [le_length, h.disksLen])]
  have L := le_length
  have hd := h.disksLen
  rw [ht]
  unfold directory
  rw [read16 (le 4 0x06054b50 ++ disks) (le 4 (ms.flatMap Member.dirRecord).length ++ le 4 dirPos ++ le 2 comment.length ++ [0]) ms.length (by simp)
    (by simp [L, hd]) (by simp [L, hd])]
  rw [read32 (le 4 0x06054b50 ++ disks ++ le 2 ms.length) (le 4 dirPos ++ le 2 comment.length ++ [0]) (ms.flatMap Member.dirRecord).length (by simp)
    (by simp [L, hd]) (by simp [L, hd])]
  rw [read32 (le 4 0x06054b50 ++ disks ++ le 2 ms.length ++ le 4 (ms.flatMap Member.dirRecord).length) (le 2 comment.length ++ [0]) dirPos (by simp)
    (by simp [L, hd]) (by simp [L, hd])]
  simp only [bind, Except.bind]
  rw [ofNat_toNat32 h.dirSize, ofNat_toNat32 h.dirPosLt, readInto_prefix h.dir]
  have hk : (BitVec.ofNat 16 ms.length).toNat = (ms.take (ms.length % 2 ^ 16)).length := by
    simp only [BitVec.toNat_ofNat, List.length_take]
    have := Nat.mod_le ms.length (2 ^ 16)
    omega
  rw [hk]
  have := dirLoop_ok (dict := ms.flatMap Member.dirRecord ++ [0]) ((ms.drop (ms.length % 2 ^ 16)).flatMap Member.dirRecord ++ [0]) (by simp)
    (by have := h.dirSize; simp only [List.length_append, List.length_cons, List.length_nil]; omega) (ms.take (ms.length % 2 ^ 16)) [] []
    (fun m hm => h.shape m (List.mem_of_mem_take hm)) (by
      rw [List.nil_append, ← List.append_assoc, ← List.flatMap_append, List.take_append_drop])
  simpa using this

theorem openZip_ok {bytes : List Byte} {ms dirPos endPos disks comment} (h : Directory bytes ms dirPos endPos disks comment) :
    openZip bytes = .ok (ms.map Member.entry) := by
  rw [openZip_gen h.toRecords, Nat.mod_eq_of_lt h.count, List.take_length]

/-! ### the data -/

theorem memStream_all (junk : Byte) (data : List Byte) (h : data.length < 2 ^ 32) :
    (MemStream.MS.new data data.length).read (List.replicate data.length junk) data.length = .ok (if data = [] then 0 else (data.length : Int), data, ⟨data, data.length, data.length, 0⟩) := by
  have ha : (MemStream.MS.new data data.length).available data.length = .ok (data.length : Int) := by
    unfold MemStream.MS.available MemStream.MS.new MemStream.i64
    rw [if_pos (by simp; omega)]
    simp only [bind, Except.bind]
    rw [if_neg (by omega), if_pos (by simp; omega)]
    simp
  unfold MemStream.MS.read
  rw [ha]
  simp only [bind, Except.bind, pure, Except.pure]
  by_cases h0 : data = []
  · subst h0; rfl
  · have hpos : 0 < data.length := List.length_pos_iff.2 h0
    rw [if_pos (by omega), if_neg h0]
    unfold MemStream.memcpy
    rw [if_pos (by simp [MemStream.MS.new])]
    simp [MemStream.MS.new]

theorem readAll_ok (junk : Byte) (data : List Byte) (h : data.length < 2 ^ 32) : readAll junk (some data) data.length = .ok data := by
  unfold readAll
  rw [Option.getD_some, memStream_all junk data h]
  rfl

theorem memcpy_all (junk : Byte) (data : List Byte) (rest : List Byte) :
    MemStream.memcpy (List.replicate data.length junk) 0 (data ++ rest) 0 data.length = .ok data := by
  unfold MemStream.memcpy
  rw [if_pos (by simp; omega)]
  simp

theorem bitsOf_append (a b : List Byte) : Inflate.bitsOf (a ++ b) = Inflate.bitsOf a ++ Inflate.bitsOf b := by
  simp [Inflate.bitsOf]

theorem unpack_ok (junk : Byte) (m : Member) (hm : m.Shape) (hh : m.Holds) (cm : Nat) (hc : cm = m.method) :
    unpack junk cm m.entry (m.packed ++ [0]) = .ok (some m.data) := by
  subst hc
  unfold unpack
  rcases hh with ⟨h0, hp⟩ | ⟨h8, bs, rest, hb, hok, hnear, hdec⟩
  · rw [if_pos h0]
    simp only [Member.entry, ofNat_toNat32 hm.packed, ofNat_toNat32 hm.data]
    rw [hp, memcpy_all]
    rfl
  · rw [h8, if_neg (by decide), if_pos rfl]
    obtain ⟨s, hs, hout, _⟩ := Inflate.inflate_decodes_partial bs (m.packed ++ [0]) (rest ++ Inflate.bitsOf [0])
      (by rw [bitsOf_append, hb, List.append_assoc]) hok hnear
    rw [hs]
    simp only [bind, Except.bind, pure, Except.pure]
    rw [hout, hdec]

theorem localRecord_length (m : Member) {bytes} (h : m.In bytes) :
    m.localRecord.length = 30 + m.locName.length + m.locExtra.length + m.packed.length := by
  simp [Member.localRecord, le_length, h.locHead, h.locSizes]; omega

theorem stream_ok (junk : Byte) (bytes : List Byte) (hb : bytes.length < 2 ^ 32) (m : Member) (hm : m.Shape) (hi : m.In bytes) :
    stream junk bytes m.entry = .ok (some m.data, m.data.length) := by
  have hlen := localRecord_length m hi
  have hpl := prefix_length hi.here
  have L := le_length
  have h1 := hi.locHead
  have h2 := hi.locSizes
  have hh : le 4 0x04034b50 ++ m.locHead ++ le 2 m.method ++ m.locSizes ++ le 2 m.locName.length ++ le 2 m.locExtra.length <+: bytes.drop m.offset := by
    refine List.IsPrefix.trans ?_ hi.here
    simp only [Member.localRecord, List.append_assoc]
    refine List.prefix_append_right_inj _ |>.2 (List.prefix_append_right_inj _ |>.2 (List.prefix_append_right_inj _ |>.2 (List.prefix_append_right_inj _ |>.2
      (List.prefix_append_right_inj _ |>.2 (List.prefix_append _ _)))))
  have hr := readInto_prefix hh
  rw [show (le 4 0x04034b50 ++ m.locHead ++ le 2 m.method ++ m.locSizes ++ le 2 m.locName.length ++ le 2 m.locExtra.length).length = 30 by
    simp [L, h1, h2]] at hr
  unfold stream
  have eoff : m.entry.headerOffset.toNat = m.offset := ofNat_toNat32 hm.offset
  have ecs : m.entry.compressedSize.toNat = m.packed.length := ofNat_toNat32 hm.packed
  have eus : m.entry.uncompressedSize.toNat = m.data.length := ofNat_toNat32 hm.data
  have ho := hm.offset
  rw [eoff, ecs, eus, hr]
  simp only []
  rw [read32 [] (m.locHead ++ le 2 m.method ++ m.locSizes ++ le 2 m.locName.length ++ le 2 m.locExtra.length ++ [0]) 0x04034b50 (by simp) (o := 0) rfl
    (by simp [L, h1, h2])]
  rw [read16 (le 4 0x04034b50 ++ m.locHead) (m.locSizes ++ le 2 m.locName.length ++ le 2 m.locExtra.length ++ [0]) m.method (by simp)
    (by simp [L, h1]) (by simp [L, h1, h2])]
  rw [read16 (le 4 0x04034b50 ++ m.locHead ++ le 2 m.method ++ m.locSizes) (le 2 m.locExtra.length ++ [0]) m.locName.length (by simp)
    (by simp [L, h1, h2]) (by simp [L, h1, h2])]
  rw [read16 (le 4 0x04034b50 ++ m.locHead ++ le 2 m.method ++ m.locSizes ++ le 2 m.locName.length) [0] m.locExtra.length (by simp)
    (by simp [L, h1, h2]) (by simp [L, h1, h2])]
  simp only [bind, Except.bind, pure, Except.pure]
  rw [if_neg (by decide), ofNat_toNat16 hi.locName, ofNat_toNat16 hi.locExtra]
  have hpk : m.packed <+: bytes.drop (m.offset + 30 + m.locName.length + m.locExtra.length) := by
    obtain ⟨q, hq⟩ := hi.here
    refine ⟨q, ?_⟩
    have : bytes.drop (m.offset + 30 + m.locName.length + m.locExtra.length) = (bytes.drop m.offset).drop (30 + m.locName.length + m.locExtra.length) := by
      rw [List.drop_drop]; congr 1; omega
    rw [this, ← hq, Member.localRecord, List.append_assoc (bs := m.packed)]
    rw [List.drop_left' (by simp [L, h1, h2]; omega)]
  have hmlt : m.method < 2 ^ 16 := by
    rcases hi.holds with ⟨h0, _⟩ | ⟨h8, _⟩ <;> omega
  by_cases hz : m.packed = [] ∧ bytes.length < m.offset + 30
  · omega
  rw [u32_small (n := m.offset + 30 + m.locName.length + m.locExtra.length) (by
    have : m.offset ≤ bytes.length := by
      rcases Nat.lt_or_ge bytes.length m.offset with hlt | hge
      · omega
      · exact hge
    omega)]
  rw [readInto_prefix hpk]
  rw [unpack_ok junk m hm hi.holds _ (ofNat_toNat16 hmlt)]

theorem content_ok (junk : Byte) (bytes : List Byte) (hb : bytes.length < 2 ^ 32) (m : Member) (hm : m.Shape) (hi : m.In bytes) :
    content junk bytes m.entry = .ok m.data := by
  unfold content
  rw [stream_ok junk bytes hb m hm hi]
  rw [bind_ok, readAll_ok junk m.data hm.data]

end Verif.Zip
