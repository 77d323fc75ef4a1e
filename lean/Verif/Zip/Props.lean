import Verif.Zip.Session
/-
Property theorems for src/core/ZipFile.cpp and src/core/ZipOutputFile.cpp (C47, C68).
-/
namespace Verif.Zip
open Verif

/-! ### reading -/

/-- **C47** (partial: extra fields and texts that are no UTF-8 text, an end record at the beginning of the file with a comment, and the deflate
streams excluded in `Inflate.inflate_decodes_partial`, see the theorems below.)  Every archive opens: the entries are its members in the order of
the directory, with their names, comments and sizes, and the stream of each delivers its data – whatever fresh memory contains. -/
theorem reads_archive_partial (junk : Byte) (bytes : List Byte) (ms : List Member) (h : Archive bytes ms) :
    ∃ es, openZip bytes = .ok es ∧ entryCount es = ms.length ∧ es.length = ms.length ∧
      ∀ (i : Nat) (m : Member), ms[i]? = some m → ∃ e, es[i]? = some e ∧ e.name = m.name ∧ e.extra = m.extra ∧ e.comment = m.comment ∧
        e.uncompressedSize.toNat = m.data.length ∧ e.compressedSize.toNat = m.packed.length ∧ content junk bytes e = .ok m.data := by
  obtain ⟨⟨dirPos, endPos, disks, comment, hd⟩, hin⟩ := h
  refine ⟨ms.map Member.entry, openZip_ok hd, ?_, by simp, ?_⟩
  · have := hd.count
    rw [entryCount, List.length_map, u32_small (by omega)]
  · intro i m hm
    have hmem := List.mem_of_getElem? hm
    have hs := hd.shape m hmem
    exact ⟨m.entry, by rw [List.getElem?_map, hm]; rfl, rfl, rfl, rfl, ofNat_toNat32 hs.data, ofNat_toNat32 hs.packed,
      content_ok junk bytes hd.size m hs (hin m hmem)⟩

/-- **C47** (partial as above.)  `entry(name)` is the first member of that name, and null exactly when there is none. -/
theorem entry_finds_partial (junk : Byte) (bytes : List Byte) (ms : List Member) (h : Archive bytes ms) (name : List Ch) :
    ∃ es, openZip bytes = .ok es ∧
      match ms.find? (fun m => decide (m.name = name)) with
      | none => entry es name = none
      | some m => ∃ e, entry es name = some e ∧ e.name = name ∧ content junk bytes e = .ok m.data := by
  obtain ⟨⟨dirPos, endPos, disks, comment, hd⟩, hin⟩ := h
  refine ⟨ms.map Member.entry, openZip_ok hd, ?_⟩
  have he : entry (ms.map Member.entry) name = (ms.find? (fun m => decide (m.name = name))).map Member.entry := by
    rw [entry, List.find?_map]
    rfl
  cases hf : ms.find? (fun m => decide (m.name = name)) with
  | none => rw [he, hf]; rfl
  | some m =>
    have hmem := List.mem_of_find?_eq_some hf
    have hn : m.name = name := by simpa using List.find?_some hf
    exact ⟨m.entry, by rw [he, hf]; rfl, hn, content_ok junk bytes hd.size m (hd.shape m hmem) (hin m hmem)⟩

/-! ### writing -/

theorem members_spec : ∀ (items : List Item) (off : Nat) (pre post : List Byte), pre.length = off → (∀ i ∈ items, TextOk i.name ∧ TextOk i.extra ∧ TextOk i.comment) →
    off + ((members off items).flatMap Member.localRecord).length < 2 ^ 32 → ∀ m ∈ members off items,
      m.Shape ∧ m.In (pre ++ (members off items).flatMap Member.localRecord ++ post) := by
  intro items
  induction items with
  | nil => intro off pre post _ _ _ m hm; simp [members] at hm
  | cons i items ih =>
    intro off pre post hpre ht hfit m hm
    have hl := local_length i off
    simp only [members, List.flatMap_cons, List.length_append] at hfit
    rw [members, List.mem_cons] at hm
    rcases hm with rfl | hm
    · obtain ⟨t1, t2, t3⟩ := ht i List.mem_cons_self
      refine ⟨⟨t1, t2, t3, ?_, ?_, ?_, ?_, ?_⟩, ⟨?_, ?_, t1.2.2, t2.2.2, ?_, Or.inl ⟨rfl, rfl⟩⟩⟩
      · show i.data.length < _; omega
      · show i.data.length < _; omega
      · show off < _; omega
      · simp [Item.member, le_length]
      · simp [Item.member]
      · simp [Item.member]
      · simp [Item.member, le_length]
      · show (i.member off).localRecord <+: (pre ++ (members off (i :: items)).flatMap Member.localRecord ++ post).drop off
        rw [List.append_assoc, List.drop_left' hpre, members, List.flatMap_cons, List.append_assoc]
        exact List.prefix_append _ _
    · have := ih (off + (i.member off).localRecord.length) (pre ++ (i.member off).localRecord) post (by simp [hpre])
        (fun x hx => ht x (List.mem_cons_of_mem _ hx)) (by omega) m hm
      rw [members, List.flatMap_cons]
      simp only [List.append_assoc] at this ⊢
      exact this

theorem layout_length (items : List Item) :
    (layout items).length = ((members 0 items).flatMap Member.localRecord).length + ((members 0 items).flatMap Member.dirRecord).length + 22 := by
  unfold layout
  simp only [List.length_append]
  rw [endRecord_length _ _ _ _ _ (by simp [le_length])]
  rfl

theorem layout_records (items : List Item) (ht : ∀ i ∈ items, TextOk i.name ∧ TextOk i.extra ∧ TextOk i.comment) (hfit : (layout items).length < 2 ^ 32) :
    Records (layout items) (members 0 items) ((members 0 items).flatMap Member.localRecord).length
      (((members 0 items).flatMap Member.localRecord).length + ((members 0 items).flatMap Member.dirRecord).length) (List.replicate 4 0 ++ le 2 items.length) [] := by
  have hlay := layout_length items
  have hm := members_spec items 0 [] [] rfl ht (by omega)
  refine ⟨hfit, fun m h => (hm m h).1, by omega, by omega, ?_, by simp [le_length], by simp, ⟨by omega, ?_⟩, ?_, fun _ => rfl⟩
  · rw [layout, List.append_assoc, List.drop_left]
    exact List.prefix_append _ _
  · rw [layout, List.drop_left' (by simp), members_length]
  · intro p h1 h2; omega

/-- an archive laid out by `layout` is an archive -/
theorem layout_archive (items : List Item) (ht : ∀ i ∈ items, TextOk i.name ∧ TextOk i.extra ∧ TextOk i.comment) (hc : items.length < 2 ^ 16)
    (hfit : (layout items).length < 2 ^ 32) : Archive (layout items) (members 0 items) := by
  have hlay := layout_length items
  have hm := members_spec items 0 [] ((members 0 items).flatMap Member.dirRecord ++ endRecord (List.replicate 4 0 ++ le 2 items.length) items.length
    ((members 0 items).flatMap Member.dirRecord).length ((members 0 items).flatMap Member.localRecord).length []) rfl ht (by omega)
  refine ⟨⟨_, _, _, _, ⟨layout_records items ht hfit, by rw [members_length]; exact hc⟩⟩, ?_⟩
  intro m h
  have := (hm m h).2
  rw [List.nil_append, ← List.append_assoc] at this
  exact this

/-- **C68**: the bytes a session writes into a new or empty file, or over a file that is not longer, are the archive of its items: local headers with
name, sizes and CRC-32, the data unchanged, the directory and the end record, and nothing else – for every way the data is divided into calls of `write`. -/
theorem session_writes_archive (junk : Byte) (existing : Option (List Byte)) (jobs : List Job) (hj : ∀ j ∈ jobs, j.source.Ok)
    (hfit : (layout (jobs.map Job.item)).length < 2 ^ 32) (hold : (existing.getD []).length ≤ (layout (jobs.map Job.item)).length) :
    session junk existing jobs = .ok (layout (jobs.map Job.item)) := by
  rw [session_layout junk existing jobs hj hfit, List.drop_eq_nil_of_le hold, List.append_nil]

theorem members_get : ∀ (items : List Item) (off : Nat) (k : Nat) (i : Item), items[k]? = some i → ∃ m, (members off items)[k]? = some m ∧
    m.name = i.name ∧ m.extra = i.extra ∧ m.comment = i.comment ∧ m.data = i.data := by
  intro items
  induction items with
  | nil => intro off k i h; simp at h
  | cons j items ih =>
    intro off k i h
    cases k with
    | zero =>
      simp only [List.getElem?_cons_zero, Option.some.injEq] at h
      subst h
      exact ⟨j.member off, rfl, rfl, rfl, rfl, rfl⟩
    | succ k =>
      simp only [List.getElem?_cons_succ] at h
      obtain ⟨m, hm⟩ := ih (off + (j.member off).localRecord.length) k i h
      exact ⟨m, by simpa [members] using hm⟩

/-- **C68**: what a session writes, the reader reads: entry by entry the name, the extra text, the comment and the data – whatever fresh memory
contains on either side. -/
theorem session_roundtrip (junk junk' : Byte) (existing : Option (List Byte)) (jobs : List Job) (hj : ∀ j ∈ jobs, j.source.Ok)
    (ht : ∀ j ∈ jobs, TextOk j.entry.name ∧ TextOk j.entry.extra ∧ TextOk j.entry.comment) (hc : jobs.length < 2 ^ 16)
    (hfit : (layout (jobs.map Job.item)).length < 2 ^ 32) (hold : (existing.getD []).length ≤ (layout (jobs.map Job.item)).length) :
    ∃ bytes es, session junk existing jobs = .ok bytes ∧ openZip bytes = .ok es ∧ es.length = jobs.length ∧
      ∀ (k : Nat) (j : Job), jobs[k]? = some j → ∃ e, es[k]? = some e ∧ e.name = j.entry.name ∧ e.extra = j.entry.extra ∧ e.comment = j.entry.comment ∧
        content junk' bytes e = .ok j.source.data := by
  have ha := layout_archive (jobs.map Job.item) (by
    intro i hi
    obtain ⟨j, hj', rfl⟩ := List.mem_map.1 hi
    exact ht j hj') (by simpa using hc) hfit
  obtain ⟨es, ho, _, hl, hr⟩ := reads_archive_partial junk' _ _ ha
  refine ⟨_, es, session_writes_archive junk existing jobs hj hfit hold, ho, by rw [hl, members_length, List.length_map], ?_⟩
  intro k j hk
  obtain ⟨m, hm, h1, h2, h3, h4⟩ := members_get (jobs.map Job.item) 0 k j.item (by rw [List.getElem?_map, hk]; rfl)
  obtain ⟨e, he, e1, e2, e3, _, _, e6⟩ := hr k m hm
  exact ⟨e, he, e1.trans h1, e2.trans h2, e3.trans h3, by rw [e6, h4]; rfl⟩

/-! ### a non-trivial case -/

def exJobs : List Job :=
  [⟨{ Entry.new [0x61, 0x2E, 0xE4] with comment := [0x21] }, .chunks [([1, 2, 3, 4], 1, 2), ([9], 0, 1), ([], 0, 0)]⟩, ⟨Entry.new [0x62], .file [7, 8]⟩]

example : (∀ j ∈ exJobs, j.source.Ok) ∧ (exJobs.map fun j => j.source.data) = [[2, 3, 9], [7, 8]] ∧ (layout (exJobs.map Job.item)).length < 2 ^ 32 := by
  refine ⟨?_, by decide, by decide +kernel⟩
  intro j hj
  simp only [exJobs, List.mem_cons, List.not_mem_nil, or_false] at hj
  rcases hj with rfl | rfl
  · intro c hc
    simp only [List.mem_cons, List.not_mem_nil, or_false] at hc
    rcases hc with rfl | rfl | rfl <;> decide
  · trivial

example : ∀ j ∈ exJobs, TextOk j.entry.name ∧ TextOk j.entry.extra ∧ TextOk j.entry.comment := by
  intro j hj
  simp only [exJobs, List.mem_cons, List.not_mem_nil, or_false] at hj
  rcases hj with rfl | rfl <;> refine ⟨⟨?_, ?_, ?_⟩, ⟨?_, ?_, ?_⟩, ⟨?_, ?_, ?_⟩⟩ <;> decide

/-- an archive with a deflated and a stored member, and a comment at its end -/
def exMembers : List Member :=
  [⟨[0x61], [], [0x21], 8, [1, 2, 0, 0xFD, 0xFF, 104, 105], [104, 105], 0, List.replicate 20 7, List.replicate 8 0, List.replicate 4 0, List.replicate 16 9, [0x61], []⟩,
   ⟨[0x62], [], [], 0, [5, 6], [5, 6], 38, List.replicate 20 7, List.replicate 8 0, List.replicate 4 0, List.replicate 16 9, [0x62], [1, 1, 0, 0]⟩]

def exBytes : List Byte :=
  exMembers.flatMap Member.localRecord ++ exMembers.flatMap Member.dirRecord ++ endRecord [0, 0, 0, 0, 2, 0] 2 95 75 [0x50, 0x4B, 0x21]

example : Archive exBytes exMembers := by
  have hs : ∀ m ∈ exMembers, m.Shape := by
    intro m hm
    simp only [exMembers, List.mem_cons, List.not_mem_nil, or_false] at hm
    rcases hm with rfl | rfl <;> refine ⟨⟨?_, ?_, ?_⟩, ⟨?_, ?_, ?_⟩, ⟨?_, ?_, ?_⟩, ?_, ?_, ?_, ?_, ?_⟩ <;> decide +kernel
  refine ⟨⟨75, 170, [0, 0, 0, 0, 2, 0], [0x50, 0x4B, 0x21], ⟨⟨by decide +kernel, hs, by decide +kernel, by decide, by decide +kernel, rfl, by decide, by decide +kernel, ?_,
    by decide⟩, by decide⟩⟩, ?_⟩
  · intro p h1 h2
    have hl : exBytes.length = 195 := by decide +kernel
    have : p = 171 ∨ p = 172 ∨ p = 173 := by omega
    rcases this with rfl | rfl | rfl <;> decide +kernel
  · intro m hm
    simp only [exMembers, List.mem_cons, List.not_mem_nil, or_false] at hm
    rcases hm with rfl | rfl
    · refine ⟨rfl, rfl, by decide, by decide, by decide +kernel, Or.inr ⟨rfl, [.stored [false, false, false, false, false] [104, 105]], [], ?_, ?_, ?_, ?_⟩⟩
      · decide +kernel
      · simp [Inflate.StreamOk, Inflate.Block.Ok]
      · simp [Inflate.StreamNear, Inflate.Block.Near]
      · decide
    · exact ⟨rfl, rfl, by decide, by decide, by decide +kernel, Or.inl ⟨rfl, rfl⟩⟩

end Verif.Zip
