import Verif.Zip.Props
/-
Where src/core/ZipFile.cpp and src/core/ZipOutputFile.cpp do not do what a user of ZIP files expects.
-/
namespace Verif.Zip
open Verif

/-! ### writing over an existing archive -/

/-- A shorter archive is written over an existing file without shortening it: the bytes are followed by the rest of the old file. -/
theorem overwrite_keeps_tail (junk : Byte) (old : List Byte) (jobs : List Job) (hj : ∀ j ∈ jobs, j.source.Ok)
    (hfit : (layout (jobs.map Job.item)).length < 2 ^ 32) :
    session junk (some old) jobs = .ok (layout (jobs.map Job.item) ++ old.drop (layout (jobs.map Job.item)).length) :=
  session_layout junk (some old) jobs hj hfit

/-- Violation of C68: when the new archive is shorter than the data of an old one in the same file, the reader still finds the old directory: every
entry it lists is an old one, and none of the entries just written can be found unless an old one has its name. -/
theorem overwrite_reads_old_directory (junk : Byte) (old : List Byte) (ms : List Member) (dirPos endPos : Nat) (disks comment : List Byte)
    (h : Directory old ms dirPos endPos disks comment) (jobs : List Job) (hj : ∀ j ∈ jobs, j.source.Ok)
    (hshort : (layout (jobs.map Job.item)).length ≤ dirPos) (hend : dirPos ≤ endPos) (hpos : 0 < endPos) :
    ∃ bytes, session junk (some old) jobs = .ok bytes ∧ openZip bytes = openZip old := by
  have hl := h.tail.1
  have hs := h.size
  refine ⟨_, overwrite_keeps_tail junk old jobs hj (by omega), ?_⟩
  generalize layout (jobs.map Job.item) = new at hshort
  have hdrop : ∀ p, dirPos ≤ p → (new ++ old.drop new.length).drop p = old.drop p := by
    intro p hp
    rw [List.drop_append, List.drop_eq_nil_of_le (by omega), List.nil_append, List.drop_drop]
    congr 1
    omega
  have hlen : (new ++ old.drop new.length).length = old.length := by simp; omega
  rw [openZip_ok h, openZip_ok (bytes := new ++ old.drop new.length) (ms := ms) (dirPos := dirPos) (endPos := endPos) (disks := disks) (comment := comment)]
  refine ⟨⟨by omega, h.shape, h.dirSize, h.dirPosLt, by rw [hdrop _ (Nat.le_refl _)]; exact h.dir, h.disksLen, h.commentLen,
    ⟨by omega, by rw [hdrop _ hend]; exact h.tail.2⟩, ?_, h.front⟩, h.count⟩
  intro p h1 h2
  rw [hdrop p (by omega)]
  exact h.last p h1 (by omega)

def bigJobs : List Job := [⟨Entry.new [0x61], .file (List.replicate 70 1)⟩]
def smallJobs : List Job := [⟨Entry.new [0x62], .file [2]⟩]

/-- The case exists: first an archive with "a", then over it an archive with "b"; the reader finds "a" only. -/
theorem overwrite_example : ∃ old new, session 0 none bigJobs = .ok old ∧ session 0 (some old) smallJobs = .ok new ∧
    ∃ es, openZip new = .ok es ∧ es.map Entry.name = [[0x61]] ∧ entry es [0x62] = none := by
  have hb : ∀ j ∈ bigJobs, j.source.Ok := by intro j hj; simp only [bigJobs, List.mem_singleton] at hj; subst hj; trivial
  have hs : ∀ j ∈ smallJobs, j.source.Ok := by intro j hj; simp only [smallJobs, List.mem_singleton] at hj; subst hj; trivial
  have hr := layout_records (bigJobs.map Job.item) (by
      intro i hi
      simp only [bigJobs, List.map_cons, List.map_nil, List.mem_singleton] at hi
      subst hi
      refine ⟨⟨?_, ?_, ?_⟩, ⟨?_, ?_, ?_⟩, ⟨?_, ?_, ?_⟩⟩ <;> decide +kernel) (by decide +kernel)
  have hd : Directory _ _ _ _ _ _ := ⟨hr, by decide⟩
  obtain ⟨new, h1, h2⟩ := overwrite_reads_old_directory 0 _ _ _ _ _ _ hd smallJobs hs (by decide +kernel) (Nat.le_add_right _ _) (by decide +kernel)
  refine ⟨_, new, session_writes_archive 0 none bigJobs hb (by decide +kernel) (by simp), h1, (members 0 (bigJobs.map Job.item)).map Member.entry, ?_, by decide +kernel, by decide +kernel⟩
  rw [h2, openZip_ok hd]

/-! ### too many entries -/

/-- Violation of C68: 65536 entries are written, and the reader finds none: the number is stored in two bytes. -/
theorem many_entries_lost (junk : Byte) (jobs : List Job) (hj : ∀ j ∈ jobs, j.source.Ok)
    (ht : ∀ j ∈ jobs, TextOk j.entry.name ∧ TextOk j.entry.extra ∧ TextOk j.entry.comment) (hc : jobs.length = 2 ^ 16)
    (hfit : (layout (jobs.map Job.item)).length < 2 ^ 32) : ∃ bytes, session junk none jobs = .ok bytes ∧ openZip bytes = .ok [] := by
  refine ⟨_, session_writes_archive junk none jobs hj hfit (by simp), ?_⟩
  have hr := layout_records (jobs.map Job.item) (by
    intro i hi
    obtain ⟨j, hj', rfl⟩ := List.mem_map.1 hi
    exact ht j hj') hfit
  rw [openZip_gen hr, members_length, List.length_map, hc]
  rfl

theorem lengths_replicate (i : Item) (n off : Nat) :
    ((members off (List.replicate n i)).flatMap Member.localRecord).length = n * (30 + (utf8 i.name).length + (utf8 i.extra).length + i.data.length) ∧
    ((members off (List.replicate n i)).flatMap Member.dirRecord).length = n * (46 + (utf8 i.name).length + (utf8 i.extra).length + (utf8 i.comment).length) := by
  induction n generalizing off with
  | zero => simp [members]
  | succ n ih =>
    have hd : (i.member off).dirRecord.length = 46 + (utf8 i.name).length + (utf8 i.extra).length + (utf8 i.comment).length := by
      rw [dir_eq]; simp [le_length]; omega
    have := ih (off + (i.member off).localRecord.length)
    rw [local_length] at this
    simp only [List.replicate_succ, members, List.flatMap_cons, List.length_append, this.1, this.2, local_length, hd]
    rw [Nat.succ_mul, Nat.succ_mul]
    exact ⟨Nat.add_comm _ _, Nat.add_comm _ _⟩

/-- there are such sessions -/
example : ∃ jobs : List Job, (∀ j ∈ jobs, j.source.Ok) ∧ (∀ j ∈ jobs, TextOk j.entry.name ∧ TextOk j.entry.extra ∧ TextOk j.entry.comment) ∧
    jobs.length = 2 ^ 16 ∧ (layout (jobs.map Job.item)).length < 2 ^ 32 := by
  refine ⟨List.replicate (2 ^ 16) ⟨Entry.new [0x61], .file [1]⟩, ?_, ?_, List.length_replicate, ?_⟩
  · intro j hj
    rw [List.eq_of_mem_replicate hj]
    trivial
  · intro j hj
    rw [List.eq_of_mem_replicate hj]
    refine ⟨⟨?_, ?_, ?_⟩, ⟨?_, ?_, ?_⟩, ⟨?_, ?_, ?_⟩⟩ <;> decide
  · rw [layout_length, List.map_replicate, (lengths_replicate _ _ _).1, (lengths_replicate _ _ _).2]
    decide

/-! ### the search for the end record -/

theorem search_none {bytes : List Byte} : ∀ (n : Nat) (buf : List Byte) (hb : buf.length = 23), buf[22] = 0 → n + 22 ≤ bytes.length → n < 2 ^ 32 →
    (∀ p, 0 < p → p ≤ n → ¬ le 4 0x06054b50 <+: bytes.drop p) → search bytes n buf = .ok none := by
  intro n
  induction n with
  | zero => intros; rfl
  | succ n ih =>
    intro buf hb h0 hle hn hno
    rw [search_step n buf hb h0 (n + 1) (u32_small hn) (by omega), if_neg (hno _ (by omega) (Nat.le_refl _))]
    have hl : ((bytes.drop (n + 1)).take 22).length = 22 := by simp; omega
    exact ih _ (by rw [List.length_append, hl]; rfl) (by rw [List.getElem_append_right (by omega)]; simp [hl]) (by omega) (by omega)
      (fun p h1 h2 => hno p h1 (by omega))

/-- Violation of C47: an archive without members and with a comment is rejected: the beginning of the file is never looked at. -/
theorem leading_end_record_missed (disks comment : List Byte) (hd : disks.length = 6) (hc : comment ≠ []) (hcl : comment.length < 2 ^ 16)
    (hno : ∀ p, 0 < p → p ≤ comment.length → ¬ le 4 0x06054b50 <+: (endRecord disks 0 0 0 comment).drop p) :
    openZip (endRecord disks 0 0 0 comment) = .error .thrown := by
  have hl := endRecord_length disks 0 0 0 comment hd
  have h0 : 0 < comment.length := List.length_pos_iff.2 hc
  unfold openZip
  rw [u32_small (by omega), if_neg (by omega)]
  have hr : rounds (endRecord disks 0 0 0 comment).length = comment.length := by
    unfold rounds
    rw [hl, u32_small (n := 22 + comment.length) (by omega)]
    have : u32 (22 + comment.length + (2 ^ 32 - 22)) = comment.length := by unfold u32; omega
    rw [this, if_neg (by omega)]
  rw [hr, search_none _ _ (by simp [zeros]) zeros_last (by omega) (by omega) hno, bind_ok]

example : ∃ disks comment : List Byte, disks.length = 6 ∧ comment ≠ [] ∧ comment.length < 2 ^ 16 ∧
    ∀ p, 0 < p → p ≤ comment.length → ¬ le 4 0x06054b50 <+: (endRecord disks 0 0 0 comment).drop p := by
  refine ⟨List.replicate 6 0, [0x68, 0x69], rfl, by simp, by decide, ?_⟩
  intro p h1 h2
  have h2' : p ≤ 2 := h2
  have : p = 1 ∨ p = 2 := by omega
  rcases this with rfl | rfl <;> decide +kernel

/-- a round of the search behind the end of the file changes nothing -/
theorem search_beyond {bytes : List Byte} (buf : List Byte) (v : BitVec 32) (hv : Serializer.deserializeLE32 buf 0 = .ok v) (hne : v ≠ 0x06054b50) :
    ∀ d, bytes.length + d < 2 ^ 32 → search bytes (bytes.length + d) buf = search bytes (bytes.length - 1) buf ∨ bytes.length = 0 := by
  intro d
  by_cases h0 : bytes.length = 0
  · intro _; exact Or.inr h0
  have hbey : ∀ n, bytes.length ≤ n + 1 → n + 1 < 2 ^ 32 → search bytes (n + 1) buf = search bytes n buf := by
    intro n h1 h2
    have hr : readInto bytes (u32 (n + 1)) buf = buf := by
      rw [u32_small h2]
      unfold readInto
      rw [List.drop_eq_nil_of_le h1]
      simp
    rw [search]
    simp only [hr, hv, bind, Except.bind]
    rw [if_neg hne]
  intro hd
  refine Or.inl ?_
  induction d with
  | zero =>
    obtain ⟨n, hn⟩ : ∃ n, bytes.length = n + 1 := ⟨bytes.length - 1, by omega⟩
    rw [Nat.add_zero, hn, hbey n (by omega) (by omega), Nat.add_sub_cancel]
  | succ d ih =>
    rw [← Nat.add_assoc, hbey _ (by omega) (by omega)]
    exact ih (by omega)

/-- Violation of C47 (the file is searched in at most as many rounds as it has bytes): with 1 to 21 bytes the search makes more than four thousand
million rounds. -/
theorem short_file_rounds (n : Nat) (h0 : 0 < n) (h : n < 22) : rounds n = 2 ^ 32 - 22 + n := by
  unfold rounds u32
  have : (n % 2 ^ 32 + (2 ^ 32 - 22)) % 2 ^ 32 = 2 ^ 32 - 22 + n := by omega
  simp only [this]
  rw [if_neg (by omega)]

/-- Violation of C47 (what is no archive is rejected): five bytes are accepted as an archive without entries. -/
theorem garbage_accepted : openZip [0, 0x50, 0x4B, 0x05, 0x06] = .ok [] := by
  unfold openZip
  rw [if_neg (by decide)]
  have hr : rounds ([0, 0x50, 0x4B, 0x05, 0x06] : List Byte).length = ([0, 0x50, 0x4B, 0x05, 0x06] : List Byte).length + (2 ^ 32 - 22) := by
    rw [short_file_rounds _ (by decide) (by decide)]
    show 2 ^ 32 - 22 + 5 = 5 + (2 ^ 32 - 22)
    omega
  have hz : Serializer.deserializeLE32 (zeros 22) 0 = .ok 0 := by decide
  have hs := (search_beyond (bytes := [0, 0x50, 0x4B, 0x05, 0x06]) (zeros 22) 0 hz (by decide) (2 ^ 32 - 22) (by
    show 5 + (2 ^ 32 - 22) < 2 ^ 32
    omega)).resolve_right (by decide)
  rw [hr, hs]
  decide +kernel

/-! ### records that do not fit -/

/-- Violation of C47 and of memory safety: extra fields are binary; one that ends with a byte above 0xC0 makes `open` read outside its buffer. -/
theorem binary_extra_ub : openZip (List.replicate 28 7 ++ (List.replicate 20 7 ++ le 4 0 ++ le 4 0 ++ le 2 1 ++ le 2 5 ++ le 2 0 ++ List.replicate 8 0 ++ le 4 0 ++ [0x61] ++
    [0x55, 0x54, 0x01, 0x05, 0xC3]) ++ endRecord (List.replicate 6 0) 1 52 28 []) = .error .ub := by decide +kernel

/-- Violation of memory safety: a directory with fewer bytes than its number of entries needs is read behind its end, for every truncated record. -/
theorem short_directory_ub : openZip ([7, 7] ++ endRecord (List.replicate 6 0) 1 2 0 []) = .error .ub := by decide +kernel

/-- Violation of memory safety: a stored entry whose packed size is larger than its size is copied behind the end of the new block. -/
theorem stored_overflow_ub (junk : Byte) (e : Entry) (input : List Byte) (h : e.uncompressedSize.toNat < e.compressedSize.toNat) :
    unpack junk 0 e input = .error .ub := by
  unfold unpack MemStream.memcpy
  rw [if_pos rfl, if_neg (by simp only [List.length_replicate]; omega)]
  rfl

example : ∃ e : Entry, e.uncompressedSize.toNat < e.compressedSize.toNat := ⟨{ Entry.new [] with compressedSize := 1 }, by decide⟩

/-- Violation of C47 and of memory safety: an entry with another method than 0 and 8 has a stream without memory; reading it is undefined. -/
theorem unknown_method_ub (junk : Byte) (cm : Nat) (h0 : cm ≠ 0) (h8 : cm ≠ 8) (e : Entry) (input : List Byte) (hpos : 0 < e.uncompressedSize.toNat) :
    unpack junk cm e input = .ok none ∧ readAll junk none e.uncompressedSize.toNat = .error .ub := by
  have hlt := e.uncompressedSize.isLt
  generalize e.uncompressedSize.toNat = n at *
  refine ⟨by rw [unpack, if_neg h0, if_neg h8], ?_⟩
  unfold readAll MemStream.MS.read
  have ha : (MemStream.MS.new ((none : Option (List Byte)).getD []) n).available n = .ok (n : Int) := by
    unfold MemStream.MS.available MemStream.MS.new MemStream.i64
    rw [if_pos (by simp; omega)]
    simp only [bind, Except.bind]
    rw [if_neg (by omega), if_pos (by simp; omega)]
    simp
  rw [ha]
  simp only [bind, Except.bind, pure, Except.pure]
  rw [if_pos (by omega)]
  unfold MemStream.memcpy
  rw [if_neg]
  simp [MemStream.MS.new]
  omega

/-- Violation of C47: an entry that stores fewer bytes than its size gives a stream that shows whatever the memory contained before. -/
theorem short_entry_leaks (junk : Byte) (data : List Byte) (n : Nat) (e : Entry) (hu : e.uncompressedSize.toNat = data.length + n) (hc : e.compressedSize.toNat = data.length) :
    unpack junk 0 e (data ++ [0]) = .ok (some (data ++ List.replicate n junk)) := by
  unfold unpack MemStream.memcpy
  rw [if_pos rfl, hu, hc, if_pos (by simp; omega)]
  simp only [bind, Except.bind, pure, Except.pure]
  congr 2
  simp

/-- Violation of C47 (damage is reported): the CRC in an archive is not looked at: this archive has a wrong one, and reads without an error. -/
theorem crc_not_checked : ∃ bytes m, Archive bytes [m] ∧ (∀ crc, m.dirHead.drop 16 = le 4 crc → BitVec.ofNat 32 crc ≠ stdCrc m.data) ∧
    ∃ e, openZip bytes = .ok [e] ∧ content 0 bytes e = .ok m.data := by
  let m : Member := ⟨[0x61], [], [], 0, [1, 2], [1, 2], 0, le 4 0x02014b50 ++ List.replicate 16 0, List.replicate 8 0, List.replicate 4 0, List.replicate 16 0, [0x61], []⟩
  let bytes : List Byte := m.localRecord ++ m.dirRecord ++ endRecord (List.replicate 6 0) 1 47 33 []
  have ha : Archive bytes [m] := by
    refine ⟨⟨33, 80, List.replicate 6 0, [], ⟨⟨by decide +kernel, ?_, by decide +kernel, by decide, by decide +kernel, rfl, by decide, by decide +kernel, ?_, by decide⟩, by decide⟩⟩, ?_⟩
    · intro x hx
      simp only [List.mem_singleton] at hx
      subst hx
      refine ⟨⟨?_, ?_, ?_⟩, ⟨?_, ?_, ?_⟩, ⟨?_, ?_, ?_⟩, ?_, ?_, ?_, ?_, ?_⟩ <;> decide +kernel
    · intro p h1 h2
      have : bytes.length = 102 := by decide +kernel
      omega
    · intro x hx
      simp only [List.mem_singleton] at hx
      subst hx
      exact ⟨rfl, rfl, by decide, by decide, by decide +kernel, Or.inl ⟨rfl, rfl⟩⟩
  refine ⟨bytes, m, ha, ?_, ?_⟩
  · intro crc h
    have h0 : m.dirHead.drop 16 = Serializer.Spec.leBytes 4 (0 : BitVec 32) := by decide +kernel
    rw [h0] at h
    have h1 := Serializer.deserializeLE32_spec [] [] (0 : BitVec 32) (by simp [Serializer.Spec.leBytes])
    have h2 := Serializer.deserializeLE32_spec [] [] (BitVec.ofNat 32 crc) (by simp [Serializer.Spec.leBytes])
    rw [h] at h1
    have h3 : le 4 crc = Serializer.Spec.leBytes 4 (BitVec.ofNat 32 crc) := rfl
    rw [h3, h2] at h1
    injection h1 with h1
    rw [h1]
    decide +kernel
  · obtain ⟨es, h1, _, h3, h4⟩ := reads_archive_partial 0 bytes [m] ha
    obtain ⟨e, he, _, _, _, _, _, hc⟩ := h4 0 m rfl
    match es, h3 with
    | [x], _ =>
      simp only [List.getElem?_cons_zero, Option.some.injEq] at he
      subst he
      exact ⟨x, h1, hc⟩

end Verif.Zip
