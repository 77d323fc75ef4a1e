import Verif.Zip.WriteLemmas
/-
A whole session with `ZipOutputFile`.
-/
namespace Verif.Zip
open Verif

/-- how a client gives the data of an entry: by calls `write(data, offset, length)` and `closeEntry()`, or by `writeAndClose(file)` -/
inductive Source where
  | chunks (l : List (List Byte × Nat × Nat))
  | file (src : List Byte)

def chunk (c : List Byte × Nat × Nat) : List Byte := (c.1.drop c.2.1).take c.2.2

def Source.data : Source → List Byte
  | .chunks l => l.flatMap chunk
  | .file src => src

/-- the calls stay inside the caller's buffers -/
def Source.Ok : Source → Prop
  | .chunks l => ∀ c ∈ l, c.2.1 + c.2.2 ≤ c.1.length
  | .file _ => True

def Source.ops : Source → List Op
  | .chunks l => l.map (fun c => Op.write c.1 c.2.1 c.2.2) ++ [.closeEntry]
  | .file src => [.writeAndClose src]

/-- one entry of a session: the object given to `putNextEntry` and its data -/
structure Job where
  entry : Entry
  source : Source

def Job.ops (j : Job) : List Op := .put j.entry :: j.source.ops

def Job.item (j : Job) : Item := ⟨j.entry.name, j.entry.extra, j.entry.comment, j.source.data⟩

/-- the whole session: `open`, the entries, `close`; the bytes of the file afterwards -/
def session (junk : Byte) (existing : Option (List Byte)) (jobs : List Job) : Res (List Byte) := do
  let z ← run junk (openOut existing) (jobs.flatMap Job.ops)
  closeOut junk z

/-! ### lemmas -/

theorem run_append (junk : Byte) : ∀ (a b : List Op) (z : ZipOut), run junk z (a ++ b) = (run junk z a >>= fun z => run junk z b) := by
  intro a
  induction a with
  | nil => intro b z; rfl
  | cons o a ih =>
    intro b z
    rw [List.cons_append, run, run]
    cases h : step junk z o with
    | error e => rfl
    | ok z1 => rw [bind_ok, bind_ok, ih]

theorem encode_utf8 (t : List Ch) : Charset.utf8Encode t = .ok (utf8 t) := Charset.utf8Encode_eq t

/-- the bytes of a new entry before its data -/
def Item.head (i : Item) : List Byte :=
  le 4 0x04034b50 ++ List.replicate 22 0 ++ le 2 (utf8 i.name).length ++ le 2 (utf8 i.extra).length ++ utf8 i.name ++ utf8 i.extra

theorem head_length (i : Item) : i.head.length = 30 + (utf8 i.name).length + (utf8 i.extra).length := by
  simp [Item.head, le_length]; omega

theorem local_length (i : Item) (off : Nat) : (i.member off).localRecord.length = 30 + (utf8 i.name).length + (utf8 i.extra).length + i.data.length := by
  simp [Member.localRecord, Item.member, le_length]; omega

theorem put_ok (junk : Byte) (old new : List Byte) (z : ZipOut) (hz : On old z.file new) (e : Entry) (i : Item) (hn : i.name = e.name) (hx : i.extra = e.extra) :
    ∃ f, putNextEntry junk z e = .ok ⟨f, some ⟨[], 0⟩, z.entries ++
        [{ e with headerOffset := .ofNat 32 new.length, dataOffset := .ofNat 32 (new.length + i.head.length) }]⟩ ∧ On old f (new ++ i.head) := by
  unfold putNextEntry
  rw [encode_utf8, encode_utf8, bind_ok, bind_ok, lfh_ok, bind_ok]
  have h1 := on_write (on_write (on_write hz (le 4 0x04034b50 ++ List.replicate 22 0 ++ le 2 (utf8 e.name).length ++ le 2 (utf8 e.extra).length)) (utf8 e.name)) (utf8 e.extra)
  have e1 : new ++ (le 4 0x04034b50 ++ List.replicate 22 0 ++ le 2 (utf8 e.name).length ++ le 2 (utf8 e.extra).length) ++ utf8 e.name ++ utf8 e.extra = new ++ i.head := by
    rw [Item.head, hn, hx]
    simp only [List.append_assoc]
  rw [e1] at h1
  refine ⟨_, ?_, h1⟩
  have h2 : (((z.file.write (le 4 0x04034b50 ++ List.replicate 22 0 ++ le 2 (utf8 e.name).length ++ le 2 (utf8 e.extra).length)).write (utf8 e.name)).write (utf8 e.extra)).pos = new.length + i.head.length := by
    rw [h1.2, List.length_append]
  simp only [pure, Except.pure]
  rw [h2, hz.2]

theorem writes_ok (junk : Byte) : ∀ (l : List (List Byte × Nat × Nat)) (f : FS) (es : List Entry) (d : List Byte), (∀ c ∈ l, c.2.1 + c.2.2 ≤ c.1.length) →
    run junk ⟨f, some ⟨d, d.length⟩, es⟩ (l.map fun c => Op.write c.1 c.2.1 c.2.2) =
      .ok ⟨f, some ⟨d ++ l.flatMap chunk, (d ++ l.flatMap chunk).length⟩, es⟩ := by
  intro l
  induction l with
  | nil => intro f es d _; simp [run]
  | cons c l ih =>
    intro f es d h
    have hc := h c List.mem_cons_self
    have hs : step junk ⟨f, some ⟨d, d.length⟩, es⟩ (Op.write c.1 c.2.1 c.2.2) = .ok ⟨f, some ⟨d ++ chunk c, (d ++ chunk c).length⟩, es⟩ := by
      rw [step]
      unfold writeOut
      simp only []
      rw [if_pos (by omega)]
      have hw := on_write (old := []) (f := ⟨d, d.length⟩) (new := d) (by simp [On]) ((c.1.drop c.2.1).take c.2.2)
      obtain ⟨h1, h2⟩ := hw
      have : FS.write ⟨d, d.length⟩ ((c.1.drop c.2.1).take c.2.2) = ⟨d ++ chunk c, (d ++ chunk c).length⟩ := by
        rw [List.drop_nil, List.append_nil] at h1
        cases hh : FS.write ⟨d, d.length⟩ ((c.1.drop c.2.1).take c.2.2) with
        | mk b p =>
          rw [hh] at h1 h2
          simp only at h1 h2
          rw [h1, h2]
          rfl
      simp only [Int.toNat_natCast, this]
    rw [List.map_cons, run, hs, bind_ok, ih _ _ _ (fun x hx => h x (List.mem_cons_of_mem _ hx))]
    simp

/-- the entry after `closeEntry` -/
def Item.out (i : Item) (off : Nat) : Entry :=
  ⟨i.name, i.extra, i.comment, .ofNat 32 i.data.length, .ofNat 32 i.data.length, .ofNat 32 off, stdCrc i.data, .ofNat 32 (off + i.head.length)⟩

theorem local_eq (i : Item) (off : Nat) : (i.member off).localRecord =
    (le 4 0x04034b50 ++ List.replicate 10 0) ++ (le 4 (stdCrc i.data).toNat ++ le 4 i.data.length ++ le 4 i.data.length) ++
      (le 2 (utf8 i.name).length ++ le 2 (utf8 i.extra).length ++ utf8 i.name ++ utf8 i.extra ++ i.data) := by
  simp only [Member.localRecord, Item.member, List.append_assoc]
  have : le 2 0 = List.replicate 2 0 := by decide
  rw [this]
  simp [List.replicate]

theorem head_eq (i : Item) : i.head ++ i.data = (le 4 0x04034b50 ++ List.replicate 10 0) ++ List.replicate 12 0 ++
      (le 2 (utf8 i.name).length ++ le 2 (utf8 i.extra).length ++ utf8 i.name ++ utf8 i.extra ++ i.data) := by
  simp only [Item.head, List.append_assoc]
  simp [List.replicate]

theorem finish_ok (junk : Byte) (old new : List Byte) (z : ZipOut) (i : Item) (hz : On old z.file (new ++ i.head)) (es : List Entry) (e : Entry)
    (he : z.entries.dropLast = es) (hfit : (new ++ i.head ++ i.data).length < 2 ^ 32)
    (h1 : e.headerOffset = .ofNat 32 new.length) (h2 : e.uncompressedSize = .ofNat 32 i.data.length) (buffer : List Byte) (hb : buffer.take i.data.length = i.data) :
    ∃ f, finish junk z e buffer = .ok ⟨f, none, es ++ [{ e with crc := stdCrc i.data, compressedSize := e.uncompressedSize }]⟩ ∧
      On old f (new ++ (i.member new.length).localRecord) := by
  simp only [List.length_append] at hfit
  have hd : i.data.length < 2 ^ 32 := by omega
  have ht : e.uncompressedSize.toNat = i.data.length := by rw [h2]; exact ofNat_toNat32 hd
  have ho : e.headerOffset.toNat = new.length := by rw [h1]; exact ofNat_toNat32 (by omega)
  unfold finish
  have hw := on_write hz i.data
  simp only [ht, hb, crc32_ok, ho]
  rw [fragment_ok, bind_ok]
  have hpos : u32 (z.file.write i.data).pos = (new ++ i.head ++ i.data).length := by
    rw [hw.2]; exact u32_small (by simp only [List.length_append]; omega)
  simp only [pure, Except.pure, ht, hpos, he]
  refine ⟨_, rfl, ?_⟩
  have h14 : u32 (new.length + 14) = (new ++ (le 4 0x04034b50 ++ List.replicate 10 0)).length := by
    rw [u32_small (by have := head_length i; omega)]
    simp [le_length]
  have hbytes : (z.file.write i.data).bytes = (new ++ (le 4 0x04034b50 ++ List.replicate 10 0)) ++ List.replicate 12 0 ++
      ((le 2 (utf8 i.name).length ++ le 2 (utf8 i.extra).length ++ utf8 i.name ++ utf8 i.extra ++ i.data) ++ old.drop (new ++ i.head ++ i.data).length) := by
    rw [hw.1, List.append_assoc new, head_eq]
    simp only [List.append_assoc]
  have hs : (z.file.write i.data).seek (u32 (new.length + 14)) = ⟨(new ++ (le 4 0x04034b50 ++ List.replicate 10 0)) ++ List.replicate 12 0 ++
      ((le 2 (utf8 i.name).length ++ le 2 (utf8 i.extra).length ++ utf8 i.name ++ utf8 i.extra ++ i.data) ++ old.drop (new ++ i.head ++ i.data).length),
      (new ++ (le 4 0x04034b50 ++ List.replicate 10 0)).length⟩ := by
    unfold FS.seek
    rw [hbytes, h14]
  rw [hs, write_middle _ _ _ _ (by
      intro hh
      have := congrArg List.length hh
      simp [le_length] at this) (by simp [le_length])]
  have hl : (new ++ (i.member new.length).localRecord).length = (new ++ i.head ++ i.data).length := by
    simp only [List.length_append, local_length, head_length]; omega
  refine ⟨?_, ?_⟩
  · rw [hl, local_eq]
    simp only [FS.seek, List.append_assoc]
  · rw [hl]; rfl

theorem job_ok (junk : Byte) (old new : List Byte) (z : ZipOut) (hz : On old z.file new) (j : Job) (hj : j.source.Ok)
    (hfit : (new ++ (j.item.member new.length).localRecord).length < 2 ^ 32) :
    ∃ f, run junk z j.ops = .ok ⟨f, none, z.entries ++ [j.item.out new.length]⟩ ∧ On old f (new ++ (j.item.member new.length).localRecord) := by
  obtain ⟨f1, hp, hon⟩ := put_ok junk old new z hz j.entry j.item rfl rfl
  have hfit' : (new ++ j.item.head ++ j.item.data).length < 2 ^ 32 := by
    simp only [List.length_append, local_length, head_length] at hfit ⊢; omega
  have hdl : j.item.data.length < 2 ^ 32 := by
    simp only [List.length_append] at hfit'; omega
  rw [Job.ops, run]
  rw [show step junk z (Op.put j.entry) = _ from hp, bind_ok]
  obtain ⟨e1, he1⟩ : ∃ e1 : Entry, e1 = { j.entry with headerOffset := .ofNat 32 new.length, dataOffset := .ofNat 32 (new.length + j.item.head.length) } := ⟨_, rfl⟩
  rw [← he1]
  have hlast : (z.entries ++ [e1]).getLast? = some e1 := by simp
  have hbuf : (readInto j.item.data 0 (zeros j.item.data.length)).take j.item.data.length = j.item.data := by
    rw [readInto_prefix (w := j.item.data) (by simp)]
    simp
  have hz1 : On old f1 (new ++ j.item.head) := hon
  obtain ⟨e2, he2⟩ : ∃ e2 : Entry, e2 = { e1 with uncompressedSize := BitVec.ofNat 32 j.item.data.length } := ⟨_, rfl⟩
  have hout : ({ e2 with crc := stdCrc j.item.data, compressedSize := e2.uncompressedSize } : Entry) = j.item.out new.length := by
    subst he2; subst he1; rfl
  have h1 : e2.headerOffset = .ofNat 32 new.length := by rw [he2, he1]
  have h2 : e2.uncompressedSize = .ofNat 32 j.item.data.length := by rw [he2]
  have h3 : (BitVec.ofNat 32 j.item.data.length).toNat = j.item.data.length := ofNat_toNat32 hdl
  cases hs : j.source with
  | chunks l =>
    have hdat : j.item.data = l.flatMap chunk := by rw [Job.item, hs]; rfl
    rw [hs] at hj
    rw [Source.ops, run_append, show (some ⟨[], 0⟩ : Option FS) = some ⟨[], ([] : List Byte).length⟩ from rfl, writes_ok junk l f1 _ [] hj, bind_ok]
    rw [List.nil_append, ← hdat]
    obtain ⟨f, hf, hon2⟩ := finish_ok junk old new ⟨f1, some ⟨j.item.data, j.item.data.length⟩, z.entries ++ [e1]⟩ j.item hz1 z.entries
      e2 (by simp) hfit' h1 h2 _ hbuf
    refine ⟨f, ?_, hon2⟩
    rw [run, step, closeEntry]
    simp only [hlast]
    rw [← he2, h3, hf, hout, bind_ok]
    rfl
  | file src =>
    have hdat : j.item.data = src := by rw [Job.item, hs]; rfl
    obtain ⟨f, hf, hon2⟩ := finish_ok junk old new ⟨f1, some ⟨[], 0⟩, z.entries ++ [e1]⟩ j.item hz1 z.entries
      e2 (by simp) hfit' h1 h2 _ hbuf
    refine ⟨f, ?_, hon2⟩
    rw [Source.ops, run, step, writeAndClose]
    simp only [hlast]
    rw [← hdat, ← he2, h3, hf, hout, bind_ok]
    rfl

/-- the entries of a session -/
def outs : Nat → List Item → List Entry
  | _, [] => []
  | off, i :: is => i.out off :: outs (off + (i.member off).localRecord.length) is

theorem run_jobs (junk : Byte) (old : List Byte) : ∀ (jobs : List Job) (new : List Byte) (z : ZipOut), On old z.file new → (∀ j ∈ jobs, j.source.Ok) →
    (new ++ (members new.length (jobs.map Job.item)).flatMap Member.localRecord).length < 2 ^ 32 →
    ∃ f t, run junk z (jobs.flatMap Job.ops) = .ok ⟨f, t, z.entries ++ outs new.length (jobs.map Job.item)⟩ ∧
      On old f (new ++ (members new.length (jobs.map Job.item)).flatMap Member.localRecord) := by
  intro jobs
  induction jobs with
  | nil => intro new z hz _ _; exact ⟨z.file, z.temp, by simp [run, outs], by simpa [members] using hz⟩
  | cons j jobs ih =>
    intro new z hz hj hfit
    have hnl : (new ++ (j.item.member new.length).localRecord).length = new.length + (j.item.member new.length).localRecord.length := List.length_append
    simp only [List.map_cons, members, List.flatMap_cons, ← List.append_assoc, ← hnl] at hfit ⊢
    obtain ⟨f, hr, hon⟩ := job_ok junk old new z hz j (hj j List.mem_cons_self) (by
      rw [List.length_append] at hfit; omega)
    rw [run_append, hr, bind_ok]
    obtain ⟨f2, t2, hr2, hon2⟩ := ih (new ++ (j.item.member new.length).localRecord) ⟨f, none, z.entries ++ [j.item.out new.length]⟩ hon
      (fun x hx => hj x (List.mem_cons_of_mem _ hx)) hfit
    refine ⟨f2, t2, ?_, hon2⟩
    rw [hr2, outs, ← hnl]
    simp

theorem dir_eq (i : Item) (off : Nat) : (i.member off).dirRecord = le 4 0x02014b50 ++ List.replicate 12 0 ++ le 4 (stdCrc i.data).toNat ++
      le 4 i.data.length ++ le 4 i.data.length ++ le 2 (utf8 i.name).length ++ le 2 (utf8 i.extra).length ++ le 2 (utf8 i.comment).length ++ List.replicate 8 0 ++
      le 4 off ++ utf8 i.name ++ utf8 i.extra ++ utf8 i.comment := by
  simp only [Member.dirRecord, Item.member, List.append_assoc]

theorem writeDir_ok (junk : Byte) (old : List Byte) : ∀ (items : List Item) (off : Nat) (new : List Byte) (f : FS), On old f new →
    off + ((members off items).flatMap Member.localRecord).length < 2 ^ 32 →
    ∃ f', writeDir junk (outs off items) f = .ok f' ∧ On old f' (new ++ (members off items).flatMap Member.dirRecord) := by
  intro items
  induction items with
  | nil => intro off new f hf _; exact ⟨f, rfl, by simpa [members] using hf⟩
  | cons i items ih =>
    intro off new f hf hfit
    simp only [members, List.flatMap_cons, List.length_append] at hfit
    have hl := local_length i off
    have d1 : (i.out off).uncompressedSize.toNat = i.data.length := ofNat_toNat32 (by omega)
    have d2 : (i.out off).compressedSize.toNat = i.data.length := ofNat_toNat32 (by omega)
    have d3 : (i.out off).headerOffset.toNat = off := ofNat_toNat32 (by omega)
    have d4 : (i.out off).crc = stdCrc i.data := rfl
    rw [outs, writeDir, encode_utf8, encode_utf8, encode_utf8, bind_ok, bind_ok, bind_ok, cdfh_ok, bind_ok, d1, d2, d3, d4]
    have hw := on_write (on_write (on_write (on_write hf (le 4 0x02014b50 ++ List.replicate 12 0 ++ le 4 (stdCrc i.data).toNat ++
      le 4 i.data.length ++ le 4 i.data.length ++ le 2 (utf8 i.name).length ++ le 2 (utf8 i.extra).length ++ le 2 (utf8 i.comment).length ++ List.replicate 8 0 ++
      le 4 off)) (utf8 i.name)) (utf8 i.extra)) (utf8 i.comment)
    obtain ⟨f', h1, h2⟩ := ih (off + (i.member off).localRecord.length) _ _ hw (by omega)
    refine ⟨f', h1, ?_⟩
    rw [members, List.flatMap_cons, dir_eq]
    simp only [List.append_assoc] at h2 ⊢
    exact h2

theorem outs_length : ∀ (items : List Item) (off : Nat), (outs off items).length = items.length := by
  intro items
  induction items with
  | nil => intro _; rfl
  | cons i items ih => intro off; simp [outs, ih]

theorem members_length : ∀ (items : List Item) (off : Nat), (members off items).length = items.length := by
  intro items
  induction items with
  | nil => intro _; rfl
  | cons i items ih => intro off; simp [members, ih]

theorem session_layout (junk : Byte) (existing : Option (List Byte)) (jobs : List Job) (hj : ∀ j ∈ jobs, j.source.Ok)
    (hfit : (layout (jobs.map Job.item)).length < 2 ^ 32) :
    session junk existing jobs = .ok (layout (jobs.map Job.item) ++ (existing.getD []).drop (layout (jobs.map Job.item)).length) := by
  obtain ⟨items, hitems⟩ : ∃ items, items = jobs.map Job.item := ⟨_, rfl⟩
  have hlay : (layout items).length = ((members 0 items).flatMap Member.localRecord).length + ((members 0 items).flatMap Member.dirRecord).length + 22 := by
    unfold layout
    simp only [List.length_append]
    rw [endRecord_length _ _ _ _ _ (by simp [le_length])]
    rfl
  rw [← hitems] at hfit ⊢
  unfold session
  obtain ⟨f, t, hr, hon⟩ := run_jobs junk (existing.getD []) jobs [] (openOut existing) (by simp [On, openOut]) hj (by
    rw [← hitems, List.nil_append, List.length_nil]; omega)
  rw [← hitems] at hr hon
  rw [hr, bind_ok]
  unfold closeOut
  simp only [openOut, List.nil_append, List.length_nil] at hon ⊢
  obtain ⟨f2, hr2, hon2⟩ := writeDir_ok junk (existing.getD []) items 0 _ f hon (by omega)
  rw [hr2, bind_ok, outs_length, hon.2, hon2.2, List.length_append, eocd_ok _ _ _ _ (by omega) (by omega), bind_ok]
  have h3 := on_write hon2 (endRecord (List.replicate 4 0 ++ le 2 items.length) items.length (((members 0 items).flatMap Member.localRecord).length + ((members 0 items).flatMap Member.dirRecord).length - ((members 0 items).flatMap Member.localRecord).length)
    ((members 0 items).flatMap Member.localRecord).length [])
  rw [Nat.add_sub_cancel_left] at h3 ⊢
  simp only [pure, Except.pure, h3.1]
  rfl

end Verif.Zip
