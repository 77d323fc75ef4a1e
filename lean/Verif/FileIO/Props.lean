import Verif.FileIO.Life
/-
C101: what is written to a file is what is read from it.
-/
namespace Verif.FileIO.Props
open Verif Verif.FileIO

/-- From opening to closing a file, whatever is done in between and whenever the library hands over bytes: every answer is the one the
specification (bytes and a position) gives, afterwards the file contains the bytes of the specification, all other files are as
before, and the stream is closed. -/
theorem session_spec {os os1 os2 os3 : Os} {f f1 f3 : File} {m : Mode} {deny : Option Errno} {lg : Errno → Errno} {l : List Act} {xs : List Ans}
    {t : Bool} (w : os.Ok) (ho : f.open os m deny lg = (os1, f1, .ok .ok)) (ha : acts os1 f1 l = .ok (os2, xs))
    (hc : f1.close os2 false = .ok (os3, f3, t)) :
    xs = (Ideal.acts ⟨m, openContent os f.path m, 0⟩ l).2 ∧
    os3.contents f.path = some (Ideal.after ⟨m, openContent os f.path m, 0⟩ l).content ∧
    (∀ q, q ≠ f.path → os3.contents q = os.contents q) ∧ os3.streams = os.streams ++ [none] ∧ f3 = { f with handle := none } ∧ t = false ∧ os3.Ok := by
  obtain ⟨s, S, hf, hn, w1, ho1, ⟨s0, hs0⟩, _⟩ := open_sim w ho
  subst hf
  obtain ⟨h1, s2, S2, F2, hs2⟩ := acts_sim rfl l S ha
  obtain ⟨h3, h4, h5, F3, h6⟩ := close_sim rfl S2 hc
  rw [hs2] at F3 h5
  have F := F2.trans F3
  refine ⟨h1, ?_, ?_, ?_, h4, h3, w1.frame F⟩
  · simp only [Os.contents, F.names, hn, Option.map_some, h5]
  · intro q hq
    rw [frame_contents w1 F hn hq, ho1 q hq]
  · apply List.ext_getElem?
    intro g
    by_cases hg : g = os.streams.length
    · subst hg; rw [h6]; simp
    · rw [F.stream g hg, hs0]
      by_cases hlt : g < os.streams.length
      · rw [List.getElem?_append_left hlt, List.getElem?_append_left hlt]
      · rw [List.getElem?_eq_none_iff.2 (by simp; omega), List.getElem?_eq_none_iff.2 (by simp; omega)]

/-- what the calls of a list write -/
def written : List Act → List Byte
  | [] => []
  | .write b :: l => b ++ written l
  | _ :: l => written l

/-- only writing -/
def onlyWrites : List Act → Bool
  | [] => true
  | .write _ :: l => onlyWrites l
  | .background _ :: l => onlyWrites l
  | _ => false

theorem after_writes (l : List Act) (h : onlyWrites l = true) (i : Ideal) (hm : i.mode = .write) :
    (i.after l).content = putAt i.content i.pos (written l) := by
  induction l generalizing i with
  | nil => simp [written, putAt_nil, Ideal.after]
  | cons a l ih =>
    cases a with
    | write b =>
      have e : (i.act (.write b)).1 = { i with content := putAt i.content i.pos b, pos := i.pos + b.length } := by
        simp [Ideal.act, Ideal.write, hm]
      show (Ideal.after (i.act (.write b)).1 l).content = _
      rw [e, ih h { i with content := putAt i.content i.pos b, pos := i.pos + b.length } hm]
      simp only [written]
      exact putAt_append _ _ _ _
    | background k =>
      show (Ideal.after i l).content = _
      rw [ih h _ hm]
      rfl
    | _ => simp [onlyWrites] at h

/-- Write some bytes to a file in any number of pieces, close it, open it again, read it: these bytes come back, as many as were asked
for. -/
theorem written_read_back {os os1 os2 os3 os4 os5 : Os} {f f1 f3 f4 : File} {deny deny' : Option Errno} {lg lg' : Errno → Errno} {l : List Act} {xs : List Ans}
    {t : Bool} {cap n : Nat} {out : List Byte} (w : os.Ok) (h1 : f.open os .write deny lg = (os1, f1, .ok .ok)) (hl : onlyWrites l = true)
    (h2 : acts os1 f1 l = .ok (os2, xs)) (h3 : f1.close os2 false = .ok (os3, f3, t)) (h4 : f3.open os3 .read deny' lg' = (os4, f4, .ok .ok))
    (h5 : f4.readFully os4 cap n = .ok (os5, out)) : out = (written l).take n := by
  obtain ⟨_, a2, _, _, a5, _, w3⟩ := session_spec w h1 h2 h3
  obtain ⟨s, S, hf, _⟩ := open_sim w3 h4
  subst hf
  have hp : f3.path = f.path := by rw [a5]
  rw [hp, openContent] at S
  simp only [reduceCtorEq, if_false, a2, Option.getD_some] at S
  obtain ⟨h6, _⟩ := readLoop_sim rfl cap n n [] (Nat.le_refl _) S h5
  rw [h6, after_writes l hl _ rfl]
  simp only [Ideal.got, reduceCtorEq, if_false, slice, openContent, if_true, List.drop_zero, List.nil_append]
  by_cases h : written l = []
  · simp [h, putAt]
  · simp [h, putAt]

/-! ### crashes -/

/-- byte by byte -/
def bytewise : List Act → List Act
  | [] => []
  | .write b :: l => b.map (fun x => .write [x]) ++ bytewise l
  | a :: l => a :: bytewise l

theorem after_append (i : Ideal) (a b : List Act) : i.after (a ++ b) = (i.after a).after b := by simp [Ideal.after]

theorem after_mode (i : Ideal) (l : List Act) : (i.after l).mode = i.mode := by
  induction l generalizing i with
  | nil => rfl
  | cons a l ih =>
    show (Ideal.after (i.act a).1 l).mode = _
    rw [ih]
    cases a with
    | write b => simp only [Ideal.act, Ideal.write]; split <;> rfl
    | seek p => simp only [Ideal.act, Ideal.goTo]; split <;> rfl
    | move p => simp only [Ideal.act, Ideal.goTo]; split <;> rfl
    | _ => rfl

theorem after_bytes (i : Ideal) (b : List Byte) : i.after (b.map (fun x => .write [x])) = i.write b := by
  induction b generalizing i with
  | nil =>
    simp only [List.map_nil, Ideal.after, List.foldl_nil, Ideal.write, putAt_nil, List.length_nil, Nat.add_zero]
    split <;> rfl
  | cons x b ih =>
    show Ideal.after (i.write [x]) _ = _
    rw [ih]
    unfold Ideal.write
    by_cases hm : i.mode = .read
    · simp [hm]
    · simp only [hm, if_false, List.length_cons, List.length_nil, Nat.zero_add, Ideal.mk.injEq, true_and]
      refine ⟨?_, by omega⟩
      have := putAt_append i.content i.pos [x] b
      simpa using this

theorem after_bytewise (i : Ideal) (l : List Act) : i.after (bytewise l) = i.after l := by
  induction l generalizing i with
  | nil => rfl
  | cons a l ih =>
    cases a with
    | write b =>
      simp only [bytewise]
      rw [after_append, after_bytes, ih]
      rfl
    | _ => exact ih _

theorem bytewise_append (a b : List Act) : bytewise (a ++ b) = bytewise a ++ bytewise b := by
  induction a with
  | nil => rfl
  | cons x a ih => cases x <;> simp [bytewise, ih]

/-- what is on the disk at any moment: the bytes of some prefix of the history, written byte by byte; and so it is for every part of
the pending bytes -/
def Torn (i0 : Ideal) (done : List Act) (os : Os) (s : Stream) : Prop :=
  ∀ k, ∃ pre, pre <+: bytewise done ∧ (i0.after pre).content = putAt (os.file s.file) (s.pos - s.pend.length) (s.pend.take k)

theorem Torn.more {i0 : Ideal} {done : List Act} {os : Os} {s : Stream} (T : Torn i0 done os s) (a : Act) : Torn i0 (done ++ [a]) os s := by
  intro k
  obtain ⟨pre, hp, h⟩ := T k
  refine ⟨pre, ?_, h⟩
  rw [bytewise_append]
  exact hp.trans (List.prefix_append _ _)

/-- with nothing pending, the disk has everything -/
theorem torn_flushed {i0 : Ideal} {done : List Act} {os : Os} {h : Nat} {s : Stream} (S : Sim os h s (i0.after done)) (hp : s.pend = []) : Torn i0 done os s := by
  intro k
  refine ⟨bytewise done, List.prefix_refl _, ?_⟩
  rw [after_bytewise, S.content, hp]
  simp [putAt_nil]

theorem read_pend {os os' : Os} {f : File} {h : Nat} {s : Stream} {i : Ideal} {cap n : Nat} {got : List Byte} (hf : f.handle = some h)
    (S : Sim os h s i) (e : f.read os cap n = .ok (os', got)) : os' = os ∨ ∀ s', os'.streams[h]? = some (some s') → s'.pend = [] := by
  simp only [File.read, File.ptr, hf, fread, get_ok S.live, bind, Except.bind, pure, Except.pure] at e
  by_cases hn : n = 0 ∨ s.mode = .write
  · simp only [hn, if_true, List.length_nil, Nat.not_lt_zero, gt_iff_lt, if_false] at e
    cases e
    exact .inl rfl
  · simp only [hn, if_false] at e
    by_cases ht : s.turn = .wrote
    · simp only [ht, if_true] at e; cases e
    · simp only [ht, if_false] at e
      have hp := nil_of S.turn ht
      split at e
      · cases e
      · cases e
        refine .inr fun s' hs' => ?_
        simp only [Os.put, List.getElem?_set_self (lt_of_live S.live)] at hs'
        rw [← Option.some.inj (Option.some.inj hs')]
        exact hp

theorem readLoop_pend {f : File} {h : Nat} (hf : f.handle = some h) (cap : Nat) : ∀ (fuel rest : Nat) (acc : List Byte) {os os' : Os} {s : Stream} {i : Ideal} {out : List Byte},
    Sim os h s i → readLoop os f cap fuel rest acc = .ok (os', out) → os' = os ∨ ∀ s', os'.streams[h]? = some (some s') → s'.pend = [] := by
  intro fuel
  induction fuel with
  | zero => intro rest acc os os' s i out S e; simp only [readLoop] at e; cases e; exact .inl rfl
  | succ fuel ih =>
    intro rest acc os os' s i out S e
    cases rest with
    | zero => simp only [readLoop] at e; cases e; exact .inl rfl
    | succ rest =>
      simp only [readLoop] at e
      cases er : f.read os (cap - acc.length) (rest + 1) with
      | error x => rw [er] at e; cases e
      | ok r =>
        obtain ⟨os1, got⟩ := r
        rw [er] at e
        obtain ⟨_, s1, S1, _⟩ := read_sim hf S er
        have h1 := read_pend hf S er
        cases got with
        | nil => simp only at e; cases e; exact h1
        | cons b bs =>
          simp only at e
          rcases ih _ _ S1 e with h2 | h2
          · rw [h2]; exact h1
          · exact .inr h2

theorem act_torn {os os' : Os} {f : File} {h : Nat} {s : Stream} {i0 : Ideal} {done : List Act} {a : Act} {x : Ans} (hf : f.handle = some h)
    (S : Sim os h s (i0.after done)) (T : Torn i0 done os s) (e : act os f a = .ok (os', x)) :
    ∃ s', Sim os' h s' (i0.after (done ++ [a])) ∧ Torn i0 (done ++ [a]) os' s' ∧ s'.file = s.file := by
  obtain ⟨_, s', S', _, hs'⟩ := act_sim hf S e
  have ea : (i0.after (done ++ [a])) = ((i0.after done).act a).1 := by simp [Ideal.after]
  rw [← ea] at S'
  refine ⟨s', S', ?_, hs'⟩
  -- which stream that is
  have hlive := S'.live
  cases a with
  | write b =>
    simp only [act, File.write, File.ptr, hf, fwrite, get_ok S.live, bind, Except.bind, pure, Except.pure] at e
    by_cases hb : b = [] ∨ s.mode = .read
    · simp only [hb, if_true, Except.map] at e
      cases e
      rw [S.live] at hlive
      cases hlive
      exact T.more _
    · simp only [hb, if_false] at e
      by_cases ht : s.turn = .read
      · simp only [ht, if_true, Except.map] at e; cases e
      · simp only [ht, if_false, Except.map] at e
        cases e
        have : s' = { s with pos := s.pos + b.length, pend := s.pend ++ b, turn := .wrote } := by
          simp only [Os.put, List.getElem?_set_self (lt_of_live S.live)] at hlive
          exact (Option.some.inj (Option.some.inj hlive)).symm
        subst this
        have hfits := S.fits
        intro k
        have e2 : s.pos + b.length - (s.pend ++ b).length = s.pos - s.pend.length := by simp only [List.length_append]; omega
        simp only [e2]
        by_cases hk : k ≤ s.pend.length
        · obtain ⟨pre, hp, h1⟩ := T.more (.write b) k
          refine ⟨pre, hp, ?_⟩
          rw [h1, List.take_append_of_le_length hk]
          rfl
        · refine ⟨bytewise done ++ (b.take (k - s.pend.length)).map (fun x => .write [x]), ?_, ?_⟩
          · rw [bytewise_append]
            refine List.prefix_append_right_inj _ |>.2 ?_
            simp only [bytewise, List.append_nil]
            exact (List.take_prefix _ _).map _
          · rw [after_append, after_bytewise, after_bytes]
            have hm : (i0.after done).mode ≠ .read := by rw [← S.mode]; exact fun h => hb (.inr h)
            simp only [Ideal.write, hm, if_false]
            rw [S.content, ← S.pos]
            rw [List.take_append, List.take_of_length_le (l := s.pend) (by omega)]
            have e1 : s.pos = s.pos - s.pend.length + s.pend.length := by omega
            conv => lhs; arg 2; rw [e1]
            exact putAt_append _ _ _ _
  | background k =>
    simp only [act, hf, Os.background, S.live] at e
    cases e
    have : s' = { s with pend := s.pend.drop k } := by
      simp only [Os.hand, List.getElem?_set_self (lt_of_live S.live)] at hlive
      exact (Option.some.inj (Option.some.inj hlive)).symm
    subst this
    intro j
    have hfits := S.fits
    have hfile : (os.hand h s k).file s.file = putAt (os.file s.file) (s.pos - s.pend.length) (s.pend.take k) := file_set_self S.has _ _
    simp only [hfile]
    obtain ⟨pre, hp, h1⟩ := T.more (.background k) (min k s.pend.length + j)
    refine ⟨pre, hp, ?_⟩
    rw [h1]
    have e1 : s.pos - (s.pend.drop k).length = s.pos - s.pend.length + (s.pend.take k).length := by
      simp only [List.length_drop, List.length_take]; omega
    rw [e1, putAt_append]
    congr 1
    rw [List.take_add]
    congr 1
    · by_cases hk : k ≤ s.pend.length
      · rw [Nat.min_eq_left hk]
      · rw [Nat.min_eq_right (by omega), List.take_length, List.take_of_length_le (by omega)]
    · by_cases hk : k ≤ s.pend.length
      · rw [Nat.min_eq_left hk]
      · rw [Nat.min_eq_right (by omega), List.drop_length, List.drop_eq_nil_of_le (by omega)]
  | seek p =>
    simp only [act, File.seek, File.ptr, hf, fseekSet, get_ok S.live, bind, Except.bind, pure, Except.pure, Except.map, fseekTo] at e
    by_cases hp : p < 0
    · simp only [hp, if_true] at e
      cases e
      rw [S.live] at hlive
      cases hlive
      exact T.more _
    · simp only [hp, if_false] at e
      cases e
      refine torn_flushed S' ?_
      have hl : h < (os.hand h s s.pend.length).streams.length := by simpa [Os.hand] using lt_of_live S.live
      simp only [Os.put, List.getElem?_set_self hl] at hlive
      rw [← Option.some.inj (Option.some.inj hlive)]
  | move p =>
    simp only [act, File.move, File.ptr, hf, fseekCur, get_ok S.live, bind, Except.bind, pure, Except.pure, Except.map, fseekTo] at e
    by_cases hp : (s.pos : Int) + p < 0
    · simp only [hp, if_true] at e
      cases e
      rw [S.live] at hlive
      cases hlive
      exact T.more _
    · simp only [hp, if_false] at e
      cases e
      refine torn_flushed S' ?_
      have hl : h < (os.hand h s s.pend.length).streams.length := by simpa [Os.hand] using lt_of_live S.live
      simp only [Os.put, List.getElem?_set_self hl] at hlive
      rw [← Option.some.inj (Option.some.inj hlive)]
  | position =>
    simp only [act, File.position, File.ptr, hf, ftell, get_ok S.live, bind, Except.bind, pure, Except.pure, Except.map] at e
    cases e
    rw [S.live] at hlive
    cases hlive
    exact T.more _
  | read cap n =>
    simp only [act] at e
    cases er : f.read os cap n with
    | error x => rw [er] at e; cases e
    | ok r =>
      obtain ⟨os1, got⟩ := r
      rw [er] at e
      simp only [Except.map] at e
      cases e
      rcases read_pend hf S er with h1 | h2
      · subst h1
        rw [S.live] at hlive
        cases hlive
        exact T.more _
      · refine torn_flushed S' ?_
        exact h2 s' hlive
  | readFully cap n =>
    simp only [act, File.readFully] at e
    cases er : readLoop os f cap n n [] with
    | error x => rw [er] at e; cases e
    | ok r =>
      obtain ⟨os1, got⟩ := r
      rw [er] at e
      simp only [Except.map] at e
      cases e
      rcases readLoop_pend hf cap n n [] S er with h1 | h2
      · subst h1
        rw [S.live] at hlive
        cases hlive
        exact T.more _
      · refine torn_flushed S' ?_
        exact h2 s' hlive

/-- A crash at any moment between opening and closing: what is in the file is what the history up to some byte has written - for
every order of calls, and whatever the library had handed over. -/
theorem crash_prefix {os os1 os2 : Os} {f f1 : File} {m : Mode} {deny : Option Errno} {lg : Errno → Errno} {l : List Act} {xs : List Ans}
    (w : os.Ok) (ho : f.open os m deny lg = (os1, f1, .ok .ok)) (ha : acts os1 f1 l = .ok (os2, xs)) :
    ∃ pre, pre <+: bytewise l ∧ os2.contents f.path = some (Ideal.after ⟨m, openContent os f.path m, 0⟩ pre).content := by
  obtain ⟨s, S, hf, hn, w1, ho1, ⟨s0, hs0⟩, _⟩ := open_sim w ho
  subst hf
  have hp : s.pend = [] := by
    have := S.fits
    rw [S.pos] at this
    exact List.length_eq_zero_iff.1 (Nat.le_zero.1 this)
  have key : ∀ (l done : List Act) (os1 : Os) (s : Stream) (xs : List Ans), Sim os1 os.streams.length s (Ideal.after ⟨m, openContent os f.path m, 0⟩ done) →
      Torn ⟨m, openContent os f.path m, 0⟩ done os1 s → acts os1 ⟨f.path, some os.streams.length⟩ l = .ok (os2, xs) →
      ∃ s', Torn ⟨m, openContent os f.path m, 0⟩ (done ++ l) os2 s' ∧ s'.file = s.file := by
    intro l
    induction l with
    | nil => intro done os1 s xs S T e; cases e; exact ⟨s, by simpa using T, rfl⟩
    | cons a l ih =>
      intro done os1 s xs S T e
      simp only [acts] at e
      cases ea : act os1 ⟨f.path, some os.streams.length⟩ a with
      | error x => rw [ea] at e; cases e
      | ok r =>
        obtain ⟨osx, x⟩ := r
        rw [ea] at e
        simp only at e
        cases el : acts osx ⟨f.path, some os.streams.length⟩ l with
        | error x => rw [el] at e; cases e
        | ok r =>
          obtain ⟨osy, ys⟩ := r
          rw [el] at e
          simp only at e
          cases e
          obtain ⟨sx, Sx, Tx, hx⟩ := act_torn rfl S T ea
          obtain ⟨sy, Ty, hy⟩ := ih (done ++ [a]) osx sx ys Sx Tx el
          exact ⟨sy, by simpa using Ty, hy.trans hx⟩
  obtain ⟨_, s2, S2, F2, hs2⟩ := acts_sim rfl l S ha
  obtain ⟨s', T', hs'⟩ := key l [] os1 s xs S (torn_flushed S hp) ha
  obtain ⟨pre, h1, h2⟩ := T' 0
  refine ⟨pre, by simpa using h1, ?_⟩
  rw [h2]
  simp only [List.take_zero, putAt_nil, Os.contents, F2.names, hn, Option.map_some, hs']

/-! ### when calls are defined -/

/-- calls in a safe order: a seek between writing and reading, buffers that are large enough.  `t` is what was done before. -/
def inTurn : Turn → List Act → Bool
  | _, [] => true
  | t, .write _ :: l => t ≠ .read && inTurn .wrote l
  | t, .read cap n :: l => t ≠ .wrote && n ≤ cap && inTurn .read l
  | t, .readFully cap n :: l => t ≠ .wrote && n ≤ cap && inTurn .read l
  | t, .seek p :: l => if p < 0 then inTurn t l else inTurn .fresh l
  | t, .move _ :: l => inTurn t l
  | t, .position :: l => inTurn t l
  | t, .background _ :: l => inTurn t l

/-- the stream is at most as restricted as `t` says -/
structure May (t : Turn) (s : Stream) : Prop where
  read : s.turn = .read → t = .read
  wrote : s.turn = .wrote → t = .wrote

theorem read_defined {os : Os} {f : File} {h : Nat} {s : Stream} {i : Ideal} {cap n : Nat} {t : Turn} (hf : f.handle = some h) (S : Sim os h s i)
    (M : May t s) (ht : t ≠ .wrote) (hc : n ≤ cap) :
    ∃ os' got s', f.read os cap n = .ok (os', got) ∧ Sim os' h s' { i with pos := i.pos + (i.got n).length } ∧ May .read s' ∧ got.length ≤ n := by
  have hw : s.turn ≠ .wrote := fun h => ht (M.wrote h)
  have hlen : ∀ (l : List Byte) (p n : Nat), (slice l p n).length ≤ n := by intro l p n; simp [slice]; omega
  by_cases hn : n = 0 ∨ s.mode = .write
  · have e : f.read os cap n = .ok (os, []) := by
      simp only [File.read, File.ptr, hf, fread, get_ok S.live, bind, Except.bind, pure, Except.pure, hn, if_true, List.length_nil, Nat.not_lt_zero, gt_iff_lt, if_false]
    have hg : i.got n = [] := by
      rcases hn with hn | hn
      · subst hn; simp [Ideal.got, slice]
      · rw [S.mode] at hn; simp [Ideal.got, hn]
    refine ⟨os, [], s, e, ?_, ⟨fun h => rfl, fun h => absurd h hw⟩, by simp⟩
    rw [hg]
    simpa using S
  · have hl := hlen (os.file s.file) s.pos n
    have e : f.read os cap n = .ok (os.put h { s with pos := s.pos + (slice (os.file s.file) s.pos n).length, turn := if (slice (os.file s.file) s.pos n).length < n then .fresh else .read }, slice (os.file s.file) s.pos n) := by
      simp only [File.read, File.ptr, hf, fread, get_ok S.live, bind, Except.bind, pure, Except.pure, hn, if_false, hw]
      rw [if_neg (by omega)]
    obtain ⟨_, s', S', _, hs', _⟩ := read_sim hf S e
    refine ⟨_, _, s', e, S', ?_, hl⟩
    have hlive := S'.live
    simp only [Os.put, List.getElem?_set_self (lt_of_live S.live)] at hlive
    rw [← Option.some.inj (Option.some.inj hlive)]
    refine ⟨fun _ => rfl, fun hx => ?_⟩
    simp only at hx
    split at hx <;> cases hx

theorem readLoop_defined {f : File} {h : Nat} (hf : f.handle = some h) (cap : Nat) : ∀ (fuel rest : Nat) (acc : List Byte) {os : Os} {s : Stream} {i : Ideal} {t : Turn},
    acc.length + rest ≤ cap → Sim os h s i → May t s → t ≠ .wrote → ∃ os' out s' i', readLoop os f cap fuel rest acc = .ok (os', out) ∧ Sim os' h s' i' ∧ May .read s' := by
  intro fuel
  induction fuel with
  | zero =>
    intro rest acc os s i t hr S M ht
    exact ⟨os, acc, s, i, rfl, S, ⟨fun _ => rfl, fun h => absurd (M.wrote h) ht⟩⟩
  | succ fuel ih =>
    intro rest acc os s i t hr S M ht
    cases rest with
    | zero => exact ⟨os, acc, s, i, rfl, S, ⟨fun _ => rfl, fun h => absurd (M.wrote h) ht⟩⟩
    | succ rest =>
      obtain ⟨os1, got, s1, e, S1, M1, hg⟩ := read_defined (n := rest + 1) (cap := cap - acc.length) hf S M ht (by omega)
      cases got with
      | nil => exact ⟨os1, acc, s1, _, by simp only [readLoop, e], S1, M1⟩
      | cons b bs =>
        obtain ⟨os2, out, s2, i2, e2, S2, M2⟩ := ih (rest + 1 - (b :: bs).length) (acc ++ b :: bs) (by simp only [List.length_append]; omega) S1 M1 (by decide)
        exact ⟨os2, out, s2, i2, by simp only [readLoop, e]; exact e2, S2, M2⟩

theorem seekTo_may {os : Os} {h : Nat} {s : Stream} {i : Ideal} (S : Sim os h s i) (p : Int) : ∃ s', Sim (fseekTo os h s p).1 h s' (i.goTo p).1 ∧
    (p < 0 → s' = s) ∧ (¬ p < 0 → s'.turn = .fresh) := by
  obtain ⟨_, s', S', _, _⟩ := seekTo_sim (p := p) (os' := (fseekTo os h s p).1) (b := (fseekTo os h s p).2) S rfl
  refine ⟨s', S', ?_, ?_⟩
  · intro hp
    have hl := S'.live
    simp only [fseekTo, hp, if_true] at hl
    rw [S.live] at hl
    cases hl
    rfl
  · intro hp
    have hl := S'.live
    simp only [fseekTo, hp, if_false, Os.put] at hl
    have : h < (os.hand h s s.pend.length).streams.length := by simpa [Os.hand] using lt_of_live S.live
    rw [List.getElem?_set_self this] at hl
    rw [← Option.some.inj (Option.some.inj hl)]

/-- calls in a safe order are defined -/
theorem in_turn_defined {f : File} {h : Nat} (hf : f.handle = some h) (l : List Act) {os : Os} {s : Stream} {i : Ideal} {t : Turn}
    (S : Sim os h s i) (M : May t s) (hl : inTurn t l = true) : ∃ os' xs, acts os f l = .ok (os', xs) := by
  induction l generalizing os s i t with
  | nil => exact ⟨os, [], rfl⟩
  | cons a l ih =>
    -- one call, and what may follow
    have step : ∃ os1 x s1 i1 t1, act os f a = .ok (os1, x) ∧ Sim os1 h s1 i1 ∧ May t1 s1 ∧ inTurn t1 l = true := by
      cases a with
      | write b =>
        simp only [inTurn, Bool.and_eq_true, decide_eq_true_eq, ne_eq, decide_not, Bool.not_eq_true', decide_eq_false_iff_not] at hl
        have hr : s.turn ≠ .read := fun h => hl.1 (M.read h)
        by_cases hb : b = [] ∨ s.mode = .read
        · refine ⟨os, .count 0, s, i, .wrote, ?_, S, ⟨fun h => absurd h hr, fun _ => rfl⟩, hl.2⟩
          simp only [act, File.write, File.ptr, hf, fwrite, get_ok S.live, bind, Except.bind, pure, Except.pure, hb, if_true, Except.map]
        · have e : act os f (.write b) = .ok (os.put h { s with pos := s.pos + b.length, pend := s.pend ++ b, turn := .wrote }, .count b.length) := by
            simp only [act, File.write, File.ptr, hf, fwrite, get_ok S.live, bind, Except.bind, pure, Except.pure, hb, hr, if_false, Except.map]
          obtain ⟨_, s1, S1, _, _⟩ := act_sim hf S e
          refine ⟨_, _, s1, _, .wrote, e, S1, ⟨fun hx => ?_, fun _ => rfl⟩, hl.2⟩
          have hlive := S1.live
          simp only [Os.put, List.getElem?_set_self (lt_of_live S.live)] at hlive
          rw [← Option.some.inj (Option.some.inj hlive)] at hx
          cases hx
      | read cap n =>
        simp only [inTurn, Bool.and_eq_true, decide_eq_true_eq, ne_eq, decide_not, Bool.not_eq_true', decide_eq_false_iff_not] at hl
        obtain ⟨os1, got, s1, e, S1, M1, _⟩ := read_defined hf S M hl.1.1 hl.1.2
        exact ⟨os1, .bytes got, s1, _, .read, by simp only [act, e, Except.map], S1, M1, hl.2⟩
      | readFully cap n =>
        simp only [inTurn, Bool.and_eq_true, decide_eq_true_eq, ne_eq, decide_not, Bool.not_eq_true', decide_eq_false_iff_not] at hl
        obtain ⟨os1, got, s1, i1, e, S1, M1⟩ := readLoop_defined hf cap n n [] (by simpa using hl.1.2) S M hl.1.1
        exact ⟨os1, .bytes got, s1, _, .read, by simp only [act, File.readFully, e, Except.map], S1, M1, hl.2⟩
      | seek p =>
        obtain ⟨s1, S1, h1, h2⟩ := seekTo_may S p
        refine ⟨_, seekAns (fseekTo os h s p).2, s1, _, if p < 0 then t else .fresh, ?_, S1, ?_, ?_⟩
        · simp only [act, File.seek, File.ptr, hf, fseekSet, get_ok S.live, bind, Except.bind, pure, Except.pure, Except.map]
        · by_cases hp : p < 0
          · rw [if_pos hp, h1 hp]; exact M
          · rw [if_neg hp]
            exact ⟨fun h => by rw [h2 hp] at h; exact h, fun h => by rw [h2 hp] at h; exact h⟩
        · simp only [inTurn] at hl
          by_cases hp : p < 0
          · rw [if_pos hp] at hl ⊢; exact hl
          · rw [if_neg hp] at hl ⊢; exact hl
      | move d =>
        obtain ⟨s1, S1, h1, h2⟩ := seekTo_may S (s.pos + d)
        refine ⟨_, seekAns (fseekTo os h s (s.pos + d)).2, s1, _, t, ?_, S1, ?_, hl⟩
        · simp only [act, File.move, File.ptr, hf, fseekCur, get_ok S.live, bind, Except.bind, pure, Except.pure, Except.map]
        · by_cases hp : (s.pos : Int) + d < 0
          · rw [h1 hp]; exact M
          · exact ⟨fun h => (by rw [h2 hp] at h; cases h), fun h => (by rw [h2 hp] at h; cases h)⟩
      | position =>
        refine ⟨os, .count s.pos, s, i, t, ?_, S, M, hl⟩
        simp only [act, File.position, File.ptr, hf, ftell, get_ok S.live, bind, Except.bind, pure, Except.pure, Except.map]
      | background k =>
        refine ⟨_, .done, _, i, t, ?_, hand_sim S k, ⟨M.read, M.wrote⟩, hl⟩
        simp only [act, hf, Os.background, S.live]
    obtain ⟨os1, x, s1, i1, t1, e, S1, M1, hl1⟩ := step
    obtain ⟨os2, xs, e2⟩ := ih S1 M1 hl1
    exact ⟨os2, x :: xs, by simp only [acts, e, e2]⟩

/-- a file that was opened does all calls in a safe order, and closes -/
theorem session_defined {os os1 : Os} {f f1 : File} {m : Mode} {deny : Option Errno} {lg : Errno → Errno} {l : List Act} (w : os.Ok)
    (ho : f.open os m deny lg = (os1, f1, .ok .ok)) (hl : inTurn .fresh l = true) :
    ∃ os2 xs os3 f3, acts os1 f1 l = .ok (os2, xs) ∧ f1.close os2 false = .ok (os3, f3, false) := by
  obtain ⟨s, S, hf, _, _, _, ⟨s0, hs0⟩, _⟩ := open_sim w ho
  subst hf
  have ht : May .fresh s := by
    have h1 := S.live
    rw [hs0, List.getElem?_append_right (Nat.le_refl _)] at h1
    simp only [Nat.sub_self, List.getElem?_cons_zero, Option.some.injEq] at h1
    have h2 := ho
    unfold File.open fopen at h2
    cases deny with
    | some e => simp only [Prod.mk.injEq] at h2; exact absurd h2.2.2 (statusOf_ne _)
    | none =>
      have hlast : ∀ i, os1.streams = os.streams ++ [some (newStream i m)] → May .fresh s := by
        intro i e
        rw [e] at hs0
        have := List.append_cancel_left hs0
        simp only [List.cons.injEq, Option.some.injEq, and_true] at this
        rw [h1] at this
        rw [← this]
        exact ⟨fun h => (by cases h), fun h => (by cases h)⟩
      cases hn : os.names f.path with
      | none =>
        cases m with
        | write => simp only [hn, Prod.mk.injEq] at h2; exact hlast _ (by rw [← h2.1])
        | read => simp only [hn, Prod.mk.injEq] at h2; exact absurd h2.2.2 (statusOf_ne _)
        | readWrite => simp only [hn, Prod.mk.injEq] at h2; exact absurd h2.2.2 (statusOf_ne _)
      | some i =>
        cases m <;> simp only [hn, Prod.mk.injEq] at h2 <;> exact hlast i (by rw [← h2.1])
  obtain ⟨os2, xs, e⟩ := in_turn_defined (f := ⟨f.path, some os.streams.length⟩) rfl l S ht hl
  obtain ⟨_, s2, S2, _, _⟩ := acts_sim rfl l S e
  refine ⟨os2, xs, { os2.hand os.streams.length s2 s2.pend.length with streams := (os2.hand os.streams.length s2 s2.pend.length).streams.set os.streams.length none },
    ⟨f.path, none⟩, e, ?_⟩
  simp only [File.close, fclose, get_ok S2.live, Bool.false_eq_true, if_false]

theorem wrote_read_ub {os : Os} {f : File} {h : Nat} {s : Stream} (hf : f.handle = some h) (hl : os.streams[h]? = some (some s)) (ht : s.turn = .wrote)
    (hm : s.mode ≠ .write) {cap n : Nat} (hn : n ≠ 0) : act os f (.read cap n) = .error .ub := by
  simp only [act, File.read, File.ptr, hf, fread, get_ok hl, bind, Except.bind, hn, hm, or_self, if_false, ht, if_true, Except.map]

/-- reading directly after writing is undefined (C99 7.19.5.3), also when there is something to read -/
theorem read_after_write {os os1 : Os} {f f1 : File} {deny : Option Errno} {lg : Errno → Errno} (w : os.Ok)
    (ho : f.open os .readWrite deny lg = (os1, f1, .ok .ok)) (b : List Byte) (hb : b ≠ []) (cap n : Nat) (hn : n ≠ 0) :
    acts os1 f1 [.write b, .read cap n] = .error .ub := by
  obtain ⟨os2, xs, _, _, e, _⟩ := session_defined (l := [.write b]) w ho rfl
  obtain ⟨s, S, hf, _⟩ := open_sim w ho
  subst hf
  simp only [acts] at e ⊢
  cases ea : act os1 ⟨f.path, some os.streams.length⟩ (.write b) with
  | error x => rw [ea] at e; cases e
  | ok r =>
    obtain ⟨osx, x⟩ := r
    have hm : s.mode ≠ .read := by rw [S.mode]; simp
    have hm2 : s.mode ≠ .write := by rw [S.mode]; simp
    simp only [act, File.write, File.ptr, fwrite, get_ok S.live, bind, Except.bind, pure, Except.pure, hb, hm, or_self, if_false] at ea
    split at ea
    · cases ea
    · simp only [Except.map] at ea
      cases ea
      have hl : (os1.put os.streams.length { s with pos := s.pos + b.length, pend := s.pend ++ b, turn := .wrote }).streams[os.streams.length]? =
          some (some { s with pos := s.pos + b.length, pend := s.pend ++ b, turn := .wrote }) := List.getElem?_set_self (lt_of_live S.live)
      have hr := wrote_read_ub (f := ⟨f.path, some os.streams.length⟩) (cap := cap) rfl hl rfl hm2 hn
      simp only [hr]

/-- reading more than the buffer holds writes behind it: `readFully(buffer, length)` does not look at the size of the buffer -/
theorem read_overflow {os os1 : Os} {f f1 : File} {deny : Option Errno} {lg : Errno → Errno} (w : os.Ok)
    (ho : f.open os .read deny lg = (os1, f1, .ok .ok)) (cap n : Nat) (h1 : cap < n) (h2 : n ≤ ((os.contents f.path).getD []).length) :
    f1.readFully os1 cap n = .error .ub := by
  obtain ⟨s, S, hf, _⟩ := open_sim w ho
  subst hf
  obtain ⟨n, rfl⟩ : ∃ k, n = k + 1 := ⟨n - 1, by omega⟩
  cases er : File.read os1 ⟨f.path, some os.streams.length⟩ cap (n + 1) with
  | error x =>
    have hx : x = .ub := by
      simp only [File.read, File.ptr, fread, get_ok S.live, bind, Except.bind, pure, Except.pure] at er
      by_cases c1 : n + 1 = 0 ∨ s.mode = .write
      · simp only [c1, if_true, List.length_nil, gt_iff_lt, Nat.not_lt_zero, if_false] at er
        cases er
      · simp only [c1, if_false] at er
        by_cases c2 : s.turn = .wrote
        · simp only [c2, if_true] at er; cases er; rfl
        · simp only [c2, if_false] at er
          split at er
          · cases er; rfl
          · cases er
    subst hx
    simp only [File.readFully, readLoop, List.length_nil, Nat.sub_zero, er]
  | ok r =>
    obtain ⟨os2, got⟩ := r
    obtain ⟨hg, _, _, _, _, hc⟩ := read_sim rfl S er
    rw [hg] at hc
    simp only [Ideal.got, reduceCtorEq, if_false, slice, openContent, List.drop_zero, List.length_take] at hc
    omega

/-- before the file is closed its size may still be the old one: written bytes are not there yet -/
theorem size_late {os os1 : Os} {f f1 : File} {deny : Option Errno} {lg : Errno → Errno} (w : os.Ok)
    (ho : f.open os .write deny lg = (os1, f1, .ok .ok)) (b : List Byte) : ∃ os2 xs, acts os1 f1 [.write b] = .ok (os2, xs) ∧ f1.size os2 = 0 := by
  obtain ⟨os2, xs, _, _, e, _⟩ := session_defined (l := [.write b]) w ho rfl
  refine ⟨os2, xs, e, ?_⟩
  obtain ⟨s, S, hf, hn, _⟩ := open_sim w ho
  subst hf
  have hp : s.pend = [] := by
    have := S.fits
    rw [S.pos] at this
    exact List.length_eq_zero_iff.1 (Nat.le_zero.1 this)
  have h0 : os1.file s.file = [] := by
    have := S.content
    simp only [openContent, if_true, hp, putAt_nil] at this
    exact this.symm
  have hsame : os2.names = os1.names ∧ os2.files = os1.files := by
    simp only [acts] at e
    cases ea : act os1 ⟨f.path, some os.streams.length⟩ (.write b) with
    | error x => rw [ea] at e; cases e
    | ok r =>
      obtain ⟨osx, x⟩ := r
      rw [ea] at e
      simp only at e
      cases e
      simp only [act, File.write, File.ptr, fwrite, get_ok S.live, bind, Except.bind, pure, Except.pure] at ea
      by_cases hb : b = [] ∨ s.mode = .read
      · simp only [hb, if_true, Except.map] at ea; cases ea; exact ⟨rfl, rfl⟩
      · simp only [hb, if_false] at ea
        by_cases ht : s.turn = .read
        · simp only [ht, if_true, Except.map] at ea; cases ea
        · simp only [ht, if_false, Except.map] at ea; cases ea; exact ⟨rfl, rfl⟩
  simp only [File.size, hsame.1, hn, Os.file, hsame.2]
  simp only [Os.file] at h0
  rw [h0]
  rfl

/-! ### the hypotheses are met -/

/-- an empty disk -/
def blank : Os := ⟨fun _ => none, [], []⟩

example : blank.Ok := ⟨fun _ _ h => (by cases h), fun _ _ _ h => (by cases h)⟩

/-- write "abc" in two pieces, the library hands over one byte, close, read it again -/
example : ∃ os1 f1 os2 os3 f3 os4 f4 os5, File.open blank (File.make [47, 97]) .write none id = (os1, f1, .ok .ok) ∧
    acts os1 f1 [.write [97, 98], .background 1, .write [99]] = .ok (os2, [.count 2, .done, .count 1]) ∧
    f1.close os2 false = .ok (os3, f3, false) ∧ f3.open os3 .read none id = (os4, f4, .ok .ok) ∧
    f4.readFully os4 10 10 = .ok (os5, [97, 98, 99]) := ⟨_, _, _, _, _, _, _, _, rfl, rfl, rfl, rfl, rfl⟩

/-- write, go back, overwrite, read: "aXYd" -/
example : inTurn .fresh [.write [97, 98, 99, 100], .seek 1, .write [88, 89], .seek 0, .readFully 4 4, .position] = true := by decide

example : (Ideal.acts ⟨.readWrite, [], 0⟩ [.write [97, 98, 99, 100], .seek 1, .write [88, 89], .seek 0, .readFully 4 4, .position]).2 =
    [.count 4, .done, .count 2, .done, .bytes [97, 88, 89, 100], .count 4] := by decide

end Verif.FileIO.Props
