import Verif.FileIO.Ideal
/-
C101: an open file does what is expected.
-/
namespace Verif.FileIO
open Verif

/-- stream `h`, in state `s`, shows the user the file `i` -/
structure Sim (os : Os) (h : Nat) (s : Stream) (i : Ideal) : Prop where
  live : os.streams[h]? = some (some s)
  mode : s.mode = i.mode
  pos : s.pos = i.pos
  fits : s.pend.length ≤ s.pos
  has : s.file < os.files.length
  content : i.content = putAt (os.file s.file) (s.pos - s.pend.length) s.pend
  turn : s.pend ≠ [] → s.turn = .wrote
  ro : s.mode = .read → s.pend = []

/-- nothing but stream `h` and file `j` has changed -/
structure Frame (os os' : Os) (h j : Nat) : Prop where
  names : os'.names = os.names
  files : os'.files.length = os.files.length
  other : ∀ k, k ≠ j → os'.file k = os.file k
  streams : os'.streams.length = os.streams.length
  stream : ∀ g, g ≠ h → os'.streams[g]? = os.streams[g]?

theorem Frame.refl (os : Os) (h j : Nat) : Frame os os h j := ⟨rfl, rfl, fun _ _ => rfl, rfl, fun _ _ => rfl⟩

theorem Frame.trans {a b c : Os} {h j : Nat} (x : Frame a b h j) (y : Frame b c h j) : Frame a c h j :=
  ⟨y.names.trans x.names, y.files.trans x.files, fun k hk => (y.other k hk).trans (x.other k hk), y.streams.trans x.streams,
    fun g hg => (y.stream g hg).trans (x.stream g hg)⟩

theorem get_ok {os : Os} {h : Nat} {s : Stream} (e : os.streams[h]? = some (some s)) : os.get h = .ok s := by simp [Os.get, e]

theorem put_frame (os : Os) (h : Nat) (s : Stream) (j : Nat) : Frame os (os.put h s) h j :=
  ⟨rfl, rfl, fun _ _ => rfl, by simp [Os.put], fun g hg => by simp [Os.put, List.getElem?_set_ne (Ne.symm hg)]⟩

theorem file_set_self {os : Os} {j : Nat} (h : j < os.files.length) (c : List Byte) (st : List (Option Stream)) :
    Os.file { os with files := os.files.set j c, streams := st } j = c := by
  simp [Os.file, List.getD, List.getElem?_set_self h]

theorem file_set_ne {os : Os} {j k : Nat} (h : k ≠ j) (c : List Byte) (st : List (Option Stream)) :
    Os.file { os with files := os.files.set j c, streams := st } k = os.file k := by
  simp [Os.file, List.getD, List.getElem?_set_ne (Ne.symm h)]

theorem hand_frame (os : Os) (h : Nat) (s : Stream) (k : Nat) : Frame os (os.hand h s k) h s.file :=
  ⟨rfl, by simp [Os.hand], fun _ hk => file_set_ne hk _ _, by simp [Os.hand], fun g hg => by simp [Os.hand, List.getElem?_set_ne (Ne.symm hg)]⟩

theorem lt_of_live {os : Os} {h : Nat} {x : Option Stream} (e : os.streams[h]? = some x) : h < os.streams.length :=
  (List.getElem?_eq_some_iff.1 e).1

/-- handing over bytes does not change what the user sees -/
theorem hand_sim {os : Os} {h : Nat} {s : Stream} {i : Ideal} (S : Sim os h s i) (k : Nat) :
    Sim (os.hand h s k) h { s with pend := s.pend.drop k } i := by
  have hf : (os.hand h s k).file s.file = putAt (os.file s.file) (s.pos - s.pend.length) (s.pend.take k) := file_set_self S.has _ _
  have hfits := S.fits
  refine ⟨?_, S.mode, S.pos, ?_, ?_, ?_, ?_, ?_⟩
  · simp [Os.hand, List.getElem?_set_self (lt_of_live S.live)]
  · simp only [List.length_drop]; omega
  · simp only [Os.hand, List.length_set]; exact S.has
  · simp only [hf]
    rw [S.content]
    by_cases hk : k ≤ s.pend.length
    · have e : s.pos - (s.pend.drop k).length = s.pos - s.pend.length + (s.pend.take k).length := by
        simp only [List.length_drop, List.length_take]; omega
      rw [e, putAt_append, List.take_append_drop]
    · rw [List.drop_eq_nil_of_le (by omega), List.take_of_length_le (by omega), putAt_nil]
  · intro hd
    refine S.turn (fun e => hd ?_)
    simp [e]
  · intro hm
    simp [S.ro hm]

theorem nil_of {s : Stream} (ht : s.pend ≠ [] → s.turn = .wrote) (h : s.turn ≠ .wrote) : s.pend = [] :=
  Decidable.byContradiction fun hc => h (ht hc)

theorem read_sim {os os' : Os} {f : File} {h : Nat} {s : Stream} {i : Ideal} {cap n : Nat} {got : List Byte} (hf : f.handle = some h)
    (S : Sim os h s i) (e : f.read os cap n = .ok (os', got)) :
    got = i.got n ∧ ∃ s', Sim os' h s' { i with pos := i.pos + (i.got n).length } ∧ Frame os os' h s.file ∧ s'.file = s.file ∧ got.length ≤ cap := by
  simp only [File.read, File.ptr, hf, fread, get_ok S.live, bind, Except.bind, pure, Except.pure] at e
  by_cases hn : n = 0 ∨ s.mode = .write
  · simp only [hn, if_true, List.length_nil, Nat.not_lt_zero, gt_iff_lt, if_false] at e
    cases e
    have hg : i.got n = [] := by
      rcases hn with hn | hn
      · subst hn; simp [Ideal.got, slice]
      · rw [S.mode] at hn; simp [Ideal.got, hn]
    rw [hg]
    exact ⟨rfl, s, by simpa using S, Frame.refl _ _ _, rfl, by simp⟩
  · simp only [hn, if_false] at e
    by_cases ht : s.turn = .wrote
    · simp only [ht, if_true] at e; cases e
    · simp only [ht, if_false] at e
      have hp := nil_of S.turn ht
      have hc : i.content = os.file s.file := by rw [S.content, hp, putAt_nil]
      have hg : i.got n = slice (os.file s.file) s.pos n := by
        have : i.mode ≠ .write := by rw [← S.mode]; exact fun h => hn (.inr h)
        simp [Ideal.got, this, hc, S.pos]
      rw [← hg] at e
      split at e
      · cases e
      · rename_i hcap
        cases e
        refine ⟨rfl, { s with pos := s.pos + (i.got n).length, turn := if (i.got n).length < n then .fresh else .read }, ⟨?_, S.mode, ?_, ?_, S.has, ?_, ?_, ?_⟩, put_frame _ _ _ _, rfl, by omega⟩
        · exact List.getElem?_set_self (lt_of_live S.live)
        · simp [S.pos]
        · simp [hp]
        · simp only [hp, putAt_nil]; exact hc
        · exact fun h => absurd hp h
        · exact fun _ => hp

theorem got_rest (i : Ideal) (n : Nat) : Ideal.got { i with pos := i.pos + (i.got n).length } (n - (i.got n).length) = [] := by
  unfold Ideal.got
  by_cases hm : i.mode = .write
  · simp [hm]
  · simp only [hm, if_false, slice, List.length_take, List.length_drop]
    rw [List.take_eq_nil_iff, List.drop_eq_nil_iff]
    omega

theorem readLoop_sim {f : File} {h : Nat} (hf : f.handle = some h) (cap : Nat) : ∀ (fuel rest : Nat) (acc : List Byte) {os os' : Os} {s : Stream} {i : Ideal} {out : List Byte},
    rest ≤ fuel → Sim os h s i → readLoop os f cap fuel rest acc = .ok (os', out) →
    out = acc ++ i.got rest ∧ ∃ s', Sim os' h s' { i with pos := i.pos + (i.got rest).length } ∧ Frame os os' h s.file ∧ s'.file = s.file := by
  intro fuel
  induction fuel with
  | zero =>
    intro rest acc os os' s i out hr S e
    have : rest = 0 := by omega
    subst this
    simp only [readLoop] at e
    cases e
    have hg : i.got 0 = [] := by simp [Ideal.got, slice]
    rw [hg]
    exact ⟨by simp, s, by simpa using S, Frame.refl _ _ _, rfl⟩
  | succ fuel ih =>
    intro rest acc os os' s i out hr S e
    cases rest with
    | zero =>
      simp only [readLoop] at e
      cases e
      have hg : i.got 0 = [] := by simp [Ideal.got, slice]
      rw [hg]
      exact ⟨by simp, s, by simpa using S, Frame.refl _ _ _, rfl⟩
    | succ rest =>
      simp only [readLoop] at e
      cases er : f.read os (cap - acc.length) (rest + 1) with
      | error x => rw [er] at e; cases e
      | ok r =>
        obtain ⟨os1, got⟩ := r
        rw [er] at e
        obtain ⟨hg, s1, S1, F1, hs1, _⟩ := read_sim hf S er
        cases got with
        | nil =>
          simp only at e
          cases e
          rw [← hg] at S1 ⊢
          exact ⟨by simp, s1, S1, F1, hs1⟩
        | cons b bs =>
          simp only at e
          obtain ⟨h2, s2, S2, F2, hs2⟩ := ih _ _ (by simp only [List.length_cons]; omega) S1 e
          have h0 := got_rest i (rest + 1)
          rw [← hg] at h0 S2 h2 ⊢
          rw [h0] at h2 S2
          refine ⟨by simpa using h2, s2, by simpa using S2, ?_, hs2.trans hs1⟩
          rw [hs1] at F2
          exact F1.trans F2

theorem seekTo_sim {os os' : Os} {h : Nat} {s : Stream} {i : Ideal} {p : Int} {b : Bool} (S : Sim os h s i) (e : fseekTo os h s p = (os', b)) :
    seekAns b = (i.goTo p).2 ∧ ∃ s', Sim os' h s' (i.goTo p).1 ∧ Frame os os' h s.file ∧ s'.file = s.file := by
  unfold fseekTo at e
  by_cases hp : p < 0
  · simp only [hp, if_true] at e
    cases e
    simp only [Ideal.goTo, hp, if_true]
    exact ⟨rfl, s, S, Frame.refl _ _ _, rfl⟩
  · simp only [hp, if_false] at e
    cases e
    simp only [Ideal.goTo, hp, if_false]
    have S1 := hand_sim S s.pend.length
    refine ⟨rfl, { s with pos := p.toNat, pend := [], turn := .fresh }, ⟨?_, S.mode, rfl, by simp, S1.has, ?_, by simp, by simp⟩, (hand_frame os h s _).trans (put_frame _ _ _ _), rfl⟩
    · exact List.getElem?_set_self (lt_of_live S1.live)
    · have := S1.content
      simp only [List.drop_length, putAt_nil] at this ⊢
      exact this

theorem act_sim {os os' : Os} {f : File} {h : Nat} {s : Stream} {i : Ideal} {a : Act} {x : Ans} (hf : f.handle = some h)
    (S : Sim os h s i) (e : act os f a = .ok (os', x)) :
    x = (i.act a).2 ∧ ∃ s', Sim os' h s' (i.act a).1 ∧ Frame os os' h s.file ∧ s'.file = s.file := by
  cases a with
  | write b =>
    simp only [act, File.write, File.ptr, hf, fwrite, get_ok S.live, bind, Except.bind, pure, Except.pure] at e
    by_cases hb : b = [] ∨ s.mode = .read
    · simp only [hb, if_true, Except.map] at e
      cases e
      have hw : i.write b = i := by
        unfold Ideal.write
        rw [S.mode] at hb
        rcases hb with hb | hb
        · subst hb; simp only [putAt_nil, List.length_nil, Nat.add_zero]; split <;> rfl
        · simp [hb]
      refine ⟨?_, s, ?_, Frame.refl _ _ _, rfl⟩
      · simp only [Ideal.act, ← S.mode]
        rcases hb with hb | hb <;> simp [hb]
      · simp only [Ideal.act, hw]; exact S
    · simp only [hb, if_false] at e
      by_cases ht : s.turn = .read
      · simp only [ht, if_true, Except.map] at e; cases e
      · simp only [ht, if_false, Except.map] at e
        cases e
        have hm : i.mode ≠ .read := by rw [← S.mode]; exact fun h => hb (.inr h)
        have hfits := S.fits
        simp only [Ideal.act, Ideal.write, hm, if_false]
        refine ⟨by simp, { s with pos := s.pos + b.length, pend := s.pend ++ b, turn := .wrote }, ⟨?_, S.mode, ?_, ?_, S.has, ?_, fun _ => rfl, fun h => absurd (.inr h) hb⟩, put_frame _ _ _ _, rfl⟩
        · exact List.getElem?_set_self (lt_of_live S.live)
        · simp [S.pos]
        · simp only [List.length_append]; omega
        · simp only [List.length_append]
          rw [S.content, ← S.pos]
          have e1 : s.pos = s.pos - s.pend.length + s.pend.length := by omega
          have e2 : s.pos + b.length - (s.pend.length + b.length) = s.pos - s.pend.length := by omega
          rw [e2]
          conv => lhs; rw [e1]
          simp only [Nat.add_sub_cancel]
          exact putAt_append _ _ _ _
  | read cap n =>
    simp only [act] at e
    cases er : f.read os cap n with
    | error x => rw [er] at e; cases e
    | ok r =>
      obtain ⟨os1, got⟩ := r
      rw [er] at e
      simp only [Except.map] at e
      cases e
      obtain ⟨hg, s1, S1, F1, hs1, _⟩ := read_sim hf S er
      exact ⟨by simp [Ideal.act, hg], s1, S1, F1, hs1⟩
  | readFully cap n =>
    simp only [act, File.readFully] at e
    cases er : readLoop os f cap n n [] with
    | error x => rw [er] at e; cases e
    | ok r =>
      obtain ⟨os1, got⟩ := r
      rw [er] at e
      simp only [Except.map] at e
      cases e
      obtain ⟨hg, s1, S1, F1, hs1⟩ := readLoop_sim hf cap n n [] (Nat.le_refl _) S er
      exact ⟨by simp [Ideal.act, hg], s1, S1, F1, hs1⟩
  | seek p =>
    simp only [act, File.seek, File.ptr, hf, fseekSet, get_ok S.live, bind, Except.bind, pure, Except.pure, Except.map] at e
    cases e
    exact seekTo_sim S rfl
  | move d =>
    simp only [act, File.move, File.ptr, hf, fseekCur, get_ok S.live, bind, Except.bind, pure, Except.pure, Except.map] at e
    cases e
    have := seekTo_sim (p := s.pos + d) S rfl
    rw [S.pos] at this
    simp only [Ideal.act]
    rw [S.pos]
    exact this
  | position =>
    simp only [act, File.position, File.ptr, hf, ftell, get_ok S.live, bind, Except.bind, pure, Except.pure, Except.map] at e
    cases e
    exact ⟨by simp [Ideal.act, S.pos], s, S, Frame.refl _ _ _, rfl⟩
  | background k =>
    simp only [act, hf, Os.background, S.live] at e
    cases e
    exact ⟨rfl, _, hand_sim S k, hand_frame _ _ _ _, rfl⟩

theorem acts_sim {f : File} {h : Nat} (hf : f.handle = some h) (l : List Act) {os os' : Os} {s : Stream} {i : Ideal} {xs : List Ans}
    (S : Sim os h s i) (e : acts os f l = .ok (os', xs)) :
    xs = (i.acts l).2 ∧ ∃ s', Sim os' h s' (i.after l) ∧ Frame os os' h s.file ∧ s'.file = s.file := by
  induction l generalizing os s i xs with
  | nil => cases e; exact ⟨rfl, s, S, Frame.refl _ _ _, rfl⟩
  | cons a l ih =>
    simp only [acts] at e
    cases ea : act os f a with
    | error x => rw [ea] at e; cases e
    | ok r =>
      obtain ⟨os1, x⟩ := r
      rw [ea] at e
      simp only at e
      cases el : acts os1 f l with
      | error x => rw [el] at e; cases e
      | ok r =>
        obtain ⟨os2, ys⟩ := r
        rw [el] at e
        simp only at e
        cases e
        obtain ⟨h1, s1, S1, F1, hs1⟩ := act_sim hf S ea
        obtain ⟨h2, s2, S2, F2, hs2⟩ := ih S1 el
        rw [hs1] at F2
        exact ⟨by simp [Ideal.acts, h1, h2], s2, S2, F1.trans F2, hs2.trans hs1⟩

end Verif.FileIO
