import Verif.Dirs.Lemmas
/-
C107: directories and kinds of files.
-/
namespace Verif.Dirs
open Verif Verif.Path Verif.Path.Spec

/-- a path without "." and ".." -/
def Plain (t : Text) : Prop := t ≠ [] ∧ ∀ n ∈ comps t, n ≠ dot ∧ n ≠ dotdot

/-! ### kinds -/

/-- For a path of proper names, what the tree has at these names is all that counts: separators more or less do not matter. -/
theorem lookup_plain {fs : Fs} (wf : WF fs) {t : Text} (ht : Plain t) : lstat fs t = fs.get (comps t) := by
  have := (walk_plain wf (comps t) ht.2 []).1
  simpa [lstat, place, ht.1] using this

/-- Something that exists is exactly one of directory, file, link and pipe, whatever was on the stack. -/
theorem kinds_exclusive (fs : Fs) (g : Option Kind) (t : Text) (h : (lstat fs t).isSome = true) :
    (isDirectory fs g t).toNat + (isFile fs g t).toNat + (isLink fs g t).toNat + (isPipe fs g t).toNat = 1 ∧
    (isDirectory fs g t = true ↔ lstat fs t = some .dir) ∧ (isFile fs g t = true ↔ lstat fs t = some .file) ∧
    (isLink fs g t = true ↔ ∃ d, lstat fs t = some (.link d)) ∧ (isPipe fs g t = true ↔ lstat fs t = some .pipe) := by
  cases e : lstat fs t with
  | none => rw [e] at h; cases h
  | some k =>
    have hb : ∀ a b : Kind, (a == b) = decide (a = b) := fun _ _ => rfl
    cases k <;> simp [isDirectory, isFile, isLink, isPipe, stMode, e, hb]

/-- The full property would be that nothing of this is true where nothing exists.  It fails: the answers are what was on the stack. -/
theorem missing_arbitrary (fs : Fs) (t : Text) (h : lstat fs t = none) :
    exists' fs t = false ∧
    isDirectory fs (some .dir) t = true ∧ isFile fs (some .file) t = true ∧ isPipe fs (some .pipe) t = true ∧
    isLink fs (some (.link false)) t = true ∧
    isDirectory fs none t = false ∧ isFile fs none t = false ∧ isPipe fs none t = false ∧ isLink fs none t = false := by
  simp [exists', accessF, isDirectory, isFile, isLink, isPipe, stMode, h]

/-- `exists` is true for everything but for a link that leads nowhere. -/
theorem exists_iff (fs : Fs) (t : Text) : exists' fs t = true ↔ ∃ k, lstat fs t = some k ∧ k ≠ .link true := by
  cases e : lstat fs t with
  | none => simp [exists', accessF, e]
  | some k => cases k <;> simp [exists', accessF, e]

/-- A dangling link does not exist, but it is a link and can be removed. -/
theorem dangling (fs : Fs) (g : Option Kind) (t : Text) (h : lstat fs t = some (.link true)) :
    exists' fs t = false ∧ isLink fs g t = true ∧ (remove fs g false t).2 = true := by
  have hp : ∃ p, place fs t = some p ∧ fs.get p = some (.link true) := by
    unfold lstat at h
    cases e : place fs t with
    | none => rw [e] at h; cases h
    | some p => rw [e] at h; exact ⟨p, rfl, h⟩
  obtain ⟨p, hp, hg⟩ := hp
  refine ⟨by simp [exists', accessF, h], by simp [isLink, stMode, h], ?_⟩
  simp [remove, isDirectory, stMode, h, cremove, hp, hg]

/-- Hidden is a name with a dot at its beginning.  A path with a separator at the end, or no path at all, throws. -/
theorem isHidden_spec (d n : Text) (hn : slash ∉ n) :
    isHidden (d ++ slash :: n) = (if n = [] then .error .thrown else .ok (n.head? == some 46)) ∧
    isHidden n = (if n = [] then .error .thrown else .ok (n.head? == some 46)) := by
  have h1 : (split (d ++ slash :: n)).getLast? = some n := by rw [Path.split_append, Path.split_plain hn]; simp
  have h2 : (split n).getLast? = some n := by rw [Path.split_plain hn]; rfl
  unfold isHidden
  rw [h1, h2]
  cases n with
  | nil => simp
  | cons c n => simp

/-! ### making -/

/-- `makeDirectory` makes one directory, exactly where nothing is yet and the one around it exists (and the system allows it);
otherwise it changes nothing.  Nothing else changes ever. -/
theorem makeDirectory_spec {fs : Fs} (wf : WF fs) {t : Text} (ht : Plain t) (refuse : Bool) (hr : comps t ≠ []) :
    ∃ fs' ok, makeDirectory fs refuse t = (fs', ok) ∧ WF fs' ∧
      (ok = true ↔ fs.get (comps t) = none ∧ fs.get (comps t).dropLast = some .dir ∧ refuse = false) ∧
      (∀ q, fs'.get q = if ok = true ∧ q = comps t then some .dir else fs.get q) := by
  have hwp := walk_plain wf (comps t) ht.2 []
  simp only [List.nil_append] at hwp
  have hpl : place fs t = walk fs [] (comps t) := by simp [place, ht.1]
  cases e : walk fs [] (comps t) with
  | none =>
    refine ⟨fs, false, by simp [makeDirectory, mkdir, hpl, e], wf, ?_, by simp⟩
    constructor
    · intro h; cases h
    · rintro ⟨_, h2, _⟩
      exfalso
      have hc : comps t = (comps t).dropLast ++ [(comps t).getLast hr] := (List.dropLast_append_getLast hr).symm
      rw [hc, walk_append] at e
      have hwd := walk_plain wf (comps t).dropLast (fun n hn => ht.2 n ((List.dropLast_sublist _).mem hn)) []
      simp only [List.nil_append] at hwd
      cases e2 : walk fs [] (comps t).dropLast with
      | none => rw [e2] at hwd; simp [h2] at hwd
      | some p =>
        have := hwd.2 p e2
        subst this
        have hl := ht.2 _ (List.getLast_mem hr)
        rw [e2] at e
        simp [walk, h2, hl.1, hl.2] at e
  | some p =>
    have hp := hwp.2 p e
    subst hp
    have hpl' : place fs t = some (comps t) := by rw [hpl, e]
    by_cases hc : fs.get (comps t) = none ∧ fs.get (comps t).dropLast = some .dir ∧ refuse = false
    · refine ⟨⟨fs.nodes ++ [(comps t, .dir)]⟩, true, by simp only [makeDirectory, mkdir, hpl', if_pos hc], ?_, by simp [hc], ?_⟩
      · have hlk : fs.nodes.lookup (comps t) = none := by have := hc.1; simpa [Fs.get, hr] using this
        have hget : ∀ q, (Fs.get ⟨fs.nodes ++ [(comps t, .dir)]⟩ q) = if q = comps t then some .dir else fs.get q := by
          intro q
          unfold Fs.get
          by_cases h0 : q = []
          · subst h0
            by_cases h1 : ([] : Place) = comps t
            · exact absurd h1.symm hr
            · simp [h1]
          · simp only [if_neg h0, lookup_append]
            by_cases h1 : q = comps t
            · subst h1; simp [hlk, List.lookup]
            · have e' : (q == comps t) = false := by simp [h1]
              simp [h1, List.lookup, e']
        refine ⟨?_, ?_, ?_, ?_⟩
        · simp only [List.map_append, List.map_cons, List.map_nil]
          rw [List.nodup_append]
          refine ⟨wf.nodup, by simp, ?_⟩
          intro a ha b hb
          simp only [List.mem_singleton] at hb
          subst hb
          intro hab
          subst hab
          rw [← lookup_isSome, hlk] at ha
          cases ha
        · intro q hq
          simp only [List.mem_append, List.mem_singleton] at hq
          rcases hq with hq | hq
          · exact wf.ne q hq
          · subst hq; exact hr
        · intro q hq
          simp only [List.mem_append, List.mem_singleton] at hq
          rcases hq with hq | hq
          · exact wf.good q hq
          · subst hq; exact (place_inv wf hpl').2
        · intro q hq
          rw [hget]
          simp only [List.mem_append, List.mem_singleton] at hq
          by_cases h1 : q.1.dropLast = comps t
          · simp [h1]
          · rw [if_neg h1]
            rcases hq with hq | hq
            · exact wf.parent q hq
            · subst hq; exact hc.2.1
      · intro q
        have hlk : fs.nodes.lookup (comps t) = none := by have := hc.1; simpa [Fs.get, hr] using this
        unfold Fs.get
        by_cases h0 : q = []
        · subst h0
          have h1 : ¬ ([] : Place) = comps t := fun h => hr h.symm
          simp [h1]
        · simp only [if_neg h0, lookup_append]
          by_cases h1 : q = comps t
          · subst h1; simp [hlk, List.lookup]
          · have e' : (q == comps t) = false := by simp [h1]
            simp [h1, List.lookup, e']
    · refine ⟨fs, false, by simp only [makeDirectory, mkdir, hpl', if_neg hc], wf, ?_, by simp⟩
      constructor
      · intro h; cases h
      · intro h; exact absurd h hc

/-! ### removing -/

/-- what may be removed at a place: everything but a directory with something in it -/
def Removable (fs : Fs) (p : Place) : Prop :=
  ∃ k, fs.get p = some k ∧ (k = .dir → p ≠ [] ∧ ∀ n, fs.get (p ++ [n]) = none)

theorem children_nil_iff (fs : Fs) (p : Place) : fs.children p = [] ↔ ∀ n, fs.get (p ++ [n]) = none := by
  rw [List.eq_nil_iff_forall_not_mem]
  constructor
  · intro h n
    have := h n
    rw [mem_children] at this
    simpa using this
  · intro h n
    rw [mem_children, h n]
    simp

theorem without_wf {fs : Fs} (wf : WF fs) {p : Place} (h : Removable fs p) : WF (fs.without p) := by
  have hsub : ∀ q ∈ (fs.without p).nodes, q ∈ fs.nodes ∧ q.1 ≠ p := by
    intro q hq
    simpa [Fs.without] using hq
  refine ⟨?_, fun q hq => wf.ne q (hsub q hq).1, fun q hq => wf.good q (hsub q hq).1, ?_⟩
  · exact List.Sublist.nodup (List.Sublist.map _ List.filter_sublist) wf.nodup
  · intro q hq
    obtain ⟨hq1, hq2⟩ := hsub q hq
    rw [get_without]
    have hpar := wf.parent q hq1
    by_cases e : q.1.dropLast = p ∧ p ≠ []
    · exfalso
      obtain ⟨k, hk, hd⟩ := h
      rw [e.1] at hpar
      rw [hpar] at hk
      have hk' : k = .dir := by injection hk with h; exact h.symm
      obtain ⟨_, hn⟩ := hd hk'
      have hne := wf.ne q hq1
      have := hn (q.1.getLast hne)
      rw [← e.1, List.dropLast_append_getLast hne] at this
      have h2 := mem_get wf hq1
      rw [this] at h2
      cases h2
    · rw [if_neg e]; exact hpar

/-- `remove` of a plain path: it removes a file, a link, a pipe or an *empty* directory, exactly that and nothing below a directory
that is not empty, and tells the truth about it - whatever the stack said about the kind. -/
theorem remove_spec {fs : Fs} (wf : WF fs) (g : Option Kind) (refuse : Bool) {t : Text} (ht : Plain t) :
    ∃ fs' ok, remove fs g refuse t = (fs', ok) ∧ WF fs' ∧
      (ok = true ↔ Removable fs (comps t) ∧ refuse = false) ∧
      (∀ q, fs'.get q = if ok = true ∧ q = comps t then none else fs.get q) := by
  have hwp := walk_plain wf (comps t) ht.2 []
  simp only [List.nil_append] at hwp
  have hpl : place fs t = walk fs [] (comps t) := by simp [place, ht.1]
  have hlast : (comps t).getLast? ≠ some dot := by
    intro h
    exact (ht.2 _ (List.mem_of_getLast? h)).1 rfl
  have hls : lstat fs t = fs.get (comps t) := lookup_plain wf ht
  cases e : fs.get (comps t) with
  | none =>
    have hrm : remove fs g refuse t = (fs, false) := by
      have hc : cremove fs refuse t = (fs, false) := by
        unfold cremove
        cases e2 : place fs t with
        | none => rfl
        | some p =>
          have hp := hwp.2 p (by rw [← hpl, e2])
          subst hp
          simp [e]
      have hr : (rmdir fs refuse t).2 = false := by
        unfold rmdir
        cases e2 : place fs t with
        | none => rfl
        | some p =>
          have hp := hwp.2 p (by rw [← hpl, e2])
          subst hp
          simp [e]
      simp [remove, hr, hc]
    refine ⟨fs, false, hrm, wf, ?_, by simp⟩
    constructor
    · intro h; cases h
    · rintro ⟨⟨k, hk, _⟩, _⟩; rw [e] at hk; cases hk
  | some k =>
    have hpl' : place fs t = some (comps t) := by
      cases e2 : walk fs [] (comps t) with
      | none => rw [e2] at hwp; simp [e] at hwp
      | some p => have := hwp.2 p e2; subst this; rw [hpl, e2]
    by_cases hk : k = .dir
    · subst hk
      by_cases hc : comps t ≠ [] ∧ fs.children (comps t) = [] ∧ refuse = false
      · have hR : Removable fs (comps t) := ⟨.dir, e, fun _ => ⟨hc.1, (children_nil_iff _ _).1 hc.2.1⟩⟩
        have hrd : rmdir fs refuse t = (fs.without (comps t), true) := by
          simp only [rmdir, hpl']
          rw [if_pos ⟨e, hc.1, hlast, hc.2⟩]
        have hdir : isDirectory fs g t = true := by simp [isDirectory, stMode, hls, e]
        refine ⟨fs.without (comps t), true, by simp [remove, hdir, hrd], without_wf wf hR, by simp [hR, hc.2.2], ?_⟩
        intro q
        rw [get_without]
        by_cases hq : q = comps t
        · simp [hq, hc.1]
        · simp [hq]
      · have hrd : rmdir fs refuse t = (fs, false) := by
          simp only [rmdir, hpl']
          rw [if_neg (fun h => hc ⟨h.2.1, h.2.2.2⟩)]
        have hcr : cremove fs refuse t = (fs, false) := by
          simp only [cremove, hpl', e, hrd]
        refine ⟨fs, false, by simp [remove, hrd, hcr], wf, ?_, by simp⟩
        constructor
        · intro h; cases h
        · rintro ⟨⟨k', hk', hd⟩, hr⟩
          rw [e] at hk'
          have hk'' : k' = .dir := by injection hk' with h; exact h.symm
          obtain ⟨h1, h2⟩ := hd hk''
          exact absurd ⟨h1, (children_nil_iff _ _).2 h2, hr⟩ hc
    · have hdir : isDirectory fs g t = false := by
        simp only [isDirectory, stMode, hls, e]
        simp [hk]
      have hne : comps t ≠ [] := by
        intro h
        rw [h, get_nil] at e
        injection e with e
        exact hk e.symm
      have hR : Removable fs (comps t) := ⟨k, e, fun h => absurd h hk⟩
      have hcr : cremove fs refuse t = if refuse then (fs, false) else (fs.without (comps t), true) := by
        unfold cremove
        rw [hpl']
        cases k with
        | dir => exact absurd rfl hk
        | file => simp [e]
        | link d => simp [e]
        | pipe => simp [e]
      cases refuse with
      | true =>
        refine ⟨fs, false, by simp [remove, hdir, hcr], wf, by simp, by simp⟩
      | false =>
        refine ⟨fs.without (comps t), true, by simp [remove, hdir, hcr], without_wf wf hR, by simp [hR], ?_⟩
        intro q
        rw [get_without]
        by_cases hq : q = comps t
        · simp [hq, hne]
        · simp [hq]

/-- Made and removed again, a directory leaves the tree as it was. -/
theorem make_remove {fs : Fs} (wf : WF fs) (g g' : Option Kind) {t : Text} (ht : Plain t) (hr : comps t ≠ [])
    (hm : fs.get (comps t) = none) (hp : fs.get (comps t).dropLast = some .dir) :
    (makeDirectory fs false t).2 = true ∧ isDirectory (makeDirectory fs false t).1 g t = true ∧
    (remove (makeDirectory fs false t).1 g' false t).2 = true ∧
    ∀ q, (remove (makeDirectory fs false t).1 g' false t).1.get q = fs.get q := by
  obtain ⟨fs1, ok1, h1, wf1, i1, g1⟩ := makeDirectory_spec wf ht false hr
  have hok1 : ok1 = true := i1.2 ⟨hm, hp, rfl⟩
  subst hok1
  obtain ⟨fs2, ok2, h2, wf2, i2, g2⟩ := remove_spec wf1 g' false ht
  have hd : fs1.get (comps t) = some .dir := by rw [g1]; simp
  have hok2 : ok2 = true := by
    refine i2.2 ⟨⟨.dir, hd, fun _ => ⟨hr, ?_⟩⟩, rfl⟩
    intro n
    rw [g1]
    have hne : ¬ (true = true ∧ comps t ++ [n] = comps t) := by
      rintro ⟨_, h⟩
      have := congrArg List.length h
      simp at this
    rw [if_neg hne]
    cases e : fs.get (comps t ++ [n]) with
    | none => rfl
    | some k => have := prefix_dir wf (comps t) n [] e; rw [hm] at this; cases this
  subst hok2
  rw [h1]
  refine ⟨rfl, ?_, by rw [h2], ?_⟩
  · simp [isDirectory, stMode, lookup_plain wf1 ht, hd]
  · intro q
    simp only [h2, g2]
    by_cases hq : q = comps t
    · subst hq; simp [hm]
    · simp [hq, g1]

/-! ### histories -/

inductive Op where
  | make (t : Text) (refuse : Bool)
  | remove (t : Text) (g : Option Kind) (refuse : Bool)

def Op.path : Op → Text
  | .make t _ => t
  | .remove t _ _ => t

def step (fs : Fs) : Op → Fs
  | .make t r => (makeDirectory fs r t).1
  | .remove t g r => (Dirs.remove fs g r t).1

def run (fs : Fs) (ops : List Op) : Fs := ops.foldl step fs

/-- Whatever is made and removed in whatever order: the tree stays a tree, and a node that no call names keeps its kind. -/
theorem history {fs : Fs} (wf : WF fs) (ops : List Op) (h : ∀ o ∈ ops, Plain o.path ∧ comps o.path ≠ []) :
    WF (run fs ops) ∧ ∀ q, (∀ o ∈ ops, comps o.path ≠ q) → (run fs ops).get q = fs.get q := by
  induction ops generalizing fs with
  | nil => exact ⟨wf, fun _ _ => rfl⟩
  | cons o ops ih =>
    have ho := h o List.mem_cons_self
    have hs : WF (step fs o) ∧ ∀ q, comps o.path ≠ q → (step fs o).get q = fs.get q := by
      cases o with
      | make t r =>
        obtain ⟨fs', ok, e, wf', _, g⟩ := makeDirectory_spec wf (t := t) ho.1 r ho.2
        simp only [step, e]
        refine ⟨wf', fun q hq => ?_⟩
        rw [g, if_neg]
        rintro ⟨_, e2⟩
        exact hq e2.symm
      | remove t gg r =>
        obtain ⟨fs', ok, e, wf', _, g⟩ := remove_spec wf gg r (t := t) ho.1
        simp only [step, e]
        refine ⟨wf', fun q hq => ?_⟩
        rw [g, if_neg]
        rintro ⟨_, e2⟩
        exact hq e2.symm
    obtain ⟨w, k⟩ := ih hs.1 (fun o' ho' => h o' (List.mem_cons_of_mem _ ho'))
    refine ⟨w, fun q hq => ?_⟩
    show (run (step fs o) ops).get q = _
    rw [k q (fun o' ho' => hq o' (List.mem_cons_of_mem _ ho')), hs.2 q (hq o List.mem_cons_self)]

/-! ### listing -/

theorem dot_ne : dot ≠ [] ∧ slash ∉ dot := by decide
theorem dotdot_ne : dotdot ≠ [] ∧ slash ∉ dotdot := by decide

/-- `listFiles` of a directory nobody changes meanwhile: every entry once, in the order of the system, as a file that leads exactly to
that entry; and two more that lead to the directory itself and to the one around it. -/
theorem list_entries {fs : Fs} (wf : WF fs) (g : Option Kind) {t : Text} {p : Place} (hp : place fs t = some p)
    (hd : fs.get p = some .dir) {l : List Text} (hl : Listing fs p l) :
    ∃ files : List Text, listFiles fs g t l l = .ok (some (files.map some)) ∧ files.Nodup ∧
      (files.map (place fs)).Perm (some p :: some p.dropLast :: (fs.children p).map (fun n => some (p ++ [n]))) ∧
      (∀ n, (fs.get (p ++ [n])).isSome = true ↔ n ∈ fs.children p) ∧ (fs.children p).Nodup := by
  have hls : lstat fs t = some .dir := by rw [lstat_eq hp, hd]
  have hdir : isDirectory fs g t = true := by simp [isDirectory, stMode, hls]
  have hgood : ∀ n ∈ l, n ≠ [] ∧ slash ∉ n := by
    intro n hn
    have := hl.mem_iff.1 hn
    simp only [List.mem_cons] at this
    rcases this with h | h | h
    · subst h; exact dot_ne
    · subst h; exact dotdot_ne
    · exact ⟨(child_good wf h).ne, (child_good wf h).slash⟩
  refine ⟨l.map (Path.resolved t), ?_, ?_, ?_, fun n => mem_children.symm, children_nodup wf p⟩
  · simp only [listFiles, hdir, hls, if_true, fill, Nat.le_refl, Nat.sub_self, List.replicate_zero, List.append_nil, List.map_map]
    rfl
  · have hnd : l.Nodup := by
      rw [hl.nodup_iff, List.nodup_cons, List.nodup_cons]
      refine ⟨?_, ?_, children_nodup wf p⟩
      · intro h
        simp only [List.mem_cons] at h
        rcases h with h | h
        · revert h; decide
        · exact (child_good wf h).dot rfl
      · intro h; exact (child_good wf h).dotdot rfl
    have : ∀ l : List Text, l.Nodup → (∀ n ∈ l, n ≠ [] ∧ slash ∉ n) → (l.map (Path.resolved t)).Nodup := by
      intro l
      induction l with
      | nil => simp
      | cons a l ih =>
        intro hn hg
        rw [List.nodup_cons] at hn
        rw [List.map_cons, List.nodup_cons]
        refine ⟨?_, ih hn.2 (fun n h => hg n (List.mem_cons_of_mem _ h))⟩
        intro hm
        obtain ⟨b, hb, e⟩ := List.mem_map.1 hm
        have e2 := congrArg comps e
        have ga := hg a List.mem_cons_self
        have gb := hg b (List.mem_cons_of_mem _ hb)
        rw [Path.comps_resolved, Path.comps_resolved, Path.comps_plain ga.2 ga.1, Path.comps_plain gb.2 gb.1] at e2
        have e3 := List.append_cancel_left e2
        injection e3 with e4
        rw [← e4] at hn
        exact hn.1 hb
    exact this l hnd hgood
  · have h1 : (l.map (Path.resolved t)).map (place fs) = l.map (fun n => walk fs p [n]) := by
      rw [List.map_map]
      apply List.map_congr_left
      intro n hn
      exact place_resolved hp (hgood n hn).1 (hgood n hn).2
    rw [h1]
    refine (hl.map (fun n => walk fs p [n])).trans ?_
    rw [List.map_cons, List.map_cons]
    have e1 : walk fs p [dot] = some p := by simp [walk, hd]
    have e2 : walk fs p [dotdot] = some p.dropLast := by
      have hne : dotdot ≠ dot := by decide
      simp [walk, hd, hne]
    have e3 : (fs.children p).map (fun n => walk fs p [n]) = (fs.children p).map (fun n => some (p ++ [n])) := by
      apply List.map_congr_left
      intro n hn
      have := child_good wf hn
      simp [walk, hd, this.dot, this.dotdot]
    rw [e1, e2, e3]

/-- What is no directory has no list. -/
theorem list_none {fs : Fs} (g : Option Kind) {t : Text} {k : Kind} (h : lstat fs t = some k) (hk : k ≠ .dir) (a b : List Text) :
    listFiles fs g t a b = .ok none := by
  simp [listFiles, isDirectory, stMode, h, hk]

/-- Where nothing is, it depends on the stack: no list or an exception. -/
theorem list_missing {fs : Fs} {t : Text} (h : lstat fs t = none) (a b : List Text) :
    listFiles fs (some .dir) t a b = .error .thrown ∧ listFiles fs none t a b = .ok none := by
  simp [listFiles, isDirectory, stMode, h]

/-- The full property would be that somebody else making or removing files meanwhile at worst makes the list old.  It fails: one entry
more in the second pass throws (and the open directory is never closed, File.cpp:472-483) … -/
theorem race_more {fs : Fs} (g : Option Kind) {t : Text} (h : lstat fs t = some .dir) (a b : List Text) (hl : a.length < b.length) :
    listFiles fs g t a b = .error .thrown := by
  simp [listFiles, isDirectory, stMode, h, fill, Nat.not_le.2 hl]
  rfl

/-- … and one entry less leaves a file without a path at the end of the list. -/
theorem race_less {fs : Fs} (g : Option Kind) {t : Text} (h : lstat fs t = some .dir) (a b : List Text) (hl : b.length < a.length) :
    ∃ files, listFiles fs g t a b = .ok (some files) ∧ files.length = a.length ∧ files.getLast? = some none ∧
      files.take b.length = b.map (fun n => some (Path.resolved t n)) := by
  refine ⟨b.map (fun n => some (Path.resolved t n)) ++ List.replicate (a.length - b.length) none, ?_, ?_, ?_, ?_⟩
  · simp [listFiles, isDirectory, stMode, h, fill, Nat.le_of_lt hl]
    rfl
  · simp; omega
  · rw [List.getLast?_append, List.getLast?_replicate, if_neg (by omega)]
    rfl
  · rw [List.take_append_of_le_length (by rw [List.length_map]), List.take_of_length_le (by rw [List.length_map])]

/-- the path of the entry "." of the entry "." … -/
def dotted (t : Text) : Nat → Text
  | 0 => t
  | n + 1 => Path.resolved (dotted t n) dot

/-- The entry "." is a directory again, with the same list: who visits every directory of every list never gets to an end - at each depth
there is one more directory to visit, even in an empty directory. -/
theorem dot_again {fs : Fs} (g : Option Kind) {t : Text} {p : Place} (hp : place fs t = some p)
    (hd : fs.get p = some .dir) {l : List Text} (hl : Listing fs p l) (n : Nat) :
    place fs (dotted t n) = some p ∧ isDirectory fs g (dotted t n) = true ∧
    ∃ files, listFiles fs g (dotted t n) l l = .ok (some files) ∧ some (dotted t (n + 1)) ∈ files := by
  have hpl : ∀ n, place fs (dotted t n) = some p := by
    intro n
    induction n with
    | zero => exact hp
    | succ n ih =>
      rw [dotted, place_resolved ih dot_ne.1 dot_ne.2]
      simp [walk, hd]
  have hls : lstat fs (dotted t n) = some .dir := by rw [lstat_eq (hpl n), hd]
  have hdir : isDirectory fs g (dotted t n) = true := by simp [isDirectory, stMode, hls]
  refine ⟨hpl n, hdir, l.map (fun m => some (Path.resolved (dotted t n) m)), ?_, ?_⟩
  · simp only [listFiles, hdir, hls, if_true, fill, Nat.le_refl, Nat.sub_self, List.replicate_zero, List.append_nil]
    rfl
  · rw [List.mem_map]
    exact ⟨dot, hl.mem_iff.2 List.mem_cons_self, rfl⟩

/-! ### cases that meet the hypotheses -/

/-- /a (directory), /a/f (file), /a/x (dangling link), /b (empty directory) -/
def sample : Fs := ⟨[([[97]], .dir), ([[97], [102]], .file), ([[97], [120]], .link true), ([[98]], .dir)]⟩

theorem good_of {n : Text} (h : (n ≠ [] ∧ Spec.slash ∉ n) ∧ n ≠ dot ∧ n ≠ dotdot) : Good n := ⟨h.1.1, h.1.2, h.2.1, h.2.2⟩

theorem sample_wf : WF sample := by
  refine ⟨by decide, by decide, ?_, by decide⟩
  intro q hq n hn
  apply good_of
  simp only [sample, List.mem_cons, List.not_mem_nil, or_false] at hq
  rcases hq with h | h | h | h <;> subst h <;> simp only [List.mem_cons, List.not_mem_nil, or_false] at hn <;>
    (first | (subst hn; decide) | (rcases hn with h | h <;> subst h <;> decide))

example : Plain [47, 97, 47, 47, 102] ∧ comps [47, 97, 47, 47, 102] ≠ [] ∧ lstat sample [47, 97, 47, 47, 102] = some .file ∧
    lstat sample [47, 97, 47, 120] = some (.link true) ∧ lstat sample [47, 99] = none ∧
    lstat sample [97, 47, 46, 46, 47, 98] = some .dir := by
  refine ⟨⟨by decide, by decide⟩, by decide, by decide, by decide, by decide, by decide⟩
example : (remove sample (some .dir) false [47, 97]).2 = false ∧ (remove sample none false [47, 98]).2 = true ∧
    (remove sample none false [47, 97, 47, 102]).1.nodes.length = 3 ∧ (makeDirectory sample false [47, 98, 47, 99]).2 = true ∧
    (makeDirectory sample false [47, 99, 47, 99]).2 = false ∧ (makeDirectory sample false [47, 97]).2 = false := by decide +kernel
example : Listing sample [[97]] [[120], dotdot, [102], dot] := by
  show List.Perm _ [dot, dotdot, [102], [120]]
  decide
example : place sample [47, 97] = some [[97]] ∧
    listFiles sample none [47, 97] [[120], dotdot, [102], dot] [[120], dotdot, [102], dot] =
      .ok (some [some [47, 97, 47, 120], some [47, 97, 47, 46, 46], some [47, 97, 47, 102], some [47, 97, 47, 46]]) := by
  decide +kernel

end Verif.Dirs
