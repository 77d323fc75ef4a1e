import Verif.Dirs.Model
namespace Verif.Dirs
open Verif Verif.Path Verif.Path.Spec

/-- a proper name of an entry -/
structure Good (n : Text) : Prop where
  ne : n ≠ []
  slash : Spec.slash ∉ n
  dot : n ≠ Dirs.dot
  dotdot : n ≠ Dirs.dotdot

/-- a tree: every node once, with proper names, inside of a directory -/
structure WF (fs : Fs) : Prop where
  nodup : (fs.nodes.map Prod.fst).Nodup
  ne : ∀ q ∈ fs.nodes, q.1 ≠ []
  good : ∀ q ∈ fs.nodes, ∀ n ∈ q.1, Good n
  parent : ∀ q ∈ fs.nodes, fs.get q.1.dropLast = some .dir

theorem get_nil (fs : Fs) : fs.get [] = some .dir := by simp [Fs.get]

theorem lookup_mem {l : List (Place × Kind)} {p : Place} {k : Kind} (h : l.lookup p = some k) : (p, k) ∈ l := by
  induction l with
  | nil => simp at h
  | cons a l ih =>
    obtain ⟨q, j⟩ := a
    by_cases e : p = q
    · subst e
      simp [List.lookup] at h
      simp [h]
    · have e' : (p == q) = false := by simp [e]
      simp [List.lookup, e'] at h
      exact List.mem_cons_of_mem _ (ih h)

theorem lookup_isSome {l : List (Place × Kind)} {p : Place} : (l.lookup p).isSome = true ↔ p ∈ l.map Prod.fst := by
  induction l with
  | nil => simp
  | cons a l ih =>
    obtain ⟨q, j⟩ := a
    by_cases e : p = q
    · subst e; simp [List.lookup]
    · have e' : (p == q) = false := by simp [e]
      simp only [List.lookup, e', ih, List.map_cons, List.mem_cons, e, false_or]

theorem lookup_append {l m : List (Place × Kind)} {p : Place} : (l ++ m).lookup p = ((l.lookup p).or (m.lookup p)) := by
  induction l with
  | nil => simp
  | cons a l ih =>
    obtain ⟨q, j⟩ := a
    by_cases e : p = q
    · subst e; simp [List.lookup]
    · have e' : (p == q) = false := by simp [e]
      simp [List.lookup, e', ih]

theorem lookup_filter {l : List (Place × Kind)} {p q : Place} :
    (l.filter (fun x => x.1 ≠ p)).lookup q = if q = p then none else l.lookup q := by
  induction l with
  | nil => simp
  | cons a l ih =>
    obtain ⟨r, j⟩ := a
    by_cases e : r = p
    · subst e
      rw [List.filter_cons_of_neg (by simp), ih]
      by_cases e2 : q = r
      · simp [e2]
      · have e' : (q == r) = false := by simp [e2]
        simp [e2, List.lookup, e']
    · rw [List.filter_cons_of_pos (by simp [e])]
      by_cases e2 : q = r
      · subst e2; simp [List.lookup, e]
      · have e' : (q == r) = false := by simp [e2]
        simp only [List.lookup, e', ih]

theorem get_without (fs : Fs) (p q : Place) : (fs.without p).get q = if q = p ∧ p ≠ [] then none else fs.get q := by
  unfold Fs.get Fs.without
  simp only [lookup_filter]
  by_cases h : q = []
  · subst h
    by_cases e : p = []
    · simp [e]
    · have : ¬ ([] : Place) = p := fun hh => e hh.symm
      simp [this]
  · by_cases e : q = p
    · subst e; simp [h]
    · simp [h, e]

theorem get_mem {fs : Fs} {p : Place} {k : Kind} (h : fs.get p = some k) (hp : p ≠ []) : (p, k) ∈ fs.nodes := by
  simp only [Fs.get, if_neg hp] at h
  exact lookup_mem h

theorem mem_get {fs : Fs} (wf : WF fs) {q : Place × Kind} (h : q ∈ fs.nodes) : (fs.get q.1).isSome = true := by
  simp only [Fs.get, if_neg (wf.ne q h)]
  rw [lookup_isSome]
  exact List.mem_map_of_mem h

theorem parent_dir {fs : Fs} (wf : WF fs) {p : Place} {k : Kind} (h : fs.get p = some k) : fs.get p.dropLast = some .dir := by
  by_cases hp : p = []
  · subst hp; exact get_nil fs
  · exact wf.parent _ (get_mem h hp)

theorem prefix_dir {fs : Fs} (wf : WF fs) (p : Place) (x : Text) (xs : List Text) {k : Kind} (h : fs.get (p ++ x :: xs) = some k) :
    fs.get p = some .dir := by
  induction xs generalizing p x with
  | nil => simpa using parent_dir wf h
  | cons y ys ih =>
    have h1 := ih (p ++ [x]) y (by simpa using h)
    simpa using parent_dir wf h1

theorem walk_append (fs : Fs) (cur : Place) (a b : List Text) : walk fs cur (a ++ b) = (walk fs cur a).bind (fun c => walk fs c b) := by
  induction a generalizing cur with
  | nil => simp [walk]
  | cons n ns ih =>
    simp only [List.cons_append, walk]
    split
    · split
      · exact ih _
      · split
        · exact ih _
        · exact ih _
    · rfl

theorem walk_inv {fs : Fs} (wf : WF fs) (ns : List Text) (hg : ∀ n ∈ ns, n ≠ [] ∧ Spec.slash ∉ n) (cur p : Place)
    (hd : fs.get cur.dropLast = some .dir) (hc : ∀ n ∈ cur, Good n) (h : walk fs cur ns = some p) :
    fs.get p.dropLast = some .dir ∧ ∀ n ∈ p, Good n := by
  induction ns generalizing cur with
  | nil => simp only [walk, Option.some.injEq] at h; subst h; exact ⟨hd, hc⟩
  | cons n ns ih =>
    have hg' : ∀ n ∈ ns, n ≠ [] ∧ Spec.slash ∉ n := fun m hm => hg m (List.mem_cons_of_mem _ hm)
    simp only [walk] at h
    split at h
    · rename_i hdir
      split at h
      · exact ih hg' cur hd hc h
      · split at h
        · exact ih hg' _ (parent_dir wf hd) (fun m hm => hc m ((List.dropLast_sublist _).mem hm)) h
        · rename_i h1 h2
          refine ih hg' _ (by simpa using hdir) ?_ h
          intro m hm
          rw [List.mem_append] at hm
          rcases hm with hm | hm
          · exact hc m hm
          · simp only [List.mem_singleton] at hm; subst hm
            exact ⟨(hg m List.mem_cons_self).1, (hg m List.mem_cons_self).2, h1, h2⟩
    · cases h

theorem place_inv {fs : Fs} (wf : WF fs) {t : Text} {p : Place} (h : place fs t = some p) :
    fs.get p.dropLast = some .dir ∧ ∀ n ∈ p, Good n := by
  unfold place at h
  split at h
  · cases h
  · exact walk_inv wf _ (fun n hn => Path.comps_mem hn) [] p (get_nil fs) (by simp) h

/-- a walk over proper names -/
theorem walk_plain {fs : Fs} (wf : WF fs) (ns : List Text) (hg : ∀ n ∈ ns, n ≠ dot ∧ n ≠ dotdot) (cur : Place) :
    (walk fs cur ns).bind fs.get = fs.get (cur ++ ns) ∧ ∀ p, walk fs cur ns = some p → p = cur ++ ns := by
  induction ns generalizing cur with
  | nil => simp [walk]
  | cons n ns ih =>
    have h1 := hg n List.mem_cons_self
    have ih' := ih (fun m hm => hg m (List.mem_cons_of_mem _ hm)) (cur ++ [n])
    simp only [List.append_assoc, List.singleton_append] at ih'
    simp only [walk, if_neg h1.1, if_neg h1.2]
    split
    · exact ih'
    · rename_i hd
      constructor
      · cases e : fs.get (cur ++ n :: ns) with
        | none => rfl
        | some k => exact absurd (prefix_dir wf cur n ns e) hd
      · intro p hp; cases hp

theorem mem_children {fs : Fs} {p : Place} {n : Text} : n ∈ fs.children p ↔ (fs.get (p ++ [n])).isSome = true := by
  simp only [Fs.get, if_neg (show ¬ (p ++ [n] = []) by simp), lookup_isSome, Fs.children, List.mem_filterMap, List.mem_map]
  constructor
  · rintro ⟨q, hq, e⟩
    by_cases hc : q.1 ≠ [] ∧ q.1.dropLast = p
    · rw [if_pos hc] at e
      refine ⟨q, hq, ?_⟩
      have := List.dropLast_append_getLast? n e
      rw [← this, hc.2]
    · rw [if_neg hc] at e; cases e
  · rintro ⟨q, hq, e⟩
    refine ⟨q, hq, ?_⟩
    rw [e, if_pos ⟨by simp, by simp⟩]
    simp

theorem children_nodup {fs : Fs} (wf : WF fs) (p : Place) : (fs.children p).Nodup := by
  have key : ∀ l : List (Place × Kind), (l.map Prod.fst).Nodup →
      (l.filterMap (fun q => if q.1 ≠ [] ∧ q.1.dropLast = p then q.1.getLast? else none)).Nodup := by
    intro l hl
    induction l with
    | nil => simp
    | cons a l ih =>
      rw [List.map_cons, List.nodup_cons] at hl
      rw [List.filterMap_cons]
      split
      · exact ih hl.2
      · rename_i n e
        rw [List.nodup_cons]
        refine ⟨?_, ih hl.2⟩
        intro hm
        by_cases hc : a.1 ≠ [] ∧ a.1.dropLast = p
        · rw [if_pos hc] at e
          rw [List.mem_filterMap] at hm
          obtain ⟨b, hb, e2⟩ := hm
          by_cases hc2 : b.1 ≠ [] ∧ b.1.dropLast = p
          · rw [if_pos hc2] at e2
            apply hl.1
            have h1 := List.dropLast_append_getLast? n e
            have h2 := List.dropLast_append_getLast? n e2
            have : a.1 = b.1 := by rw [← h1, ← h2, hc.2, hc2.2]
            rw [this]
            exact List.mem_map_of_mem hb
          · rw [if_neg hc2] at e2; cases e2
        · rw [if_neg hc] at e; cases e
  exact key _ wf.nodup

theorem child_good {fs : Fs} (wf : WF fs) {p : Place} {n : Text} (h : n ∈ fs.children p) : Good n := by
  rw [mem_children] at h
  cases e : fs.get (p ++ [n]) with
  | none => rw [e] at h; cases h
  | some k => exact wf.good _ (get_mem e (by simp)) n (by simp)

theorem place_resolved {fs : Fs} {t : Text} {p : Place} {n : Text} (h : place fs t = some p) (hn : n ≠ []) (hs : Spec.slash ∉ n) :
    place fs (Path.resolved t n) = walk fs p [n] := by
  have ht : t ≠ [] := by intro e; subst e; simp [place] at h
  have hw : walk fs [] (comps t) = some p := by simpa [place, ht] using h
  have hc : comps (Path.resolved t n) = comps t ++ [n] := by rw [Path.comps_resolved, Path.comps_plain hs hn]
  have hne : Path.resolved t n ≠ [] := by intro e; rw [e, Path.comps_nil] at hc; simp at hc
  simp only [place, if_neg hne, hc, walk_append, hw]
  rfl

theorem lstat_eq {fs : Fs} {t : Text} {p : Place} (h : place fs t = some p) : lstat fs t = fs.get p := by
  simp [lstat, h]

end Verif.Dirs
