import Verif.Fp.Lemmas
/-
Model of src/core/Extents.cpp and the parts of src/core/Vertex3.cpp it uses, on doubles
(`Verif/Fp/Model.lean`), and C51 for `Extents`.
-/
namespace Verif.Geo
open Verif Verif.Fp

/-- include/core/Vertex3.h:43-68 -/
structure V3 where
  x : F64
  y : F64
  z : F64
deriving DecidableEq

/-- include/core/Vertex2.h:42-60: the two components -/
structure V2 where
  x : F64
  y : F64
deriving DecidableEq

/-- include/core/Vertex3.h:286-330 `Extents`: the two corner points -/
structure Ext where
  mn : V3
  mx : V3
deriving DecidableEq

/-- the literal `1E90` -/
def big : F64 := lit (10 ^ 90) 1
/-- the literal `1E89` -/
def limit : F64 := lit (10 ^ 89) 1

/-- Extents.cpp:36-39 -/
def Ext.new : Ext := ⟨⟨big, big, big⟩, ⟨-big, -big, -big⟩⟩

/-- Extents.cpp:41-48 `add(Vertex2)`: the z range is not touched -/
def Ext.add2 (e : Ext) (p : V2) : Ext :=
  ⟨⟨fmin e.mn.x p.x, fmin e.mn.y p.y, e.mn.z⟩, ⟨fmax e.mx.x p.x, fmax e.mx.y p.y, e.mx.z⟩⟩

/-- Extents.cpp:50-59 `add(Vertex3)` -/
def Ext.add3 (e : Ext) (p : V3) : Ext :=
  ⟨⟨fmin e.mn.x p.x, fmin e.mn.y p.y, fmin e.mn.z p.z⟩,
   ⟨fmax e.mx.x p.x, fmax e.mx.y p.y, fmax e.mx.z p.z⟩⟩

/-- Extents.cpp:79-82 `isValid` -/
def Ext.isValid (e : Ext) : Bool := lt e.mn.x limit

/-- Extents.cpp:61-67 `add(Extents)` -/
def Ext.addExt (e f : Ext) : Ext := if !f.isValid then e else (e.add3 f.mn).add3 f.mx

/-- Vertex3.cpp, component-wise difference; Extents.cpp:84-87 `delta` -/
def Ext.delta (e : Ext) : V3 := ⟨e.mx.x - e.mn.x, e.mx.y - e.mn.y, e.mx.z - e.mn.z⟩

/-! ### Specification -/

/-- a history of calls on Extents objects: the object an expression builds -/
inductive Build where
  | new
  | add (b : Build) (p : V3)
  | merge (b c : Build)

/-- the object after the calls -/
def Build.run : Build → Ext
  | .new => .new
  | .add b p => b.run.add3 p
  | .merge b c => b.run.addExt c.run

/-- all points that were added, directly or through merged extents -/
def Build.points : Build → List V3
  | .new => []
  | .add b p => b.points ++ [p]
  | .merge b c => b.points ++ c.points

/-- the box between two corners contains the point -/
def Inside (lo hi p : V3) : Prop :=
  le lo.x p.x = true ∧ le p.x hi.x = true ∧ le lo.y p.y = true ∧ le p.y hi.y = true ∧
  le lo.z p.z = true ∧ le p.z hi.z = true

/-- a double that is not NaN and between -1E90 and 1E90 -/
def InRange (x : F64) : Prop := le (-big) x = true ∧ le x big = true

/-- a point the class can handle: no NaN, coordinates up to 1E90, x below 1E89 -/
def Ok (p : V3) : Prop := InRange p.x ∧ InRange p.y ∧ InRange p.z ∧ lt p.x limit = true

/-- the same corner points, where 0 and -0 are the same -/
def SameBox (e f : Ext) : Prop :=
  eq e.mn.x f.mn.x = true ∧ eq e.mn.y f.mn.y = true ∧ eq e.mn.z f.mn.z = true ∧
  eq e.mx.x f.mx.x = true ∧ eq e.mx.y f.mx.y = true ∧ eq e.mx.z f.mx.z = true

/-! ### Proofs -/

theorem big_ne_nan : big ≠ .nan := by decide +kernel
theorem negBig_ne_nan : -big ≠ .nan := by decide +kernel
theorem limit_ne_nan : limit ≠ .nan := by decide +kernel
theorem limit_lt_big : units limit < units big := by decide +kernel
theorem big_pos : 0 < units big := by decide +kernel

attribute [local irreducible] big limit

theorem InRange.ne_nan {x : F64} (h : InRange x) : x ≠ .nan := by
  intro e; subst e
  have : le (-big) .nan = false := by cases (-big) <;> rfl
  rw [InRange, this] at h; exact absurd h.1 (by simp)

theorem InRange.units {x : F64} (h : InRange x) : -units big ≤ units x ∧ units x ≤ units big := by
  have hx := h.ne_nan
  obtain ⟨h1, h2⟩ := h
  rw [le_iff negBig_ne_nan hx, units_neg] at h1
  rw [le_iff hx big_ne_nan] at h2
  exact ⟨h1, h2⟩

/-- one coordinate of a corner: `v` is the least (greatest, with `sgn := -1`) of the values `l`
and the starting value -/
structure Lower (v : F64) (l : List F64) : Prop where
  nn : v ≠ .nan
  iff : ∀ b : Int, b ≤ units v ↔ b ≤ units big ∧ ∀ x ∈ l, b ≤ units x

structure Upper (v : F64) (l : List F64) : Prop where
  nn : v ≠ .nan
  iff : ∀ b : Int, units v ≤ b ↔ -units big ≤ b ∧ ∀ x ∈ l, units x ≤ b

theorem lower_new : Lower big [] := ⟨big_ne_nan, fun b => by simp⟩
theorem upper_new : Upper (-big) [] := ⟨negBig_ne_nan, fun b => by rw [units_neg]; simp⟩

theorem lower_add {v x : F64} {l : List F64} (h : Lower v l) (hx : x ≠ .nan) :
    Lower (fmin v x) (l ++ [x]) := by
  refine ⟨fmin_ne_nan h.nn hx, fun b => ?_⟩
  rw [units_fmin h.nn hx, Int.le_min, h.iff b]
  constructor
  · rintro ⟨⟨h1, h2⟩, h3⟩
    refine ⟨h1, fun y hy => ?_⟩
    rcases List.mem_append.1 hy with hy | hy
    · exact h2 y hy
    · rw [List.mem_singleton.1 hy]; exact h3
  · rintro ⟨h1, h2⟩
    exact ⟨⟨h1, fun y hy => h2 y (List.mem_append_left _ hy)⟩, h2 x (by simp)⟩

theorem upper_add {v x : F64} {l : List F64} (h : Upper v l) (hx : x ≠ .nan) :
    Upper (fmax v x) (l ++ [x]) := by
  refine ⟨fmax_ne_nan h.nn hx, fun b => ?_⟩
  rw [units_fmax h.nn hx, Int.max_le, h.iff b]
  constructor
  · rintro ⟨⟨h1, h2⟩, h3⟩
    refine ⟨h1, fun y hy => ?_⟩
    rcases List.mem_append.1 hy with hy | hy
    · exact h2 y hy
    · rw [List.mem_singleton.1 hy]; exact h3
  · rintro ⟨h1, h2⟩
    exact ⟨⟨h1, fun y hy => h2 y (List.mem_append_left _ hy)⟩, h2 x (by simp)⟩

/-- adding the lower and the upper corner of a nonempty set of values, to a lower bound -/
theorem lower_merge {v a c : F64} {l m : List F64} (h : Lower v l) (ha : Lower a m) (hc : Upper c m)
    (hm : m ≠ []) : Lower (fmin (fmin v a) c) (l ++ m) := by
  have hac : units a ≤ units c := by
    obtain ⟨x, hx⟩ := List.exists_mem_of_ne_nil m hm
    have h1 := ((ha.iff (units a)).1 (Int.le_refl _)).2 x hx
    have h2 := ((hc.iff (units c)).1 (Int.le_refl _)).2 x hx
    omega
  refine ⟨fmin_ne_nan (fmin_ne_nan h.nn ha.nn) hc.nn, fun b => ?_⟩
  rw [units_fmin (fmin_ne_nan h.nn ha.nn) hc.nn, units_fmin h.nn ha.nn]
  have e : b ≤ min (min (units v) (units a)) (units c) ↔ b ≤ units v ∧ b ≤ units a := by omega
  rw [e, h.iff b, ha.iff b]
  constructor
  · rintro ⟨⟨h1, h2⟩, -, h3⟩
    refine ⟨h1, fun y hy => ?_⟩
    rcases List.mem_append.1 hy with hy | hy
    · exact h2 y hy
    · exact h3 y hy
  · rintro ⟨h1, h2⟩
    exact ⟨⟨h1, fun y hy => h2 y (List.mem_append_left _ hy)⟩, h1,
      fun y hy => h2 y (List.mem_append_right _ hy)⟩

theorem upper_merge {v a c : F64} {l m : List F64} (h : Upper v l) (ha : Lower a m) (hc : Upper c m)
    (hm : m ≠ []) : Upper (fmax (fmax v a) c) (l ++ m) := by
  have hac : units a ≤ units c := by
    obtain ⟨x, hx⟩ := List.exists_mem_of_ne_nil m hm
    have h1 := ((ha.iff (units a)).1 (Int.le_refl _)).2 x hx
    have h2 := ((hc.iff (units c)).1 (Int.le_refl _)).2 x hx
    omega
  refine ⟨fmax_ne_nan (fmax_ne_nan h.nn ha.nn) hc.nn, fun b => ?_⟩
  rw [units_fmax (fmax_ne_nan h.nn ha.nn) hc.nn, units_fmax h.nn ha.nn]
  have e : max (max (units v) (units a)) (units c) ≤ b ↔ units v ≤ b ∧ units c ≤ b := by omega
  rw [e, h.iff b, hc.iff b]
  constructor
  · rintro ⟨⟨h1, h2⟩, -, h3⟩
    refine ⟨h1, fun y hy => ?_⟩
    rcases List.mem_append.1 hy with hy | hy
    · exact h2 y hy
    · exact h3 y hy
  · rintro ⟨h1, h2⟩
    exact ⟨⟨h1, fun y hy => h2 y (List.mem_append_left _ hy)⟩, h1,
      fun y hy => h2 y (List.mem_append_right _ hy)⟩

/-- all six coordinates -/
structure Box (e : Ext) (ps : List V3) : Prop where
  lx : Lower e.mn.x (ps.map V3.x)
  ly : Lower e.mn.y (ps.map V3.y)
  lz : Lower e.mn.z (ps.map V3.z)
  ux : Upper e.mx.x (ps.map V3.x)
  uy : Upper e.mx.y (ps.map V3.y)
  uz : Upper e.mx.z (ps.map V3.z)

theorem box_add {e : Ext} {ps : List V3} (h : Box e ps) (p : V3) (hp : Ok p) :
    Box (e.add3 p) (ps ++ [p]) := by
  obtain ⟨h1, h2, h3, -⟩ := hp
  refine ⟨?_, ?_, ?_, ?_, ?_, ?_⟩ <;> rw [List.map_append]
  · exact lower_add h.lx h1.ne_nan
  · exact lower_add h.ly h2.ne_nan
  · exact lower_add h.lz h3.ne_nan
  · exact upper_add h.ux h1.ne_nan
  · exact upper_add h.uy h2.ne_nan
  · exact upper_add h.uz h3.ne_nan

theorem box_valid {e : Ext} {ps : List V3} (h : Box e ps) (hp : ∀ p ∈ ps, Ok p) :
    e.isValid = true ↔ ps ≠ [] := by
  unfold Ext.isValid
  rw [lt_iff h.lx.nn limit_ne_nan]
  constructor
  · intro hv e0
    subst e0
    have := (h.lx.iff (units big)).2 ⟨Int.le_refl _, by simp⟩
    have := limit_lt_big
    omega
  · intro hne
    obtain ⟨p, hpm⟩ := List.exists_mem_of_ne_nil ps hne
    have h1 := ((h.lx.iff (units e.mn.x)).1 (Int.le_refl _)).2 p.x (List.mem_map_of_mem hpm)
    have hok := hp p hpm
    have h2 := hok.2.2.2
    rw [lt_iff hok.1.ne_nan limit_ne_nan] at h2
    omega

theorem build_box (b : Build) (h : ∀ p ∈ b.points, Ok p) : Box b.run b.points := by
  induction b with
  | new => exact ⟨lower_new, lower_new, lower_new, upper_new, upper_new, upper_new⟩
  | add b p ih =>
    exact box_add (ih fun q hq => h q (List.mem_append_left _ hq)) p
      (h p (List.mem_append_right _ (by simp)))
  | merge b c ihb ihc =>
    have hb := ihb fun q hq => h q (List.mem_append_left _ hq)
    have hokc : ∀ p ∈ c.points, Ok p := fun q hq => h q (List.mem_append_right _ hq)
    have hc := ihc hokc
    show Box (b.run.addExt c.run) (b.points ++ c.points)
    have hv := box_valid hc hokc
    unfold Ext.addExt
    by_cases hne : c.points = []
    · have : c.run.isValid = false := by
        rw [← Bool.not_eq_true, hv]; exact fun h => h hne
      rw [this, hne, List.append_nil]; exact hb
    · rw [hv.2 hne]
      simp only [Bool.not_true, Bool.false_eq_true, if_false]
      have hm : ∀ f : V3 → F64, c.points.map f ≠ [] := fun f h => hne (List.map_eq_nil_iff.1 h)
      refine ⟨?_, ?_, ?_, ?_, ?_, ?_⟩ <;> rw [List.map_append]
      · exact lower_merge hb.lx hc.lx hc.ux (hm _)
      · exact lower_merge hb.ly hc.ly hc.uy (hm _)
      · exact lower_merge hb.lz hc.lz hc.uz (hm _)
      · exact upper_merge hb.ux hc.lx hc.ux (hm _)
      · exact upper_merge hb.uy hc.ly hc.uy (hm _)
      · exact upper_merge hb.uz hc.lz hc.uz (hm _)

theorem lower_spec {v : F64} {l : List F64} (h : Lower v l) (hl : ∀ x ∈ l, InRange x) (hne : l ≠ []) :
    (∀ x ∈ l, le v x = true) ∧ ∀ w : F64, (∀ x ∈ l, le w x = true) → le w v = true := by
  refine ⟨fun x hx => ?_, fun w hw => ?_⟩
  · rw [le_iff h.nn (hl x hx).ne_nan]
    exact ((h.iff (units v)).1 (Int.le_refl _)).2 x hx
  · obtain ⟨y, hy⟩ := List.exists_mem_of_ne_nil l hne
    have hwn : w ≠ .nan := by
      intro e; subst e; have := hw y hy; simp [le] at this
    rw [le_iff hwn h.nn, h.iff]
    refine ⟨?_, fun x hx => ?_⟩
    · have h1 := hw y hy
      rw [le_iff hwn (hl y hy).ne_nan] at h1
      have := (hl y hy).units
      omega
    · have h1 := hw x hx
      rw [le_iff hwn (hl x hx).ne_nan] at h1
      exact h1

theorem upper_spec {v : F64} {l : List F64} (h : Upper v l) (hl : ∀ x ∈ l, InRange x) (hne : l ≠ []) :
    (∀ x ∈ l, le x v = true) ∧ ∀ w : F64, (∀ x ∈ l, le x w = true) → le v w = true := by
  refine ⟨fun x hx => ?_, fun w hw => ?_⟩
  · rw [le_iff (hl x hx).ne_nan h.nn]
    exact ((h.iff (units v)).1 (Int.le_refl _)).2 x hx
  · obtain ⟨y, hy⟩ := List.exists_mem_of_ne_nil l hne
    have hwn : w ≠ .nan := by
      intro e; subst e; have := hw y hy; cases y <;> simp [le] at this
    rw [le_iff h.nn hwn, h.iff]
    refine ⟨?_, fun x hx => ?_⟩
    · have h1 := hw y hy
      rw [le_iff (hl y hy).ne_nan hwn] at h1
      have := (hl y hy).units
      omega
    · have h1 := hw x hx
      rw [le_iff (hl x hx).ne_nan hwn] at h1
      exact h1

/-- **C51 (Extents).** However an Extents object is built from points and other extents, it is
valid exactly if a point was added; then its corners are the smallest box containing all points. -/
theorem extents_smallest_box (b : Build) (h : ∀ p ∈ b.points, Ok p) :
    (b.run.isValid = true ↔ b.points ≠ []) ∧
    (b.points ≠ [] →
      (∀ p ∈ b.points, Inside b.run.mn b.run.mx p) ∧
      ∀ lo hi, (∀ p ∈ b.points, Inside lo hi p) →
        le lo.x b.run.mn.x = true ∧ le lo.y b.run.mn.y = true ∧ le lo.z b.run.mn.z = true ∧
        le b.run.mx.x hi.x = true ∧ le b.run.mx.y hi.y = true ∧ le b.run.mx.z hi.z = true) := by
  have hb := build_box b h
  refine ⟨box_valid hb h, fun hne => ?_⟩
  have hm : ∀ f : V3 → F64, b.points.map f ≠ [] := fun f h => hne (List.map_eq_nil_iff.1 h)
  have okx : ∀ x ∈ b.points.map V3.x, InRange x := by
    intro x hx; obtain ⟨p, hp, rfl⟩ := List.mem_map.1 hx; exact (h p hp).1
  have oky : ∀ x ∈ b.points.map V3.y, InRange x := by
    intro x hx; obtain ⟨p, hp, rfl⟩ := List.mem_map.1 hx; exact (h p hp).2.1
  have okz : ∀ x ∈ b.points.map V3.z, InRange x := by
    intro x hx; obtain ⟨p, hp, rfl⟩ := List.mem_map.1 hx; exact (h p hp).2.2.1
  obtain ⟨a1, a2⟩ := lower_spec hb.lx okx (hm _)
  obtain ⟨b1, b2⟩ := lower_spec hb.ly oky (hm _)
  obtain ⟨c1, c2⟩ := lower_spec hb.lz okz (hm _)
  obtain ⟨d1, d2⟩ := upper_spec hb.ux okx (hm _)
  obtain ⟨e1, e2⟩ := upper_spec hb.uy oky (hm _)
  obtain ⟨f1, f2⟩ := upper_spec hb.uz okz (hm _)
  refine ⟨fun p hp => ⟨a1 _ (List.mem_map_of_mem hp), d1 _ (List.mem_map_of_mem hp),
    b1 _ (List.mem_map_of_mem hp), e1 _ (List.mem_map_of_mem hp), c1 _ (List.mem_map_of_mem hp),
    f1 _ (List.mem_map_of_mem hp)⟩, fun lo hi hin => ⟨?_, ?_, ?_, ?_, ?_, ?_⟩⟩
  · apply a2; intro x hx; obtain ⟨p, hp, rfl⟩ := List.mem_map.1 hx; exact (hin p hp).1
  · apply b2; intro x hx; obtain ⟨p, hp, rfl⟩ := List.mem_map.1 hx; exact (hin p hp).2.2.1
  · apply c2; intro x hx; obtain ⟨p, hp, rfl⟩ := List.mem_map.1 hx; exact (hin p hp).2.2.2.2.1
  · apply d2; intro x hx; obtain ⟨p, hp, rfl⟩ := List.mem_map.1 hx; exact (hin p hp).2.1
  · apply e2; intro x hx; obtain ⟨p, hp, rfl⟩ := List.mem_map.1 hx; exact (hin p hp).2.2.2.1
  · apply f2; intro x hx; obtain ⟨p, hp, rfl⟩ := List.mem_map.1 hx; exact (hin p hp).2.2.2.2.2

theorem lower_unique {v w : F64} {l m : List F64} (h : Lower v l) (h' : Lower w m)
    (hlm : ∀ x, x ∈ l ↔ x ∈ m) : eq v w = true := by
  rw [eq_iff h.nn h'.nn]
  have a := (h'.iff (units v)).2 (by
    obtain ⟨h1, h2⟩ := (h.iff (units v)).1 (Int.le_refl _)
    exact ⟨h1, fun x hx => h2 x ((hlm x).2 hx)⟩)
  have b := (h.iff (units w)).2 (by
    obtain ⟨h1, h2⟩ := (h'.iff (units w)).1 (Int.le_refl _)
    exact ⟨h1, fun x hx => h2 x ((hlm x).1 hx)⟩)
  omega

theorem upper_unique {v w : F64} {l m : List F64} (h : Upper v l) (h' : Upper w m)
    (hlm : ∀ x, x ∈ l ↔ x ∈ m) : eq v w = true := by
  rw [eq_iff h.nn h'.nn]
  have a := (h'.iff (units v)).2 (by
    obtain ⟨h1, h2⟩ := (h.iff (units v)).1 (Int.le_refl _)
    exact ⟨h1, fun x hx => h2 x ((hlm x).2 hx)⟩)
  have b := (h.iff (units w)).2 (by
    obtain ⟨h1, h2⟩ := (h'.iff (units w)).1 (Int.le_refl _)
    exact ⟨h1, fun x hx => h2 x ((hlm x).1 hx)⟩)
  omega

/-- **C51 (Extents).** The result depends only on the set of points, not on the order, on
repetitions or on how they were grouped. -/
theorem extents_order (b c : Build) (hb : ∀ p ∈ b.points, Ok p)
    (h : ∀ p, p ∈ b.points ↔ p ∈ c.points) : SameBox b.run c.run := by
  have b1 := build_box b hb
  have c1 := build_box c fun p hp => hb p ((h p).2 hp)
  have key : ∀ f : V3 → F64, ∀ x, x ∈ b.points.map f ↔ x ∈ c.points.map f := by
    intro f x
    simp only [List.mem_map]
    constructor
    · rintro ⟨p, hp, e⟩; exact ⟨p, (h p).1 hp, e⟩
    · rintro ⟨p, hp, e⟩; exact ⟨p, (h p).2 hp, e⟩
  exact ⟨lower_unique b1.lx c1.lx (key _), lower_unique b1.ly c1.ly (key _),
    lower_unique b1.lz c1.lz (key _), upper_unique b1.ux c1.ux (key _),
    upper_unique b1.uy c1.uy (key _), upper_unique b1.uz c1.uz (key _)⟩

-- a build with two points and a merge satisfies the hypotheses
def exampleBuild : Build :=
  .merge (.add .new ⟨lit 1 2, lit (-3) 1, lit 0 1⟩) (.add (.add .new ⟨lit 7 1, lit 1 10, lit 2 1⟩) ⟨lit (-1) 1, lit 0 1, lit 5 1⟩)

instance (x : F64) : Decidable (InRange x) := by unfold InRange; infer_instance
instance (p : V3) : Decidable (Ok p) := by unfold Ok; infer_instance

example : (∀ p ∈ exampleBuild.points, Ok p) ∧
    exampleBuild.run = ⟨⟨lit (-1) 1, lit (-3) 1, lit 0 1⟩, ⟨lit 7 1, lit 1 10, lit 5 1⟩⟩ := by
  decide +kernel

/-- Points with x = 1E89 or more: the object counts as invalid and is ignored when merged. -/
theorem far_point_lost : let e := Ext.new.add3 ⟨limit, lit 0 1, lit 0 1⟩
    e.isValid = false ∧ Ext.new.addExt e = Ext.new := by decide +kernel

/-- Extents of two-dimensional points have no z range; merging them into another object makes
its z range the whole line. -/
theorem flat_extents_spoil_z :
    let flat := Ext.new.add2 ⟨lit 1 1, lit 2 1⟩
    let e := (Ext.new.add3 ⟨lit 0 1, lit 0 1, lit 3 1⟩).addExt flat
    e.mn.z = -big ∧ e.mx.z = big := by decide +kernel

end Verif.Geo
