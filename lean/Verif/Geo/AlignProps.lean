import Verif.Geo.Anchors
/-
C51, C108: moving and aligning rectangles of doubles, and moving single edges by a distance.
-/
namespace Verif.Geo
open Verif Verif.Fp

namespace Rect
/-- Rect.cpp:265-270 -/
def moveLeft (r : Rect) (d : F64) : Rect := { r with x := r.x + d, w := r.w - d }
/-- Rect.cpp:272-276 -/
def moveRight (r : Rect) (d : F64) : Rect := { r with w := r.w + d }
/-- Rect.cpp:278-282 -/
def moveBottom (r : Rect) (d : F64) : Rect := { r with h := r.h + d }
end Rect

/-- What holds for all doubles: the corner that is set is the one told, moving and aligning keep the size, and changing the size
keeps the origin. -/
theorem place_spec (r o : Rect) (p : Pt) (d : F64) :
    (r.alignTopLeft o).topLeft = o.topLeft ∧ (r.alignTopLeft o).w = r.w ∧ (r.alignTopLeft o).h = r.h ∧
    (r.alignBottomLeft o).left = o.left ∧ (r.alignBottomLeft o).w = r.w ∧ (r.alignBottomLeft o).h = r.h ∧
    (r.setOrigin p).topLeft = p ∧ (r.setOrigin p).w = r.w ∧ (r.setOrigin p).h = r.h ∧
    (r.setSize p).topLeft = r.topLeft ∧ (r.setSize p).w = p.x ∧ (r.setSize p).h = p.y ∧
    (r.moveHorizontal d).left = r.left + d ∧ (r.moveHorizontal d).top = r.top ∧ (r.moveHorizontal d).bottom = r.bottom ∧
    (r.moveHorizontal d).w = r.w ∧
    (r.moveVertical d).top = r.top + d ∧ (r.moveVertical d).left = r.left ∧ (r.moveVertical d).right = r.right ∧
    (r.moveVertical d).h = r.h ∧
    r.move p.x p.y = (r.moveHorizontal p.x).moveVertical p.y :=
  ⟨rfl, rfl, rfl, rfl, rfl, rfl, rfl, rfl, rfl, rfl, rfl, rfl, rfl, rfl, rfl, rfl, rfl, rfl, rfl, rfl, rfl⟩

/-- On a grid the lower edges are the same after `alignBottomLeft`. -/
theorem alignBottomLeft_partial (k : Nat) (r o : Rect) (hr : OnGrid k r) (ho : OnGrid k o) :
    eq (r.alignBottomLeft o).bottom o.bottom = true := by
  have hk := hr.1
  obtain ⟨l, t, a, b, h⟩ := hr.edges
  obtain ⟨l', t', a', b', h'⟩ := ho.edges
  have e := h'.v.edge hk (by omega)
  have s := e.sub hk h.v.ext (by omega)
  have f := s.add hk h.v.ext (by omega)
  show eq (o.y + o.h - r.h + r.h) (o.y + o.h) = true
  rw [eq_iff f.nn e.nn, f.val, e.val]
  congr 1; omega

/-- Off the grid the lower edges differ after `alignBottomLeft`. -/
theorem alignBottomLeft_inexact : ∃ r o : Rect, Proper r ∧ Proper o ∧ eq (r.alignBottomLeft o).bottom o.bottom = false :=
  ⟨⟨zero, zero, lit 1 1, lit 4 10⟩, ⟨zero, zero, lit 1 1, lit 1 10⟩, by decide +kernel, by decide +kernel, by decide +kernel⟩

/-- On a grid moving moves both edges by the distance. -/
theorem move_edges_partial (k : Nat) (r : Rect) (hr : OnGrid k r) (d : F64) (m : Int) (hd : Grid k (2 ^ 49) d m) :
    eq (r.moveHorizontal d).right (r.right + d) = true ∧ eq (r.moveVertical d).bottom (r.bottom + d) = true := by
  have hk := hr.1
  obtain ⟨l, t, a, b, h⟩ := hr.edges
  have key : ∀ {x w : F64} {a c : Int}, Axis k (2 ^ 49) (2 ^ 49) x w a c → eq (x + d + w) (x + w + d) = true := by
    intro x w a c hx
    have e := (hx.edge hk (by omega)).add hk hd (by omega)
    have f := (hx.pos.add hk hd (by omega)).add hk hx.ext (by omega)
    rw [eq_iff f.nn e.nn, f.val, e.val]
    congr 1; omega
  exact ⟨key h.h, key h.v⟩

/-- On a grid `shiftLeft` moves the left edge by the distance and keeps the others; likewise the other three. -/
theorem shift_edges_partial (k : Nat) (r : Rect) (hr : OnGrid k r) (d : F64) (m : Int) (hd : Grid k (2 ^ 49) d m) :
    ((r.shiftLeft d).left = r.left + d ∧ eq (r.shiftLeft d).right r.right = true ∧ (r.shiftLeft d).y = r.y ∧ (r.shiftLeft d).h = r.h) ∧
    ((r.shiftTop d).top = r.top + d ∧ eq (r.shiftTop d).bottom r.bottom = true ∧ (r.shiftTop d).x = r.x ∧ (r.shiftTop d).w = r.w) ∧
    (eq (r.shiftRight d).right (r.right + d) = true ∧ (r.shiftRight d).left = r.left ∧ (r.shiftRight d).y = r.y ∧
      (r.shiftRight d).h = r.h) ∧
    (eq (r.shiftBottom d).bottom (r.bottom + d) = true ∧ (r.shiftBottom d).top = r.top ∧ (r.shiftBottom d).x = r.x ∧
      (r.shiftBottom d).w = r.w) := by
  have hk := hr.1
  obtain ⟨l, t, a, b, h⟩ := hr.edges
  have first : ∀ {x w : F64} {a c : Int}, Axis k (2 ^ 49) (2 ^ 49) x w a c → eq (x + d + (w - d)) (x + w) = true := by
    intro x w a c hx
    have e := hx.edge hk (by omega)
    have f := (hx.pos.add hk hd (by omega)).add hk (hx.ext.sub hk hd (by omega)) (by omega)
    rw [eq_iff f.nn e.nn, f.val, e.val]
    congr 1; omega
  have second : ∀ {x w : F64} {a c : Int}, Axis k (2 ^ 49) (2 ^ 49) x w a c → eq (x + (w + d)) (x + w + d) = true := by
    intro x w a c hx
    have e := (hx.edge hk (by omega)).add hk hd (by omega)
    have f := hx.pos.add hk (hx.ext.add hk hd (by omega)) (by omega)
    rw [eq_iff f.nn e.nn, f.val, e.val]
    congr 1; omega
  exact ⟨⟨rfl, first h.h, rfl, rfl⟩, ⟨rfl, first h.v, rfl, rfl⟩, ⟨second h.h, rfl, rfl, rfl⟩, ⟨second h.v, rfl, rfl, rfl⟩⟩

/-- `moveLeft`, `moveRight` and `moveBottom` do not move the rectangle, they move one edge. -/
theorem move_is_shift (r : Rect) (d : F64) :
    r.moveLeft d = r.shiftLeft d ∧ r.moveRight d = r.shiftRight d ∧ r.moveBottom d = r.shiftBottom d := ⟨rfl, rfl, rfl⟩

/-- rectangles on the grid of the integers, and a distance -/
example : OnGrid 1074 ⟨ofInt 1, ofInt 2, ofInt 3, ofInt 4⟩ ∧ Grid 1074 (2 ^ 49) (ofInt 5) 5 :=
  ⟨onGrid_int 1 2 3 4 (by decide) (by decide) (by decide) (by decide), grid_int 5 (by decide)⟩

end Verif.Geo
