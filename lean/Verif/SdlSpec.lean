import Verif.Sdl
/-!
What drawing means: pixels of a picture, and sets of them.
-/
namespace Ccml.Sdl

/-- The frame buffer has the size the driver believes, and there is a window. -/
structure Ready (g : Video) : Prop where
  shown : g.screen ≠ none
  wide : g.width < 2147483648
  high : g.height < 2147483648
  small : g.width * g.height < 2147483648
  size : g.video.length = g.width * g.height

/-- The pixel in column `a` of row `b`. -/
def pixel (g : Video) (a b : Nat) : Option (BitVec 32) := g.video[b * g.width + a]?

/-- `g'` is `g` with the pixels of the set `S` painted in the current colour `c`.  Points of `S` outside the
screen do not matter. -/
structure Painted (c : BitVec 32) (S : Int → Int → Prop) (g g' : Video) : Prop where
  same : g' = { g with video := g'.video }
  size : g'.video.length = g.video.length
  on : ∀ a b : Nat, a < g.width → b < g.height → S a b → pixel g' a b = some c
  off : ∀ a b : Nat, a < g.width → b < g.height → ¬ S a b → pixel g' a b = pixel g a b

/-- A chain of `n` pixels from `(x0, y0)` on towards `(x0 + dx, y0 + dy)`: it starts there, stays in the
rectangle, each pixel touches the next, the longer coordinate is exact, and (for up to 65536 pixels) the other
is off by less than two. -/
structure Chain (x0 y0 dx dy : Int) (n : Nat) (P : Nat → Int × Int) : Prop where
  start : P 0 = (x0, y0)
  box : ∀ k < n, min x0 (x0 + dx) ≤ (P k).1 ∧ (P k).1 ≤ max x0 (x0 + dx) ∧
    min y0 (y0 + dy) ≤ (P k).2 ∧ (P k).2 ≤ max y0 (y0 + dy)
  joined : ∀ k, k + 1 < n → ((P (k + 1)).1 - (P k).1).natAbs ≤ 1 ∧ ((P (k + 1)).2 - (P k).2).natAbs ≤ 1
  exact : ∀ k < n, dx.natAbs = n ∧ n * ((P k).1 - x0) = k * dx ∨ dy.natAbs = n ∧ n * ((P k).2 - y0) = k * dy
  near : n ≤ 65536 → ∀ k < n, (n * ((P k).1 - x0) - k * dx).natAbs < 2 * n ∧ (n * ((P k).2 - y0) - k * dy).natAbs < 2 * n

end Ccml.Sdl
