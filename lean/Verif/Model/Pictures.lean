import Mathlib.Algebra.BigOperators.Group.Finset.Basic
import Mathlib.Data.Rat.Defs
import Mathlib.Algebra.Field.Rat

/-!
# Comparing and trimming pictures (`larch/util/visual_processing.py:63-201`)

`diff_images` (the number; the marked picture is not modelled) and `trim_uniform_border`.  A picture gives for a place the values of its bands;
`tuples` says that `getpixel` gives a tuple (not so for pictures of one band).  Numbers are exact.
`getbbox` looks at all bands (newer versions of Pillow look only at the last band if it is the opacity; that is not modelled).
-/

namespace Larch.Pictures

structure Picture where
  width : Nat
  height : Nat
  tuples : Bool
  pixel : Nat → Nat → List Nat

/-- `(n - 1) // parts + 1`, lines 109-110. -/
def blockSize (n parts : Nat) : Nat := (n - 1) / parts + 1

/-- `range(0, n, step)`. -/
def starts (n step : Nat) : List Nat := (List.range ((n + step - 1) / step)).map (· * step)

/-- `_process_region`, lines 67-82: `None` if some `getpixel` or `sum` raises. -/
def region (im : Picture) (x y w h : Nat) (tolerance : ℚ) : Option ℚ :=
  if im.tuples ∧ x + w ≤ im.width ∧ y + h ≤ im.height then
    some ((∑ p ∈ Finset.range w ×ˢ Finset.range h, ((im.pixel (x + p.1) (y + p.2)).sum : ℚ) / 4) / tolerance)
  else none

/-- The blocks, lines 124-125: their upper left corners, for the size of the first picture. -/
def blocks (width height : Nat) : List (Nat × Nat) :=
  (starts height (blockSize height 80 + 1)).flatMap (fun y => (starts width (blockSize width 60 + 1)).map (fun x => (x, y)))

/-- `region_staging is not None and region_production is not None and region_production != region_staging`, line 129. -/
def mismatch (a b : Option ℚ) : Bool :=
  match a, b with
  | some r, some s => decide (s ≠ r)
  | _, _ => false

/-- `diff_images(imagefile1, imagefile2, tolerance=...)`, lines 85-144; `none` is a `ZeroDivisionError`. -/
def diff (a b : Picture) (tolerance : ℚ) : Option Nat :=
  let w := blockSize a.width 60
  let h := blockSize a.height 80
  if tolerance = 0 ∧ (blocks a.width a.height).any (fun p => (region a p.1 p.2 w h 1).isSome || (region b p.1 p.2 w h 1).isSome) then none
  else some ((blocks a.width a.height).filter (fun p => mismatch (region a p.1 p.2 w h tolerance) (region b p.1 p.2 w h tolerance))).length

/-- A place counts after `ImageChops.difference(im, bg)` and `ImageChops.add(diff, diff, 2.0, -100)` if a band differs by more than 100 from the
place in the corner, lines 166-168. -/
def strong (im : Picture) (x y : Nat) : Bool :=
  ((im.pixel x y).zip (im.pixel 0 0)).any (fun e => decide (100 < (e.1 - e.2) + (e.2 - e.1)))

/-- `getbbox()`: left, upper, right, lower. -/
def bbox (im : Picture) : Option (Nat × Nat × Nat × Nat) :=
  let xs := (List.range im.width).filter (fun x => (List.range im.height).any (fun y => strong im x y))
  let ys := (List.range im.height).filter (fun y => (List.range im.width).any (fun x => strong im x y))
  match xs.head?, ys.head?, xs.getLast?, ys.getLast? with
  | some l, some u, some r, some d => some (l, u, r + 1, d + 1)
  | _, _, _, _ => none

/-- `trim_uniform_border(im)`, lines 150-171: `none` is `None`. -/
def trim (im : Picture) : Option Picture :=
  (bbox im).map (fun b => ⟨b.2.2.1 - b.1, b.2.2.2 - b.2.1, im.tuples, fun x y => im.pixel (b.1 + x) (b.2.1 + y)⟩)

end Larch.Pictures
