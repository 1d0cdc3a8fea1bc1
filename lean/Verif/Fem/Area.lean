import Mathlib.Analysis.SpecialFunctions.Trigonometric.Inverse
import Mathlib.Analysis.SpecialFunctions.Sqrt
/-!
# Area of a block below a round load (fem3d/fem3d.cpp:2917-2952)

Real arithmetic.  `hypot` is the square root of the sum of the squares, `asin` and `sqrt` are the functions of the
real numbers.
-/
namespace OP.Fem.Area

open Real

/-- `hypot(x,y)` -/
noncomputable def hypot (x y : ℝ) : ℝ := √(x ^ 2 + y ^ 2)

/-- `circlearea(x,y,r)` (fem3d/fem3d.cpp:2917-2927) -/
noncomputable def circlearea (x y r : ℝ) : ℝ :=
  let x := |x|
  let y := |y|
  if r ≤ hypot x y then 0
  else
    let t := π / 2 - arcsin (x / r) - arcsin (y / r)
    let xr := (√(r * r - y * y) - x) * y / 2
    let yr := (√(r * r - x * x) - y) * x / 2
    r * r * t / 2 - xr - yr

/-- `blockarea(x1,x2,y1,y2,r)` (fem3d/fem3d.cpp:2929-2952) -/
noncomputable def blockarea (x1 x2 y1 y2 r : ℝ) : ℝ :=
  let h1 := hypot x1 y1
  let h2 := hypot x2 y1
  let h3 := hypot x1 y2
  let h4 := hypot x2 y2
  if r ≤ min (min h1 h2) (min h3 h4) then 0
  else if max (max h1 h2) (max h3 h4) ≤ r then |x1 - x2| * |y1 - y2|
  else if x1 * x2 < 0 then
    let y := max |y1| |y2|
    2 * circlearea 0 y r - circlearea x1 y r - circlearea x2 y r
  else if y1 * y2 < 0 then
    let x := max |x1| |x2|
    2 * circlearea x 0 r - circlearea x y1 r - circlearea x y2 r
  else
    let (x1, x2) := if |x2| < |x1| then (|x2|, |x1|) else (|x1|, |x2|)
    let (y1, y2) := if |y2| < |y1| then (|y2|, |y1|) else (|y1|, |y2|)
    circlearea x1 y1 r - circlearea x1 y2 r - circlearea x2 y1 r + circlearea x2 y2 r

end OP.Fem.Area
