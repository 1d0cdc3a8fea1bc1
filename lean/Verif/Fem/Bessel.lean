import Verif.Num.PolyCert
import Verif.Fem.Field
import Mathlib.Analysis.SpecialFunctions.Log.Basic
/-!
# The modified Bessel functions (fem3d/fem3d.cpp:2954-3034)

Real arithmetic, with the coefficients of the source as exact decimal numbers.  `rev c y` is `c₀+y*(c₁+y*(…))`, as it is written there.
-/
namespace OP.Fem.Field

open OP.Num Real

def cI0 : List ℚ := [1, 3.5156229, 3.0899424, 1.2067492, 0.2659732, 0.360768e-1, 0.45813e-2]
def cI0' : List ℚ := [0.39894228, 0.1328592e-1, 0.225319e-2, -0.157565e-2, 0.916281e-2, -0.2057706e-1, 0.2635537e-1, -0.1647633e-1, 0.392377e-2]
def cI1 : List ℚ := [0.5, 0.87890594, 0.51498869, 0.15084934, 0.2658733e-1, 0.301532e-2, 0.32411e-3]
def cI1' : List ℚ := [0.39894228, -0.3988024e-1, -0.362018e-2, 0.163801e-2, -0.1031555e-1, 0.2282967e-1, -0.2895312e-1, 0.1787654e-1, -0.420059e-2]
def cK0 : List ℚ := [-0.57721566, 0.42278420, 0.23069756, 0.3488590e-1, 0.262698e-2, 0.10750e-3, 0.74e-5]
def cK0' : List ℚ := [1.25331414, -0.7832358e-1, 0.2189568e-1, -0.1062446e-1, 0.587872e-2, -0.251540e-2, 0.53208e-3]
def cK1 : List ℚ := [1, 0.15443144, -0.67278579, -0.18156897, -0.1919402e-1, -0.110404e-2, -0.4686e-4]
def cK1' : List ℚ := [1.25331414, 0.23498619, -0.3655620e-1, 0.1504268e-1, -0.780353e-2, 0.325614e-2, -0.68245e-3]

/-- `bessi0` (fem3d/fem3d.cpp:2957-2976) -/
noncomputable def bessi0 (x : ℝ) : ℝ :=
  if |x| < 3.75 then rev cI0 (x / 3.75 * (x / 3.75))
  else rev cI0' (3.75 / |x|) * (exp |x| / √|x|)

/-- `bessi1` (fem3d/fem3d.cpp:2978-2996) -/
noncomputable def bessi1 (x : ℝ) : ℝ :=
  let y := if |x| < 3.75 then |x| * rev cI1 (x / 3.75 * (x / 3.75))
    else rev cI1' (3.75 / |x|) * (exp |x| / √|x|)
  if x < 0 then -y else y

/-- `bessk0` (fem3d/fem3d.cpp:2998-3015) -/
noncomputable def bessk0 (x : ℝ) : ℝ :=
  if x ≤ 2 then -log (x / 2) * bessi0 x + rev cK0 (x * x / 4)
  else exp (-x) / √x * rev cK0' (2 / x)

/-- `bessk1` (fem3d/fem3d.cpp:3017-3034) -/
noncomputable def bessk1 (x : ℝ) : ℝ :=
  if x ≤ 2 then log (x / 2) * bessi1 x + 1 / x * rev cK1 (x * x / 4)
  else exp (-x) / √x * rev cK1' (2 / x)

end OP.Fem.Field
